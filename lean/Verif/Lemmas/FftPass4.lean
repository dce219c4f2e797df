import Verif.Lemmas.FftPass

/-! # The pass for the factor 4 -/

set_option autoImplicit false

namespace Marley.Fft
open Finset

lemma cos_ang_1_4 : Real.cos (ang 1 4) = 0 := by
  have : ang 1 4 = Real.pi / 2 := by unfold ang; push_cast; ring
  rw [this, Real.cos_pi_div_two]

lemma sin_ang_1_4 : Real.sin (ang 1 4) = 1 := by
  have : ang 1 4 = Real.pi / 2 := by unfold ang; push_cast; ring
  rw [this, Real.sin_pi_div_two]

lemma cos_ang_2_4 : Real.cos (ang 2 4) = -1 := by
  have : ang 2 4 = Real.pi := by unfold ang; push_cast; ring
  rw [this, Real.cos_pi]

lemma sin_ang_2_4 : Real.sin (ang 2 4) = 0 := by
  have : ang 2 4 = Real.pi := by unfold ang; push_cast; ring
  rw [this, Real.sin_pi]

lemma cos_ang_3_4 : Real.cos (ang 3 4) = 0 := by
  have : ang 3 4 = Real.pi / 2 + Real.pi := by unfold ang; push_cast; ring
  rw [this, Real.cos_add_pi, Real.cos_pi_div_two, neg_zero]

lemma sin_ang_3_4 : Real.sin (ang 3 4) = -1 := by
  have : ang 3 4 = Real.pi / 2 + Real.pi := by unfold ang; push_cast; ring
  rw [this, Real.sin_add_pi, Real.sin_pi_div_two]

lemma cos_ang_4_4 : Real.cos (ang 4 4) = 1 := by
  have : ang 4 4 = 2 * Real.pi := by unfold ang; push_cast; ring
  rw [this, Real.cos_two_pi]

lemma sin_ang_4_4 : Real.sin (ang 4 4) = 0 := by
  have : ang 4 4 = 2 * Real.pi := by unfold ang; push_cast; ring
  rw [this, Real.sin_two_pi]

lemma cos_ang_6_4 : Real.cos (ang 6 4) = -1 := by
  have : ang 6 4 = Real.pi + 2 * Real.pi := by unfold ang; push_cast; ring
  rw [this, Real.cos_add_two_pi, Real.cos_pi]

lemma sin_ang_6_4 : Real.sin (ang 6 4) = 0 := by
  have : ang 6 4 = Real.pi + 2 * Real.pi := by unfold ang; push_cast; ring
  rw [this, Real.sin_add_two_pi, Real.sin_pi]

lemma cos_quarter_0 : Real.cos (Real.pi * ((0 : ℕ) : ℝ) / ((4 : ℕ) : ℝ)) = 1 := by simp

lemma sin_quarter_0 : Real.sin (Real.pi * ((0 : ℕ) : ℝ) / ((4 : ℕ) : ℝ)) = 0 := by simp

lemma cos_quarter_1 : Real.cos (Real.pi * ((1 : ℕ) : ℝ) / ((4 : ℕ) : ℝ)) = √2 / 2 := by
  rw [show Real.pi * ((1 : ℕ) : ℝ) / ((4 : ℕ) : ℝ) = Real.pi / 4 by push_cast; ring,
    Real.cos_pi_div_four]

lemma sin_quarter_1 : Real.sin (Real.pi * ((1 : ℕ) : ℝ) / ((4 : ℕ) : ℝ)) = √2 / 2 := by
  rw [show Real.pi * ((1 : ℕ) : ℝ) / ((4 : ℕ) : ℝ) = Real.pi / 4 by push_cast; ring,
    Real.sin_pi_div_four]

lemma cos_quarter_2 : Real.cos (Real.pi * ((2 : ℕ) : ℝ) / ((4 : ℕ) : ℝ)) = 0 := by
  rw [show Real.pi * ((2 : ℕ) : ℝ) / ((4 : ℕ) : ℝ) = Real.pi / 2 by push_cast; ring,
    Real.cos_pi_div_two]

lemma sin_quarter_2 : Real.sin (Real.pi * ((2 : ℕ) : ℝ) / ((4 : ℕ) : ℝ)) = 1 := by
  rw [show Real.pi * ((2 : ℕ) : ℝ) / ((4 : ℕ) : ℝ) = Real.pi / 2 by push_cast; ring,
    Real.sin_pi_div_two]

lemma cos_quarter_3 : Real.cos (Real.pi * ((3 : ℕ) : ℝ) / ((4 : ℕ) : ℝ)) = -(√2 / 2) := by
  rw [show Real.pi * ((3 : ℕ) : ℝ) / ((4 : ℕ) : ℝ) = Real.pi - Real.pi / 4 by push_cast; ring,
    Real.cos_pi_sub, Real.cos_pi_div_four]

lemma sin_quarter_3 : Real.sin (Real.pi * ((3 : ℕ) : ℝ) / ((4 : ℕ) : ℝ)) = √2 / 2 := by
  rw [show Real.pi * ((3 : ℕ) : ℝ) / ((4 : ℕ) : ℝ) = Real.pi - Real.pi / 4 by push_cast; ring,
    Real.sin_pi_sub, Real.sin_pi_div_four]

theorem radf4_fits (x : ℕ → ℝ) (l1 m : ℕ) (c : Buf) (w : ℕ → Buf) (hm : m ≠ 0)
    (h : Stage x (4 * l1) m c) (hw : Tw 4 m w) :
    ∀ v ∈ radf4 m l1 c (w 0) (w 1) (w 2), Fits x l1 (4 * m) v := by
  have h4 : (4 : ℕ) ≠ 0 := by omega
  intro v hv
  simp only [radf4, List.mem_append, List.mem_flatMap, mem_upTo] at hv
  rcases hv with ⟨k, hk, hv⟩ | hv
  · simp only [List.mem_cons, List.not_mem_nil, or_false] at hv
    have r0 := read_first h hm k 0 1 hk (by omega) rfl
    have r1 := read_first h hm k 1 2 hk (by omega) rfl
    have r2 := read_first h hm k 2 3 hk (by omega) rfl
    have r3 := read_first h hm k 3 4 hk (by omega) rfl
    rw [r0, r1, r2, r3] at hv
    rcases hv with rfl | rfl | rfl | rfl
    · refine fits_zero hm h4 k _ hk ?_
      simp only [Finset.sum_range_succ, Finset.sum_range_zero]
      ring
    · refine fits_re_down hm h4 k m 4 0 2 _ hk (by omega) (by omega) rfl (by omega) (by omega) ?_
      simp [Finset.sum_range_succ, ang_zero, cos_ang_2_4, sin_ang_2_4, cos_ang_4_4, sin_ang_4_4,
        cos_ang_6_4, sin_ang_6_4]
      ring
    · refine fits_re_down hm h4 k m 2 0 1 _ hk (by omega) (by omega) rfl (by omega) (by omega) ?_
      simp [Finset.sum_range_succ, ang_zero, cos_ang_2_4, sin_ang_2_4, cos_ang_1_4, sin_ang_1_4,
        cos_ang_3_4, sin_ang_3_4, ZI_zero]
      ring
    · refine fits_im_up hm h4 k 1 3 0 1 _ hk rfl (by omega) (by omega) rfl (by omega) ?_
      simp [Finset.sum_range_succ, ang_zero, cos_ang_2_4, sin_ang_2_4, cos_ang_1_4, sin_ang_1_4,
        cos_ang_3_4, sin_ang_3_4, ZI_zero]
      ring
  · by_cases hlt : m < 2
    · simp [hlt] at hv
    rw [if_neg hlt] at hv
    rcases List.mem_append.1 hv with hv | hv
    · by_cases he : m = 2
      · simp [he] at hv
      rw [if_neg he] at hv
      simp only [List.mem_flatMap, mem_upTo, mem_odds] at hv
      obtain ⟨k, hk, i, ⟨f, hf, hfm, rfl⟩, hv⟩ := hv
      have a0 := zr_first h k f hk h4 hf hfm
      have b0 := zi_first h k f hk h4 hf hfm
      have a1 := zr_eq h hw k 1 2 f hk (by omega) (by omega) rfl hf hfm
      have b1 := zi_eq h hw k 1 2 f hk (by omega) (by omega) rfl hf hfm
      have a2 := zr_eq h hw k 2 3 f hk (by omega) (by omega) rfl hf hfm
      have b2 := zi_eq h hw k 2 3 f hk (by omega) (by omega) rfl hf hfm
      have a3 := zr_eq h hw k 3 4 f hk (by omega) (by omega) rfl hf hfm
      have b3 := zi_eq h hw k 3 4 f hk (by omega) (by omega) rfl hf hfm
      simp only [Nat.sub_self, Nat.reduceSub] at a1 b1 a2 b2 a3 b3
      simp only [List.mem_cons, List.not_mem_nil, or_false, a0, b0, a1, b1, a2, b2, a3, b3] at hv
      rcases hv with rfl | rfl | rfl | rfl | rfl | rfl | rfl | rfl
      · refine fits_re_up hm h4 k _ 1 f 0 _ hk (by omega) hf (by omega) rfl (by omega) ?_
        simp [Finset.sum_range_succ, ang_zero]
        ring
      · refine fits_re_down hm h4 k _ 4 f 2 _ hk (by omega) (by omega) rfl (by omega) (by omega) ?_
        simp [Finset.sum_range_succ, ang_zero, cos_ang_2_4, sin_ang_2_4, cos_ang_4_4, sin_ang_4_4,
          cos_ang_6_4, sin_ang_6_4]
        ring
      · refine fits_im_up hm h4 k _ 1 f 0 _ hk rfl (by omega) (by omega) rfl (by omega) ?_
        simp [Finset.sum_range_succ, ang_zero]
        ring
      · refine fits_im_down hm h4 k _ 4 f 2 _ hk (by omega) (by omega) hf rfl (by omega) (by omega) ?_
        simp [Finset.sum_range_succ, ang_zero, cos_ang_2_4, sin_ang_2_4, cos_ang_4_4, sin_ang_4_4,
          cos_ang_6_4, sin_ang_6_4]
        ring
      · refine fits_re_up hm h4 k _ 3 f 1 _ hk (by omega) hf (by omega) rfl (by omega) ?_
        simp [Finset.sum_range_succ, ang_zero, cos_ang_2_4, sin_ang_2_4, cos_ang_1_4, sin_ang_1_4,
          cos_ang_3_4, sin_ang_3_4]
        ring
      · refine fits_re_down hm h4 k _ 2 f 1 _ hk (by omega) (by omega) rfl (by omega) (by omega) ?_
        simp [Finset.sum_range_succ, ang_zero, cos_ang_2_4, sin_ang_2_4, cos_ang_1_4, sin_ang_1_4,
          cos_ang_3_4, sin_ang_3_4]
        ring
      · refine fits_im_up hm h4 k _ 3 f 1 _ hk rfl (by omega) (by omega) rfl (by omega) ?_
        simp [Finset.sum_range_succ, ang_zero, cos_ang_2_4, sin_ang_2_4, cos_ang_1_4, sin_ang_1_4,
          cos_ang_3_4, sin_ang_3_4]
        ring
      · refine fits_im_down hm h4 k _ 2 f 1 _ hk (by omega) (by omega) hf rfl (by omega) (by omega) ?_
        simp [Finset.sum_range_succ, ang_zero, cos_ang_2_4, sin_ang_2_4, cos_ang_1_4, sin_ang_1_4,
          cos_ang_3_4, sin_ang_3_4]
        ring
    · by_cases he : m ≠ 2 ∧ m % 2 = 1
      · simp [he] at hv
      rw [if_neg he] at hv
      simp only [List.mem_flatMap, mem_upTo] at hv
      obtain ⟨k, hk, hv⟩ := hv
      obtain ⟨e, rfl⟩ : ∃ e, m = 2 * e := ⟨m / 2, by omega⟩
      have r0 := read_re h k (2 * e) 0 1 e hk (by omega) rfl (by omega) rfl (by omega)
      have r1 := read_re h k (2 * e) 1 2 e hk (by omega) rfl (by omega) rfl (by omega)
      have r2 := read_re h k (2 * e) 2 3 e hk (by omega) rfl (by omega) rfl (by omega)
      have r3 := read_re h k (2 * e) 3 4 e hk (by omega) rfl (by omega) rfl (by omega)
      have he0 : e ≠ 0 := by omega
      simp only [List.mem_cons, List.not_mem_nil, or_false] at hv
      rcases hv with rfl | rfl | rfl | rfl
      · refine fits_re_up hm h4 k _ 1 e 0 _ hk rfl (by omega) (by omega) rfl (by omega) ?_
        simp only [Finset.sum_range_succ, Finset.sum_range_zero,
          ZR_half 4 (2 * e) e rfl he0, ZI_half 4 (2 * e) e rfl he0, cos_quarter_0, cos_quarter_1,
          cos_quarter_2, cos_quarter_3, sin_quarter_0, sin_quarter_1, sin_quarter_2, sin_quarter_3]
        rw [← r0, ← r1, ← r2, ← r3]
        simp [ang_zero]
        ring
      · refine fits_re_up hm h4 k _ 3 e 1 _ hk rfl (by omega) (by omega) rfl (by omega) ?_
        simp only [Finset.sum_range_succ, Finset.sum_range_zero,
          ZR_half 4 (2 * e) e rfl he0, ZI_half 4 (2 * e) e rfl he0, cos_quarter_0, cos_quarter_1,
          cos_quarter_2, cos_quarter_3, sin_quarter_0, sin_quarter_1, sin_quarter_2, sin_quarter_3]
        rw [← r0, ← r1, ← r2, ← r3]
        simp [ang_zero, cos_ang_2_4, sin_ang_2_4, cos_ang_1_4, sin_ang_1_4,
          cos_ang_3_4, sin_ang_3_4]
        ring
      · refine fits_im_mid hm h4 k 2 e 0 _ hk rfl rfl (by omega) ?_
        simp only [Finset.sum_range_succ, Finset.sum_range_zero,
          ZR_half 4 (2 * e) e rfl he0, ZI_half 4 (2 * e) e rfl he0, cos_quarter_0, cos_quarter_1,
          cos_quarter_2, cos_quarter_3, sin_quarter_0, sin_quarter_1, sin_quarter_2, sin_quarter_3]
        rw [← r0, ← r1, ← r2, ← r3]
        simp [ang_zero]
        ring
      · refine fits_im_mid hm h4 k 4 e 1 _ hk rfl rfl (by omega) ?_
        simp only [Finset.sum_range_succ, Finset.sum_range_zero,
          ZR_half 4 (2 * e) e rfl he0, ZI_half 4 (2 * e) e rfl he0, cos_quarter_0, cos_quarter_1,
          cos_quarter_2, cos_quarter_3, sin_quarter_0, sin_quarter_1, sin_quarter_2, sin_quarter_3]
        rw [← r0, ← r1, ← r2, ← r3]
        simp [ang_zero, cos_ang_2_4, sin_ang_2_4, cos_ang_1_4, sin_ang_1_4,
          cos_ang_3_4, sin_ang_3_4]
        ring

theorem radf4_covers (l1 m : ℕ) (c w w' w'' : Buf) (hm : m ≠ 0) :
    Covers 4 m l1 (radf4 m l1 c w w' w'') := by
  intro i j k hi1 hi2 hj1 hj2 hk1 hk2
  simp only [radf4, List.mem_append, List.mem_flatMap, mem_upTo]
  have hk : 1 ≤ k ∧ k ≤ l1 := ⟨hk1, hk2⟩
  by_cases h1 : (j = 1 ∧ i = 1) ∨ (j = 4 ∧ i = m) ∨ (j = 2 ∧ i = m) ∨ (j = 3 ∧ i = 1)
  · rcases h1 with ⟨rfl, rfl⟩ | ⟨rfl, rfl⟩ | ⟨rfl, rfl⟩ | ⟨rfl, rfl⟩
    · exact ⟨_, Or.inl ⟨k, hk, .head _⟩⟩
    · exact ⟨_, Or.inl ⟨k, hk, .tail _ (.head _)⟩⟩
    · exact ⟨_, Or.inl ⟨k, hk, .tail _ (.tail _ (.head _))⟩⟩
    · exact ⟨_, Or.inl ⟨k, hk, .tail _ (.tail _ (.tail _ (.head _)))⟩⟩
  rw [if_neg (show ¬ m < 2 by omega)]
  by_cases h3 : m % 2 = 0 ∧
      ((j = 1 ∧ i = m) ∨ (j = 3 ∧ i = m) ∨ (j = 2 ∧ i = 1) ∨ (j = 4 ∧ i = 1))
  · obtain ⟨h3, h4⟩ := h3
    rw [if_neg (show ¬ (m ≠ 2 ∧ m % 2 = 1) by omega)]
    have key : ∀ (A : List (ℕ × ℝ)) (body : ℕ → List (ℕ × ℝ)), ∀ u ∈ body k,
        u ∈ A ++ (upTo 1 l1).flatMap body :=
      fun A body u hu => List.mem_append_right _
        (List.mem_flatMap.2 ⟨k, (mem_upTo ..).2 hk, hu⟩)
    rcases h4 with ⟨rfl, rfl⟩ | ⟨rfl, rfl⟩ | ⟨rfl, rfl⟩ | ⟨rfl, rfl⟩
    · exact ⟨_, Or.inr (key _ _ _ (.head _))⟩
    · exact ⟨_, Or.inr (key _ _ _ (.tail _ (.head _)))⟩
    · exact ⟨_, Or.inr (key _ _ _ (.tail _ (.tail _ (.head _))))⟩
    · exact ⟨_, Or.inr (key _ _ _ (.tail _ (.tail _ (.tail _ (.head _)))))⟩
  rw [if_neg (show ¬ m = 2 by omega)]
  obtain ⟨f, hf, hfm, hcase⟩ : ∃ f, 1 ≤ f ∧ 2 * f < m ∧
      ((j = 1 ∧ i = 2 * f + 1 - 1) ∨ (j = 4 ∧ i = m + 2 - (2 * f + 1) - 1) ∨
        (j = 1 ∧ i = 2 * f + 1) ∨ (j = 4 ∧ i = m + 2 - (2 * f + 1)) ∨
        (j = 3 ∧ i = 2 * f + 1 - 1) ∨ (j = 2 ∧ i = m + 2 - (2 * f + 1) - 1) ∨
        (j = 3 ∧ i = 2 * f + 1) ∨ (j = 2 ∧ i = m + 2 - (2 * f + 1))) := by
    by_cases hj : j = 1 ∨ j = 3
    · exact ⟨i / 2, by omega, by omega, by omega⟩
    · exact ⟨(m + 1 - i) / 2, by omega, by omega, by omega⟩
  have hmem : 2 * f + 1 ∈ odds m := (mem_odds _ _).2 ⟨f, hf, hfm, rfl⟩
  have key : ∀ (body : ℕ → ℕ → List (ℕ × ℝ)) (B : List (ℕ × ℝ)), ∀ u ∈ body k (2 * f + 1),
      u ∈ (upTo 1 l1).flatMap (fun k => (odds m).flatMap (fun i => body k i)) ++ B :=
    fun body B u hu => List.mem_append_left _ (List.mem_flatMap.2 ⟨k, (mem_upTo ..).2 hk,
      List.mem_flatMap.2 ⟨2 * f + 1, hmem, hu⟩⟩)
  rcases hcase with ⟨rfl, rfl⟩ | ⟨rfl, rfl⟩ | ⟨rfl, rfl⟩ | ⟨rfl, rfl⟩ | ⟨rfl, rfl⟩ | ⟨rfl, rfl⟩ |
    ⟨rfl, rfl⟩ | ⟨rfl, rfl⟩
  · exact ⟨_, Or.inr (key _ _ _ (.head _))⟩
  · exact ⟨_, Or.inr (key _ _ _ (.tail _ (.head _)))⟩
  · exact ⟨_, Or.inr (key _ _ _ (.tail _ (.tail _ (.head _))))⟩
  · exact ⟨_, Or.inr (key _ _ _ (.tail _ (.tail _ (.tail _ (.head _)))))⟩
  · exact ⟨_, Or.inr (key _ _ _ (.tail _ (.tail _ (.tail _ (.tail _ (.head _))))))⟩
  · exact ⟨_, Or.inr (key _ _ _ (.tail _ (.tail _ (.tail _ (.tail _ (.tail _ (.head _)))))))⟩
  · exact ⟨_, Or.inr (key _ _ _ (.tail _ (.tail _ (.tail _ (.tail _ (.tail _ (.tail _
      (.head _))))))))⟩
  · exact ⟨_, Or.inr (key _ _ _ (.tail _ (.tail _ (.tail _ (.tail _ (.tail _ (.tail _ (.tail _
      (.head _)))))))))⟩

end Marley.Fft
