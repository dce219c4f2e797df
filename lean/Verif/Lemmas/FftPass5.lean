import Verif.Lemmas.FftPass

/-! # The pass for the factor 5 -/

set_option autoImplicit false

namespace Marley.Fft
open Finset

lemma ang_1_5 : ang 1 5 = 2 * Real.pi / 5 := by unfold ang; push_cast; ring

lemma ang_2_5 : ang 2 5 = 4 * Real.pi / 5 := by unfold ang; push_cast; ring

lemma cos_ang_3_5 : Real.cos (ang 3 5) = Real.cos (4 * Real.pi / 5) := by
  have : ang 3 5 = 2 * Real.pi - 4 * Real.pi / 5 := by unfold ang; push_cast; ring
  rw [this, Real.cos_two_pi_sub]

lemma sin_ang_3_5 : Real.sin (ang 3 5) = -Real.sin (4 * Real.pi / 5) := by
  have : ang 3 5 = 2 * Real.pi - 4 * Real.pi / 5 := by unfold ang; push_cast; ring
  rw [this, Real.sin_two_pi_sub]

lemma cos_ang_4_5 : Real.cos (ang 4 5) = Real.cos (2 * Real.pi / 5) := by
  have : ang 4 5 = 2 * Real.pi - 2 * Real.pi / 5 := by unfold ang; push_cast; ring
  rw [this, Real.cos_two_pi_sub]

lemma sin_ang_4_5 : Real.sin (ang 4 5) = -Real.sin (2 * Real.pi / 5) := by
  have : ang 4 5 = 2 * Real.pi - 2 * Real.pi / 5 := by unfold ang; push_cast; ring
  rw [this, Real.sin_two_pi_sub]

lemma cos_ang_6_5 : Real.cos (ang 6 5) = Real.cos (2 * Real.pi / 5) := by
  have : ang 6 5 = 2 * Real.pi / 5 + 2 * Real.pi := by unfold ang; push_cast; ring
  rw [this, Real.cos_add_two_pi]

lemma sin_ang_6_5 : Real.sin (ang 6 5) = Real.sin (2 * Real.pi / 5) := by
  have : ang 6 5 = 2 * Real.pi / 5 + 2 * Real.pi := by unfold ang; push_cast; ring
  rw [this, Real.sin_add_two_pi]

lemma cos_ang_8_5 : Real.cos (ang 8 5) = Real.cos (4 * Real.pi / 5) := by
  have : ang 8 5 = -(4 * Real.pi / 5) + 2 * Real.pi + 2 * Real.pi := by
    unfold ang; push_cast; ring
  rw [this, Real.cos_add_two_pi, Real.cos_add_two_pi, Real.cos_neg]

lemma sin_ang_8_5 : Real.sin (ang 8 5) = -Real.sin (4 * Real.pi / 5) := by
  have : ang 8 5 = -(4 * Real.pi / 5) + 2 * Real.pi + 2 * Real.pi := by
    unfold ang; push_cast; ring
  rw [this, Real.sin_add_two_pi, Real.sin_add_two_pi, Real.sin_neg]

theorem radf5_fits (x : ℕ → ℝ) (l1 m : ℕ) (c : Buf) (w : ℕ → Buf) (hm : m ≠ 0)
    (h : Stage x (5 * l1) m c) (hw : Tw 5 m w) :
    ∀ v ∈ radf5 m l1 c (w 0) (w 1) (w 2) (w 3), Fits x l1 (5 * m) v := by
  have h5 : (5 : ℕ) ≠ 0 := by omega
  intro v hv
  simp only [radf5, List.mem_append, List.mem_flatMap, mem_upTo] at hv
  rcases hv with ⟨k, hk, hv⟩ | hv
  · simp only [List.mem_cons, List.not_mem_nil, or_false] at hv
    have r0 := read_first h hm k 0 1 hk (by omega) rfl
    have r1 := read_first h hm k 1 2 hk (by omega) rfl
    have r2 := read_first h hm k 2 3 hk (by omega) rfl
    have r3 := read_first h hm k 3 4 hk (by omega) rfl
    have r4 := read_first h hm k 4 5 hk (by omega) rfl
    rw [r0, r1, r2, r3, r4] at hv
    rcases hv with rfl | rfl | rfl | rfl | rfl
    · refine fits_zero hm h5 k _ hk ?_
      simp only [Finset.sum_range_succ, Finset.sum_range_zero]
      ring
    · refine fits_re_down hm h5 k m 2 0 1 _ hk (by omega) (by omega) rfl (by omega) (by omega) ?_
      simp [Finset.sum_range_succ, ang_zero, ang_1_5, ang_2_5, cos_ang_3_5, sin_ang_3_5,
        cos_ang_4_5, sin_ang_4_5, cos_ang_6_5, sin_ang_6_5, cos_ang_8_5, sin_ang_8_5, ZI_zero]
      ring
    · refine fits_im_up hm h5 k 1 3 0 1 _ hk rfl (by omega) (by omega) rfl (by omega) ?_
      simp [Finset.sum_range_succ, ang_zero, ang_1_5, ang_2_5, cos_ang_3_5, sin_ang_3_5,
        cos_ang_4_5, sin_ang_4_5, cos_ang_6_5, sin_ang_6_5, cos_ang_8_5, sin_ang_8_5, ZI_zero]
      ring
    · refine fits_re_down hm h5 k m 4 0 2 _ hk (by omega) (by omega) rfl (by omega) (by omega) ?_
      simp [Finset.sum_range_succ, ang_zero, ang_1_5, ang_2_5, cos_ang_3_5, sin_ang_3_5,
        cos_ang_4_5, sin_ang_4_5, cos_ang_6_5, sin_ang_6_5, cos_ang_8_5, sin_ang_8_5, ZI_zero]
      ring
    · refine fits_im_up hm h5 k 1 5 0 2 _ hk rfl (by omega) (by omega) rfl (by omega) ?_
      simp [Finset.sum_range_succ, ang_zero, ang_1_5, ang_2_5, cos_ang_3_5, sin_ang_3_5,
        cos_ang_4_5, sin_ang_4_5, cos_ang_6_5, sin_ang_6_5, cos_ang_8_5, sin_ang_8_5, ZI_zero]
      ring
  · by_cases he : m = 1
    · simp [he] at hv
    rw [if_neg he] at hv
    simp only [List.mem_flatMap, mem_upTo, mem_odds] at hv
    obtain ⟨k, hk, i, ⟨f, hf, hfm, rfl⟩, hv⟩ := hv
    have a0 := zr_first h k f hk h5 hf hfm
    have b0 := zi_first h k f hk h5 hf hfm
    have a1 := zr_eq h hw k 1 2 f hk (by omega) (by omega) rfl hf hfm
    have b1 := zi_eq h hw k 1 2 f hk (by omega) (by omega) rfl hf hfm
    have a2 := zr_eq h hw k 2 3 f hk (by omega) (by omega) rfl hf hfm
    have b2 := zi_eq h hw k 2 3 f hk (by omega) (by omega) rfl hf hfm
    have a3 := zr_eq h hw k 3 4 f hk (by omega) (by omega) rfl hf hfm
    have b3 := zi_eq h hw k 3 4 f hk (by omega) (by omega) rfl hf hfm
    have a4 := zr_eq h hw k 4 5 f hk (by omega) (by omega) rfl hf hfm
    have b4 := zi_eq h hw k 4 5 f hk (by omega) (by omega) rfl hf hfm
    simp only [Nat.sub_self, Nat.reduceSub] at a1 b1 a2 b2 a3 b3 a4 b4
    simp only [List.mem_cons, List.not_mem_nil, or_false, a0, b0, a1, b1, a2, b2, a3, b3,
      a4, b4] at hv
    rcases hv with rfl | rfl | rfl | rfl | rfl | rfl | rfl | rfl | rfl | rfl
    · refine fits_re_up hm h5 k _ 1 f 0 _ hk (by omega) hf (by omega) rfl (by omega) ?_
      simp [Finset.sum_range_succ, ang_zero]
      ring
    · refine fits_im_up hm h5 k _ 1 f 0 _ hk rfl (by omega) (by omega) rfl (by omega) ?_
      simp [Finset.sum_range_succ, ang_zero]
      ring
    · refine fits_re_up hm h5 k _ 3 f 1 _ hk (by omega) hf (by omega) rfl (by omega) ?_
      simp [Finset.sum_range_succ, ang_zero, ang_1_5, ang_2_5, cos_ang_3_5, sin_ang_3_5,
        cos_ang_4_5, sin_ang_4_5, cos_ang_6_5, sin_ang_6_5, cos_ang_8_5, sin_ang_8_5, ZI_zero]
      ring
    · refine fits_re_down hm h5 k _ 2 f 1 _ hk (by omega) (by omega) rfl (by omega) (by omega) ?_
      simp [Finset.sum_range_succ, ang_zero, ang_1_5, ang_2_5, cos_ang_3_5, sin_ang_3_5,
        cos_ang_4_5, sin_ang_4_5, cos_ang_6_5, sin_ang_6_5, cos_ang_8_5, sin_ang_8_5, ZI_zero]
      ring
    · refine fits_im_up hm h5 k _ 3 f 1 _ hk rfl (by omega) (by omega) rfl (by omega) ?_
      simp [Finset.sum_range_succ, ang_zero, ang_1_5, ang_2_5, cos_ang_3_5, sin_ang_3_5,
        cos_ang_4_5, sin_ang_4_5, cos_ang_6_5, sin_ang_6_5, cos_ang_8_5, sin_ang_8_5, ZI_zero]
      ring
    · refine fits_im_down hm h5 k _ 2 f 1 _ hk (by omega) (by omega) hf rfl (by omega) (by omega) ?_
      simp [Finset.sum_range_succ, ang_zero, ang_1_5, ang_2_5, cos_ang_3_5, sin_ang_3_5,
        cos_ang_4_5, sin_ang_4_5, cos_ang_6_5, sin_ang_6_5, cos_ang_8_5, sin_ang_8_5, ZI_zero]
      ring
    · refine fits_re_up hm h5 k _ 5 f 2 _ hk (by omega) hf (by omega) rfl (by omega) ?_
      simp [Finset.sum_range_succ, ang_zero, ang_1_5, ang_2_5, cos_ang_3_5, sin_ang_3_5,
        cos_ang_4_5, sin_ang_4_5, cos_ang_6_5, sin_ang_6_5, cos_ang_8_5, sin_ang_8_5, ZI_zero]
      ring
    · refine fits_re_down hm h5 k _ 4 f 2 _ hk (by omega) (by omega) rfl (by omega) (by omega) ?_
      simp [Finset.sum_range_succ, ang_zero, ang_1_5, ang_2_5, cos_ang_3_5, sin_ang_3_5,
        cos_ang_4_5, sin_ang_4_5, cos_ang_6_5, sin_ang_6_5, cos_ang_8_5, sin_ang_8_5, ZI_zero]
      ring
    · refine fits_im_up hm h5 k _ 5 f 2 _ hk rfl (by omega) (by omega) rfl (by omega) ?_
      simp [Finset.sum_range_succ, ang_zero, ang_1_5, ang_2_5, cos_ang_3_5, sin_ang_3_5,
        cos_ang_4_5, sin_ang_4_5, cos_ang_6_5, sin_ang_6_5, cos_ang_8_5, sin_ang_8_5, ZI_zero]
      ring
    · refine fits_im_down hm h5 k _ 4 f 2 _ hk (by omega) (by omega) hf rfl (by omega) (by omega) ?_
      simp [Finset.sum_range_succ, ang_zero, ang_1_5, ang_2_5, cos_ang_3_5, sin_ang_3_5,
        cos_ang_4_5, sin_ang_4_5, cos_ang_6_5, sin_ang_6_5, cos_ang_8_5, sin_ang_8_5, ZI_zero]
      ring

theorem radf5_covers (l1 m : ℕ) (c w w' w'' w3 : Buf) (hm : m % 2 = 1) :
    Covers 5 m l1 (radf5 m l1 c w w' w'' w3) := by
  intro i j k hi1 hi2 hj1 hj2 hk1 hk2
  simp only [radf5, List.mem_append, List.mem_flatMap, mem_upTo]
  have hk : 1 ≤ k ∧ k ≤ l1 := ⟨hk1, hk2⟩
  by_cases h1 : (j = 1 ∧ i = 1) ∨ (j = 2 ∧ i = m) ∨ (j = 3 ∧ i = 1) ∨ (j = 4 ∧ i = m) ∨
      (j = 5 ∧ i = 1)
  · rcases h1 with ⟨rfl, rfl⟩ | ⟨rfl, rfl⟩ | ⟨rfl, rfl⟩ | ⟨rfl, rfl⟩ | ⟨rfl, rfl⟩
    · exact ⟨_, Or.inl ⟨k, hk, .head _⟩⟩
    · exact ⟨_, Or.inl ⟨k, hk, .tail _ (.head _)⟩⟩
    · exact ⟨_, Or.inl ⟨k, hk, .tail _ (.tail _ (.head _))⟩⟩
    · exact ⟨_, Or.inl ⟨k, hk, .tail _ (.tail _ (.tail _ (.head _)))⟩⟩
    · exact ⟨_, Or.inl ⟨k, hk, .tail _ (.tail _ (.tail _ (.tail _ (.head _))))⟩⟩
  rw [if_neg (show ¬ m = 1 by omega)]
  obtain ⟨f, hf, hfm, ho, he⟩ : ∃ f, 1 ≤ f ∧ 2 * f < m ∧
      ((j = 1 ∨ j = 3 ∨ j = 5) → i = 2 * f + 1 - 1 ∨ i = 2 * f + 1) ∧
      ((j = 2 ∨ j = 4) → i = m + 2 - (2 * f + 1) - 1 ∨ i = m + 2 - (2 * f + 1)) := by
    by_cases hj : j = 2 ∨ j = 4
    · exact ⟨(m + 1 - i) / 2, by omega, by omega, fun h => by omega, fun _ => by omega⟩
    · exact ⟨i / 2, by omega, by omega, fun _ => by omega, fun h => absurd h hj⟩
  have hmem : 2 * f + 1 ∈ odds m := (mem_odds _ _).2 ⟨f, hf, hfm, rfl⟩
  have key : ∀ body : ℕ → ℕ → List (ℕ × ℝ), ∀ u ∈ body k (2 * f + 1),
      u ∈ (upTo 1 l1).flatMap (fun k => (odds m).flatMap (fun i => body k i)) :=
    fun body u hu => List.mem_flatMap.2 ⟨k, (mem_upTo ..).2 hk,
      List.mem_flatMap.2 ⟨2 * f + 1, hmem, hu⟩⟩
  have hj : j = 1 ∨ j = 2 ∨ j = 3 ∨ j = 4 ∨ j = 5 := by omega
  clear h1 hi1 hi2 hj1 hj2
  rcases hj with rfl | rfl | rfl | rfl | rfl
  · rcases ho (by omega) with rfl | rfl
    · exact ⟨_, Or.inr (key _ _ (.head _))⟩
    · exact ⟨_, Or.inr (key _ _ (.tail _ (.head _)))⟩
  · rcases he (by omega) with rfl | rfl
    · exact ⟨_, Or.inr (key _ _ (.tail _ (.tail _ (.tail _ (.head _)))))⟩
    · exact ⟨_, Or.inr (key _ _ (.tail _ (.tail _ (.tail _ (.tail _ (.tail _ (.head _)))))))⟩
  · rcases ho (by omega) with rfl | rfl
    · exact ⟨_, Or.inr (key _ _ (.tail _ (.tail _ (.head _))))⟩
    · exact ⟨_, Or.inr (key _ _ (.tail _ (.tail _ (.tail _ (.tail _ (.head _))))))⟩
  · rcases he (by omega) with rfl | rfl
    · exact ⟨_, Or.inr (key _ _ (.tail _ (.tail _ (.tail _ (.tail _ (.tail _ (.tail _ (.tail _ (.head _)))))))))⟩
    · exact ⟨_, Or.inr (key _ _ (.tail _ (.tail _ (.tail _ (.tail _ (.tail _ (.tail _ (.tail _ (.tail _ (.tail _ (.head _)))))))))))⟩
  · rcases ho (by omega) with rfl | rfl
    · exact ⟨_, Or.inr (key _ _ (.tail _ (.tail _ (.tail _ (.tail _ (.tail _ (.tail _ (.head _))))))))⟩
    · exact ⟨_, Or.inr (key _ _ (.tail _ (.tail _ (.tail _ (.tail _ (.tail _ (.tail _ (.tail _ (.tail _ (.head _))))))))))⟩

end Marley.Fft
