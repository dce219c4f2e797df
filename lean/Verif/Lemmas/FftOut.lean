import Verif.Lemmas.FftGeneral

/-! # The last part of the pass for other factors -/

set_option autoImplicit false

namespace Marley.Fft
open Marley
open Finset

/-! ## Values -/

lemma sum_fold (r : ℕ) (g : ℕ → ℝ) :
    ∑ a ∈ range (2 * r + 1), g a =
      g 0 + ∑ a ∈ range r, (g (a + 1) + g (2 * r + 1 - (a + 1))) := by
  rw [Finset.sum_add_distrib]
  have h2 : ∑ a ∈ range r, g (2 * r + 1 - (a + 1)) = ∑ a ∈ range r, g (r + 1 + a) := by
    rw [← Finset.sum_range_reflect]
    refine Finset.sum_congr rfl (fun a ha => ?_)
    have := Finset.mem_range.1 ha
    congr 1
    omega
  rw [h2, show 2 * r + 1 = (r + 1) + r by omega, Finset.sum_range_add, Finset.sum_range_succ']
  ring

lemma cos_refl (p q a : ℕ) (hp : p ≠ 0) (ha : a ≤ p) :
    Real.cos (ang ((q : ℤ) * ((p - a : ℕ) : ℤ)) p) = Real.cos (ang ((q : ℤ) * (a : ℤ)) p) := by
  rw [Nat.cast_sub ha]
  have : ang ((q : ℤ) * ((p : ℤ) - a)) p = (q : ℕ) * (2 * Real.pi) - ang ((q : ℤ) * a) p := by
    unfold ang
    have : (p : ℝ) ≠ 0 := by exact_mod_cast hp
    push_cast
    field_simp
  rw [this, Real.cos_nat_mul_two_pi_sub]

lemma sin_refl (p q a : ℕ) (hp : p ≠ 0) (ha : a ≤ p) :
    Real.sin (ang ((q : ℤ) * ((p - a : ℕ) : ℤ)) p) = -Real.sin (ang ((q : ℤ) * (a : ℤ)) p) := by
  rw [Nat.cast_sub ha]
  have : ang ((q : ℤ) * ((p : ℤ) - a)) p = (q : ℕ) * (2 * Real.pi) - ang ((q : ℤ) * a) p := by
    unfold ang
    have : (p : ℝ) ≠ 0 := by exact_mod_cast hp
    push_cast
    field_simp
  rw [this, Real.sin_nat_mul_two_pi_sub]

/-- A sum with the roots of unity by the halves. -/
lemma sum_roots (p r q : ℕ) (hp : p = 2 * r + 1) (A B : ℕ → ℝ) :
    ∑ a ∈ range p, (Real.cos (ang ((q : ℤ) * (a : ℤ)) p) * A a +
        Real.sin (ang ((q : ℤ) * (a : ℤ)) p) * B a) =
      (A 0 + ∑ a ∈ range r, Real.cos (ang ((q : ℤ) * ((a + 1 : ℕ) : ℤ)) p) *
        (A (a + 1) + A (p - (a + 1)))) +
      ∑ a ∈ range r, Real.sin (ang ((q : ℤ) * ((a + 1 : ℕ) : ℤ)) p) *
        (B (a + 1) - B (p - (a + 1))) := by
  subst hp
  rw [sum_fold, add_assoc (A 0), ← Finset.sum_add_distrib]
  congr 1
  · simp [ang]
  · refine Finset.sum_congr rfl (fun a ha => ?_)
    have := Finset.mem_range.1 ha
    rw [cos_refl _ _ _ (by omega) (by omega), sin_refl _ _ _ (by omega) (by omega)]
    ring

/-- The array after the sums, in terms of the transforms. -/
def Middle (x : ℕ → ℝ) (l1 p m r : ℕ) (h : Buf) : Prop :=
  ∀ i k, 1 ≤ i ∧ i ≤ m → 1 ≤ k ∧ k ≤ l1 →
    h (ccAt m l1 i k 1) = zz p m (col x l1 k) i 0 + ∑ a ∈ range r,
      (zz p m (col x l1 k) i (a + 1) + zz p m (col x l1 k) i (p - (a + 1))) ∧
    ∀ u, u < r →
      h (ccAt m l1 i k (u + 2)) = zz p m (col x l1 k) i 0 + ∑ a ∈ range r,
        Real.cos (ang (((u + 1 : ℕ) : ℤ) * ((a + 1 : ℕ) : ℤ)) p) *
          (zz p m (col x l1 k) i (a + 1) + zz p m (col x l1 k) i (p - (a + 1))) ∧
      h (ccAt m l1 i k (p - u)) = ∑ a ∈ range r,
        Real.sin (ang (((u + 1 : ℕ) : ℤ) * ((a + 1 : ℕ) : ℤ)) p) * bb p m (col x l1 k) i (a + 1)

variable {x : ℕ → ℝ} {l1 p m r : ℕ} {h : Buf}

/-- The result at frequency zero. -/
lemma Middle.zero (H : Middle x l1 p m r h) (hp : p = 2 * r + 1) (hm : m ≠ 0) {k : ℕ}
    (hk : 1 ≤ k ∧ k ≤ l1) :
    h (ccAt m l1 1 k 1) = ∑ a ∈ range p, ZR p m (col x l1 k) 0 a := by
  rw [(H 1 k (by omega) hk).1]
  simp only [zz_one]
  rw [hp, sum_fold]

lemma Middle.re (H : Middle x l1 p m r h) (hp : p = 2 * r + 1) {k f : ℕ} (hk : 1 ≤ k ∧ k ≤ l1)
    (hf : 1 ≤ f ∧ 2 * f < m) :
    h (ccAt m l1 (2 * f + 1 - 1) k 1) = ∑ a ∈ range p,
      (Real.cos (ang (((0 : ℕ) : ℤ) * a) p) * ZR p m (col x l1 k) f a +
        Real.sin (ang (((0 : ℕ) : ℤ) * a) p) * ZI p m (col x l1 k) f a) := by
  rw [(H _ k (by omega) hk).1]
  simp only [zz_re, Nat.cast_zero, zero_mul, ang_zero, Real.cos_zero, Real.sin_zero, one_mul,
    add_zero]
  rw [hp, sum_fold]

lemma Middle.im (H : Middle x l1 p m r h) (hp : p = 2 * r + 1) {k f : ℕ} (hk : 1 ≤ k ∧ k ≤ l1)
    (hf : 1 ≤ f ∧ 2 * f < m) :
    h (ccAt m l1 (2 * f + 1) k 1) = ∑ a ∈ range p,
      (Real.cos (ang (((0 : ℕ) : ℤ) * a) p) * ZI p m (col x l1 k) f a -
        Real.sin (ang (((0 : ℕ) : ℤ) * a) p) * ZR p m (col x l1 k) f a) := by
  rw [(H _ k (by omega) hk).1]
  simp only [zz_im _ _ _ _ _ hf.1, Nat.cast_zero, zero_mul, ang_zero, Real.cos_zero,
    Real.sin_zero, one_mul, sub_zero]
  rw [hp, sum_fold]

lemma Middle.re_up (H : Middle x l1 p m r h) (hp : p = 2 * r + 1) {k f u : ℕ}
    (hk : 1 ≤ k ∧ k ≤ l1) (hf : 1 ≤ f ∧ 2 * f < m) (hu : u < r) :
    h (ccAt m l1 (2 * f + 1 - 1) k (u + 2)) + h (ccAt m l1 (2 * f + 1 - 1) k (p - u)) =
      ∑ a ∈ range p, (Real.cos (ang (((u + 1 : ℕ) : ℤ) * a) p) * ZR p m (col x l1 k) f a +
        Real.sin (ang (((u + 1 : ℕ) : ℤ) * a) p) * ZI p m (col x l1 k) f a) := by
  obtain ⟨h1, h2⟩ := (H (2 * f + 1 - 1) k (by omega) hk).2 u hu
  rw [h1, h2, sum_roots p r _ hp]
  simp only [zz_re, bb_re]

lemma Middle.re_down (H : Middle x l1 p m r h) (hp : p = 2 * r + 1) {k f u : ℕ}
    (hk : 1 ≤ k ∧ k ≤ l1) (hf : 1 ≤ f ∧ 2 * f < m) (hu : u < r) :
    h (ccAt m l1 (2 * f + 1 - 1) k (u + 2)) - h (ccAt m l1 (2 * f + 1 - 1) k (p - u)) =
      ∑ a ∈ range p, (Real.cos (ang (((u + 1 : ℕ) : ℤ) * a) p) * ZR p m (col x l1 k) f a -
        Real.sin (ang (((u + 1 : ℕ) : ℤ) * a) p) * ZI p m (col x l1 k) f a) := by
  obtain ⟨h1, h2⟩ := (H (2 * f + 1 - 1) k (by omega) hk).2 u hu
  have := sum_roots p r (u + 1) hp (fun a => ZR p m (col x l1 k) f a)
    (fun a => -ZI p m (col x l1 k) f a)
  simp only [mul_neg, ← sub_eq_add_neg] at this
  rw [h1, h2, this]
  simp only [zz_re, bb_re]
  rw [sub_eq_add_neg, ← Finset.sum_neg_distrib]
  congr 1
  exact Finset.sum_congr rfl (fun a _ => by ring)

lemma Middle.im_up (H : Middle x l1 p m r h) (hp : p = 2 * r + 1) {k f u : ℕ}
    (hk : 1 ≤ k ∧ k ≤ l1) (hf : 1 ≤ f ∧ 2 * f < m) (hu : u < r) :
    h (ccAt m l1 (2 * f + 1) k (u + 2)) + h (ccAt m l1 (2 * f + 1) k (p - u)) =
      ∑ a ∈ range p, (Real.cos (ang (((u + 1 : ℕ) : ℤ) * a) p) * ZI p m (col x l1 k) f a -
        Real.sin (ang (((u + 1 : ℕ) : ℤ) * a) p) * ZR p m (col x l1 k) f a) := by
  obtain ⟨h1, h2⟩ := (H (2 * f + 1) k (by omega) hk).2 u hu
  have := sum_roots p r (u + 1) hp (fun a => ZI p m (col x l1 k) f a)
    (fun a => -ZR p m (col x l1 k) f a)
  simp only [mul_neg, ← sub_eq_add_neg] at this
  rw [h1, h2, this]
  simp only [zz_im _ _ _ _ _ hf.1, bb_im _ _ _ _ _ hf.1]
  congr 1
  exact Finset.sum_congr rfl (fun a _ => by ring)

lemma Middle.im_down (H : Middle x l1 p m r h) (hp : p = 2 * r + 1) {k f u : ℕ}
    (hk : 1 ≤ k ∧ k ≤ l1) (hf : 1 ≤ f ∧ 2 * f < m) (hu : u < r) :
    h (ccAt m l1 (2 * f + 1) k (p - u)) - h (ccAt m l1 (2 * f + 1) k (u + 2)) =
      -∑ a ∈ range p, (Real.cos (ang (((u + 1 : ℕ) : ℤ) * a) p) * ZI p m (col x l1 k) f a +
        Real.sin (ang (((u + 1 : ℕ) : ℤ) * a) p) * ZR p m (col x l1 k) f a) := by
  obtain ⟨h1, h2⟩ := (H (2 * f + 1) k (by omega) hk).2 u hu
  rw [h1, h2, sum_roots p r _ hp]
  simp only [zz_im _ _ _ _ _ hf.1, bb_im _ _ _ _ _ hf.1]
  have : ∑ a ∈ range r, Real.sin (ang (((u + 1 : ℕ) : ℤ) * ((a + 1 : ℕ) : ℤ)) p) *
      (ZR p m (col x l1 k) f (p - (a + 1)) - ZR p m (col x l1 k) f (a + 1)) =
      -∑ a ∈ range r, Real.sin (ang (((u + 1 : ℕ) : ℤ) * ((a + 1 : ℕ) : ℤ)) p) *
      (ZR p m (col x l1 k) f (a + 1) - ZR p m (col x l1 k) f (p - (a + 1))) := by
    rw [← Finset.sum_neg_distrib]
    exact Finset.sum_congr rfl (fun a _ => by ring)
  rw [this]
  ring

lemma Middle.first (H : Middle x l1 p m r h) (hp : p = 2 * r + 1) (hm : m ≠ 0) {k u : ℕ}
    (hk : 1 ≤ k ∧ k ≤ l1) (hu : u < r) :
    h (ccAt m l1 1 k (u + 2)) =
      ∑ a ∈ range p, (Real.cos (ang (((u + 1 : ℕ) : ℤ) * a) p) * ZR p m (col x l1 k) (0 : ℕ) a -
        Real.sin (ang (((u + 1 : ℕ) : ℤ) * a) p) * ZI p m (col x l1 k) (0 : ℕ) a) ∧
    h (ccAt m l1 1 k (p - u)) =
      ∑ a ∈ range p, (Real.cos (ang (((u + 1 : ℕ) : ℤ) * a) p) * ZI p m (col x l1 k) (0 : ℕ) a -
        Real.sin (ang (((u + 1 : ℕ) : ℤ) * a) p) * ZR p m (col x l1 k) (0 : ℕ) a) := by
  obtain ⟨h1, h2⟩ := (H 1 k (by omega) hk).2 u hu
  have g1 := sum_roots p r (u + 1) hp (fun a => ZR p m (col x l1 k) 0 a) (fun _ => 0)
  have g2 := sum_roots p r (u + 1) hp (fun _ => 0) (fun a => -ZR p m (col x l1 k) 0 a)
  simp only [mul_zero, add_zero, sub_zero, Finset.sum_const_zero, zero_add] at g1 g2
  simp only [Nat.cast_zero, ZI_zero, mul_zero, sub_zero, zero_sub]
  refine ⟨?_, ?_⟩
  · rw [h1, g1]
    simp only [zz_one]
  · simp only [mul_neg] at g2
    rw [h2, g2]
    simp only [bb_one]
    exact Finset.sum_congr rfl (fun a _ => by ring)

/-! ## The output -/

theorem fgOut_fits (H : Middle x l1 p m r h) (hp : p = 2 * r + 1) (hm : m % 2 = 1) :
    ∀ w ∈ fgOut m p l1 h, Fits x l1 (p * m) w := by
  have hm0 : m ≠ 0 := by omega
  have hp0 : p ≠ 0 := by omega
  intro w hw
  unfold fgOut at hw
  rw [List.mem_append, List.mem_append] at hw
  rcases hw with (hw | hw) | hw
  · have : ∃ i k, (1 ≤ i ∧ i ≤ m) ∧ (1 ≤ k ∧ k ≤ l1) ∧
        w = (chAt m p i 1 k, h (ccAt m l1 i k 1)) := by
      split at hw
      · obtain ⟨i, hi, hw⟩ := List.mem_flatMap.1 hw
        obtain ⟨k, hk, rfl⟩ := List.mem_map.1 hw
        exact ⟨i, k, (mem_upTo ..).1 hi, (mem_upTo ..).1 hk, rfl⟩
      · obtain ⟨k, hk, hw⟩ := List.mem_flatMap.1 hw
        obtain ⟨i, hi, rfl⟩ := List.mem_map.1 hw
        exact ⟨i, k, (mem_upTo ..).1 hi, (mem_upTo ..).1 hk, rfl⟩
    obtain ⟨i, k, hi, hk, rfl⟩ := this
    rcases index_cases hm hi with rfl | ⟨f, hf, rfl | rfl⟩
    · exact fits_zero hm0 hp0 k _ hk (H.zero hp hm0 hk)
    · exact fits_re_up hm0 hp0 k _ 1 f 0 _ hk (by omega) hf.1 (by omega) (by omega) (by omega)
        (H.re hp hk hf)
    · exact fits_im_up hm0 hp0 k _ 1 f 0 _ hk rfl (Or.inl hf.1) (by omega) (by omega) (by omega)
        (H.im hp hk hf)
  · obtain ⟨j, hj, hw⟩ := List.mem_flatMap.1 hw
    rw [mem_upTo] at hj
    obtain ⟨u, rfl⟩ : ∃ u, j = u + 2 := ⟨j - 2, by omega⟩
    obtain ⟨k, hk, hw⟩ := List.mem_flatMap.1 hw
    rw [mem_upTo] at hk
    have ejc : p + 2 - (u + 2) = p - u := by omega
    obtain ⟨f1, f2⟩ := H.first hp hm0 hk (u := u) (by omega)
    simp only [ejc, List.mem_cons, List.not_mem_nil, or_false] at hw
    rcases hw with rfl | rfl
    · exact fits_re_down hm0 hp0 k _ _ 0 (u + 1) _ hk (by omega) (by omega) (by omega) (by omega)
        (by omega) f1
    · exact fits_im_up hm0 hp0 k _ _ 0 (u + 1) _ hk (by omega) (Or.inr (by omega)) (by omega)
        (by omega) (by omega) f2
  · split at hw
    · simp at hw
    · obtain ⟨j, hj, hw⟩ := List.mem_flatMap.1 hw
      rw [mem_upTo] at hj
      obtain ⟨u, rfl⟩ : ∃ u, j = u + 2 := ⟨j - 2, by omega⟩
      simp only [mem_twoLoops] at hw
      obtain ⟨k, hk, f, hf, hw⟩ := hw
      have ejc : p + 2 - (u + 2) = p - u := by omega
      have hu : u < r := by omega
      simp only [ejc, List.mem_cons, List.not_mem_nil, or_false] at hw
      rcases hw with rfl | rfl | rfl | rfl
      · exact fits_re_up hm0 hp0 k _ _ f (u + 1) _ hk (by omega) hf.1 (by omega) (by omega)
          (by omega) (H.re_up hp hk hf hu)
      · exact fits_re_down hm0 hp0 k _ _ f (u + 1) _ hk (by omega) (by omega) (by omega) (by omega)
          (by omega) (H.re_down hp hk hf hu)
      · exact fits_im_up hm0 hp0 k _ _ f (u + 1) _ hk (by omega) (Or.inl hf.1) (by omega) (by omega)
          (by omega) (H.im_up hp hk hf hu)
      · exact fits_im_down hm0 hp0 k _ _ f (u + 1) _ hk (by omega) (by omega) hf.1 (by omega)
          (by omega) (by omega) (H.im_down hp hk hf hu)

theorem fgOut_covers (l1 p m r : ℕ) (h : Buf) (hp : p = 2 * r + 1) (hm : m % 2 = 1) :
    Covers p m l1 (fgOut m p l1 h) := by
  intro i j k hi1 hi2 hj1 hj2 hk1 hk2
  have hk : k ∈ upTo 1 l1 := (mem_upTo ..).2 ⟨hk1, hk2⟩
  have hi : i ∈ upTo 1 m := (mem_upTo ..).2 ⟨hi1, hi2⟩
  unfold fgOut
  by_cases h1 : j = 1
  · subst h1
    refine ⟨h (ccAt m l1 i k 1), List.mem_append_left _ (List.mem_append_left _ ?_)⟩
    split
    · exact List.mem_flatMap.2 ⟨i, hi, List.mem_map.2 ⟨k, hk, rfl⟩⟩
    · exact List.mem_flatMap.2 ⟨k, hk, List.mem_map.2 ⟨i, hi, rfl⟩⟩
  · obtain ⟨u, hu, hj⟩ : ∃ u, u < r ∧ (j = u + 2 + (u + 2) - 2 ∨ j = u + 2 + (u + 2) - 1) :=
      ⟨j / 2 - 1, by omega, by omega⟩
    have hu' : u + 2 ∈ upTo 2 ((p + 1) / 2) := (mem_upTo ..).2 ⟨by omega, by omega⟩
    rcases hj with hj | hj
    · by_cases h2 : i = m
      · rw [h2, hj]
        exact ⟨_, List.mem_append_left _ (List.mem_append_right _ (List.mem_flatMap.2
          ⟨u + 2, hu', List.mem_flatMap.2 ⟨k, hk, .head _⟩⟩))⟩
      · dsimp only
        rw [if_neg (show ¬ m = 1 by omega), hj]
        by_cases h3 : i % 2 = 1
        · have e : i = m + 2 - (2 * ((m + 1 - i) / 2) + 1) - 1 := by omega
          rw [e]
          exact ⟨_, List.mem_append_right _ (List.mem_flatMap.2 ⟨u + 2, hu', (mem_twoLoops ..).2
            ⟨k, ⟨hk1, hk2⟩, (m + 1 - i) / 2, by omega, .tail _ (.head _)⟩⟩)⟩
        · have e : i = m + 2 - (2 * ((m + 1 - i) / 2) + 1) := by omega
          rw [e]
          exact ⟨_, List.mem_append_right _ (List.mem_flatMap.2 ⟨u + 2, hu', (mem_twoLoops ..).2
            ⟨k, ⟨hk1, hk2⟩, (m + 1 - i) / 2, by omega, .tail _ (.tail _ (.tail _ (.head _)))⟩⟩)⟩
    · by_cases h2 : i = 1
      · rw [h2, hj]
        exact ⟨_, List.mem_append_left _ (List.mem_append_right _ (List.mem_flatMap.2
          ⟨u + 2, hu', List.mem_flatMap.2 ⟨k, hk, .tail _ (.head _)⟩⟩))⟩
      · dsimp only
        rw [if_neg (show ¬ m = 1 by omega), hj]
        by_cases h3 : i % 2 = 1
        · have e : i = 2 * (i / 2) + 1 := by omega
          rw [e]
          exact ⟨_, List.mem_append_right _ (List.mem_flatMap.2 ⟨u + 2, hu', (mem_twoLoops ..).2
            ⟨k, ⟨hk1, hk2⟩, i / 2, by omega, .tail _ (.tail _ (.head _))⟩⟩)⟩
        · have e : i = 2 * (i / 2) + 1 - 1 := by omega
          rw [e]
          exact ⟨_, List.mem_append_right _ (List.mem_flatMap.2 ⟨u + 2, hu', (mem_twoLoops ..).2
            ⟨k, ⟨hk1, hk2⟩, i / 2, by omega, .head _⟩⟩)⟩

/-- The pass for a factor that is not 2, 3, 4 or 5. -/
theorem radfg_spec (x : ℕ → ℝ) (l1 p m r : ℕ) (c h W : Buf) (hp : p = 2 * r + 1)
    (hm : m % 2 = 1) (hs : Stage x (p * l1) m (if m = 1 then h else c))
    (hw : Tw p m (fun j => from_ W (j * m))) :
    ∃ c' h', radfg (p * m * l1) m p l1 c h W = .ok (c', h') ∧ Stage x l1 (p * m) c' := by
  have hcap : p * m * l1 = m * l1 * p := by ring
  obtain ⟨c1, h1, b1, b2, b3⟩ := fgBegin_spec x l1 p m r c h W hp hm hs hw
  obtain ⟨h2, s1, s2, s3⟩ := fgMiddle_spec m p l1 r c1 h1 hp
  have H : Middle x l1 p m r h2 := by
    intro i k hi hk
    have hlt := lin_lt hi hk
    have e1 : ∀ b, ccAt m l1 i k 1 = i - 1 + m * (k - 1) ∧
        ccAt m l1 i k (b + 2) = i - 1 + m * (k - 1) + m * l1 * (b + 1) := by
      intro b
      refine ⟨by rw [cc_lin]; simp, by rw [cc_lin]; rfl⟩
    have e2 : ∀ b, b < r → ccAt m l1 i k (p - b) = i - 1 + m * (k - 1) + m * l1 * (p - (b + 1)) := by
      intro b _
      rw [cc_lin]
      congr 2
    have A : ∀ b, b < r → c1 (i - 1 + m * (k - 1) + m * l1 * (b + 1)) =
        zz p m (col x l1 k) i (b + 1) + zz p m (col x l1 k) i (p - (b + 1)) := by
      intro b hb
      rw [← (e1 b).2, b3 i k (b + 2) ⟨hi, hk, by omega, by omega⟩ (by omega),
        folded_sum _ _ _ _ _ _ hb]
    have B : ∀ b, b < r → c1 (i - 1 + m * (k - 1) + m * l1 * (p - (b + 1))) =
        bb p m (col x l1 k) i (b + 1) := by
      intro b hb
      rw [← e2 b hb, b3 i k (p - b) ⟨hi, hk, by omega, by omega⟩ (by omega),
        folded_diff _ _ _ _ _ _ hp hb]
    obtain ⟨z1, z2⟩ := b2 i k hi hk
    rw [(e1 0).1] at z1 z2
    refine ⟨?_, fun u hu => ?_⟩
    · rw [(e1 0).1, s2 _ hlt, z1]
      congr 1
      exact Finset.sum_congr rfl (fun a ha => A a (Finset.mem_range.1 ha))
    · obtain ⟨t1, t2⟩ := s3 u hu _ hlt
      rw [(e1 u).2, e2 u hu, t1, t2, z2]
      refine ⟨?_, ?_⟩
      · congr 1
        exact Finset.sum_congr rfl (fun a ha => by rw [A a (Finset.mem_range.1 ha)])
      · exact Finset.sum_congr rfl (fun a ha => by rw [B a (Finset.mem_range.1 ha)])
  obtain ⟨o1, o2⟩ := stage_pass x p m l1 c1 (fgOut m p l1 h2) (by omega) (fgOut_fits H hp hm)
    (fgOut_covers l1 p m r h2 hp hm)
  rw [hcap] at o1
  refine ⟨_, h2, ?_, o2⟩
  unfold radfg
  rw [hcap, b1]
  simp only
  rw [s1]
  simp only
  rw [o1]

end Marley.Fft
