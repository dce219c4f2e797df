import Verif.Lemmas.FftDft

/-! # The passes for the factors 2, 3, 4 and 5 -/

set_option autoImplicit false

namespace Marley.Fft
open Finset

/-- The numbers that belong to column `k` (counted from 1). -/
def col (x : ℕ → ℝ) (l1 k : ℕ) : ℕ → ℝ := fun s => x (k - 1 + l1 * s)

section writes
variable {x : ℕ → ℝ} {l1 p m : ℕ}

lemma fits_of (hm : m ≠ 0) (k i j : ℕ) (v : ℝ) (hk : 1 ≤ k ∧ k ≤ l1) (hi : 1 ≤ i ∧ i ≤ m)
    (hj : 1 ≤ j ∧ j ≤ p) (hv : v = hc (p * m) (col x l1 k) (i - 1 + m * (j - 1))) :
    Fits x l1 (p * m) (chAt m p i j k, v) := by
  refine ⟨k - 1, by omega, i - 1 + m * (j - 1), ?_, ?_, hv⟩
  · rw [Nat.mul_comm p m]
    exact addr_lt m p (i - 1) (j - 1) (by omega) (by omega)
  · show chAt m p i j k = _
    unfold chAt; ring

lemma fits_zero (hm : m ≠ 0) (hp : p ≠ 0) (k : ℕ) (v : ℝ) (hk : 1 ≤ k ∧ k ≤ l1)
    (hv : v = ∑ j ∈ range p, ZR p m (col x l1 k) 0 j) :
    Fits x l1 (p * m) (chAt m p 1 1 k, v) := by
  refine fits_of hm k 1 1 v hk (by omega) (by omega) ?_
  have := dre_up p m hp hm (col x l1 k) 0 0
  simp only [zero_mul, add_zero, ang_zero, Real.cos_zero, Real.sin_zero, one_mul] at this
  rw [hv, ← this, show 1 - 1 + m * (1 - 1) = 0 by simp, hc_zero]

lemma fits_re_up (hm : m ≠ 0) (hp : p ≠ 0) (k i j f q : ℕ) (v : ℝ) (hk : 1 ≤ k ∧ k ≤ l1)
    (hi : i = 2 * f) (hf : 1 ≤ f) (him : i ≤ m) (hj : j = 2 * q + 1) (hjp : j ≤ p)
    (hv : v = ∑ a ∈ range p, (Real.cos (ang ((q : ℤ) * a) p) * ZR p m (col x l1 k) f a +
      Real.sin (ang ((q : ℤ) * a) p) * ZI p m (col x l1 k) f a)) :
    Fits x l1 (p * m) (chAt m p i j k, v) := by
  refine fits_of hm k i j v hk (by omega) (by omega) ?_
  rw [hv, ← dre_up p m hp hm, hc_re _ _ _ (f + q * m)]
  · push_cast; rfl
  · subst hi hj
    have : m * (2 * q + 1 - 1) = 2 * (q * m) := by rw [Nat.add_sub_cancel]; ring
    rw [this]; omega

lemma fits_im_up (hm : m ≠ 0) (hp : p ≠ 0) (k i j f q : ℕ) (v : ℝ) (hk : 1 ≤ k ∧ k ≤ l1)
    (hi : i = 2 * f + 1) (hf : 1 ≤ f ∨ 1 ≤ q) (him : i ≤ m) (hj : j = 2 * q + 1) (hjp : j ≤ p)
    (hv : v = ∑ a ∈ range p, (Real.cos (ang ((q : ℤ) * a) p) * ZI p m (col x l1 k) f a -
      Real.sin (ang ((q : ℤ) * a) p) * ZR p m (col x l1 k) f a)) :
    Fits x l1 (p * m) (chAt m p i j k, v) := by
  refine fits_of hm k i j v hk (by omega) (by omega) ?_
  rw [hv, ← dim_up p m hp hm, hc_im _ _ _ (f + q * m)]
  · push_cast; rfl
  · subst hi hj
    have : m * (2 * q + 1 - 1) = 2 * (q * m) := by rw [Nat.add_sub_cancel]; ring
    rw [this]; omega
  · rcases hf with h | h
    · omega
    · have : q * m ≠ 0 := Nat.mul_ne_zero (by omega) hm
      omega

lemma fits_re_down (hm : m ≠ 0) (hp : p ≠ 0) (k i j f q : ℕ) (v : ℝ) (hk : 1 ≤ k ∧ k ≤ l1)
    (hi : i + 2 * f = m) (hi1 : 1 ≤ i) (hj : j = 2 * q) (hq : 1 ≤ q) (hjp : j ≤ p)
    (hv : v = ∑ a ∈ range p, (Real.cos (ang ((q : ℤ) * a) p) * ZR p m (col x l1 k) f a -
      Real.sin (ang ((q : ℤ) * a) p) * ZI p m (col x l1 k) f a)) :
    Fits x l1 (p * m) (chAt m p i j k, v) := by
  refine fits_of hm k i j v hk (by omega) (by omega) ?_
  have hle : m ≤ q * m := Nat.le_mul_of_pos_left m hq
  rw [hv, ← dre_down p m hp hm, hc_re _ _ _ (q * m - f)]
  · rw [Nat.cast_sub (by omega)]; push_cast; rfl
  · subst hj
    have h1 : m * (2 * q - 1) + m = 2 * (q * m) := by
      obtain ⟨q, rfl⟩ : ∃ q', q = q' + 1 := ⟨q - 1, by omega⟩
      rw [show 2 * (q + 1) - 1 = 2 * q + 1 by omega]
      ring
    omega

lemma fits_im_down (hm : m ≠ 0) (hp : p ≠ 0) (k i j f q : ℕ) (v : ℝ) (hk : 1 ≤ k ∧ k ≤ l1)
    (hi : i + 2 * f = m + 1) (hi1 : 2 ≤ i) (hf : 1 ≤ f) (hj : j = 2 * q) (hq : 1 ≤ q) (hjp : j ≤ p)
    (hv : v = -∑ a ∈ range p, (Real.cos (ang ((q : ℤ) * a) p) * ZI p m (col x l1 k) f a +
      Real.sin (ang ((q : ℤ) * a) p) * ZR p m (col x l1 k) f a)) :
    Fits x l1 (p * m) (chAt m p i j k, v) := by
  refine fits_of hm k i j v hk (by omega) (by omega) ?_
  have hle : m ≤ q * m := Nat.le_mul_of_pos_left m hq
  rw [hv, ← dim_down p m hp hm, hc_im _ _ _ (q * m - f)]
  · rw [Nat.cast_sub (by omega)]; push_cast; rfl
  · subst hj
    have h1 : m * (2 * q - 1) + m = 2 * (q * m) := by
      obtain ⟨q, rfl⟩ : ∃ q', q = q' + 1 := ⟨q - 1, by omega⟩
      rw [show 2 * (q + 1) - 1 = 2 * q + 1 by omega]
      ring
    omega
  · omega

/-- The imaginary part for the middle of an even number of entries. -/
lemma fits_im_mid (hm : m ≠ 0) (hp : p ≠ 0) (k j e q : ℕ) (v : ℝ) (hk : 1 ≤ k ∧ k ≤ l1)
    (he : m = 2 * e) (hj : j = 2 * q + 2) (hjp : j ≤ p)
    (hv : v = ∑ a ∈ range p, (Real.cos (ang ((q : ℤ) * a) p) * ZI p m (col x l1 k) e a -
      Real.sin (ang ((q : ℤ) * a) p) * ZR p m (col x l1 k) e a)) :
    Fits x l1 (p * m) (chAt m p 1 j k, v) := by
  refine fits_of hm k 1 j v hk (by omega) (by omega) ?_
  rw [hv, ← dim_up p m hp hm, hc_im _ _ _ (e + q * m)]
  · push_cast; rfl
  · subst hj
    have : m * (2 * q + 2 - 1) = 2 * (q * m) + m := by
      rw [show 2 * q + 2 - 1 = 2 * q + 1 by omega]; ring
    rw [this]; omega
  · omega

end writes

/-- The table of sines and cosines for a pass. -/
def Tw (p m : ℕ) (w : ℕ → Buf) : Prop :=
  ∀ j, 1 ≤ j → j < p → ∀ f, 1 ≤ f → 2 * f < m →
    w (j - 1) (2 * f - 2) = Real.cos (ang ((f : ℤ) * j) (p * m)) ∧
    w (j - 1) (2 * f - 1) = Real.sin (ang ((f : ℤ) * j) (p * m))

section reads
variable {x : ℕ → ℝ} {l1 p m : ℕ} {c : Buf}

lemma read_first (h : Stage x (p * l1) m c) (hm : m ≠ 0) (k j j' : ℕ) (hk : 1 ≤ k ∧ k ≤ l1)
    (hj : j < p) (hj' : j' = j + 1) :
    c (ccAt m l1 1 k j') = ZR p m (col x l1 k) 0 j := by
  subst hj'
  have := h.read (k - 1) j 0 (by omega) hj (by omega)
  rw [ZR_zero, ← hc_zero]
  unfold ccAt
  simpa [col] using this

lemma read_re (h : Stage x (p * l1) m c) (k i j j' f : ℕ) (hk : 1 ≤ k ∧ k ≤ l1)
    (hj : j < p) (hj' : j' = j + 1) (hf : 1 ≤ f) (hi : i = 2 * f) (him : i ≤ m) :
    c (ccAt m l1 i k j') = dre m (fun s => col x l1 k (j + p * s)) f := by
  subst hj'
  have := h.read (k - 1) j (i - 1) (by omega) hj (by omega)
  rw [hc_re _ _ _ f (by omega)] at this
  unfold ccAt
  simpa [col] using this

lemma read_im (h : Stage x (p * l1) m c) (k i j j' f : ℕ) (hk : 1 ≤ k ∧ k ≤ l1)
    (hj : j < p) (hj' : j' = j + 1) (hf : 1 ≤ f) (hi : i = 2 * f + 1) (him : i ≤ m) :
    c (ccAt m l1 i k j') = dim m (fun s => col x l1 k (j + p * s)) f := by
  subst hj'
  have := h.read (k - 1) j (i - 1) (by omega) hj (by omega)
  rw [hc_im _ _ _ f (by omega) (by omega)] at this
  unfold ccAt
  simpa [col] using this

lemma zr_first (h : Stage x (p * l1) m c) (k f : ℕ) (hk : 1 ≤ k ∧ k ≤ l1) (hp : p ≠ 0)
    (hf : 1 ≤ f) (hfm : 2 * f < m) :
    c (ccAt m l1 (2 * f + 1 - 1) k 1) = ZR p m (col x l1 k) f 0 := by
  rw [read_re h k _ 0 1 f hk (by omega) rfl hf (by omega) (by omega), ZR_first]

lemma zi_first (h : Stage x (p * l1) m c) (k f : ℕ) (hk : 1 ≤ k ∧ k ≤ l1) (hp : p ≠ 0)
    (hf : 1 ≤ f) (hfm : 2 * f < m) :
    c (ccAt m l1 (2 * f + 1) k 1) = ZI p m (col x l1 k) f 0 := by
  rw [read_im h k _ 0 1 f hk (by omega) rfl hf (by omega) (by omega), ZI_first]

lemma zr_eq (h : Stage x (p * l1) m c) {w : ℕ → Buf} (hw : Tw p m w) (k j j' f : ℕ)
    (hk : 1 ≤ k ∧ k ≤ l1) (hj1 : 1 ≤ j) (hj : j < p) (hj' : j' = j + 1) (hf : 1 ≤ f)
    (hfm : 2 * f < m) :
    w (j - 1) (2 * f + 1 - 3) * c (ccAt m l1 (2 * f + 1 - 1) k j') +
      w (j - 1) (2 * f + 1 - 2) * c (ccAt m l1 (2 * f + 1) k j') = ZR p m (col x l1 k) f j := by
  obtain ⟨h1, h2⟩ := hw j hj1 hj f hf hfm
  rw [read_re h k (2 * f + 1 - 1) j j' f hk hj hj' hf (by omega) (by omega),
    read_im h k (2 * f + 1) j j' f hk hj hj' hf (by omega) (by omega),
    show 2 * f + 1 - 3 = 2 * f - 2 by omega, show 2 * f + 1 - 2 = 2 * f - 1 by omega, h1, h2]
  rfl

lemma zi_eq (h : Stage x (p * l1) m c) {w : ℕ → Buf} (hw : Tw p m w) (k j j' f : ℕ)
    (hk : 1 ≤ k ∧ k ≤ l1) (hj1 : 1 ≤ j) (hj : j < p) (hj' : j' = j + 1) (hf : 1 ≤ f)
    (hfm : 2 * f < m) :
    w (j - 1) (2 * f + 1 - 3) * c (ccAt m l1 (2 * f + 1) k j') -
      w (j - 1) (2 * f + 1 - 2) * c (ccAt m l1 (2 * f + 1 - 1) k j') =
      ZI p m (col x l1 k) f j := by
  obtain ⟨h1, h2⟩ := hw j hj1 hj f hf hfm
  rw [read_re h k (2 * f + 1 - 1) j j' f hk hj hj' hf (by omega) (by omega),
    read_im h k (2 * f + 1) j j' f hk hj hj' hf (by omega) (by omega),
    show 2 * f + 1 - 3 = 2 * f - 2 by omega, show 2 * f + 1 - 2 = 2 * f - 1 by omega, h1, h2]
  rfl

end reads

/-! ## Factor 2 -/

lemma ang_1_2 : ang 1 2 = Real.pi := by unfold ang; push_cast; ring

theorem radf2_fits (x : ℕ → ℝ) (l1 m : ℕ) (c : Buf) (w : ℕ → Buf) (hm : m ≠ 0)
    (h : Stage x (2 * l1) m c) (hw : Tw 2 m w) :
    ∀ v ∈ radf2 m l1 c (w 0), Fits x l1 (2 * m) v := by
  have h2 : (2 : ℕ) ≠ 0 := by omega
  intro v hv
  simp only [radf2, List.mem_append, List.mem_flatMap, mem_upTo] at hv
  rcases hv with ⟨k, hk, hv⟩ | hv
  · simp only [List.mem_cons, List.not_mem_nil, or_false] at hv
    have r0 := read_first h hm k 0 1 hk (by omega) rfl
    have r1 := read_first h hm k 1 2 hk (by omega) rfl
    rcases hv with rfl | rfl
    · refine fits_zero hm h2 k _ hk ?_
      simp only [Finset.sum_range_succ, Finset.sum_range_zero]
      rw [r0, r1]; ring
    · refine fits_re_down hm h2 k m 2 0 1 _ hk (by omega) (by omega) rfl (by omega) (by omega) ?_
      simp [Finset.sum_range_succ, ang_zero, ang_1_2, r0, r1]
      ring
  · by_cases hlt : m < 2
    · simp [hlt] at hv
    rw [if_neg hlt] at hv
    rcases List.mem_append.1 hv with hv | hv
    · by_cases he : m = 2
      · simp [he] at hv
      rw [if_neg he] at hv
      simp only [List.mem_flatMap, mem_upTo, mem_odds] at hv
      obtain ⟨k, hk, i, ⟨f, hf, hfm, rfl⟩, hv⟩ := hv
      have a0 := zr_first h k f hk h2 hf hfm
      have b0 := zi_first h k f hk h2 hf hfm
      have a1 := zr_eq h hw k 1 2 f hk (by omega) (by omega) rfl hf hfm
      have b1 := zi_eq h hw k 1 2 f hk (by omega) (by omega) rfl hf hfm
      simp only [Nat.sub_self] at a1 b1
      simp only [List.mem_cons, List.not_mem_nil, or_false] at hv
      rcases hv with rfl | rfl | rfl | rfl
      · refine fits_im_up hm h2 k _ 1 f 0 _ hk rfl (by omega) (by omega) rfl (by omega) ?_
        simp [Finset.sum_range_succ, ang_zero, ← a0, ← b0, ← a1, ← b1]
      · refine fits_im_down hm h2 k _ 2 f 1 _ hk (by omega) (by omega) hf rfl (by omega) (by omega) ?_
        simp [Finset.sum_range_succ, ang_zero, ang_1_2, ← a0, ← b0, ← a1, ← b1]
        ring
      · refine fits_re_up hm h2 k _ 1 f 0 _ hk (by omega) hf (by omega) rfl (by omega) ?_
        simp only [Finset.sum_range_succ, Finset.sum_range_zero]
        rw [← a0, ← b0, ← a1, ← b1]
        simp [ang_zero]
      · refine fits_re_down hm h2 k _ 2 f 1 _ hk (by omega) (by omega) rfl (by omega) (by omega) ?_
        simp only [Finset.sum_range_succ, Finset.sum_range_zero]
        rw [← a0, ← b0, ← a1, ← b1]
        simp [ang_zero, ang_1_2]
        ring
    · by_cases he : m ≠ 2 ∧ m % 2 = 1
      · simp [he] at hv
      rw [if_neg he] at hv
      simp only [List.mem_flatMap, mem_upTo] at hv
      obtain ⟨k, hk, hv⟩ := hv
      obtain ⟨e, rfl⟩ : ∃ e, m = 2 * e := ⟨m / 2, by omega⟩
      have r0 := read_re h k (2 * e) 0 1 e hk (by omega) rfl (by omega) rfl (by omega)
      have r1 := read_re h k (2 * e) 1 2 e hk (by omega) rfl (by omega) rfl (by omega)
      simp only [List.mem_cons, List.not_mem_nil, or_false] at hv
      rcases hv with rfl | rfl
      · refine fits_im_mid hm h2 k 2 e 0 _ hk rfl rfl (by omega) ?_
        simp only [Finset.sum_range_succ, Finset.sum_range_zero,
          ZR_half 2 (2 * e) e rfl (by omega), ZI_half 2 (2 * e) e rfl (by omega)]
        rw [← r0, ← r1]
        simp [ang_zero]
      · refine fits_re_up hm h2 k _ 1 e 0 _ hk rfl (by omega) (by omega) rfl (by omega) ?_
        simp only [Finset.sum_range_succ, Finset.sum_range_zero,
          ZR_half 2 (2 * e) e rfl (by omega), ZI_half 2 (2 * e) e rfl (by omega)]
        rw [← r0, ← r1]
        simp [ang_zero]

/-- A pass that writes all entries of all columns. -/
def Covers (p m l1 : ℕ) (ws : List (ℕ × ℝ)) : Prop :=
  ∀ i j k, 1 ≤ i → i ≤ m → 1 ≤ j → j ≤ p → 1 ≤ k → k ≤ l1 → ∃ v, (chAt m p i j k, v) ∈ ws

lemma Covers.all {p m l1 : ℕ} {ws : List (ℕ × ℝ)} (h : Covers p m l1 ws) (hm : m ≠ 0) (k : ℕ)
    (hk : k < l1) (t : ℕ) (ht : t < p * m) : ∃ w ∈ ws, w.1 = t + p * m * k := by
  have h1 : t / m < p := Nat.div_lt_of_lt_mul (by rw [Nat.mul_comm]; exact ht)
  have h2 : t % m < m := Nat.mod_lt _ (by omega)
  obtain ⟨v, hv⟩ := h (t % m + 1) (t / m + 1) (k + 1) (Nat.le_add_left _ _) h2
    (Nat.le_add_left _ _) h1 (Nat.le_add_left _ _) hk
  refine ⟨_, hv, ?_⟩
  show chAt m p (t % m + 1) (t / m + 1) (k + 1) = _
  unfold chAt
  simp only [Nat.add_sub_cancel]
  have := Nat.mod_add_div t m
  calc t % m + m * (t / m + p * k) = (t % m + m * (t / m)) + p * m * k := by ring
    _ = t + p * m * k := by rw [this]

lemma stage_pass (x : ℕ → ℝ) (p m l1 : ℕ) (b : Buf) (ws : List (ℕ × ℝ)) (hm : m ≠ 0)
    (hs : ∀ w ∈ ws, Fits x l1 (p * m) w) (hc' : Covers p m l1 ws) :
    put (p * m * l1) b ws = .ok (store b ws) ∧ Stage x l1 (p * m) (store b ws) :=
  stage_of_fits x l1 (p * m) b ws hs (fun k hk t ht => hc'.all hm k hk t ht)

theorem radf2_covers (l1 m : ℕ) (c w : Buf) (hm : m ≠ 0) : Covers 2 m l1 (radf2 m l1 c w) := by
  intro i j k hi1 hi2 hj1 hj2 hk1 hk2
  simp only [radf2, List.mem_append, List.mem_flatMap, mem_upTo]
  have hk : 1 ≤ k ∧ k ≤ l1 := ⟨hk1, hk2⟩
  by_cases h1 : j = 1 ∧ i = 1
  · obtain ⟨rfl, rfl⟩ := h1
    exact ⟨_, Or.inl ⟨k, hk, List.mem_cons_self ..⟩⟩
  by_cases h2 : j = 2 ∧ i = m
  · obtain ⟨rfl, rfl⟩ := h2
    exact ⟨_, Or.inl ⟨k, hk, List.mem_cons_of_mem _ (List.mem_cons_self ..)⟩⟩
  have hlt : ¬ m < 2 := by omega
  rw [if_neg hlt]
  by_cases h3 : m % 2 = 0 ∧ ((j = 1 ∧ i = m) ∨ (j = 2 ∧ i = 1))
  · obtain ⟨h3, h4⟩ := h3
    rw [if_neg (show ¬ (m ≠ 2 ∧ m % 2 = 1) by omega)]
    rcases h4 with ⟨rfl, rfl⟩ | ⟨rfl, rfl⟩
    · exact ⟨_, Or.inr (List.mem_append_right _ (List.mem_flatMap.2 ⟨k, (mem_upTo ..).2 hk,
        List.mem_cons_of_mem _ (List.mem_cons_self ..)⟩))⟩
    · exact ⟨_, Or.inr (List.mem_append_right _ (List.mem_flatMap.2 ⟨k, (mem_upTo ..).2 hk,
        List.mem_cons_self ..⟩))⟩
  rw [if_neg (show ¬ m = 2 by omega)]
  obtain ⟨f, hf, hfm, hcase⟩ : ∃ f, 1 ≤ f ∧ 2 * f < m ∧
      ((j = 1 ∧ (i = 2 * f + 1 ∨ i = 2 * f + 1 - 1)) ∨
        (j = 2 ∧ (i = m + 2 - (2 * f + 1) ∨ i = m + 2 - (2 * f + 1) - 1))) := by
    by_cases hj : j = 1
    · exact ⟨i / 2, by omega, by omega, Or.inl ⟨hj, by omega⟩⟩
    · exact ⟨(m + 1 - i) / 2, by omega, by omega, Or.inr ⟨by omega, by omega⟩⟩
  have hmem : 2 * f + 1 ∈ odds m := (mem_odds _ _).2 ⟨f, hf, hfm, rfl⟩
  rcases hcase with ⟨rfl, rfl | rfl⟩ | ⟨rfl, rfl | rfl⟩
  · exact ⟨_, Or.inr (List.mem_append_left _ (List.mem_flatMap.2 ⟨k, (mem_upTo ..).2 hk,
      List.mem_flatMap.2 ⟨2 * f + 1, hmem, List.mem_cons_self ..⟩⟩))⟩
  · exact ⟨_, Or.inr (List.mem_append_left _ (List.mem_flatMap.2 ⟨k, (mem_upTo ..).2 hk,
      List.mem_flatMap.2 ⟨2 * f + 1, hmem, List.mem_cons_of_mem _ (List.mem_cons_of_mem _
        (List.mem_cons_self ..))⟩⟩))⟩
  · exact ⟨_, Or.inr (List.mem_append_left _ (List.mem_flatMap.2 ⟨k, (mem_upTo ..).2 hk,
      List.mem_flatMap.2 ⟨2 * f + 1, hmem, List.mem_cons_of_mem _ (List.mem_cons_self ..)⟩⟩))⟩
  · exact ⟨_, Or.inr (List.mem_append_left _ (List.mem_flatMap.2 ⟨k, (mem_upTo ..).2 hk,
      List.mem_flatMap.2 ⟨2 * f + 1, hmem, List.mem_cons_of_mem _ (List.mem_cons_of_mem _
        (List.mem_cons_of_mem _ (List.mem_cons_self ..)))⟩⟩))⟩

/-! ## Factor 3 -/

lemma cos_ang_1_3 : Real.cos (ang 1 3) = -1 / 2 := by
  have : ang 1 3 = Real.pi - Real.pi / 3 := by unfold ang; push_cast; ring
  rw [this, Real.cos_pi_sub, Real.cos_pi_div_three]; ring

lemma sin_ang_1_3 : Real.sin (ang 1 3) = √3 / 2 := by
  have : ang 1 3 = Real.pi - Real.pi / 3 := by unfold ang; push_cast; ring
  rw [this, Real.sin_pi_sub, Real.sin_pi_div_three]

lemma cos_ang_2_3 : Real.cos (ang 2 3) = -1 / 2 := by
  have : ang 2 3 = Real.pi / 3 + Real.pi := by unfold ang; push_cast; ring
  rw [this, Real.cos_add_pi, Real.cos_pi_div_three]; ring

lemma sin_ang_2_3 : Real.sin (ang 2 3) = -(√3 / 2) := by
  have : ang 2 3 = Real.pi / 3 + Real.pi := by unfold ang; push_cast; ring
  rw [this, Real.sin_add_pi, Real.sin_pi_div_three]

theorem radf3_fits (x : ℕ → ℝ) (l1 m : ℕ) (c : Buf) (w : ℕ → Buf) (hm : m ≠ 0)
    (h : Stage x (3 * l1) m c) (hw : Tw 3 m w) :
    ∀ v ∈ radf3 m l1 c (w 0) (w 1), Fits x l1 (3 * m) v := by
  have h3 : (3 : ℕ) ≠ 0 := by omega
  intro v hv
  simp only [radf3, List.mem_append, List.mem_flatMap, mem_upTo] at hv
  rcases hv with ⟨k, hk, hv⟩ | hv
  · simp only [List.mem_cons, List.not_mem_nil, or_false] at hv
    have r0 := read_first h hm k 0 1 hk (by omega) rfl
    have r1 := read_first h hm k 1 2 hk (by omega) rfl
    have r2 := read_first h hm k 2 3 hk (by omega) rfl
    rcases hv with rfl | rfl | rfl
    · refine fits_zero hm h3 k _ hk ?_
      simp only [Finset.sum_range_succ, Finset.sum_range_zero]
      rw [r0, r1, r2]; ring
    · refine fits_im_up hm h3 k 1 3 0 1 _ hk rfl (by omega) (by omega) rfl (by omega) ?_
      simp [Finset.sum_range_succ, ang_zero, cos_ang_1_3, sin_ang_1_3, cos_ang_2_3, sin_ang_2_3,
        r1, r2, ZI_zero]
      ring
    · refine fits_re_down hm h3 k m 2 0 1 _ hk (by omega) (by omega) rfl (by omega) (by omega) ?_
      simp [Finset.sum_range_succ, ang_zero, cos_ang_1_3, sin_ang_1_3, cos_ang_2_3, sin_ang_2_3,
        r0, r1, r2, ZI_zero]
      ring
  · by_cases he : m = 1
    · simp [he] at hv
    rw [if_neg he] at hv
    simp only [List.mem_flatMap, mem_upTo, mem_odds] at hv
    obtain ⟨k, hk, i, ⟨f, hf, hfm, rfl⟩, hv⟩ := hv
    have a0 := zr_first h k f hk h3 hf hfm
    have b0 := zi_first h k f hk h3 hf hfm
    have a1 := zr_eq h hw k 1 2 f hk (by omega) (by omega) rfl hf hfm
    have b1 := zi_eq h hw k 1 2 f hk (by omega) (by omega) rfl hf hfm
    have a2 := zr_eq h hw k 2 3 f hk (by omega) (by omega) rfl hf hfm
    have b2 := zi_eq h hw k 2 3 f hk (by omega) (by omega) rfl hf hfm
    simp only [Nat.sub_self, Nat.reduceSub] at a1 b1 a2 b2
    simp only [List.mem_cons, List.not_mem_nil, or_false, a0, b0, a1, b1, a2, b2] at hv
    rcases hv with rfl | rfl | rfl | rfl | rfl | rfl
    · refine fits_re_up hm h3 k _ 1 f 0 _ hk (by omega) hf (by omega) rfl (by omega) ?_
      simp [Finset.sum_range_succ, ang_zero]
      ring
    · refine fits_im_up hm h3 k _ 1 f 0 _ hk rfl (by omega) (by omega) rfl (by omega) ?_
      simp [Finset.sum_range_succ, ang_zero]
      ring
    · refine fits_re_up hm h3 k _ 3 f 1 _ hk (by omega) hf (by omega) rfl (by omega) ?_
      simp [Finset.sum_range_succ, ang_zero, cos_ang_1_3, sin_ang_1_3, cos_ang_2_3, sin_ang_2_3]
      ring
    · refine fits_re_down hm h3 k _ 2 f 1 _ hk (by omega) (by omega) rfl (by omega) (by omega) ?_
      simp [Finset.sum_range_succ, ang_zero, cos_ang_1_3, sin_ang_1_3, cos_ang_2_3, sin_ang_2_3]
      ring
    · refine fits_im_up hm h3 k _ 3 f 1 _ hk rfl (by omega) (by omega) rfl (by omega) ?_
      simp [Finset.sum_range_succ, ang_zero, cos_ang_1_3, sin_ang_1_3, cos_ang_2_3, sin_ang_2_3]
      ring
    · refine fits_im_down hm h3 k _ 2 f 1 _ hk (by omega) (by omega) hf rfl (by omega) (by omega) ?_
      simp [Finset.sum_range_succ, ang_zero, cos_ang_1_3, sin_ang_1_3, cos_ang_2_3, sin_ang_2_3]
      ring

theorem radf3_covers (l1 m : ℕ) (c w w' : Buf) (hm : m % 2 = 1) :
    Covers 3 m l1 (radf3 m l1 c w w') := by
  intro i j k hi1 hi2 hj1 hj2 hk1 hk2
  simp only [radf3, List.mem_append, List.mem_flatMap, mem_upTo]
  have hk : 1 ≤ k ∧ k ≤ l1 := ⟨hk1, hk2⟩
  by_cases h1 : (j = 1 ∧ i = 1) ∨ (j = 3 ∧ i = 1) ∨ (j = 2 ∧ i = m)
  · rcases h1 with ⟨rfl, rfl⟩ | ⟨rfl, rfl⟩ | ⟨rfl, rfl⟩
    · exact ⟨_, Or.inl ⟨k, hk, .head _⟩⟩
    · exact ⟨_, Or.inl ⟨k, hk, .tail _ (.head _)⟩⟩
    · exact ⟨_, Or.inl ⟨k, hk, .tail _ (.tail _ (.head _))⟩⟩
  rw [if_neg (show ¬ m = 1 by omega)]
  obtain ⟨f, hf, hfm, hcase⟩ : ∃ f, 1 ≤ f ∧ 2 * f < m ∧
      ((j = 1 ∧ i = 2 * f + 1 - 1) ∨ (j = 1 ∧ i = 2 * f + 1) ∨ (j = 3 ∧ i = 2 * f + 1 - 1) ∨
        (j = 2 ∧ i = m + 2 - (2 * f + 1) - 1) ∨ (j = 3 ∧ i = 2 * f + 1) ∨
        (j = 2 ∧ i = m + 2 - (2 * f + 1))) := by
    by_cases hj : j = 2
    · exact ⟨(m + 1 - i) / 2, by omega, by omega, by omega⟩
    · exact ⟨i / 2, by omega, by omega, by omega⟩
  have hmem : 2 * f + 1 ∈ odds m := (mem_odds _ _).2 ⟨f, hf, hfm, rfl⟩
  have key : ∀ body : ℕ → ℕ → List (ℕ × ℝ), ∀ u ∈ body k (2 * f + 1),
      u ∈ (upTo 1 l1).flatMap (fun k => (odds m).flatMap (fun i => body k i)) :=
    fun body u hu => List.mem_flatMap.2 ⟨k, (mem_upTo ..).2 hk,
      List.mem_flatMap.2 ⟨2 * f + 1, hmem, hu⟩⟩
  rcases hcase with ⟨rfl, rfl⟩ | ⟨rfl, rfl⟩ | ⟨rfl, rfl⟩ | ⟨rfl, rfl⟩ | ⟨rfl, rfl⟩ | ⟨rfl, rfl⟩
  · exact ⟨_, Or.inr (key _ _ (.head _))⟩
  · exact ⟨_, Or.inr (key _ _ (.tail _ (.head _)))⟩
  · exact ⟨_, Or.inr (key _ _ (.tail _ (.tail _ (.head _))))⟩
  · exact ⟨_, Or.inr (key _ _ (.tail _ (.tail _ (.tail _ (.head _)))))⟩
  · exact ⟨_, Or.inr (key _ _ (.tail _ (.tail _ (.tail _ (.tail _ (.head _))))))⟩
  · exact ⟨_, Or.inr (key _ _ (.tail _ (.tail _ (.tail _ (.tail _ (.tail _ (.head _)))))))⟩

end Marley.Fft
