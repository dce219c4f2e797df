import Verif.Model.Fftpack
import Mathlib.Algebra.BigOperators.Intervals
import Mathlib.Algebra.BigOperators.Ring.Finset
import Mathlib.Tactic.Ring
import Mathlib.Tactic.Linarith
import Mathlib.Tactic.FieldSimp
import Mathlib.Tactic.LinearCombination

/-! # Discrete Fourier transforms of real numbers -/

set_option autoImplicit false

namespace Marley.Fft
open Finset

/-- The angle `2 π a / m`. -/
noncomputable def ang (a : ℤ) (m : ℕ) : ℝ := 2 * Real.pi * (a : ℝ) / (m : ℝ)

/-- Real part of entry `f` of the Fourier transform of `m` real numbers. -/
noncomputable def dre (m : ℕ) (y : ℕ → ℝ) (f : ℤ) : ℝ :=
  ∑ t ∈ range m, y t * Real.cos (ang (f * t) m)

/-- Imaginary part. -/
noncomputable def dim (m : ℕ) (y : ℕ → ℝ) (f : ℤ) : ℝ :=
  -∑ t ∈ range m, y t * Real.sin (ang (f * t) m)

/-- The order in which the library keeps the entries: the first, then real and imaginary parts
of the others. -/
noncomputable def hc (m : ℕ) (y : ℕ → ℝ) (t : ℕ) : ℝ :=
  if t = 0 then dre m y 0
  else if t % 2 = 1 then dre m y ((t + 1) / 2 : ℕ)
  else dim m y (t / 2 : ℕ)

lemma ang_add (a b : ℤ) (m : ℕ) : ang (a + b) m = ang a m + ang b m := by
  unfold ang; push_cast; ring

lemma ang_neg (a : ℤ) (m : ℕ) : ang (-a) m = -ang a m := by
  unfold ang; push_cast; ring

lemma ang_zero (m : ℕ) : ang 0 m = 0 := by simp [ang]

lemma ang_self_mul (m : ℕ) (hm : m ≠ 0) (a : ℤ) : ang (a * m) m = a * (2 * Real.pi) := by
  unfold ang
  have : (m : ℝ) ≠ 0 := by exact_mod_cast hm
  push_cast
  field_simp

lemma ang_cancel (p m : ℕ) (hp : p ≠ 0) (a : ℤ) : ang (a * p) (p * m) = ang a m := by
  unfold ang
  have : (p : ℝ) ≠ 0 := by exact_mod_cast hp
  by_cases hm : m = 0
  · subst hm; simp
  have : (m : ℝ) ≠ 0 := by exact_mod_cast hm
  push_cast
  field_simp

lemma cos_add_period (θ : ℝ) (k : ℤ) : Real.cos (θ + k * (2 * Real.pi)) = Real.cos θ :=
  Real.cos_add_int_mul_two_pi θ k

lemma sum_split (p m : ℕ) (g : ℕ → ℝ) :
    ∑ t ∈ range (p * m), g t = ∑ j ∈ range p, ∑ s ∈ range m, g (j + p * s) := by
  rw [Finset.sum_comm]
  induction m with
  | zero => simp
  | succ m ih =>
    rw [Nat.mul_succ, Finset.sum_range_add, ih, Finset.sum_range_succ]
    congr 1
    exact Finset.sum_congr rfl (fun j _ => by rw [Nat.add_comm])

lemma dre_periodic (m : ℕ) (hm : m ≠ 0) (y : ℕ → ℝ) (f q : ℤ) : dre m y (f + q * m) = dre m y f := by
  unfold dre
  refine Finset.sum_congr rfl (fun t _ => ?_)
  have : (f + q * m) * (t : ℤ) = f * t + (q * t) * m := by ring
  rw [this, ang_add, ang_self_mul m hm, Real.cos_add_int_mul_two_pi]

lemma dim_periodic (m : ℕ) (hm : m ≠ 0) (y : ℕ → ℝ) (f q : ℤ) : dim m y (f + q * m) = dim m y f := by
  unfold dim
  congr 1
  refine Finset.sum_congr rfl (fun t _ => ?_)
  have : (f + q * m) * (t : ℤ) = f * t + (q * t) * m := by ring
  rw [this, ang_add, ang_self_mul m hm, Real.sin_add_int_mul_two_pi]

lemma dre_neg (m : ℕ) (y : ℕ → ℝ) (f : ℤ) : dre m y (-f) = dre m y f := by
  unfold dre
  refine Finset.sum_congr rfl (fun t _ => ?_)
  rw [neg_mul, ang_neg, Real.cos_neg]

lemma dim_neg (m : ℕ) (y : ℕ → ℝ) (f : ℤ) : dim m y (-f) = -dim m y f := by
  unfold dim
  have : ∑ t ∈ range m, y t * Real.sin (ang (-f * t) m) =
      -∑ t ∈ range m, y t * Real.sin (ang (f * t) m) := by
    rw [← Finset.sum_neg_distrib]
    refine Finset.sum_congr rfl (fun t _ => ?_)
    rw [neg_mul, ang_neg, Real.sin_neg, mul_neg]
  rw [this]

lemma dim_zero (m : ℕ) (y : ℕ → ℝ) : dim m y 0 = 0 := by
  simp [dim, ang_zero]

lemma dim_half (m : ℕ) (hm : m ≠ 0) (y : ℕ → ℝ) (f : ℤ) (h : 2 * f = m) : dim m y f = 0 := by
  have h1 := dim_neg m y f
  have h2 := dim_periodic m hm y (-f) 1
  have : -f + 1 * (m : ℤ) = f := by omega
  rw [this] at h2
  linarith

/-- Decimation: the transform of `p * m` numbers from those of every `p`-th number. -/
lemma dre_split (p m : ℕ) (hp : p ≠ 0) (y : ℕ → ℝ) (F : ℤ) :
    dre (p * m) y F = ∑ j ∈ range p,
      (Real.cos (ang (F * j) (p * m)) * dre m (fun s => y (j + p * s)) F +
        Real.sin (ang (F * j) (p * m)) * dim m (fun s => y (j + p * s)) F) := by
  unfold dre dim
  rw [sum_split]
  refine Finset.sum_congr rfl (fun j _ => ?_)
  rw [mul_neg, Finset.mul_sum, Finset.mul_sum, ← sub_eq_add_neg, ← Finset.sum_sub_distrib]
  refine Finset.sum_congr rfl (fun s _ => ?_)
  have : F * ((j + p * s : ℕ) : ℤ) = F * j + (F * s) * p := by push_cast; ring
  rw [this, ang_add, ang_cancel p m hp, Real.cos_add]
  ring

lemma dim_split (p m : ℕ) (hp : p ≠ 0) (y : ℕ → ℝ) (F : ℤ) :
    dim (p * m) y F = ∑ j ∈ range p,
      (Real.cos (ang (F * j) (p * m)) * dim m (fun s => y (j + p * s)) F -
        Real.sin (ang (F * j) (p * m)) * dre m (fun s => y (j + p * s)) F) := by
  unfold dre dim
  rw [sum_split, ← Finset.sum_neg_distrib]
  refine Finset.sum_congr rfl (fun j _ => ?_)
  rw [mul_neg, Finset.mul_sum, Finset.mul_sum, ← neg_add', ← Finset.sum_add_distrib]
  congr 1
  refine Finset.sum_congr rfl (fun s _ => ?_)
  have : F * ((j + p * s : ℕ) : ℤ) = F * j + (F * s) * p := by push_cast; ring
  rw [this, ang_add, ang_cancel p m hp, Real.sin_add]
  ring

/-- Entry `f` of the transform of every `p`-th number, multiplied by a root of unity. -/
noncomputable def ZR (p m : ℕ) (y : ℕ → ℝ) (f : ℤ) (j : ℕ) : ℝ :=
  Real.cos (ang (f * j) (p * m)) * dre m (fun s => y (j + p * s)) f +
    Real.sin (ang (f * j) (p * m)) * dim m (fun s => y (j + p * s)) f

noncomputable def ZI (p m : ℕ) (y : ℕ → ℝ) (f : ℤ) (j : ℕ) : ℝ :=
  Real.cos (ang (f * j) (p * m)) * dim m (fun s => y (j + p * s)) f -
    Real.sin (ang (f * j) (p * m)) * dre m (fun s => y (j + p * s)) f

lemma dre_up (p m : ℕ) (hp : p ≠ 0) (hm : m ≠ 0) (y : ℕ → ℝ) (f q : ℤ) :
    dre (p * m) y (f + q * m) = ∑ j ∈ range p,
      (Real.cos (ang (q * j) p) * ZR p m y f j + Real.sin (ang (q * j) p) * ZI p m y f j) := by
  rw [dre_split p m hp]
  refine Finset.sum_congr rfl (fun j _ => ?_)
  have : (f + q * m) * (j : ℤ) = f * j + (q * j) * m := by ring
  rw [dre_periodic m hm, dim_periodic m hm, this, ang_add, Nat.mul_comm p m, ang_cancel m p hm]
  unfold ZR ZI
  rw [Nat.mul_comm p m, Real.cos_add, Real.sin_add]
  ring

lemma dim_up (p m : ℕ) (hp : p ≠ 0) (hm : m ≠ 0) (y : ℕ → ℝ) (f q : ℤ) :
    dim (p * m) y (f + q * m) = ∑ j ∈ range p,
      (Real.cos (ang (q * j) p) * ZI p m y f j - Real.sin (ang (q * j) p) * ZR p m y f j) := by
  rw [dim_split p m hp]
  refine Finset.sum_congr rfl (fun j _ => ?_)
  have : (f + q * m) * (j : ℤ) = f * j + (q * j) * m := by ring
  rw [dre_periodic m hm, dim_periodic m hm, this, ang_add, Nat.mul_comm p m, ang_cancel m p hm]
  unfold ZR ZI
  rw [Nat.mul_comm p m, Real.cos_add, Real.sin_add]
  ring

lemma dre_down (p m : ℕ) (hp : p ≠ 0) (hm : m ≠ 0) (y : ℕ → ℝ) (f q : ℤ) :
    dre (p * m) y (q * m - f) = ∑ j ∈ range p,
      (Real.cos (ang (q * j) p) * ZR p m y f j - Real.sin (ang (q * j) p) * ZI p m y f j) := by
  have : q * (m : ℤ) - f = -(f + (-q) * m) := by ring
  rw [this, dre_neg, dre_up p m hp hm]
  refine Finset.sum_congr rfl (fun j _ => ?_)
  rw [neg_mul, ang_neg, Real.cos_neg, Real.sin_neg]
  ring

lemma dim_down (p m : ℕ) (hp : p ≠ 0) (hm : m ≠ 0) (y : ℕ → ℝ) (f q : ℤ) :
    dim (p * m) y (q * m - f) = -∑ j ∈ range p,
      (Real.cos (ang (q * j) p) * ZI p m y f j + Real.sin (ang (q * j) p) * ZR p m y f j) := by
  have : q * (m : ℤ) - f = -(f + (-q) * m) := by ring
  rw [this, dim_neg, dim_up p m hp hm]
  congr 1
  refine Finset.sum_congr rfl (fun j _ => ?_)
  rw [neg_mul, ang_neg, Real.cos_neg, Real.sin_neg]
  ring

lemma ZR_zero (p m : ℕ) (y : ℕ → ℝ) (j : ℕ) :
    ZR p m y 0 j = dre m (fun s => y (j + p * s)) 0 := by
  simp [ZR, ang_zero]

lemma ZI_zero (p m : ℕ) (y : ℕ → ℝ) (j : ℕ) : ZI p m y 0 j = 0 := by
  simp [ZI, ang_zero, dim_zero]

lemma ZR_first (p m : ℕ) (y : ℕ → ℝ) (f : ℤ) : ZR p m y f 0 = dre m (fun s => y (0 + p * s)) f := by
  simp [ZR, ang_zero]

lemma ZI_first (p m : ℕ) (y : ℕ → ℝ) (f : ℤ) : ZI p m y f 0 = dim m (fun s => y (0 + p * s)) f := by
  simp [ZI, ang_zero]

lemma ang_half (m e : ℕ) (hm : m = 2 * e) (p : ℕ) (he : e ≠ 0) (j : ℕ) :
    ang ((e : ℤ) * j) (p * m) = Real.pi * j / p := by
  unfold ang
  have : (e : ℝ) ≠ 0 := by exact_mod_cast he
  by_cases hp : p = 0
  · subst hp; simp
  have : (p : ℝ) ≠ 0 := by exact_mod_cast hp
  subst hm
  push_cast
  field_simp

lemma ZR_half (p m e : ℕ) (hm : m = 2 * e) (he : e ≠ 0) (y : ℕ → ℝ) (j : ℕ) :
    ZR p m y e j = Real.cos (Real.pi * j / p) * dre m (fun s => y (j + p * s)) e := by
  unfold ZR
  rw [dim_half m (by omega) _ e (by omega), ang_half m e hm p he]
  ring

lemma ZI_half (p m e : ℕ) (hm : m = 2 * e) (he : e ≠ 0) (y : ℕ → ℝ) (j : ℕ) :
    ZI p m y e j = -Real.sin (Real.pi * j / p) * dre m (fun s => y (j + p * s)) e := by
  unfold ZI
  rw [dim_half m (by omega) _ e (by omega), ang_half m e hm p he]
  ring

/-! ## The order of the entries -/

lemma hc_zero (m : ℕ) (y : ℕ → ℝ) : hc m y 0 = dre m y 0 := by simp [hc]

lemma hc_re (m : ℕ) (y : ℕ → ℝ) (t F : ℕ) (h : t + 1 = 2 * F) : hc m y t = dre m y (F : ℤ) := by
  unfold hc
  rw [if_neg (by omega), if_pos (by omega)]
  congr 2
  omega

lemma hc_im (m : ℕ) (y : ℕ → ℝ) (t F : ℕ) (h : t = 2 * F) (hF : F ≠ 0) :
    hc m y t = dim m y (F : ℤ) := by
  unfold hc
  rw [if_neg (by omega), if_neg (by omega)]
  congr 2
  omega

/-! ## Writing and reading -/

lemma store_cons (b : Buf) (w : ℕ × ℝ) (ws : List (ℕ × ℝ)) :
    store b (w :: ws) = store (Function.update b w.1 w.2) ws := rfl

lemma store_append (b : Buf) (ws vs : List (ℕ × ℝ)) :
    store b (ws ++ vs) = store (store b ws) vs := by
  simp [store]

lemma store_not_mem (b : Buf) (ws : List (ℕ × ℝ)) (a : ℕ) (h : ∀ w ∈ ws, w.1 ≠ a) :
    store b ws a = b a := by
  induction ws generalizing b with
  | nil => rfl
  | cons w t ih =>
    rw [store_cons, ih _ (fun v hv => h v (by simp [hv])), Function.update_of_ne]
    exact (h w (by simp)).symm

/-- If all values written to a position agree, the position holds that value. -/
lemma store_mem (b : Buf) (ws : List (ℕ × ℝ)) (a : ℕ) (v : ℝ)
    (hv : ∀ w ∈ ws, w.1 = a → w.2 = v) (h : ∃ w ∈ ws, w.1 = a) : store b ws a = v := by
  induction ws generalizing b with
  | nil => obtain ⟨w, hw, _⟩ := h; cases hw
  | cons w t ih =>
    rw [store_cons]
    by_cases ht : ∃ u ∈ t, u.1 = a
    · exact ih _ (fun u hu => hv u (by simp [hu])) ht
    · have hne : ∀ u ∈ t, u.1 ≠ a := fun u hu he => ht ⟨u, hu, he⟩
      rw [store_not_mem _ _ _ hne]
      obtain ⟨u, hu, hua⟩ := h
      rcases List.mem_cons.1 hu with h1 | h1
      · subst h1
        rw [hua, Function.update_self]
        exact hv u (by simp) hua
      · exact absurd hua (hne u h1)

lemma put_ok (cap : ℕ) (b : Buf) (ws : List (ℕ × ℝ)) (h : ∀ w ∈ ws, w.1 < cap) :
    put cap b ws = .ok (store b ws) := by
  unfold put
  rw [if_pos]
  simpa using h

lemma mem_upTo (a b k : ℕ) : k ∈ upTo a b ↔ a ≤ k ∧ k ≤ b := by
  unfold upTo
  simp only [List.mem_map, List.mem_range]
  constructor
  · rintro ⟨i, hi, rfl⟩; omega
  · intro h; exact ⟨k - a, by omega, by omega⟩

lemma mem_odds (ido i : ℕ) : i ∈ odds ido ↔ ∃ f, 1 ≤ f ∧ 2 * f < ido ∧ i = 2 * f + 1 := by
  unfold odds
  simp only [List.mem_map, List.mem_range]
  constructor
  · rintro ⟨q, hq, rfl⟩; exact ⟨q + 1, by omega, by omega, by omega⟩
  · rintro ⟨f, h1, h2, rfl⟩; exact ⟨f - 1, by omega, by omega⟩

/-- The array holds, one after the other, the transforms of every `L`-th number. -/
def Stage (x : ℕ → ℝ) (L m : ℕ) (b : Buf) : Prop :=
  ∀ k, k < L → ∀ t, t < m → b (t + m * k) = hc m (fun s => x (k + L * s)) t

/-- A value that belongs to the next stage. -/
def Fits (x : ℕ → ℝ) (l1 M : ℕ) (w : ℕ × ℝ) : Prop :=
  ∃ k, k < l1 ∧ ∃ t, t < M ∧ w.1 = t + M * k ∧ w.2 = hc M (fun s => x (k + l1 * s)) t

lemma addr_inj (M t k t' k' : ℕ) (ht : t < M) (ht' : t' < M) (h : t + M * k = t' + M * k') :
    t = t' ∧ k = k' := by
  have h1 : (t + M * k) / M = k := by
    rw [Nat.add_mul_div_left _ _ (by omega), Nat.div_eq_of_lt ht, Nat.zero_add]
  have h2 : (t' + M * k') / M = k' := by
    rw [Nat.add_mul_div_left _ _ (by omega), Nat.div_eq_of_lt ht', Nat.zero_add]
  have : k = k' := by rw [← h1, ← h2, h]
  subst this
  exact ⟨by omega, rfl⟩

lemma addr_lt (M l t k : ℕ) (ht : t < M) (hk : k < l) : t + M * k < M * l := by
  calc t + M * k < M + M * k := by omega
    _ = M * (k + 1) := by ring
    _ ≤ M * l := Nat.mul_le_mul_left M hk

lemma Fits.lt {x : ℕ → ℝ} {l1 M : ℕ} {w : ℕ × ℝ} (h : Fits x l1 M w) : w.1 < M * l1 := by
  obtain ⟨k, hk, t, ht, h1, _⟩ := h
  rw [h1]
  exact addr_lt M l1 t k ht hk

/-- A pass is right if all its writes are right and it writes everything. -/
lemma stage_of_fits (x : ℕ → ℝ) (l1 M : ℕ) (b : Buf) (ws : List (ℕ × ℝ))
    (hs : ∀ w ∈ ws, Fits x l1 M w)
    (hc' : ∀ k, k < l1 → ∀ t, t < M → ∃ w ∈ ws, w.1 = t + M * k) :
    put (M * l1) b ws = .ok (store b ws) ∧ Stage x l1 M (store b ws) := by
  refine ⟨put_ok _ _ _ (fun w hw => (hs w hw).lt), ?_⟩
  intro k hk t ht
  refine store_mem _ _ _ _ ?_ (hc' k hk t ht)
  intro w hw ha
  obtain ⟨k', hk', t', ht', h1, h2⟩ := hs w hw
  obtain ⟨rfl, rfl⟩ := addr_inj M t k t' k' ht ht' (by rw [← ha, h1])
  exact h2

lemma Stage.read {x : ℕ → ℝ} {p l1 m : ℕ} {c : Buf} (h : Stage x (p * l1) m c) (k j t : ℕ)
    (hk : k < l1) (hj : j < p) (ht : t < m) :
    c (t + m * (k + l1 * j)) = hc m (fun s => x (k + l1 * (j + p * s))) t := by
  have hlt : k + l1 * j < p * l1 := by
    rw [Nat.mul_comm p l1]; exact addr_lt l1 p k j hk hj
  rw [h _ hlt t ht]
  congr 1
  funext s
  congr 1
  ring

end Marley.Fft
