import Verif.Model.PickRounded
import Verif.Props.BisectRounded
import Verif.Props.Generator

/-!
# C19 with rounding: the choice of a reaction

`ε` is the relative error of the rounding `rd` (`RoundsWithin`).
-/

set_option autoImplicit false

namespace Marley.Props
open Marley Marley.Sampling

/-- The partial sum of the first probabilities. -/
noncomputable def part (rd : ℝ → ℝ) (total acc : ℝ) (w : List ℝ) : ℝ :=
  w.foldl (fun a x => rd (a + rd (x / total))) acc

theorem cumulativeRounded_length (rd : ℝ → ℝ) (total acc : ℝ) (w : List ℝ) :
    (cumulativeRounded rd total acc w).length = w.length := by
  induction w generalizing acc with
  | nil => rfl
  | cons x t ih =>
    cases t with
    | nil => rfl
    | cons y t => simp only [cumulativeRounded, List.length_cons]; rw [ih]; rfl

theorem cumulativeRounded_get (rd : ℝ → ℝ) (total acc : ℝ) (w : List ℝ) (k : Nat) (hk : k < w.length) :
    (cumulativeRounded rd total acc w)[k]? =
      some (if k + 1 = w.length then 1 else part rd total acc (w.take (k + 1))) := by
  induction w generalizing acc k with
  | nil => simp at hk
  | cons x t ih =>
    cases t with
    | nil =>
      have : k = 0 := by simpa using hk
      subst this
      simp [cumulativeRounded]
    | cons y t =>
      rw [cumulativeRounded.eq_3 _ _ _ _ _ (by simp)]
      cases k with
      | zero => simp [part]
      | succ k =>
        rw [List.getElem?_cons_succ, ih _ k (by simpa using hk)]
        simp [part]

section
variable {ε : ℝ} {rd : ℝ → ℝ}

theorem RoundsWithin.bounds (h : RoundsWithin ε rd) {x : ℝ} (hx : 0 ≤ x) :
    (1 - ε) * x ≤ rd x ∧ rd x ≤ (1 + ε) * x := by
  have := abs_le.1 (h.error x)
  rw [abs_of_nonneg hx] at this
  constructor <;> linarith [this.1, this.2]

theorem RoundsWithin.nonneg (h : RoundsWithin ε rd) {x : ℝ} (hx : 0 ≤ x) : 0 ≤ rd x := by
  have := h.mono hx
  rwa [h.zero] at this

/-- Sums of rounded numbers. -/
theorem foldl_bounds (h : RoundsWithin ε rd) (h0 : 0 ≤ ε) (h1 : ε < 1) (w : List ℝ) (hw : ∀ x ∈ w, 0 ≤ x)
    (acc : ℝ) (ha : 0 ≤ acc) :
    (1 - ε) ^ w.length * (acc + w.sum) ≤ w.foldl (fun a x => rd (a + x)) acc ∧
      w.foldl (fun a x => rd (a + x)) acc ≤ (1 + ε) ^ w.length * (acc + w.sum) := by
  induction w generalizing acc with
  | nil => simp
  | cons x t ih =>
    have hx := hw x (by simp)
    have ht : ∀ y ∈ t, 0 ≤ y := fun y hy => hw y (by simp [hy])
    have hsum : 0 ≤ t.sum := List.sum_nonneg ht
    have hb := h.bounds (add_nonneg ha hx)
    obtain ⟨i1, i2⟩ := ih ht (rd (acc + x)) (h.nonneg (add_nonneg ha hx))
    rw [List.foldl_cons, List.length_cons, List.sum_cons]
    constructor
    · refine le_trans ?_ i1
      rw [pow_succ, mul_assoc]
      refine mul_le_mul_of_nonneg_left ?_ (pow_nonneg (by linarith) _)
      nlinarith
    · refine i2.trans ?_
      rw [pow_succ, mul_assoc]
      refine mul_le_mul_of_nonneg_left ?_ (pow_nonneg (by linarith) _)
      nlinarith

theorem sumRounded_bounds (h : RoundsWithin ε rd) (h0 : 0 ≤ ε) (h1 : ε < 1) (w : List ℝ)
    (hw : ∀ x ∈ w, 0 ≤ x) :
    (1 - ε) ^ w.length * w.sum ≤ sumRounded rd w ∧ sumRounded rd w ≤ (1 + ε) ^ w.length * w.sum := by
  have := foldl_bounds h h0 h1 w hw 0 le_rfl
  rwa [zero_add] at this

theorem part_eq (total acc : ℝ) (w : List ℝ) :
    part rd total acc w = (w.map (fun x => rd (x / total))).foldl (fun a x => rd (a + x)) acc := by
  rw [part, List.foldl_map]

theorem part_bounds (h : RoundsWithin ε rd) (h0 : 0 ≤ ε) (h1 : ε < 1) {total : ℝ} (ht : 0 < total)
    (w : List ℝ) (hw : ∀ x ∈ w, 0 ≤ x) :
    (1 - ε) ^ (w.length + 1) * (w.sum / total) ≤ part rd total 0 w ∧
      part rd total 0 w ≤ (1 + ε) ^ (w.length + 1) * (w.sum / total) := by
  have hp : ∀ y ∈ w.map (fun x => rd (x / total)), 0 ≤ y := by
    intro y hy
    obtain ⟨x, hx, rfl⟩ := List.mem_map.1 hy
    exact h.nonneg (div_nonneg (hw x hx) ht.le)
  have hs : (1 - ε) * (w.sum / total) ≤ (w.map (fun x => rd (x / total))).sum ∧
      (w.map (fun x => rd (x / total))).sum ≤ (1 + ε) * (w.sum / total) := by
    clear hp
    induction w with
    | nil => simp
    | cons x t ih =>
      have := ih (fun y hy => hw y (by simp [hy]))
      have hb := h.bounds (div_nonneg (hw x (by simp)) ht.le)
      rw [List.map_cons, List.sum_cons, List.sum_cons, add_div]
      constructor <;> linarith [this.1, this.2, hb.1, hb.2]
  have hf := foldl_bounds h h0 h1 _ hp 0 le_rfl
  rw [List.length_map, zero_add] at hf
  rw [part_eq, pow_succ, pow_succ, mul_assoc, mul_assoc]
  exact ⟨(mul_le_mul_of_nonneg_left hs.1 (pow_nonneg (by linarith) _)).trans hf.1,
    hf.2.trans (mul_le_mul_of_nonneg_left hs.2 (pow_nonneg (by linarith) _))⟩

theorem part_succ (total : ℝ) (w : List ℝ) (k : Nat) (hk : k < w.length) :
    part rd total 0 (w.take (k + 1)) = rd (part rd total 0 (w.take k) + rd (w[k] / total)) := by
  rw [List.take_succ_eq_append_getElem hk, part, List.foldl_append]
  rfl

theorem part_rounded (h : RoundsWithin ε rd) (total : ℝ) (w : List ℝ) (k : Nat) (hk : k ≤ w.length) :
    rd (part rd total 0 (w.take k)) = part rd total 0 (w.take k) := by
  cases k with
  | zero => simp [part, h.zero]
  | succ k => rw [part_succ total w k (by omega), h.idem]

theorem part_mono (h : RoundsWithin ε rd) {total : ℝ} (ht : 0 < total) (w : List ℝ)
    (hw : ∀ x ∈ w, 0 ≤ x) {i j : Nat} (hij : i ≤ j) (hj : j ≤ w.length) :
    part rd total 0 (w.take i) ≤ part rd total 0 (w.take j) := by
  induction j, hij using Nat.le_induction with
  | base => exact le_rfl
  | succ j hij ih =>
    refine (ih (by omega)).trans ?_
    rw [part_succ total w j (by omega)]
    have h1 := h.mono (show part rd total 0 (w.take j) ≤
      part rd total 0 (w.take j) + rd (w[j] / total) by
        have := h.nonneg (div_nonneg (hw w[j] (List.getElem_mem _)) ht.le)
        linarith)
    rwa [part_rounded h total w j (by omega)] at h1

theorem factor_bounds (h0 : 0 ≤ ε) (n : Nat) (hn : (2 * n + 1) * ε < 1) :
    (1 - (2 * n + 1) * ε) * (1 + ε) ^ n ≤ (1 - ε) ^ (n + 1) ∧
      (1 - (2 * n + 1) * ε) * (1 + ε) ^ (n + 1) ≤ (1 - ε) ^ n := by
  have hn0 : (0 : ℝ) ≤ n := Nat.cast_nonneg n
  have h1 : ε < 1 := by nlinarith
  have hb : 1 - (2 * n + 1) * ε ≤ (1 - ε) ^ (2 * n + 1) := by
    have := one_add_mul_le_pow (show (-2 : ℝ) ≤ -ε by linarith) (2 * n + 1)
    push_cast at this
    rw [show 1 + -ε = 1 - ε by ring] at this
    linarith
  have hprod : ∀ m : Nat, (1 - ε) ^ m * (1 + ε) ^ m ≤ 1 := by
    intro m
    rw [← mul_pow]
    exact pow_le_one₀ (by nlinarith) (by nlinarith)
  have hp : ∀ m : Nat, (0 : ℝ) ≤ (1 + ε) ^ m := fun m => pow_nonneg (by linarith) m
  have hq : ∀ m : Nat, (0 : ℝ) ≤ (1 - ε) ^ m := fun m => pow_nonneg (by linarith) m
  constructor
  · calc _ ≤ (1 - ε) ^ (2 * n + 1) * (1 + ε) ^ n := mul_le_mul_of_nonneg_right hb (hp n)
      _ = (1 - ε) ^ (n + 1) * ((1 - ε) ^ n * (1 + ε) ^ n) := by
        rw [← mul_assoc, ← pow_add]; congr 2; omega
      _ ≤ (1 - ε) ^ (n + 1) * 1 := mul_le_mul_of_nonneg_left (hprod n) (hq _)
      _ = _ := mul_one _
  · calc _ ≤ (1 - ε) ^ (2 * n + 1) * (1 + ε) ^ (n + 1) := mul_le_mul_of_nonneg_right hb (hp _)
      _ = (1 - ε) ^ n * ((1 - ε) ^ (n + 1) * (1 + ε) ^ (n + 1)) := by
        rw [← mul_assoc, ← pow_add]; congr 2; omega
      _ ≤ (1 - ε) ^ n * 1 := mul_le_mul_of_nonneg_left (hprod _) (hq _)
      _ = _ := mul_one _

/-- **C19** with rounding (partial).  For nonnegative weights that do not all vanish an entry is
chosen, and up to the relative error of about twice the number of entries times `ε` the number `u`
lies in its share of [0, 1].  The weight of the entry is positive unless `u` is zero or the entry
is the last and `u` is as close to 1 as the error (see below). -/
theorem C19_rounded_partial (h : RoundsWithin ε rd) (h0 : 0 ≤ ε) {w : List ℝ} (hw : ∀ x ∈ w, 0 ≤ x)
    (hp : 0 < w.sum) (hl : 2 ≤ w.length) (hn : (2 * (w.length : ℝ) + 1) * ε < 1) {u : ℝ} (hu : 0 < u)
    (hu1 : u < 1) :
    ∃ i, pickRounded rd w u = .ok i ∧ i < w.length ∧
      (1 - (2 * w.length + 1) * ε) * (w.take i).sum < u * w.sum ∧
      (1 - (2 * w.length + 1) * ε) * (u * w.sum) ≤ (w.take (i + 1)).sum ∧
      ((∃ x, w[i]? = some x ∧ 0 < x) ∨ i + 1 = w.length ∧ 1 - (2 * w.length + 1) * ε < u) := by
  have hn0 : (0 : ℝ) ≤ w.length := Nat.cast_nonneg _
  have h1 : ε < 1 := by nlinarith
  have hS := sumRounded_bounds h h0 h1 w hw
  obtain ⟨f1, f2⟩ := factor_bounds h0 w.length hn
  have hq0 : 0 < 1 - (2 * (w.length : ℝ) + 1) * ε := by linarith
  have hq1 : 1 - (2 * (w.length : ℝ) + 1) * ε ≤ 1 := by nlinarith
  generalize hq : 1 - (2 * (w.length : ℝ) + 1) * ε = q at *
  have hS0 : 0 < sumRounded rd w :=
    lt_of_lt_of_le (mul_pos (pow_pos (by linarith) _) hp) hS.1
  have hneg : ¬ (w.any (· < 0) = true ∨ sumRounded rd w = 0) := by
    rintro (h | h)
    · simp only [List.any_eq_true, decide_eq_true_eq] at h
      obtain ⟨x, hx, h⟩ := h
      exact absurd (hw x hx) (not_le.2 h)
    · exact hS0.ne' h
  rw [pickRounded, if_neg (by omega), if_neg hneg]
  generalize hT : sumRounded rd w = T at *
  have hget := cumulativeRounded_get rd T 0 w
  have hpw : (cumulativeRounded rd T 0 w).Pairwise
      (fun x y => decide (y < u) = true → decide (x < u) = true) := by
    rw [List.pairwise_iff_getElem]
    intro a b ha hb hab hlt
    rw [cumulativeRounded_length] at ha hb
    have ea := hget a ha
    have eb := hget b hb
    rw [List.getElem?_eq_some_iff] at ea eb
    obtain ⟨_, ea⟩ := ea
    obtain ⟨_, eb⟩ := eb
    rw [eb, decide_eq_true_eq] at hlt
    rw [ea, decide_eq_true_eq, if_neg (by omega)]
    split_ifs at hlt with hc
    · linarith
    · exact lt_of_le_of_lt (part_mono h hS0 w hw (by omega) (by omega)) hlt
  obtain ⟨a, b, e, ha, hb, hk⟩ := Std.lowerBound_split _ _ hpw
  have hlen : a.length + b.length = w.length := by
    rw [← List.length_append, ← e, cumulativeRounded_length]
  have hbn : b ≠ [] := by
    rintro rfl
    have hlast := hget (w.length - 1) (by omega)
    rw [if_pos (by omega), e, List.append_nil] at hlast
    have := ha 1 (List.mem_of_getElem? hlast)
    simp at this
    linarith
  have hpos := List.length_pos_iff.2 hbn
  -- what is smaller than u
  have hlow : 0 < a.length → part rd T 0 (w.take a.length) < u := by
    intro hz
    obtain ⟨m, hm⟩ : ∃ m, a.length = m + 1 := ⟨a.length - 1, by omega⟩
    have hm' := hget m (by omega)
    rw [e, List.getElem?_append_left (by omega), if_neg (by omega)] at hm'
    have := ha _ (List.mem_of_getElem? hm')
    rw [decide_eq_true_eq] at this
    rwa [hm]
  -- what is not
  have hup : a.length + 1 < w.length → u ≤ part rd T 0 (w.take (a.length + 1)) := by
    intro hz
    have hm' := hget a.length (by omega)
    rw [e, List.getElem?_append_right (le_refl _), if_neg (by omega)] at hm'
    have := hb _ (List.mem_of_getElem? hm')
    rw [decide_eq_false_iff_not, not_lt] at this
    exact this
  have hfirst : q * (w.take a.length).sum < u * w.sum := by
    rcases Nat.eq_zero_or_pos a.length with hz | hz
    · rw [hz]; simpa using mul_pos hu hp
    · have hb1 := (part_bounds h h0 h1 hS0 (w.take a.length)
        (fun x hx => hw x (List.mem_of_mem_take hx))).1
      have hlt := lt_of_le_of_lt hb1 (hlow hz)
      rw [List.length_take_of_le (by omega)] at hlt
      have hs0 : 0 ≤ (w.take a.length).sum := List.sum_nonneg (fun x hx => hw x (List.mem_of_mem_take hx))
      rw [← mul_div_assoc, div_lt_iff₀ hS0] at hlt
      have hpow : (1 - ε) ^ (w.length + 1) ≤ (1 - ε) ^ (a.length + 1) :=
        pow_le_pow_of_le_one (by linarith) (by linarith) (by omega)
      have hP : 0 < (1 + ε) ^ w.length := pow_pos (by linarith) _
      have h3 : q * (1 + ε) ^ w.length * (w.take a.length).sum < u * ((1 + ε) ^ w.length * w.sum) := by
        calc _ ≤ (1 - ε) ^ (a.length + 1) * (w.take a.length).sum :=
              mul_le_mul_of_nonneg_right (f1.trans hpow) hs0
          _ < u * T := hlt
          _ ≤ _ := mul_le_mul_of_nonneg_left hS.2 hu.le
      have h4 : (1 + ε) ^ w.length * (q * (w.take a.length).sum) < (1 + ε) ^ w.length * (u * w.sum) := by
        linarith
      exact lt_of_mul_lt_mul_left h4 hP.le
  refine ⟨a.length, by rw [hk], by omega, hfirst, ?_, ?_⟩
  · rcases Nat.lt_or_ge (a.length + 1) w.length with hz | hz
    · have hb1 := (part_bounds h h0 h1 hS0 (w.take (a.length + 1))
        (fun x hx => hw x (List.mem_of_mem_take hx))).2
      have hle := (hup hz).trans hb1
      rw [List.length_take_of_le (by omega), ← mul_div_assoc, le_div_iff₀ hS0] at hle
      have hs0 : 0 ≤ (w.take (a.length + 1)).sum :=
        List.sum_nonneg (fun x hx => hw x (List.mem_of_mem_take hx))
      have hpow : (1 + ε) ^ (a.length + 1 + 1) ≤ (1 + ε) ^ (w.length + 1) :=
        pow_le_pow_right₀ (by linarith) (by omega)
      have hP : 0 < (1 - ε) ^ w.length := pow_pos (by linarith) _
      have h3 : q * (u * ((1 - ε) ^ w.length * w.sum)) ≤
          (1 - ε) ^ w.length * (w.take (a.length + 1)).sum := by
        calc _ ≤ q * (u * T) :=
              mul_le_mul_of_nonneg_left (mul_le_mul_of_nonneg_left hS.1 hu.le) hq0.le
          _ ≤ q * ((1 + ε) ^ (w.length + 1) * (w.take (a.length + 1)).sum) :=
              mul_le_mul_of_nonneg_left (hle.trans (mul_le_mul_of_nonneg_right hpow hs0)) hq0.le
          _ = (q * (1 + ε) ^ (w.length + 1)) * (w.take (a.length + 1)).sum := by ring
          _ ≤ _ := mul_le_mul_of_nonneg_right f2 hs0
      have h4 : (1 - ε) ^ w.length * (q * (u * w.sum)) ≤
          (1 - ε) ^ w.length * (w.take (a.length + 1)).sum := by linarith
      exact le_of_mul_le_mul_left h4 hP
    · rw [List.take_of_length_le (by omega)]
      have : u * w.sum ≤ w.sum := by nlinarith
      nlinarith [mul_pos hu hp]
  · have hlt : a.length < w.length := by omega
    rcases (hw w[a.length] (List.getElem_mem hlt)).lt_or_eq with hx | hx
    · exact Or.inl ⟨_, List.getElem?_eq_getElem hlt, hx⟩
    · right
      have hsum : (w.take (a.length + 1)).sum = (w.take a.length).sum := by
        rw [List.take_succ_eq_append_getElem hlt, List.sum_append, ← hx]; simp
      rcases Nat.lt_or_ge (a.length + 1) w.length with hz | hz
      · exfalso
        have h3 := hup hz
        rw [part_succ T w a.length hlt, ← hx, zero_div, h.zero, add_zero,
          part_rounded h T w a.length (by omega)] at h3
        rcases Nat.eq_zero_or_pos a.length with h4 | h4
        · rw [h4] at h3
          simp [part] at h3
          linarith
        · exact absurd (hlow h4) (not_lt.2 h3)
      · refine ⟨by omega, ?_⟩
        rw [List.take_of_length_le (by omega)] at hsum
        rw [← hsum] at hfirst
        exact lt_of_mul_lt_mul_right hfirst hp.le

end

/-- **C19** for doubles, range of exponents apart, with up to a million entries. -/
theorem C19_doubles_partial {w : List ℝ} (hw : ∀ x ∈ w, 0 ≤ x) (hp : 0 < w.sum) (hl : 2 ≤ w.length)
    (hn : w.length ≤ 1000000) {u : ℝ} (hu : 0 < u) (hu1 : u < 1 - 1 / 10 ^ 9) :
    ∃ i x, pickRounded round53 w u = .ok i ∧ w[i]? = some x ∧ 0 < x ∧
      (1 - 1 / 10 ^ 9) * (w.take i).sum < u * w.sum ∧
      (1 - 1 / 10 ^ 9) * (u * w.sum) ≤ (w.take (i + 1)).sum := by
  have hn' : (w.length : ℝ) ≤ 1000000 := by exact_mod_cast hn
  have hsmall : (2 * (w.length : ℝ) + 1) * (2 : ℝ) ^ (-53 : ℤ) ≤ 1 / 10 ^ 9 := by
    have : (2 * (w.length : ℝ) + 1) * (2 : ℝ) ^ (-53 : ℤ) ≤ (2 * 1000000 + 1) * (2 : ℝ) ^ (-53 : ℤ) :=
      mul_le_mul_of_nonneg_right (by linarith) (by positivity)
    refine this.trans (by norm_num)
  obtain ⟨i, e, h1, h2, h3, h4⟩ := C19_rounded_partial round53_within (by positivity) hw hp hl
    (lt_of_le_of_lt hsmall (by norm_num)) hu (hu1.trans (by norm_num))
  have s1 : 0 ≤ (w.take i).sum := List.sum_nonneg (fun x hx => hw x (List.mem_of_mem_take hx))
  have s2 : 0 ≤ u * w.sum := (mul_pos hu hp).le
  rcases h4 with ⟨x, hx, hx0⟩ | ⟨-, h4⟩
  · refine ⟨i, x, e, hx, hx0, lt_of_le_of_lt ?_ h2, le_trans ?_ h3⟩
    · exact mul_le_mul_of_nonneg_right (by linarith) s1
    · exact mul_le_mul_of_nonneg_right (by linarith) s2
  · exact absurd (lt_of_le_of_lt (sub_le_sub_left hsmall 1) h4) (not_lt.2 hu1.le)

example : ∃ i x, pickRounded round53 [1, 4, 1, 1, 0] (1 / 2) = .ok i ∧
    ([1, 4, 1, 1, 0] : List ℝ)[i]? = some x ∧ 0 < x ∧
    (1 - 1 / 10 ^ 9) * (([1, 4, 1, 1, 0] : List ℝ).take i).sum < 1 / 2 * ([1, 4, 1, 1, 0] : List ℝ).sum ∧
    (1 - 1 / 10 ^ 9) * (1 / 2 * ([1, 4, 1, 1, 0] : List ℝ).sum) ≤
      (([1, 4, 1, 1, 0] : List ℝ).take (i + 1)).sum :=
  C19_doubles_partial (by simp) (by norm_num) (by simp) (by simp) (by norm_num) (by norm_num)

/-- To round a number: `k` is the nearest multiple of the last place, or one of the two nearest
and even. -/
theorem round53_eval {x : ℝ} (e k : Int) (h1 : (2 : ℝ) ^ e ≤ x) (h2 : x < (2 : ℝ) ^ (e + 1))
    (h3 : |x - k * (2 : ℝ) ^ (e - 52)| < (2 : ℝ) ^ (e - 52) / 2 ∨
      k % 2 = 0 ∧ |x - k * (2 : ℝ) ^ (e - 52)| = (2 : ℝ) ^ (e - 52) / 2) :
    round53 x = k * (2 : ℝ) ^ (e - 52) := by
  have hx : 0 < x := lt_of_lt_of_le (by positivity) h1
  have hu : ulp x = (2 : ℝ) ^ (e - 52) := by unfold ulp; rw [log_eq h1 h2]
  have hp : (0 : ℝ) < (2 : ℝ) ^ (e - 52) := by positivity
  rw [round53, if_pos hx, hu]
  congr 1
  generalize (2 : ℝ) ^ (e - 52) = t at *
  have hy : x = x / t * t := by field_simp
  generalize x / t = y at *
  subst hy
  have hd : |y * t - k * t| = |y - k| * t := by rw [← sub_mul, abs_mul, abs_of_pos hp]
  rw [hd] at h3
  unfold roundEven
  rcases h3 with h3 | ⟨he, h3⟩
  · have h4 : |y - k| < 1 / 2 := by nlinarith
    rw [abs_lt] at h4
    by_cases hc : (k : ℝ) ≤ y
    · have hf : ⌊y⌋ = k := Int.floor_eq_iff.2 ⟨hc, by linarith⟩
      have : Int.fract y < 1 / 2 := by rw [Int.fract, hf]; linarith
      rw [if_pos this, hf]
    · have hf : ⌊y⌋ = k - 1 :=
        Int.floor_eq_iff.2 ⟨by push_cast; linarith, by push_cast; linarith [not_le.1 hc]⟩
      have : 1 / 2 < Int.fract y := by rw [Int.fract, hf]; push_cast; linarith
      rw [if_neg (by linarith), if_pos this, hf]
      push_cast; ring
  · have h4 : |y - k| = 1 / 2 := by nlinarith
    by_cases hc : (k : ℝ) ≤ y
    · rw [abs_of_nonneg (by linarith)] at h4
      have hf : ⌊y⌋ = k := Int.floor_eq_iff.2 ⟨hc, by linarith⟩
      have : Int.fract y = 1 / 2 := by rw [Int.fract, hf, h4]
      rw [if_neg (by linarith), if_neg (by linarith), if_pos (by rw [hf]; exact Int.even_iff.2 he), hf]
    · rw [abs_of_neg (by linarith [not_le.1 hc])] at h4
      have hf : ⌊y⌋ = k - 1 := Int.floor_eq_iff.2 ⟨by push_cast; linarith, by push_cast; linarith⟩
      have : Int.fract y = 1 / 2 := by rw [Int.fract, hf]; push_cast; linarith
      have hodd : ¬ Even (k - 1) := by rw [Int.even_iff]; omega
      rw [if_neg (by linarith), if_neg (by linarith), if_neg (by rw [hf]; exact hodd), hf]
      push_cast; ring

/-- **C19** is violated at the end of the interval: the partial sums are rounded down and the last
one is set to 1, so that the largest double below 1 picks an entry whose weight is zero. -/
theorem C19_last_violated :
    pickRounded round53 [1, 4, 1, 1, 0] (1 - 1 / 2 ^ 53) = .ok 4 ∧
      ([1, 4, 1, 1, 0] : List ℝ)[4]? = some 0 := by
  refine ⟨?_, rfl⟩
  have i1 : round53 1 = 1 := round53_one
  have i5 : round53 5 = 5 := by
    rw [round53_eval 2 (5 * 2 ^ 50) (by norm_num) (by norm_num) (Or.inl (by norm_num))]; norm_num
  have i6 : round53 6 = 6 := by
    rw [round53_eval 2 (6 * 2 ^ 50) (by norm_num) (by norm_num) (Or.inl (by norm_num))]; norm_num
  have i7 : round53 7 = 7 := by
    rw [round53_eval 2 (7 * 2 ^ 50) (by norm_num) (by norm_num) (Or.inl (by norm_num))]; norm_num
  have hs : sumRounded round53 [1, 4, 1, 1, 0] = 7 := by
    simp only [sumRounded, List.foldl]
    norm_num [i1, i5, i6, i7]
  have p1 : round53 (1 / 7) = 5146971002709138 / 2 ^ 55 := by
    rw [round53_eval (-3) 5146971002709138 (by norm_num) (by norm_num)
      (Or.inl (by norm_num [abs_lt]))]; norm_num
  have p4 : round53 (4 / 7) = 5146971002709138 / 2 ^ 53 := by
    rw [round53_eval (-1) 5146971002709138 (by norm_num) (by norm_num)
      (Or.inl (by norm_num [abs_lt]))]; norm_num
  have c1 : round53 (0 + 5146971002709138 / 2 ^ 55) = 5146971002709138 / 2 ^ 55 := by
    rw [zero_add, ← p1, round53_idem]
  have c2 : round53 (5146971002709138 / 2 ^ 55 + 5146971002709138 / 2 ^ 53) = 6433713753386422 / 2 ^ 53 := by
    rw [round53_eval (-1) 6433713753386422 (by norm_num) (by norm_num)
      (Or.inr ⟨by norm_num, by norm_num⟩)]; norm_num
  have c3 : round53 (6433713753386422 / 2 ^ 53 + 5146971002709138 / 2 ^ 55) = 7720456504063706 / 2 ^ 53 := by
    rw [round53_eval (-1) 7720456504063706 (by norm_num) (by norm_num)
      (Or.inr ⟨by norm_num, by norm_num⟩)]; norm_num
  have c4 : round53 (7720456504063706 / 2 ^ 53 + 5146971002709138 / 2 ^ 55) = 9007199254740990 / 2 ^ 53 := by
    rw [round53_eval (-1) 9007199254740990 (by norm_num) (by norm_num)
      (Or.inr ⟨by norm_num, by norm_num⟩)]; norm_num
  have hc : cumulativeRounded round53 7 0 [1, 4, 1, 1, 0] =
      [5146971002709138 / 2 ^ 55, 6433713753386422 / 2 ^ 53, 7720456504063706 / 2 ^ 53,
        9007199254740990 / 2 ^ 53, 1] := by
    simp only [cumulativeRounded, p1, p4, c1, c2, c3, c4]
  rw [pickRounded, if_neg (by simp), hs, if_neg (by norm_num), hc]
  have h := Std.lowerBound_split (fun a : ℝ => decide (a < 1 - 1 / 2 ^ 53))
    [5146971002709138 / 2 ^ 55, 6433713753386422 / 2 ^ 53, 7720456504063706 / 2 ^ 53,
        9007199254740990 / 2 ^ 53, 1] (by norm_num)
  obtain ⟨a, b, e, ha, hb, hk⟩ := h
  rw [hk]
  congr 1
  rcases a with _ | ⟨a1, _ | ⟨a2, _ | ⟨a3, _ | ⟨a4, _ | ⟨a5, a⟩⟩⟩⟩⟩ <;>
    simp only [List.nil_append, List.cons_append, List.cons.injEq] at e
  · have := hb (5146971002709138 / 2 ^ 55) (by rw [← e]; simp); norm_num at this
  · have := hb (6433713753386422 / 2 ^ 53) (by rw [← e.2]; simp); norm_num at this
  · have := hb (7720456504063706 / 2 ^ 53) (by rw [← e.2.2]; simp); norm_num at this
  · have := hb (9007199254740990 / 2 ^ 53) (by rw [← e.2.2.2]; simp); norm_num at this
  · rfl
  · have := ha a5 (by simp); rw [← e.2.2.2.2.1] at this; norm_num at this

/-- Without rounding errors the choice is that of `pick`. -/
theorem pickRounded_exact (w : List ℝ) (u : ℝ) : pickRounded id w u = pick w u := by
  have hs : ∀ (w : List ℝ) (a : ℝ), w.foldl (fun a x => id (a + x)) a = a + w.sum := by
    intro w
    induction w with
    | nil => simp
    | cons x t ih => intro a; rw [List.foldl_cons, ih, List.sum_cons, id, add_assoc]
  have hc : ∀ (w : List ℝ) (t a : ℝ), cumulativeRounded id t a w = cumulative t a w := by
    intro w t
    induction w with
    | nil => intro a; rfl
    | cons x l ih =>
      intro a
      cases l with
      | nil => rfl
      | cons y l => simp only [cumulativeRounded, cumulative, id] at *; rw [ih]
  rw [pickRounded, pick, sumRounded, hs, zero_add, hc]

end Marley.Props
