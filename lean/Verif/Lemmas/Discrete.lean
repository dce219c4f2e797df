import Verif.Model.Sampling
import Verif.Lemmas.Std
import Mathlib.MeasureTheory.Measure.Lebesgue.Basic
import Mathlib.Tactic.Linarith
import Mathlib.Tactic.FieldSimp
import Mathlib.Algebra.BigOperators.Group.List.Basic
import Mathlib.Algebra.Order.BigOperators.Group.List

/-! Which index a discrete distribution returns. -/

set_option autoImplicit false

namespace Marley.Sampling

/-- The `k`-th partial sum equals the sum of the first `k + 1` weights divided by
the total. -/
theorem cumulative_get (total : ℝ) (h0 : total ≠ 0) (w : List ℝ) (acc : ℝ)
    (he : acc + w.sum / total = 1) (k : Nat) (hk : k < w.length) :
    (cumulative total acc w)[k]? = some (acc + (w.take (k + 1)).sum / total) := by
  induction w generalizing acc k with
  | nil => simp at hk
  | cons x t ih =>
    cases t with
    | nil =>
      have : k = 0 := by simpa using hk
      subst this
      simp [cumulative] at he ⊢
      exact he.symm
    | cons y t =>
      rw [cumulative]
      · cases k with
        | zero => simp
        | succ k =>
          rw [List.getElem?_cons_succ, ih (acc + x / total) (by
            rw [List.sum_cons, add_div] at he; linarith) k (by simpa using hk)]
          simp only [List.take_succ_cons, List.sum_cons]
          congr 1
          field_simp
          ring
      · simp

theorem cumulative_length (total acc : ℝ) (w : List ℝ) :
    (cumulative total acc w).length = w.length := by
  induction w generalizing acc with
  | nil => rfl
  | cons x t ih =>
    cases t with
    | nil => rfl
    | cons y t => simp only [cumulative, List.length_cons]; rw [ih]; rfl

theorem sum_take_mono {w : List ℝ} (hw : ∀ x ∈ w, 0 ≤ x) {i j : Nat} (h : i ≤ j) :
    (w.take i).sum ≤ (w.take j).sum := by
  induction w generalizing i j with
  | nil => simp
  | cons x t ih =>
    cases i with
    | zero =>
      rw [List.take_zero, List.sum_nil]
      exact List.sum_nonneg (fun y hy => hw y (List.mem_of_mem_take hy))
    | succ i =>
      obtain ⟨j, rfl⟩ : ∃ k, j = k + 1 := ⟨j - 1, by omega⟩
      simp only [List.take_succ_cons, List.sum_cons]
      have := ih (fun y hy => hw y (by simp [hy])) (by omega : i ≤ j)
      linarith

theorem sum_take_le {w : List ℝ} (hw : ∀ x ∈ w, 0 ≤ x) (i : Nat) : (w.take i).sum ≤ w.sum := by
  have := sum_take_mono hw (le_max_left i w.length)
  rwa [List.take_of_length_le (le_max_right _ _)] at this

/-- The index returned for a number in (0, 1]: the one whose share of [0, 1]
contains the number. -/
theorem pick_iff {w : List ℝ} (hw : ∀ x ∈ w, 0 ≤ x) (hs : 0 < w.sum) {u : ℝ} (h0 : 0 < u)
    (h1 : u ≤ 1) (i : Nat) :
    pick w u = .ok i ↔
      i < w.length ∧ (w.take i).sum < u * w.sum ∧ u * w.sum ≤ (w.take (i + 1)).sum := by
  have huniq : ∀ i j, (w.take i).sum < u * w.sum → u * w.sum ≤ (w.take (j + 1)).sum → i ≤ j := by
    intro i j hi hj
    by_contra hc
    have := sum_take_mono hw (by omega : j + 1 ≤ i)
    linarith
  have key : ∃ k, pick w u = .ok k ∧ k < w.length ∧ (w.take k).sum < u * w.sum ∧
      u * w.sum ≤ (w.take (k + 1)).sum := by
    unfold pick
    by_cases hl : w.length < 2
    · rw [if_pos hl]
      match w, hl with
      | [], _ => simp at hs
      | [x], _ =>
        simp at hs
        exact ⟨0, rfl, by simp, by simpa using mul_pos h0 hs, by simp; nlinarith⟩
    · have hn : ¬ (w.any (· < 0) = true ∨ w.sum = 0) := by
        rintro (h | h)
        · simp only [List.any_eq_true, decide_eq_true_eq] at h
          obtain ⟨x, hx, h⟩ := h
          exact absurd (hw x hx) (not_le.2 h)
        · exact hs.ne' h
      rw [if_neg hl, if_neg hn]
      have hget := fun k hk => cumulative_get w.sum hs.ne' w 0 (by rw [zero_add, div_self hs.ne']) k hk
      have hpw : (cumulative w.sum 0 w).Pairwise
          (fun x y => decide (y < u) = true → decide (x < u) = true) := by
        rw [List.pairwise_iff_getElem]
        intro a b ha hb hab hlt
        rw [cumulative_length] at ha hb
        have ea := hget a ha
        have eb := hget b hb
        rw [List.getElem?_eq_some_iff] at ea eb
        obtain ⟨_, ea⟩ := ea
        obtain ⟨_, eb⟩ := eb
        rw [eb, decide_eq_true_eq] at hlt
        rw [ea, decide_eq_true_eq]
        refine lt_of_le_of_lt ?_ hlt
        have := sum_take_mono hw (by omega : a + 1 ≤ b + 1)
        have := (div_le_div_iff_of_pos_right hs).2 this
        linarith
      obtain ⟨a, b, e, ha, hb, hk⟩ := Std.lowerBound_split _ _ hpw
      have hlen : a.length + b.length = w.length := by
        rw [← List.length_append, ← e, cumulative_length]
      have hbn : b ≠ [] := by
        rintro rfl
        have hlt : w.length - 1 < w.length := by omega
        have hlast := hget (w.length - 1) hlt
        rw [Nat.sub_add_cancel (by omega), List.take_length, zero_add, div_self hs.ne', e,
          List.append_nil] at hlast
        have := ha 1 (List.mem_of_getElem? hlast)
        simp at this
        linarith
      have hpos := List.length_pos_iff.2 hbn
      refine ⟨a.length, by rw [hk], by omega, ?_, ?_⟩
      · cases hz : a.length with
        | zero => simpa using mul_pos h0 hs
        | succ n =>
          have hm := hget n (by omega)
          rw [e, List.getElem?_append_left (by omega)] at hm
          have := ha _ (List.mem_of_getElem? hm)
          rw [zero_add, decide_eq_true_eq, div_lt_iff₀ hs] at this
          exact this
      · have hm := hget a.length (by omega)
        rw [e, List.getElem?_append_right (le_refl _)] at hm
        have := hb _ (List.mem_of_getElem? hm)
        rw [zero_add, decide_eq_false_iff_not, not_lt, le_div_iff₀ hs] at this
        exact this
  obtain ⟨k, e, hk, h2, h3⟩ := key
  rw [e]
  constructor
  · rintro h
    cases h
    exact ⟨hk, h2, h3⟩
  · rintro ⟨_, h4, h5⟩
    have : i = k := le_antisymm (huniq i k h4 h3) (huniq k i h2 h5)
    rw [this]

/-- Drawing 0 gives the first index, whatever its weight. -/
theorem pick_zero {w : List ℝ} (hw : ∀ x ∈ w, 0 ≤ x) (hs : 0 < w.sum) : pick w 0 = .ok 0 := by
  unfold pick
  by_cases hl : w.length < 2
  · rw [if_pos hl]
  · have hn : ¬ (w.any (· < 0) = true ∨ w.sum = 0) := by
      rintro (h | h)
      · simp only [List.any_eq_true, decide_eq_true_eq] at h
        obtain ⟨x, hx, h⟩ := h
        exact absurd (hw x hx) (not_le.2 h)
      · exact hs.ne' h
    rw [if_neg hl, if_neg hn]
    have := Std.lowerBound_append (fun a => decide (a < (0 : ℝ))) [] (cumulative w.sum 0 w)
      (by simp) (by
        intro x hx
        obtain ⟨k, hk, e⟩ := List.getElem_of_mem hx
        rw [cumulative_length] at hk
        have hg := cumulative_get w.sum hs.ne' w 0 (by rw [zero_add, div_self hs.ne']) k hk
        rw [List.getElem?_eq_some_iff] at hg
        obtain ⟨_, hg⟩ := hg
        rw [← e, hg, decide_eq_false_iff_not, not_lt, zero_add]
        exact div_nonneg (by
          have := sum_take_mono hw (Nat.zero_le (k + 1))
          simpa using this) hs.le)
    rw [List.nil_append] at this
    rw [this]; rfl

/-- Every index returned is below the number of weights. -/
theorem pick_lt {w : List ℝ} {u : ℝ} (hu : 0 ≤ u ∧ u < 1) {i : Nat} (h : pick w u = .ok i)
    (hne : w ≠ []) : i < w.length := by
  by_cases hl : w.length < 2
  · unfold pick at h
    rw [if_pos hl] at h
    cases h
    exact List.length_pos_iff.2 hne
  · have hn : ¬ (w.any (· < 0) = true ∨ w.sum = 0) := by
      intro hc
      unfold pick at h
      rw [if_neg hl, if_pos hc] at h
      cases h
    have hw : ∀ x ∈ w, 0 ≤ x := by
      intro x hx
      by_contra hc
      exact hn (Or.inl (List.any_eq_true.2 ⟨x, hx, by simpa using hc⟩))
    have hs : 0 < w.sum := lt_of_le_of_ne (List.sum_nonneg hw) (fun h => hn (Or.inr h.symm))
    rcases hu.1.eq_or_lt with h0 | h0
    · rw [← h0, pick_zero hw hs] at h
      cases h
      omega
    · exact ((pick_iff hw hs h0 hu.2.le i).1 h).1

/-- The probability of an index is its share of the total weight. -/
theorem pick_volume {w : List ℝ} (hw : ∀ x ∈ w, 0 ≤ x) (hs : 0 < w.sum) {i : Nat} {x : ℝ}
    (hi : w[i]? = some x) :
    MeasureTheory.volume {u : ℝ | 0 < u ∧ u < 1 ∧ pick w u = .ok i}
      = ENNReal.ofReal (x / w.sum) := by
  have hlt : i < w.length := (List.getElem?_eq_some_iff.1 hi).1
  have hx : (w.take (i + 1)).sum = (w.take i).sum + x := by
    rw [List.take_succ, hi]
    simp
  have hset : {u : ℝ | 0 < u ∧ u < 1 ∧ pick w u = .ok i}
      = Set.Ioc ((w.take i).sum / w.sum) ((w.take (i + 1)).sum / w.sum) \ {1} := by
    ext u
    simp only [Set.mem_setOf_eq, Set.mem_sdiff, Set.mem_Ioc, Set.mem_singleton_iff,
      div_lt_iff₀ hs, le_div_iff₀ hs]
    constructor
    · rintro ⟨h0, h1, h⟩
      exact ⟨((pick_iff hw hs h0 h1.le i).1 h).2, h1.ne⟩
    · rintro ⟨⟨h2, h3⟩, h1⟩
      have h0 : 0 < u := by
        have := sum_take_mono hw (Nat.zero_le i)
        rw [List.take_zero, List.sum_nil] at this
        by_contra hc
        nlinarith
      have h4 : u ≤ 1 := by
        have := sum_take_le hw (i + 1)
        by_contra hc
        nlinarith
      exact ⟨h0, lt_of_le_of_ne h4 h1, (pick_iff hw hs h0 h4 i).2 ⟨hlt, h2, h3⟩⟩
  rw [hset, MeasureTheory.measure_sdiff_null (by simp), Real.volume_Ioc, hx]
  congr 1
  field_simp
  ring

end Marley.Sampling
