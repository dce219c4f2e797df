import Verif.Props.CascadeLaw

/-! The law of a choice among the members of a list. -/

set_option autoImplicit false

namespace Marley.Props
open Marley Marley.Sampling Marley.Gammas MeasureTheory

variable {α : Type}

theorem filter_sum (xs : List α) (wt : α → ℝ) (p : α → Bool) :
    (xs.map fun x => if p x then wt x else 0).sum = ((xs.filter p).map wt).sum := by
  induction xs with
  | nil => rfl
  | cons x t ih =>
    rw [List.map_cons, List.sum_cons, ih, List.filter_cons]
    by_cases h : p x = true
    · simp [h]
    · simp [h]

/-- The numbers that choose a member with a property, where the members are chosen with
weights: their share is the share of the weights. -/
theorem unit_where (xs : List α) {wt : α → ℝ} (hw : ∀ x ∈ xs, 0 ≤ wt x)
    (hs : 0 < (xs.map wt).sum) (p : α → Bool) :
    unit {u | ∃ i x, xs[i]? = some x ∧ p x = true ∧
        ((xs.map wt).take i).sum < u * (xs.map wt).sum ∧
        u * (xs.map wt).sum ≤ ((xs.map wt).take (i + 1)).sum}
      = ENNReal.ofReal (((xs.filter p).map wt).sum / (xs.map wt).sum) := by
  have hw' : ∀ y ∈ xs.map wt, 0 ≤ y := by
    intro y hy
    obtain ⟨x, hx, rfl⟩ := List.mem_map.1 hy
    exact hw x hx
  let S : Fin xs.length → Set ℝ := fun i => {u | p xs[i] = true ∧
    ((xs.map wt).take i).sum < u * (xs.map wt).sum ∧
    u * (xs.map wt).sum ≤ ((xs.map wt).take (i + 1)).sum}
  have hset : {u | ∃ i x, xs[i]? = some x ∧ p x = true ∧
        ((xs.map wt).take i).sum < u * (xs.map wt).sum ∧
        u * (xs.map wt).sum ≤ ((xs.map wt).take (i + 1)).sum} = ⋃ i ∈ Finset.univ, S i := by
    ext u
    simp only [Set.mem_ofPred_eq, Set.mem_iUnion, S, Finset.mem_univ, exists_true_left]
    constructor
    · rintro ⟨i, x, h1, h2⟩
      obtain ⟨hi, rfl⟩ := List.getElem?_eq_some_iff.1 h1
      exact ⟨⟨i, hi⟩, h2⟩
    · rintro ⟨i, h2⟩
      exact ⟨i, xs[i], List.getElem?_eq_getElem i.2, h2⟩
  have hmeas : ∀ i, MeasurableSet (S i) := by
    intro i
    by_cases h : p xs[i] = true
    · have : S i = {u | ((xs.map wt).take i).sum < u * (xs.map wt).sum} ∩
          {u | u * (xs.map wt).sum ≤ ((xs.map wt).take (i + 1)).sum} := by
        ext u; simp only [S, h, true_and]; rfl
      rw [this]
      exact (measurableSet_lt measurable_const (by fun_prop)).inter
        (measurableSet_le (by fun_prop) measurable_const)
    · have : S i = ∅ := Set.eq_empty_of_forall_notMem fun u hu => h hu.1
      rw [this]
      exact MeasurableSet.empty
  have hdis : Set.PairwiseDisjoint ((Finset.univ : Finset (Fin xs.length)) : Set (Fin xs.length)) S := by
    intro i _ j _ hij
    rw [Function.onFun, Set.disjoint_left]
    rintro u ⟨-, h1, h2⟩ ⟨-, h3, h4⟩
    have huniq : ∀ i j : Nat, ((xs.map wt).take i).sum < u * (xs.map wt).sum →
        u * (xs.map wt).sum ≤ ((xs.map wt).take (j + 1)).sum → i ≤ j := by
      intro i j hi hj
      by_contra hc
      have := sum_take_mono hw' (by omega : j + 1 ≤ i)
      linarith
    have := huniq _ _ h1 h4
    have := huniq _ _ h3 h2
    exact hij (Fin.ext (by omega))
  have hS : ∀ i, unit (S i) = ENNReal.ofReal ((if p xs[i] then wt xs[i] else 0) / (xs.map wt).sum) := by
    intro i
    by_cases h : p xs[i] = true
    · rw [if_pos h, ← unit_picks hw' hs (i := i) (by simp)]
      simp only [S, h, true_and]
    · have : S i = ∅ := Set.eq_empty_of_forall_notMem fun u hu => h hu.1
      rw [this, if_neg h]
      simp
  rw [hset, measure_biUnion_finset hdis fun i _ => hmeas i]
  simp only [hS]
  rw [← ENNReal.ofReal_sum_of_nonneg, ← Finset.sum_div]
  · congr 2
    rw [← filter_sum]
    have : xs.map (fun x => if p x then wt x else 0)
        = List.ofFn fun i : Fin xs.length => if p xs[i] then wt xs[i] else 0 := by
      apply List.ext_getElem
      · simp
      · intro i h1 h2
        simp
    rw [this, List.sum_ofFn]
  · intro i _
    refine div_nonneg ?_ hs.le
    split_ifs
    · exact hw _ (List.getElem_mem _)
    · exact le_refl _

/-- The same for a choice by a discrete distribution: the probability that the member chosen
has a property. -/
theorem pickFrom_where (xs : List α) {wt : α → ℝ} (hw : ∀ x ∈ xs, 0 ≤ wt x)
    (hs : 0 < (xs.map wt).sum) (p : α → Bool) (rest : List ℝ) :
    unit {u | ∃ i x g, pickFrom replay (xs.map wt) (u :: rest) = .ok (i, g) ∧
        xs[i]? = some x ∧ p x = true}
      = ENNReal.ofReal (((xs.filter p).map wt).sum / (xs.map wt).sum) := by
  have hw' : ∀ y ∈ xs.map wt, 0 ≤ y := by
    intro y hy
    obtain ⟨x, hx, rfl⟩ := List.mem_map.1 hy
    exact hw x hx
  rw [← unit_where xs hw hs p]
  apply measure_congr
  have h1 : ∀ᵐ u : ℝ ∂unit, u ∈ Set.Ico (0 : ℝ) 1 := ae_restrict_mem measurableSet_Ico
  have h2 : ∀ᵐ u : ℝ ∂unit, u ≠ 0 := by
    have : ∀ᵐ u : ℝ ∂volume, u ≠ 0 := by simp [ae_iff]
    exact ae_restrict_of_ae this
  filter_upwards [h1, h2] with u h3 h4
  have h0 : 0 < u := lt_of_le_of_ne h3.1 (Ne.symm h4)
  have key : ∀ i, (∃ g, pickFrom replay (xs.map wt) (u :: rest) = .ok (i, g)) ↔
      i < (xs.map wt).length ∧ ((xs.map wt).take i).sum < u * (xs.map wt).sum ∧
        u * (xs.map wt).sum ≤ ((xs.map wt).take (i + 1)).sum := by
    intro i
    rw [← pick_iff hw' hs h0 h3.2.le]
    unfold pickFrom
    by_cases hl : (xs.map wt).length < 2
    · rw [if_pos hl]
      unfold pick
      rw [if_pos hl]
      simp
    · rw [if_neg hl]
      simp only [replay, List.headD_cons, List.tail_cons]
      cases pick (xs.map wt) u <;> simp
  apply propext
  constructor
  · rintro ⟨i, x, g, k1, k2, k3⟩
    exact ⟨i, x, k2, k3, ((key i).1 ⟨g, k1⟩).2⟩
  · rintro ⟨i, x, k2, k3, k4⟩
    have hi := (List.getElem?_eq_some_iff.1 k2).1
    obtain ⟨g, hg⟩ := (key i).2 ⟨by simpa using hi, k4⟩
    exact ⟨i, x, g, hg, k2, k3⟩

end Marley.Props
