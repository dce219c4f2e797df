import Verif.Lemmas.PickLaw

/-! The law of what follows a choice among the members of a list. -/

set_option autoImplicit false

namespace Marley.Props
open Marley Marley.Sampling Marley.Gammas MeasureTheory

variable {α : Type}

/-- A set cut into pieces by disjoint measurable sets; the set itself need not be measurable. -/
theorem measure_pieces {Ω ι : Type} [MeasurableSpace Ω] [Fintype ι] (μ : Measure Ω) {S : Set Ω}
    {A : ι → Set Ω} (hA : ∀ i, MeasurableSet (A i)) (hd : Pairwise fun i j => Disjoint (A i) (A j))
    (hS : S ⊆ ⋃ i, A i) : μ S = ∑ i, μ (A i ∩ S) := by
  have h1 : (μ.restrict S) (⋃ i ∈ Finset.univ, A i) = ∑ i, (μ.restrict S) (A i) :=
    measure_biUnion_finset (fun i _ j _ hij => hd hij) fun i _ => hA i
  have h2 : (⋃ i ∈ (Finset.univ : Finset ι), A i) = ⋃ i, A i := by simp
  rw [h2, Measure.restrict_apply (MeasurableSet.iUnion hA), Set.inter_eq_self_of_subset_right hS] at h1
  rw [h1]
  exact Finset.sum_congr rfl fun i _ => Measure.restrict_apply (hA i)

/-- One number chooses a member, what follows depends on the member and on other numbers: the
probabilities add up with the shares of the weights. -/
theorem choice_mixture (xs : List α) {wt : α → ℝ} (hw : ∀ x ∈ xs, 0 ≤ wt x)
    (hs : 0 < (xs.map wt).sum) (h2 : 2 ≤ xs.length) {Ω : Type} [MeasurableSpace Ω] (μ : Measure Ω)
    [SFinite μ] (f : Ω → List ℝ) (Q : α → List ℝ → Prop) :
    (unit.prod μ) {p | ∃ i x g, pickFrom replay (xs.map wt) (p.1 :: f p.2) = .ok (i, g) ∧
        xs[i]? = some x ∧ Q x g}
      = (xs.map fun x => ENNReal.ofReal (wt x / (xs.map wt).sum) * μ {d | Q x (f d)}).sum := by
  have hw' : ∀ y ∈ xs.map wt, 0 ≤ y := by
    intro y hy
    obtain ⟨x, hx, rfl⟩ := List.mem_map.1 hy
    exact hw x hx
  let A : Fin xs.length → Set ℝ := fun i => {u |
    ((xs.map wt).take i).sum < u * (xs.map wt).sum ∧
    u * (xs.map wt).sum ≤ ((xs.map wt).take (i + 1)).sum}
  let S : Set (ℝ × Ω) := {p | ∃ i : Fin xs.length, p.1 ∈ A i ∧ Q xs[i] (f p.2)}
  have hA : ∀ i, MeasurableSet (A i) := by
    intro i
    have : A i = {u | ((xs.map wt).take i).sum < u * (xs.map wt).sum} ∩
        {u | u * (xs.map wt).sum ≤ ((xs.map wt).take (i + 1)).sum} := rfl
    rw [this]
    exact (measurableSet_lt measurable_const (by fun_prop)).inter
      (measurableSet_le (by fun_prop) measurable_const)
  have hd : ∀ i j, i ≠ j → ∀ u, u ∈ A i → u ∉ A j := by
    rintro i j hij u ⟨h1, h2⟩ ⟨h3, h4⟩
    have huniq : ∀ i j : Nat, ((xs.map wt).take i).sum < u * (xs.map wt).sum →
        u * (xs.map wt).sum ≤ ((xs.map wt).take (j + 1)).sum → i ≤ j := by
      intro i j hi hj
      by_contra hc
      have := sum_take_mono hw' (by omega : j + 1 ≤ i)
      linarith
    have := huniq _ _ h1 h4
    have := huniq _ _ h3 h2
    exact hij (Fin.ext (by omega))
  have hSeq : {p : ℝ × Ω | ∃ i x g, pickFrom replay (xs.map wt) (p.1 :: f p.2) = .ok (i, g) ∧
        xs[i]? = some x ∧ Q x g} =ᵐ[unit.prod μ] S := by
    have h1 : ∀ᵐ u : ℝ ∂unit, u ∈ Set.Ico (0 : ℝ) 1 := ae_restrict_mem measurableSet_Ico
    have h3 : ∀ᵐ u : ℝ ∂unit, u ≠ 0 := by
      have : ∀ᵐ u : ℝ ∂volume, u ≠ 0 := by simp [ae_iff]
      exact ae_restrict_of_ae this
    have hq : Measure.QuasiMeasurePreserving (Prod.fst : ℝ × Ω → ℝ) (unit.prod μ) unit :=
      Measure.quasiMeasurePreserving_fst
    filter_upwards [hq.ae h1, hq.ae h3] with p k1 k3
    have h0 : 0 < p.1 := lt_of_le_of_ne k1.1 (Ne.symm k3)
    have hpk : ∀ i g, pickFrom replay (xs.map wt) (p.1 :: f p.2) = .ok (i, g) ↔
        pick (xs.map wt) p.1 = .ok i ∧ g = f p.2 := by
      intro i g
      unfold pickFrom
      rw [if_neg (by rw [List.length_map]; omega)]
      simp only [replay, List.headD_cons, List.tail_cons]
      cases pick (xs.map wt) p.1 with
      | error e => simp
      | ok j => simp [eq_comm]
    refine propext ⟨?_, ?_⟩
    · rintro ⟨i, x, g, l1, l2, l3⟩
      obtain ⟨l4, rfl⟩ := (hpk i g).1 l1
      obtain ⟨hi, rfl⟩ := List.getElem?_eq_some_iff.1 l2
      exact ⟨⟨i, hi⟩, ((pick_iff hw' hs h0 k1.2.le i).1 l4).2, l3⟩
    · rintro ⟨i, l1, l2⟩
      exact ⟨i, xs[i], f p.2, (hpk _ _).2 ⟨(pick_iff hw' hs h0 k1.2.le i).2
        ⟨by rw [List.length_map]; exact i.2, l1⟩, rfl⟩, List.getElem?_eq_getElem i.2, l2⟩
  rw [measure_congr hSeq, measure_pieces (unit.prod μ) (A := fun i => A i ×ˢ (Set.univ : Set Ω))
    (fun i => (hA i).prod MeasurableSet.univ)
    (fun i j hij => Set.disjoint_left.2 fun p h1 h2 => hd i j hij _ h1.1 h2.1)
    (by rintro p ⟨i, h1, -⟩; exact Set.mem_iUnion.2 ⟨i, h1, trivial⟩)]
  have hpiece : ∀ i, (A i ×ˢ (Set.univ : Set Ω)) ∩ S = A i ×ˢ {d | Q xs[i] (f d)} := by
    intro i
    ext p
    constructor
    · rintro ⟨⟨h1, -⟩, j, h3, h4⟩
      have hij : i = j := by
        by_contra hc
        exact hd i j hc _ h1 h3
      subst hij
      exact ⟨h1, h4⟩
    · rintro ⟨h1, h3⟩
      exact ⟨⟨h1, trivial⟩, i, h1, h3⟩
  have hmA : ∀ i : Fin xs.length, unit (A i) = ENNReal.ofReal (wt xs[i] / (xs.map wt).sum) := by
    intro i
    rw [← unit_picks hw' hs (i := i) (by simp)]
  simp only [hpiece, Measure.prod_prod, hmA]
  have : xs.map (fun x => ENNReal.ofReal (wt x / (xs.map wt).sum) * μ {d | Q x (f d)})
      = List.ofFn fun i : Fin xs.length =>
        ENNReal.ofReal (wt xs[i] / (xs.map wt).sum) * μ {d | Q xs[i] (f d)} := by
    apply List.ext_getElem
    · simp
    · intro i h1 h2
      simp
  rw [this, List.sum_ofFn]

end Marley.Props
