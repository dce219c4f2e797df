import Verif.Props.Renewal

/-! Lemmas for C135: what is left of an ideal engine is as good as another engine. -/

set_option autoImplicit false

namespace Marley.Props
open Marley Marley.Sampling MeasureTheory

variable {Ω : Type} [MeasurableSpace Ω] {μ : Measure Ω} {E : Engine Ω}

/-- The next numbers and the state after them are independent. -/
theorem numbers_preserving (hI : Ideal E μ) (n : Nat) :
    MeasurePreserving (fun ω => (numbers E n ω, after E n ω)) μ ((μ.map (numbers E n)).prod μ) := by
  have := hI.prob
  obtain ⟨h1, h2⟩ := numbers_measurable hI n
  have : IsProbabilityMeasure (μ.map (numbers E n)) := Measure.isProbabilityMeasure_map h1.aemeasurable
  refine ⟨h1.prodMk h2, ?_⟩
  refine (Measure.prod_eq fun s t hs ht => ?_).symm
  rw [Measure.map_apply (h1.prodMk h2) (hs.prod ht), Measure.map_apply h1 hs]
  exact numbers_independent hI hs ht

/-- The same with another engine of the same kind. -/
theorem numbers_twice (hI : Ideal E μ) (n : Nat) :
    MeasurePreserving (fun p : Ω × Ω => (numbers E n p.1, p.2)) (μ.prod μ)
      ((μ.map (numbers E n)).prod μ) := by
  have := hI.prob
  have h1 := (numbers_measurable hI n).1
  exact (MeasurePreserving.mk h1 rfl).prod (MeasurePreserving.id μ)

variable {α : Type} {f : Sampler α}

theorem stage_iff (hf : Determined f) {G : Type} (E : Engine G) (g : G) (R : α → G → Prop)
    (x : G) : (∃ a g', f G E g = some (.ok (a, g')) ∧ R a x)
      ↔ ∃ n, Settles f {a | R a x} n (numbers E n g) := by
  have := settles_iff (T := {a | R a x}) hf E g Set.univ
  simpa using this

theorem stage_rest (hf : Determined f) {G : Type} (E : Engine G) (g : G) (R : α → G → Prop) :
    (∃ a g', f G E g = some (.ok (a, g')) ∧ R a g')
      ↔ ∃ n, Settles f {a | R a (after E n g)} n (numbers E n g) := by
  constructor
  · rintro ⟨a, g', h, hr⟩
    obtain ⟨n, hn, hg⟩ := (settles_iff (T := {b | b = a}) hf E g {g'}).1 ⟨a, g', h, rfl, rfl⟩
    refine ⟨n, ?_⟩
    obtain ⟨b, hb, hs⟩ := hn
    have hb : b = a := hb
    have hg : after E n g = g' := hg
    subst hb
    exact ⟨b, by rw [hg]; exact hr, hs⟩
  · rintro ⟨n, a, ha, hs⟩
    obtain ⟨b, hb, hfix⟩ := settles_fixed (T := {b | b = a}) hf (v := numbers E n g) ⟨a, rfl, hs⟩
    have hb : b = a := hb
    subst hb
    exact ⟨b, _, hfix G E g (ofFn_numbers E n g).symm, ha⟩

theorem stages_measurable (hI : Ideal E μ) (hf : Determined f) {R : α → Ω → Prop}
    (hm : ∀ n, MeasurableSet {x : (Fin n → ℝ) × Ω | Settles f {a | R a x.2} n x.1}) :
    MeasurableSet {p : Ω × Ω | ∃ a ω', f Ω E p.1 = some (.ok (a, ω')) ∧ R a p.2} := by
  have e2 : {p : Ω × Ω | ∃ a ω', f Ω E p.1 = some (.ok (a, ω')) ∧ R a p.2}
      = ⋃ n, (fun p : Ω × Ω => (numbers E n p.1, p.2)) ⁻¹'
          {x : (Fin n → ℝ) × Ω | Settles f {a | R a x.2} n x.1} := by
    ext p
    rw [Set.mem_iUnion]
    exact stage_iff hf E p.1 R p.2
  rw [e2]
  exact MeasurableSet.iUnion fun n => (numbers_twice hI n).measurable (hm n)

/-- After something that is determined by finitely many numbers, an ideal engine is
as good as another one that has not been used. -/
theorem stages (hI : Ideal E μ) (hf : Determined f) {R : α → Ω → Prop}
    (hm : ∀ n, MeasurableSet {x : (Fin n → ℝ) × Ω | Settles f {a | R a x.2} n x.1}) :
    μ {ω | ∃ a ω', f Ω E ω = some (.ok (a, ω')) ∧ R a ω'}
      = (μ.prod μ) {p | ∃ a ω', f Ω E p.1 = some (.ok (a, ω')) ∧ R a p.2} := by
  have := hI.prob
  have e1 : {ω | ∃ a ω', f Ω E ω = some (.ok (a, ω')) ∧ R a ω'}
      = ⋃ n, (fun ω => (numbers E n ω, after E n ω)) ⁻¹'
          {x : (Fin n → ℝ) × Ω | Settles f {a | R a x.2} n x.1} := by
    ext ω
    rw [Set.mem_iUnion]
    exact stage_rest hf E ω R
  have e2 : {p : Ω × Ω | ∃ a ω', f Ω E p.1 = some (.ok (a, ω')) ∧ R a p.2}
      = ⋃ n, (fun p : Ω × Ω => (numbers E n p.1, p.2)) ⁻¹'
          {x : (Fin n → ℝ) × Ω | Settles f {a | R a x.2} n x.1} := by
    ext p
    rw [Set.mem_iUnion]
    exact stage_iff hf E p.1 R p.2
  have all : ∀ {T : Set α} {n : Nat} {v : Fin n → ℝ}, Settles f T n v → Settles f Set.univ n v :=
    fun ⟨a, _, h⟩ => ⟨a, trivial, h⟩
  rw [e1, e2, measure_iUnion, measure_iUnion]
  · refine tsum_congr fun n => ?_
    rw [(numbers_preserving hI n).measure_preimage (hm n).nullMeasurableSet,
      (numbers_twice hI n).measure_preimage (hm n).nullMeasurableSet]
  · intro n m hnm
    exact Set.disjoint_left.2 fun p h1 h2 => hnm (settles_once hf E p.1 (all h1) (all h2))
  · intro n
    exact (numbers_twice hI n).measurable (hm n)
  · intro n m hnm
    exact Set.disjoint_left.2 fun ω h1 h2 => hnm (settles_once hf E ω (all h1) (all h2))
  · intro n
    exact (numbers_preserving hI n).measurable (hm n)

end Marley.Props
