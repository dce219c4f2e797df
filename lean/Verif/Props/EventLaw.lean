import Verif.Lemmas.IdealEngine
import Verif.Props.ReactionLaw

/-!
# C132: the law of whole events

`Generator::create_event()` (src/Generator.cc:67-89) with an ideal engine (`Ideal` in
`Verif/Spec/IdealEngine.lean`) and without rounding.
-/

set_option autoImplicit false

namespace Marley.Props
open Marley Marley.Sampling Marley.Gen MeasureTheory
open Marley.Rot (V3 Rotator)

/-! ### Specification -/

/-- What is done with a reaction and an energy: the reaction makes an event, which is de-excited
and rotated. -/
noncomputable def follow {Ω : Type} (W : World Ω) (g : Gen Ω) (r : Rx Ω) (e : ℝ) (ω : Ω) :
    Option (Res (Event ℝ × Rotator × Ω)) :=
  match r.create g.source.pid e ω with
  | none => none
  | some (.error x) => some (.error x)
  | some (.ok (ev, ω)) => finish W g.deexcite g.rotator ev ω

/-- Reaction `r` at the energy `e` leads to an event, and leaves a state of the engine, in
`S`. -/
def Leads {Ω : Type} (W : World Ω) (g : Gen Ω) (r : Rx Ω) (S : Set (Event ℝ × Ω)) (e : ℝ) (ω : Ω) :
    Prop :=
  ∃ ev rot ω', follow W g r e ω = some (.ok (ev, rot, ω')) ∧ (ev, ω') ∈ S

/-- How often reaction `i` should be used at the energy `e`: the spectrum of the source times the
cross section if energies are to be weighted by it, and a share of the spectrum otherwise (none
where all cross sections are zero). -/
noncomputable def rate {Ω : Type} (g : Gen Ω) (s : Nat → ℝ → ℝ) (i : Nat) (e : ℝ) : ℝ :=
  if g.weightFlux then g.source.pdf e * s i e else g.source.pdf e * (s i e / totalOf g s e)

/-- The same for all reactions. -/
noncomputable def rates {Ω : Type} (g : Gen Ω) (s : Nat → ℝ → ℝ) (e : ℝ) : ℝ :=
  ∑ i ∈ Finset.range g.reactions.length, rate g s i e

/-- A generator that can make events: it has a source with a density, cross sections `s`, and a
number `m` that is a bound for rejection sampling. -/
structure Usable {Ω : Type} (W : World Ω) (g : Gen Ω) (s : Nat → ℝ → ℝ) (m : ℝ) : Prop where
  arith : W.arith = exact
  cached : g.values.length = g.reactions.length
  sections : CrossSections g s
  range : g.source.Emin < g.source.Emax
  measurable : Measurable g.source.pdf
  nonneg : ∀ e, 0 ≤ g.source.pdf e
  norm : 0 < g.norm
  bound : g.bound W = some (.ok m)
  positive : 0 < m
  bounded : ∀ e ∈ Set.Icc g.source.Emin g.source.Emax, rates g s e ≤ m * g.norm
  possible : 0 < ∫ e in Set.Icc g.source.Emin g.source.Emax, rates g s e

/-- The probability that the loop of rejection sampling comes to an end. -/
noncomputable def ends {Ω : Type} (W : World Ω) (g : Gen Ω) (s : Nat → ℝ → ℝ) (m : ℝ) : ℝ :=
  1 - (1 - (∫ e in Set.Icc g.source.Emin g.source.Emax, rates g s e)
    / (m * g.norm * (g.source.Emax - g.source.Emin))) ^ W.fuel

/-- The engines for which `create_event()` gives an event, and leaves a state, in `S`. -/
def events {Ω : Type} (W : World Ω) (g : Gen Ω) (S : Set (Event ℝ × Ω)) : Set Ω :=
  {ω | ∃ ev g', ({ g with eng := ω } : Gen Ω).createEvent W = some (.ok (ev, g')) ∧
    (ev, g'.eng) ∈ S}

/-- The engines for which the first events belong to the sets of `Ts`. -/
def starts {Ω : Type} (W : World Ω) (g : Gen Ω) (Ts : List (Set (Event ℝ))) : Set Ω :=
  {ω | ∃ evs g', ({ g with eng := ω } : Gen Ω).createEvents W Ts.length = some (.ok (evs, g')) ∧
    List.Forall₂ (· ∈ ·) evs Ts}

/-- The engines for which `create_event()` uses reaction `i` at an energy in `A` and gives an
event, and leaves a state, in `S`. -/
def made {Ω : Type} (W : World Ω) (g : Gen Ω) (i : Nat) (A : Set ℝ) (S : Set (Event ℝ × Ω)) :
    Set Ω :=
  {ω | ∃ e g1 ev g', ({ g with eng := ω } : Gen Ω).sampleReaction W = some (.ok (i, e, g1)) ∧ e ∈ A ∧
    ({ g with eng := ω } : Gen Ω).createEvent W = some (.ok (ev, g')) ∧ (ev, g'.eng) ∈ S}

/-- Events in `T` of any reaction can be told, and say nothing about the numbers that the engine
will give afterwards. -/
structure Renews {Ω : Type} [MeasurableSpace Ω] (W : World Ω) (g : Gen Ω) (μ : Measure Ω)
    (T : Set (Event ℝ)) : Prop where
  measurable : ∀ r ∈ g.reactions, ∀ B : Set Ω, MeasurableSet B →
    MeasurableSet {p : ℝ × Ω | Leads W g r (T ×ˢ B) p.1 p.2}
  independent : ∀ r ∈ g.reactions, ∀ B : Set Ω, MeasurableSet B → ∀ e,
    μ {ω | Leads W g r (T ×ˢ B) e ω} = μ {ω | Leads W g r (T ×ˢ Set.univ) e ω} * μ B

/-! ### Lemmas -/

section
variable {Ω : Type} [MeasurableSpace Ω] {μ : Measure Ω} {W : World Ω} {g : Gen Ω}
  {s : Nat → ℝ → ℝ} {S : Set (Event ℝ × Ω)}

/-- Point and state that lead to reaction `i` and an event in `S`. -/
def goal (W : World Ω) (g : Gen Ω) (s : Nat → ℝ → ℝ) (i : Nat) (r : Rx Ω) (A : Set ℝ)
    (S : Set (Event ℝ × Ω)) : Set (ℝ × Ω) :=
  if g.reactions.length < 2 then {p | (p.1 ∈ A ∧ 0 < totalOf g s p.1) ∧ Leads W g r S p.1 p.2}
  else {p | (p.1, (W.engine.draw p.2).1) ∈ selects g s i A ∧
    Leads W g r S p.1 (W.engine.draw p.2).2}

theorem goal_measurable (hI : Ideal W.engine μ) (hc : CrossSections g s) {i : Nat} {r : Rx Ω}
    {A : Set ℝ} (hA : MeasurableSet A) (hS : MeasurableSet {p : ℝ × Ω | Leads W g r S p.1 p.2}) :
    MeasurableSet (goal W g s i r A S) := by
  have hd := hI.draws.measurable
  unfold goal
  split_ifs
  · have ht : Measurable (totalOf g s) := sums_measurable hc g.reactions.length
    exact ((measurable_fst hA).inter
      (measurableSet_lt measurable_const (ht.comp measurable_fst))).inter hS
  · have h1 : Measurable fun p : ℝ × Ω => (p.1, (W.engine.draw p.2).1) :=
      measurable_fst.prodMk (measurable_fst.comp (hd.comp measurable_snd))
    have h2 : Measurable fun p : ℝ × Ω => (p.1, (W.engine.draw p.2).2) :=
      measurable_fst.prodMk (measurable_snd.comp (hd.comp measurable_snd))
    exact (h1 (selects_measurable hc i hA)).inter (h2 hS)

theorem goal_section (hI : Ideal W.engine μ) (hc : CrossSections g s) {i : Nat} {r : Rx Ω}
    (hi : g.reactions[i]? = some r)
    {A : Set ℝ} (hA : MeasurableSet A) (hS : MeasurableSet {p : ℝ × Ω | Leads W g r S p.1 p.2})
    {e : ℝ} (ht : 0 < totalOf g s e) :
    μ {ω | (e, ω) ∈ goal W g s i r A S}
      = A.indicator (fun e => ENNReal.ofReal (s i e / totalOf g s e) * μ {ω | Leads W g r S e ω}) e := by
  have := hI.prob
  have hlt : i < g.reactions.length := (List.getElem?_eq_some_iff.1 hi).1
  by_cases hA' : e ∈ A
  · rw [Set.indicator_of_mem hA']
    unfold goal
    split_ifs with h2
    · have h0 : i = 0 := by omega
      have h1 : g.reactions.length = 1 := by omega
      have : totalOf g s e = s i e := by
        unfold totalOf
        rw [h1, h0]
        simp
      rw [← this, div_self ht.ne', ENNReal.ofReal_one, one_mul]
      congr 1
      ext ω
      simp [hA', ht]
    · have hset : {ω | (e, ω) ∈ {p : ℝ × Ω | (p.1, (W.engine.draw p.2).1) ∈ selects g s i A ∧
            Leads W g r S p.1 (W.engine.draw p.2).2}}
          = W.engine.draw ⁻¹' ({u | (e, u) ∈ selects g s i A} ×ˢ {ω | Leads W g r S e ω}) := rfl
      have m1 : MeasurableSet {u | (e, u) ∈ selects g s i A} :=
        measurable_prodMk_left (selects_measurable hc i hA)
      have m2 : MeasurableSet {ω | Leads W g r S e ω} := measurable_prodMk_left hS
      rw [hset, hI.draws.measure_preimage (m1.prod m2).nullMeasurableSet, Measure.prod_prod,
        ← chance_selects hc hlt hA' ht]
      rfl
  · rw [Set.indicator_of_notMem hA']
    have : {ω | (e, ω) ∈ goal W g s i r A S} = ∅ := by
      refine Set.eq_empty_of_forall_notMem fun ω h => ?_
      have h : (e, ω) ∈ goal W g s i r A S := h
      unfold goal at h
      split_ifs at h
      · exact hA' h.1.1
      · exact hA' h.1.1
    rw [this, measure_empty]

/-- Which reaction is used does not depend on whether a number is drawn for it. -/
theorem goal_iff (hc : CrossSections g s) {i : Nat} {r : Rx Ω} (hi : g.reactions[i]? = some r)
    {A : Set ℝ} {e : ℝ} {ω : Ω} (hl : (e, (W.engine.draw ω).1) ∉ unlikely g s) :
    (e ∈ A ∧ ∃ ω', pickFrom W.engine ((List.range g.reactions.length).map (s · e)) ω = .ok (i, ω') ∧
        Leads W g r S e ω') ↔ (e, ω) ∈ goal W g s i r A S := by
  have hlt : i < g.reactions.length := (List.getElem?_eq_some_iff.1 hi).1
  simp only [unlikely, Set.mem_ofPred_eq, not_or, not_not, not_le] at hl
  obtain ⟨_, ht, hu⟩ := hl
  have hlen : ((List.range g.reactions.length).map (s · e)).length = g.reactions.length := by simp
  unfold goal pickFrom
  rw [hlen]
  split_ifs with h2
  · have h0 : i = 0 := by omega
    subst h0
    simp only [Except.ok.injEq, Prod.mk.injEq, true_and, exists_eq_left', Set.mem_ofPred_eq, ht,
      and_true]
  · have hsum : ((List.range g.reactions.length).map (s · e)).sum = totalOf g s e := by
      have := take_sum s e (le_refl g.reactions.length)
      rwa [List.take_of_length_le (by simp)] at this
    have hw : ∀ x ∈ (List.range g.reactions.length).map (s · e), 0 ≤ x := by
      intro x hx
      obtain ⟨j, _, rfl⟩ := List.mem_map.1 hx
      exact hc.nonneg j e
    have hp := pick_iff hw (by rw [hsum]; exact ht) hu.1 hu.2.le i
    rw [hsum, take_sum s e hlt.le, take_sum s e hlt, hlen] at hp
    simp only [Set.mem_ofPred_eq, selects, ht, true_and]
    cases hk : pick ((List.range g.reactions.length).map (s · e)) (W.engine.draw ω).1 with
    | error x =>
      rw [hk] at hp
      simp only [reduceCtorEq, hlt, true_and, false_iff] at hp
      simp [hp]
    | ok k =>
      rw [hk] at hp
      simp only [Except.ok.injEq, hlt, true_and] at hp
      simp only [Except.ok.injEq, Prod.mk.injEq]
      constructor
      · rintro ⟨h1, ω', ⟨rfl, rfl⟩, h3⟩
        exact ⟨⟨h1, hp.1 rfl⟩, h3⟩
      · rintro ⟨⟨h1, h3⟩, h4⟩
        exact ⟨h1, _, ⟨hp.2 h3, rfl⟩, h4⟩

/-- The law of reaction, energy and event for any of the two densities. -/
theorem made_law (hI : Ideal W.engine μ) (hW : W.arith = exact) {m : ℝ} (hs : g.Sized g.values)
    (hc : CrossSections g s) (hE : g.source.Emin < g.source.Emax) (hp : Measurable g.source.pdf)
    (hn : g.norm ≠ 0) (hb : g.bound W = some (.ok m)) (hm : 0 < m)
    (hr : ∀ E ∈ Set.Icc g.source.Emin g.source.Emax, 0 ≤ densityOf g s E ∧ densityOf g s E ≤ m)
    {i : Nat} {r : Rx Ω} (hi : g.reactions[i]? = some r) {A : Set ℝ} (hA : MeasurableSet A)
    (hS : MeasurableSet {p : ℝ × Ω | Leads W g r S p.1 p.2}) :
    NullMeasurableSet (made W g i A S) μ ∧
    μ (made W g i A S)
      = (∑ k ∈ Finset.range W.fuel,
          ENNReal.ofReal (1 - share (densityOf g s) g.source.Emin g.source.Emax m) ^ k)
        * ((ENNReal.ofReal (m * (g.source.Emax - g.source.Emin)))⁻¹
          * ∫⁻ e in Set.Icc g.source.Emin g.source.Emax ∩ A,
            μ {ω | Leads W g r S e ω} * ENNReal.ofReal (s i e / totalOf g s e * densityOf g s e)) := by
  have := hI.prob
  have hlt : i < g.reactions.length := (List.getElem?_eq_some_iff.1 hi).1
  have hd := density_measurable hc hp
  have hev := ePdf_evaluates hc hn
  -- the draws that do not matter
  let U : Set (ℝ × Ω) := {p | (p.1, (W.engine.draw p.2).1) ∈ unlikely g s}
  have hUm : MeasurableSet U :=
    (show Measurable fun p : ℝ × Ω => (p.1, (W.engine.draw p.2).1) from
      measurable_fst.prodMk (measurable_fst.comp (hI.draws.measurable.comp measurable_snd)))
      (unlikely_measurable hc)
  have hU0 : μ (accepts W.engine (densityOf g s) g.source.Emin g.source.Emax m U W.fuel) = 0 := by
    rw [accepts_measure hI hE hm hd hr hUm]
    have : ∫⁻ x in Set.Icc g.source.Emin g.source.Emax,
        μ {ω | (x, ω) ∈ U} * ENNReal.ofReal (densityOf g s x) = 0 := by
      rw [← lintegral_zero (μ := volume.restrict (Set.Icc g.source.Emin g.source.Emax))]
      refine setLIntegral_congr_fun measurableSet_Icc fun e he => ?_
      by_cases ht : 0 < totalOf g s e
      · have hset : {ω | (e, ω) ∈ U}
            = W.engine.draw ⁻¹' ({u | (e, u) ∈ unlikely g s} ×ˢ Set.univ) := by
          ext ω
          simp only [U, Set.mem_ofPred_eq, Set.mem_preimage, Set.mem_prod, Set.mem_univ, and_true]
        have m1 : MeasurableSet {u | (e, u) ∈ unlikely g s} :=
          measurable_prodMk_left (unlikely_measurable hc)
        have hz := chance_unlikely he ht
        rw [chance] at hz
        rw [hset, hI.draws.measure_preimage (m1.prod MeasurableSet.univ).nullMeasurableSet,
          Measure.prod_prod, hz, zero_mul, zero_mul]
      · rw [densityOf_zero hc ht, ENNReal.ofReal_zero, mul_zero]
    rw [this, mul_zero, mul_zero]
  have hgm := goal_measurable hI hc (i := i) hA hS
  have hkey : made W g i A S
      =ᵐ[μ] accepts W.engine (densityOf g s) g.source.Emin g.source.Emax m (goal W g s i r A S)
        W.fuel := by
    have i1 := accepts_iff (Q := goal W g s i r A S) hI hE (safety := 1.01)
      (fun x hx => (hr x hx).2) hev W.fuel
    have i2 := accepts_iff (Q := U) hI hE (safety := 1.01) (fun x hx => (hr x hx).2) hev W.fuel
    filter_upwards [i1, i2, compl_mem_ae_iff.2 hU0] with ω k1 k2 k3
    refine propext ?_
    show ω ∈ made W g i A S ↔ ω ∈ accepts _ _ _ _ _ _ _
    rw [k1 g.values hs]
    have hno : ∀ q, rejectLoop exact W.engine g.ePdf g.source.Emin g.source.Emax 1.01 W.fuel m ω
        g.values = some (.ok q) → (q.x, (W.engine.draw q.gen).1) ∉ unlikely g s :=
      fun q h h' => k3 ((k2 g.values hs).2 ⟨q, h, h'⟩)
    have hcfg : SameConfig ({ g with eng := ω } : Gen Ω) g :=
      ⟨rfl, rfl, rfl, rfl, rfl, rfl, Or.inr rfl, rfl⟩
    have hpdf : Gen.ePdf ({ g with eng := ω } : Gen Ω) = g.ePdf := ePdf_congr hcfg rfl
    have hbound : Gen.bound W ({ g with eng := ω } : Gen Ω) = some (.ok m) := by
      rw [← hb]; unfold Gen.bound; rw [hpdf]
    have hne : ¬ g.reactions.isEmpty := by
      rw [List.isEmpty_iff]; intro h; rw [h] at hlt; simp at hlt
    have hsr := sampleReaction_eq W (g := { g with eng := ω }) hs
    rw [hbound, hpdf] at hsr
    dsimp only at hsr
    rw [if_neg hne, hW] at hsr
    unfold made Gen.createEvent
    simp only [Set.mem_ofPred_eq]
    rw [hsr]
    cases hl : rejectLoop exact W.engine g.ePdf g.source.Emin g.source.Emax 1.01 W.fuel m ω
        g.values with
    | none => simp
    | some v =>
      cases v with
      | error _ => simp
      | ok q =>
        have hu := hno q hl
        obtain ⟨v, hv, _⟩ := rejectLoop_last (ePdf_cached g) _ _ _ hs hl
        have hx : q.x ∈ Set.Icc g.source.Emin g.source.Emax := by
          by_contra h
          exact hu (Or.inl h)
        rw [ePdf_density hc hn hx hs] at hv
        have hst : q.st = (List.range g.reactions.length).map (s · q.x) := by
          injection hv with hv; injection hv with _ hv; exact hv.symm
        have key := goal_iff (W := W) (S := S) (A := A) hc hi hu
        rw [← hst] at key
        simp only [Option.some.injEq, Except.ok.injEq, exists_eq_left']
        rw [← key]
        cases hk : pickFrom W.engine q.st q.gen with
        | error _ => simp
        | ok y =>
          obtain ⟨k, eng⟩ := y
          dsimp only
          by_cases hkl : k < g.reactions.length
          · rw [if_pos hkl]
            simp only [Option.some.injEq, Except.ok.injEq, Prod.mk.injEq]
            constructor
            · rintro ⟨e, g1, ev, g', ⟨rfl, rfl, rfl⟩, hA', h1, h2⟩
              refine ⟨hA', eng, ⟨rfl, rfl⟩, ?_⟩
              simp only [hi] at h1
              unfold Leads follow
              cases hcr : r.create g.source.pid q.x eng with
              | none => rw [hcr] at h1; cases h1
              | some z =>
                cases z with
                | error _ => rw [hcr] at h1; cases h1
                | ok z =>
                  obtain ⟨ev1, ω1⟩ := z
                  rw [hcr] at h1
                  dsimp only at h1 ⊢
                  cases hf : finish W g.deexcite g.rotator ev1 ω1 with
                  | none => rw [hf] at h1; cases h1
                  | some z =>
                    cases z with
                    | error _ => rw [hf] at h1; cases h1
                    | ok z =>
                      obtain ⟨ev2, rot, ω2⟩ := z
                      rw [hf] at h1
                      cases h1
                      exact ⟨_, _, _, rfl, h2⟩
            · rintro ⟨hA', ω', ⟨rfl, rfl⟩, ev, rot, ω2, h1, h2⟩
              refine ⟨_, _, ev, { g with eng := ω2, pdfMax := some q.fmax, values := q.st, rotator := rot },
                ⟨rfl, rfl, rfl⟩, hA', ?_, h2⟩
              simp only [hi]
              unfold follow at h1
              cases hcr : r.create g.source.pid q.x eng with
              | none => rw [hcr] at h1; cases h1
              | some z =>
                cases z with
                | error _ => rw [hcr] at h1; cases h1
                | ok z =>
                  obtain ⟨ev1, ω1⟩ := z
                  rw [hcr] at h1
                  dsimp only at h1 ⊢
                  rw [h1]
          · rw [if_neg hkl]
            simp only [Except.ok.injEq, Prod.mk.injEq]
            constructor
            · rintro ⟨e, g1, ev, g', h1, _⟩
              cases h1
            · rintro ⟨_, ω', ⟨rfl, _⟩, _⟩
              exact absurd hlt hkl
  refine ⟨(accepts_measurable hI hd hgm W.fuel).nullMeasurableSet.congr hkey.symm, ?_⟩
  rw [measure_congr hkey, accepts_measure hI hE hm hd hr hgm]
  congr 2
  rw [Set.inter_comm, ← Measure.restrict_restrict hA, ← lintegral_indicator hA]
  refine setLIntegral_congr_fun measurableSet_Icc fun e _ => ?_
  by_cases ht : 0 < totalOf g s e
  · rw [goal_section hI hc hi hA hS ht]
    by_cases hA' : e ∈ A
    · rw [Set.indicator_of_mem hA', Set.indicator_of_mem hA',
        ENNReal.ofReal_mul (div_nonneg (hc.nonneg i e) ht.le)]
      ring
    · rw [Set.indicator_of_notMem hA', Set.indicator_of_notMem hA', zero_mul]
  · have hz := densityOf_zero hc ht
    simp [hz, Set.indicator]

theorem rate_nonneg (hc : CrossSections g s) (h0 : ∀ e, 0 ≤ g.source.pdf e) (i : Nat) (e : ℝ) :
    0 ≤ rate g s i e := by
  unfold rate
  split_ifs
  · exact mul_nonneg (h0 e) (hc.nonneg i e)
  · exact mul_nonneg (h0 e) (div_nonneg (hc.nonneg i e) (total_nonneg hc e))

theorem rate_density (hc : CrossSections g s) {i : Nat} (hi : i < g.reactions.length) (e : ℝ) :
    s i e / totalOf g s e * densityOf g s e = rate g s i e / g.norm := by
  by_cases ht : 0 < totalOf g s e
  · unfold densityOf rate
    rw [if_neg (not_le.2 ht)]
    split_ifs
    · field_simp
    · ring
  · have hz : totalOf g s e = 0 := le_antisymm (not_lt.1 ht) (total_nonneg hc e)
    have hle : s i e ≤ totalOf g s e :=
      Finset.single_le_sum (f := fun j => s j e) (fun j _ => hc.nonneg j e)
        (Finset.mem_range.2 hi)
    have : s i e = 0 := le_antisymm (by rw [hz] at hle; exact hle) (hc.nonneg i e)
    simp [rate, this]

theorem rates_density (hc : CrossSections g s) (e : ℝ) :
    densityOf g s e = rates g s e / g.norm := by
  unfold rates
  rw [Finset.sum_div, ← Finset.sum_congr rfl fun i hi =>
    rate_density hc (Finset.mem_range.1 hi) e, ← Finset.sum_mul, ← Finset.sum_div]
  by_cases ht : 0 < totalOf g s e
  · rw [show ∑ i ∈ Finset.range g.reactions.length, s i e = totalOf g s e from rfl,
      div_self ht.ne', one_mul]
  · rw [densityOf_zero hc ht, mul_zero]

end

section
variable {Ω : Type} [MeasurableSpace Ω] {μ : Measure Ω} {W : World Ω} {g : Gen Ω}
  {s : Nat → ℝ → ℝ} {S : Set (Event ℝ × Ω)} {m : ℝ}

theorem Usable.density (h : Usable W g s m) : ∀ e ∈ Set.Icc g.source.Emin g.source.Emax,
    0 ≤ densityOf g s e ∧ densityOf g s e ≤ m := by
  intro e he
  rw [rates_density h.sections]
  exact ⟨div_nonneg (Finset.sum_nonneg fun i _ => rate_nonneg h.sections h.nonneg i e) h.norm.le,
    (div_le_iff₀ h.norm).2 (h.bounded e he)⟩

/-- **C132**, one reaction.  With an ideal engine, reaction `i` is used at an energy in `A` and
makes an event in `S` with the probability `ends * ∫_A rate_i(e) P_i(e) / ∫ rates`: the energy
and the reaction follow the rates, and the event is one that the reaction makes at this
energy with numbers that are again uniform and independent. -/
theorem C132_reaction (hI : Ideal W.engine μ) (h : Usable W g s m) {i : Nat} {r : Rx Ω}
    (hi : g.reactions[i]? = some r) {A : Set ℝ} (hA : MeasurableSet A)
    (hS : MeasurableSet {p : ℝ × Ω | Leads W g r S p.1 p.2}) :
    NullMeasurableSet (made W g i A S) μ ∧
    μ (made W g i A S) = ENNReal.ofReal (ends W g s m)
      * ((∫⁻ e in Set.Icc g.source.Emin g.source.Emax ∩ A,
            ENNReal.ofReal (rate g s i e) * μ {ω | Leads W g r S e ω})
        / ENNReal.ofReal (∫ e in Set.Icc g.source.Emin g.source.Emax, rates g s e)) := by
  have := hI.prob
  have hlt : i < g.reactions.length := (List.getElem?_eq_some_iff.1 hi).1
  obtain ⟨h1, h2⟩ := made_law hI h.arith h.cached h.sections h.range h.measurable h.norm.ne'
    h.bound h.positive h.density hi hA hS
  refine ⟨h1, ?_⟩
  rw [h2]
  have hd := density_measurable h.sections h.measurable
  obtain ⟨p0, p1⟩ := share_bounds h.range h.positive hd h.density
  have hw : 0 < g.source.Emax - g.source.Emin := sub_pos.2 h.range
  have hn := h.norm
  have hm := h.positive
  have hbox : 0 < m * (g.source.Emax - g.source.Emin) := mul_pos hm hw
  have hpos := h.possible
  have hsh : share (densityOf g s) g.source.Emin g.source.Emax m
      = (∫ e in Set.Icc g.source.Emin g.source.Emax, rates g s e)
        / (m * g.norm * (g.source.Emax - g.source.Emin)) := by
    rw [share]
    simp only [rates_density h.sections]
    rw [integral_div, div_div]
    congr 1
    ring
  have hgeo := geometric (p := share (densityOf g s) g.source.Emin g.source.Emax m) W.fuel
  rw [hsh] at hgeo p0 p1 ⊢
  have hX : ∫⁻ e in Set.Icc g.source.Emin g.source.Emax ∩ A, μ {ω | Leads W g r S e ω}
        * ENNReal.ofReal (s i e / totalOf g s e * densityOf g s e)
      = (∫⁻ e in Set.Icc g.source.Emin g.source.Emax ∩ A,
          ENNReal.ofReal (rate g s i e) * μ {ω | Leads W g r S e ω}) * (ENNReal.ofReal g.norm)⁻¹ := by
    rw [← lintegral_mul_const' _ _ (ENNReal.inv_ne_top.2 (ENNReal.ofReal_pos.2 hn).ne')]
    congr 1
    funext e
    rw [rate_density h.sections hlt, ENNReal.ofReal_div_of_pos hn, div_eq_mul_inv]
    ring
  rw [hX]
  set P := ∫ e in Set.Icc g.source.Emin g.source.Emax, rates g s e with hP
  have hE : ends W g s m = (∑ k ∈ Finset.range W.fuel,
      (1 - P / (m * g.norm * (g.source.Emax - g.source.Emin))) ^ k)
        * (P / (m * g.norm * (g.source.Emax - g.source.Emin))) := by
    rw [hgeo]; rfl
  have hsum : ∑ k ∈ Finset.range W.fuel,
      ENNReal.ofReal (1 - P / (m * g.norm * (g.source.Emax - g.source.Emin))) ^ k
        = ENNReal.ofReal (∑ k ∈ Finset.range W.fuel,
      (1 - P / (m * g.norm * (g.source.Emax - g.source.Emin))) ^ k) := by
    rw [ENNReal.ofReal_sum_of_nonneg fun k _ => pow_nonneg (by linarith) k]
    exact Finset.sum_congr rfl fun k _ => (ENNReal.ofReal_pow (by linarith) k).symm
  rw [hsum, hE, ENNReal.ofReal_mul (Finset.sum_nonneg fun k _ => pow_nonneg (by linarith) k),
    mul_assoc (ENNReal.ofReal _), ENNReal.ofReal_div_of_pos (by positivity)]
  congr 1
  rw [show m * g.norm * (g.source.Emax - g.source.Emin)
      = m * (g.source.Emax - g.source.Emin) * g.norm by ring, ENNReal.ofReal_mul hbox.le]
  have n1 : ENNReal.ofReal P ≠ 0 := (ENNReal.ofReal_pos.2 hpos).ne'
  have n2 : ENNReal.ofReal P ≠ ⊤ := ENNReal.ofReal_ne_top
  have n3 : ENNReal.ofReal (m * (g.source.Emax - g.source.Emin)) ≠ 0 :=
    (ENNReal.ofReal_pos.2 hbox).ne'
  rw [div_eq_mul_inv, div_eq_mul_inv,
    ENNReal.mul_inv (Or.inl n3) (Or.inl ENNReal.ofReal_ne_top)]
  generalize ∫⁻ e in Set.Icc g.source.Emin g.source.Emax ∩ A,
    ENNReal.ofReal (rate g s i e) * μ {ω | Leads W g r S e ω} = X
  rw [show ENNReal.ofReal P * ((ENNReal.ofReal (m * (g.source.Emax - g.source.Emin)))⁻¹
      * (ENNReal.ofReal g.norm)⁻¹) * (X * (ENNReal.ofReal P)⁻¹)
    = (ENNReal.ofReal P * (ENNReal.ofReal P)⁻¹)
      * ((ENNReal.ofReal (m * (g.source.Emax - g.source.Emin)))⁻¹
        * (X * (ENNReal.ofReal g.norm)⁻¹)) by ring, ENNReal.mul_inv_cancel n1 n2, one_mul]

theorem events_made (hs : g.values.length = g.reactions.length) :
    events W g S = ⋃ i ∈ Finset.range g.reactions.length, made W g i Set.univ S := by
  ext ω
  simp only [Set.mem_iUnion, Finset.mem_range]
  constructor
  · rintro ⟨ev, g', h1, h2⟩
    cases h3 : ({ g with eng := ω } : Gen Ω).sampleReaction W with
    | none => unfold Gen.createEvent at h1; rw [h3] at h1; cases h1
    | some v =>
      cases v with
      | error _ => unfold Gen.createEvent at h1; rw [h3] at h1; cases h1
      | ok v =>
        obtain ⟨i, e, g1⟩ := v
        obtain ⟨_, _, _, _, _, _, hi, _⟩ := sampleReaction_keep (g := { g with eng := ω }) hs h3
        exact ⟨i, hi, e, g1, ev, g', h3, trivial, h1, h2⟩
  · rintro ⟨i, _, e, g1, ev, g', _, _, h1, h2⟩
    exact ⟨ev, g', h1, h2⟩

/-- **C132**.  With an ideal engine, `create_event()` gives an event in `S` with the probability
`ends * (∑_i ∫ rate_i(e) P_i(e)) / ∫ rates`, where `P_i(e)` is the probability that reaction `i`
makes an event in `S` at the energy `e`. -/
theorem C132_event (hI : Ideal W.engine μ) (h : Usable W g s m)
    (hS : ∀ r ∈ g.reactions, MeasurableSet {p : ℝ × Ω | Leads W g r S p.1 p.2}) :
    NullMeasurableSet (events W g S) μ ∧
    μ (events W g S) = ENNReal.ofReal (ends W g s m)
      * ((∑ i : Fin g.reactions.length, ∫⁻ e in Set.Icc g.source.Emin g.source.Emax,
            ENNReal.ofReal (rate g s i e) * μ {ω | Leads W g g.reactions[i] S e ω})
        / ENNReal.ofReal (∫ e in Set.Icc g.source.Emin g.source.Emax, rates g s e)) := by
  have hone := fun i : Fin g.reactions.length =>
    C132_reaction (S := S) hI h (i := i) (r := g.reactions[i]) (by simp) MeasurableSet.univ
      (hS _ (List.getElem_mem _))
  rw [events_made h.cached]
  have hnull : ∀ i ∈ Finset.range g.reactions.length,
      NullMeasurableSet (made W g i Set.univ S) μ := fun i hi =>
    (hone ⟨i, Finset.mem_range.1 hi⟩).1
  refine ⟨NullMeasurableSet.biUnion (Finset.range _).countable_toSet hnull, ?_⟩
  rw [measure_biUnion_finset₀ ?_ hnull]
  · rw [← Fin.sum_univ_eq_sum_range (fun i => μ (made W g i Set.univ S)),
      ENNReal.div_eq_inv_mul, Finset.mul_sum, Finset.mul_sum]
    refine Finset.sum_congr rfl fun i _ => ?_
    rw [(hone i).2, ENNReal.div_eq_inv_mul, Set.inter_univ]
  · intro i _ j _ hij
    refine Disjoint.aedisjoint (Set.disjoint_left.2 ?_)
    rintro ω ⟨e, g1, ev, g', h1, _⟩ ⟨e', g1', ev', g'', h2, _⟩
    rw [h1] at h2
    cases h2
    exact hij rfl

/-- **C132**, what is left.  An event says nothing about the numbers the engine will give after
it. -/
theorem C132_independent (hI : Ideal W.engine μ) (h : Usable W g s m) {T : Set (Event ℝ)}
    (hT : Renews W g μ T) {B : Set Ω} (hB : MeasurableSet B) :
    μ (events W g (T ×ˢ B)) = μ (events W g (T ×ˢ Set.univ)) * μ B := by
  have := hI.prob
  rw [(C132_event hI h fun r hr => hT.measurable r hr B hB).2,
    (C132_event hI h fun r hr => hT.measurable r hr _ MeasurableSet.univ).2, mul_assoc]
  congr 1
  rw [ENNReal.div_eq_inv_mul, ENNReal.div_eq_inv_mul, mul_assoc, Finset.sum_mul]
  congr 1
  refine Finset.sum_congr rfl fun i _ => ?_
  rw [← lintegral_mul_const' _ _ (measure_ne_top μ B)]
  congr 1
  funext e
  rw [hT.independent g.reactions[i] (List.getElem_mem _) B hB e, mul_assoc]

/-- The generator after an event makes the same events as the one before. -/
theorem same_after (hI : Ideal W.engine μ) (h : Usable W g s m) (hd : Consistent g.rotator) :
    ∀ᵐ ω ∂μ, ∀ ev g', ({ g with eng := ω } : Gen Ω).createEvent W = some (.ok (ev, g')) →
      Same W g' { g with eng := g'.eng } := by
  have hb := loop_bound hI h.range (safety := 1.01) (fun x hx => (h.density x hx).2)
    (ePdf_evaluates h.sections h.norm.ne') W.fuel
  filter_upwards [hb] with ω hb ev g' he
  have hr : Gen.Ready ({ g with eng := ω } : Gen Ω) := ⟨h.cached, hd⟩
  have hr' : Gen.Ready ({ g with eng := g'.eng } : Gen Ω) := ⟨h.cached, hd⟩
  obtain ⟨c, hn, hr'', m', r, hm, hf, hl⟩ := createEvent_keep hr he
  have hcfg : ∀ ω, SameConfig ({ g with eng := ω } : Gen Ω) g := fun ω =>
    ⟨rfl, rfl, rfl, rfl, rfl, rfl, Or.inr rfl, rfl⟩
  have hbd : ∀ ω, Gen.bound W ({ g with eng := ω } : Gen Ω) = some (.ok m) := fun ω => by
    rw [← h.bound]; unfold Gen.bound; rw [ePdf_congr (hcfg ω) rfl]
  rw [hbd] at hm
  cases hm
  rw [ePdf_congr (hcfg ω) rfl, h.arith] at hl
  have hmax : r.fmax = m := hb g.values h.cached r hl
  refine ⟨rfl, hn, c.symm.trans ((hcfg ω).trans (hcfg g'.eng).symm), hr'', hr', ?_⟩
  rw [hbd]
  unfold Gen.bound
  rw [hf, hmax]

theorem starts_cons (hI : Ideal W.engine μ) (h : Usable W g s m) (hd : Consistent g.rotator)
    (T : Set (Event ℝ)) (Ts : List (Set (Event ℝ))) :
    starts W g (T :: Ts) =ᵐ[μ] events W g (T ×ˢ starts W g Ts) := by
  filter_upwards [same_after hI h hd] with ω hsame
  refine propext ?_
  show ω ∈ starts W g (T :: Ts) ↔ ω ∈ events W g (T ×ˢ starts W g Ts)
  unfold starts events
  simp only [Set.mem_ofPred_eq, List.length_cons, Gen.createEvents, Set.mem_prod]
  cases he : ({ g with eng := ω } : Gen Ω).createEvent W with
  | none => simp
  | some v =>
    cases v with
    | error _ => simp
    | ok v =>
      obtain ⟨ev, g'⟩ := v
      have hrun := run_same (hsame ev g' he) Ts.length
      unfold Gen.run at hrun
      simp only [Option.some.injEq, Except.ok.injEq, Prod.mk.injEq]
      constructor
      · rintro ⟨evs, g2, h1, h2⟩
        cases h3 : g'.createEvents W Ts.length with
        | none => rw [h3] at h1; cases h1
        | some v =>
          cases v with
          | error _ => rw [h3] at h1; cases h1
          | ok v =>
            obtain ⟨evs', g3⟩ := v
            rw [h3] at h1 hrun
            cases h1
            cases h2 with
            | cons h2 h4 =>
              cases h5 : ({ g with eng := g'.eng } : Gen Ω).createEvents W Ts.length with
              | none => rw [h5] at hrun; cases hrun
              | some v =>
                cases v with
                | error _ => rw [h5] at hrun; cases hrun
                | ok v =>
                  obtain ⟨evs'', g4⟩ := v
                  rw [h5] at hrun
                  cases hrun
                  exact ⟨ev, g', ⟨rfl, rfl⟩, h2, evs', g4, h5, h4⟩
      · rintro ⟨_, _, ⟨rfl, rfl⟩, h2, evs, g4, h5, h4⟩
        rw [h5] at hrun
        cases h3 : g'.createEvents W Ts.length with
        | none => rw [h3] at hrun; cases hrun
        | some v =>
          cases v with
          | error _ => rw [h3] at hrun; cases hrun
          | ok v =>
            obtain ⟨evs', g3⟩ := v
            rw [h3] at hrun
            cases hrun
            exact ⟨_, g3, rfl, .cons h2 h4⟩

/-- **C132**, a sequence of events.  With an ideal engine successive events of a generator are
independent and all have the same law. -/
theorem C132_sequence (hI : Ideal W.engine μ) (h : Usable W g s m) (hd : Consistent g.rotator)
    (hu : Renews W g μ Set.univ) {Ts : List (Set (Event ℝ))} (hT : ∀ T ∈ Ts, Renews W g μ T) :
    NullMeasurableSet (starts W g Ts) μ ∧
    μ (starts W g Ts) = (Ts.map fun T => μ (events W g (T ×ˢ Set.univ))).prod := by
  have := hI.prob
  induction Ts with
  | nil =>
    have : starts W g [] = Set.univ := by
      ext ω
      simp [starts, Gen.createEvents]
    rw [this]
    exact ⟨MeasurableSet.univ.nullMeasurableSet, by simp⟩
  | cons T Ts ih =>
    obtain ⟨hn, hp⟩ := ih fun T' hT' => hT T' (List.mem_cons_of_mem _ hT')
    have hT0 := hT T (List.mem_cons_self ..)
    -- a measurable set in place of the rest
    obtain ⟨B, hB, hBe⟩ := hn
    let N := toMeasurable μ {ω | ¬ (ω ∈ starts W g Ts ↔ ω ∈ B)}
    have hN : MeasurableSet N := measurableSet_toMeasurable _ _
    have hN0 : μ N = 0 := by
      rw [measure_toMeasurable]
      exact ae_iff.1 (Filter.EventuallyEq.mem_iff hBe)
    have hzero : μ (events W g (Set.univ ×ˢ N)) = 0 := by
      rw [C132_independent hI h hu hN, hN0, mul_zero]
    have hev : events W g (T ×ˢ starts W g Ts) =ᵐ[μ] events W g (T ×ˢ B) := by
      filter_upwards [compl_mem_ae_iff.2 hzero] with ω hω
      refine propext ?_
      show ω ∈ events W g _ ↔ ω ∈ events W g _
      have hiff : ∀ ev g', ({ g with eng := ω } : Gen Ω).createEvent W = some (.ok (ev, g')) →
          (g'.eng ∈ starts W g Ts ↔ g'.eng ∈ B) := by
        intro ev g' he
        by_contra hne
        exact hω ⟨ev, g', he, trivial, subset_toMeasurable _ _ hne⟩
      constructor
      · rintro ⟨ev, g', h1, h2, h3⟩
        exact ⟨ev, g', h1, h2, (hiff ev g' h1).1 h3⟩
      · rintro ⟨ev, g', h1, h2, h3⟩
        exact ⟨ev, g', h1, h2, (hiff ev g' h1).2 h3⟩
    have hall := (starts_cons hI h hd T Ts).trans hev
    refine ⟨(C132_event hI h fun r hr => hT0.measurable r hr B hB).1.congr hall.symm, ?_⟩
    rw [measure_congr hall, C132_independent hI h hT0 hB, List.map_cons, List.prod_cons, ← hp,
      measure_congr hBe]

end

/-! ### A generator with two reactions -/

/-- A reaction that draws a number for its event. -/
noncomputable def coinRx : Rx (ℕ → ℝ) :=
  { (demoRx 1 : Rx (ℕ → ℝ)) with
    totalXs := fun _ E => .ok |E|
    create := fun _ _ ω => some (.ok (demoEvent (reader.draw ω).1, (reader.draw ω).2)) }

/-- The cross section of one reaction is the energy, that of the other one is 2; the spectrum is
flat. -/
noncomputable def coinGen : Gen (ℕ → ℝ) :=
  { demoGen (fun _ => 0) 3 3 0 with
    reactions := [coinRx, demoRx 2]
    values := [0, 0] }

/-- Sequences of independent uniform numbers. -/
noncomputable def coins : Measure (ℕ → ℝ) := Measure.infinitePi fun _ : ℕ => unit

theorem coin_finish (x : ℝ) (ω : ℕ → ℝ) :
    finish (demoWorld reader) coinGen.deexcite coinGen.rotator (demoEvent x) ω
      = some (.ok (demoEvent x, coinGen.rotator, ω)) := by
  have hm : Kin.momentum (demoProjectile x) = 0 := by simp [Kin.momentum, demoProjectile]
  simp [coinGen, demoGen, finish, direction, demoEvent, hm, Rotator.process]

theorem coin_leads {S : Set (Event ℝ × (ℕ → ℝ))} {e : ℝ} {ω : ℕ → ℝ} :
    Leads (demoWorld reader) coinGen coinRx S e ω
      ↔ (demoEvent (reader.draw ω).1, (reader.draw ω).2) ∈ S := by
  unfold Leads follow
  simp [coinRx, coin_finish]

theorem plain_leads {S : Set (Event ℝ × (ℕ → ℝ))} {e : ℝ} {ω : ℕ → ℝ} :
    Leads (demoWorld reader) coinGen (demoRx 2) S e ω ↔ (demoEvent e, ω) ∈ S := by
  unfold Leads follow
  simp [demoRx, coin_finish]

theorem coin_sections : CrossSections coinGen twoXs where
  value E _ j r hj := by
    have hshare : ∀ a, coinGen.share a = 1 := fun _ => rfl
    match j, hj with
    | 0, hj => cases hj; exact ⟨|E|, rfl, by rw [hshare]; simp [twoXs]⟩
    | 1, hj => cases hj; exact ⟨2, rfl, by rw [hshare]; simp [twoXs]⟩
    | _ + 2, hj => simp [coinGen] at hj
  nonneg := (two_sections true).nonneg
  measurable := (two_sections true).measurable

theorem coin_rates {e : ℝ} (h : 0 ≤ e) : rates coinGen twoXs e = e + 2 := by
  simp [rates, rate, coinGen, demoGen, demoSource, twoXs, Finset.sum_range_succ, abs_of_nonneg h]

theorem coin_integral :
    ∫ e in Set.Icc coinGen.source.Emin coinGen.source.Emax, rates coinGen twoXs e = 5 / 2 := by
  rw [← two_integral]
  exact setIntegral_congr_fun measurableSet_Icc fun e he => coin_rates he.1

theorem coin_usable : Usable (demoWorld reader) coinGen twoXs 3 where
  arith := rfl
  cached := rfl
  sections := coin_sections
  range := by norm_num [coinGen, demoGen, demoSource]
  measurable := measurable_const
  nonneg _ := by norm_num [coinGen, demoGen, demoSource]
  norm := by norm_num [coinGen, demoGen]
  bound := rfl
  positive := by norm_num
  bounded e he := by
    rw [coin_rates he.1]
    have : e ≤ 1 := he.2
    norm_num [coinGen, demoGen]
    linarith
  possible := by rw [coin_integral]; norm_num

theorem coin_ideal : Ideal (demoWorld (G := ℕ → ℝ) reader).engine coins := reader_ideal

/-- All its events leave the engine as good as new. -/
theorem coin_fresh {T : Set (Event ℝ)} (hT : MeasurableSet {x | demoEvent x ∈ T}) :
    Renews (demoWorld reader) coinGen coins T := by
  have : IsProbabilityMeasure coins := coin_ideal.prob
  have hd : MeasurePreserving reader.draw coins (unit.prod coins) := coin_ideal.draws
  have hmem : ∀ r ∈ coinGen.reactions, r = coinRx ∨ r = demoRx 2 := by
    intro r hr
    simpa [coinGen] using hr
  have h1 : ∀ (B : Set (ℕ → ℝ)) (e : ℝ),
      {ω | Leads (demoWorld reader) coinGen coinRx (T ×ˢ B) e ω}
        = reader.draw ⁻¹' ({x | demoEvent x ∈ T} ×ˢ B) := by
    intro B e
    ext ω
    exact coin_leads
  constructor
  · intro r hr B hB
    rcases hmem r hr with rfl | rfl
    · have : {p : ℝ × (ℕ → ℝ) | Leads (demoWorld reader) coinGen coinRx (T ×ˢ B) p.1 p.2}
          = (fun p => reader.draw p.2) ⁻¹' ({x | demoEvent x ∈ T} ×ˢ B) := by
        ext p
        exact coin_leads
      rw [this]
      exact (hd.measurable.comp measurable_snd) (hT.prod hB)
    · have : {p : ℝ × (ℕ → ℝ) | Leads (demoWorld reader) coinGen (demoRx 2) (T ×ˢ B) p.1 p.2}
          = {x | demoEvent x ∈ T} ×ˢ B := by
        ext p
        exact plain_leads
      rw [this]
      exact hT.prod hB
  · intro r hr B hB e
    rcases hmem r hr with rfl | rfl
    · rw [h1, h1, hd.measure_preimage (hT.prod hB).nullMeasurableSet,
        hd.measure_preimage (hT.prod MeasurableSet.univ).nullMeasurableSet, Measure.prod_prod,
        Measure.prod_prod, measure_univ, mul_one]
    · by_cases h : demoEvent e ∈ T
      · have h2 : ∀ B : Set (ℕ → ℝ),
            {ω | Leads (demoWorld reader) coinGen (demoRx 2) (T ×ˢ B) e ω} = B := by
          intro B
          ext ω
          exact plain_leads.trans ⟨fun h => h.2, fun k => ⟨h, k⟩⟩
        rw [h2, h2, measure_univ, one_mul]
      · have h2 : ∀ B : Set (ℕ → ℝ),
            {ω | Leads (demoWorld reader) coinGen (demoRx 2) (T ×ˢ B) e ω} = ∅ := by
          intro B
          refine Set.eq_empty_of_forall_notMem fun ω k => h (plain_leads.1 k).1
        rw [h2, h2, measure_empty, zero_mul]

/-- Events that show a number up to 1/2. -/
def small : Set (Event ℝ) := {ev | ∃ x ≤ 1 / 2, ev = demoEvent x}

theorem small_iff {x : ℝ} : demoEvent x ∈ small ↔ x ≤ 1 / 2 := by
  constructor
  · rintro ⟨y, hy, h⟩
    have : x = y := by
      simpa [demoEvent, demoProjectile] using h
    rw [this]; exact hy
  · intro h; exact ⟨x, h, rfl⟩

theorem small_measurable : MeasurableSet {x | demoEvent x ∈ small} := by
  simp only [small_iff]
  exact measurableSet_Iic

/-- The reaction that draws a number has it with probability 1/2 (one fifth of all
events), the other one when the energy is not above 1/2; two trials give an event with the
probability 35/36. -/
theorem coin_small :
    coins (events (demoWorld reader) coinGen (small ×ˢ Set.univ)) = ENNReal.ofReal (35 / 72) := by
  have : IsProbabilityMeasure coins := coin_ideal.prob
  have hd : MeasurePreserving reader.draw coins (unit.prod coins) := coin_ideal.draws
  rw [(C132_event coin_ideal coin_usable fun r hr =>
    (coin_fresh small_measurable).measurable r hr _ MeasurableSet.univ).2, coin_integral]
  have hends : ends (demoWorld reader) coinGen twoXs 3 = 35 / 36 := by
    unfold ends
    rw [coin_integral]
    norm_num [demoWorld, coinGen, demoGen, demoSource]
  have hsum : ∑ i : Fin coinGen.reactions.length,
      ∫⁻ e in Set.Icc coinGen.source.Emin coinGen.source.Emax,
        ENNReal.ofReal (rate coinGen twoXs i e)
          * coins {ω | Leads (demoWorld reader) coinGen coinGen.reactions[i] (small ×ˢ Set.univ) e ω}
      = (∫⁻ e in Set.Icc (0 : ℝ) 1, ENNReal.ofReal |e|
          * coins {ω | Leads (demoWorld reader) coinGen coinRx (small ×ˢ Set.univ) e ω})
        + ∫⁻ e in Set.Icc (0 : ℝ) 1, ENNReal.ofReal 2
          * coins {ω | Leads (demoWorld reader) coinGen (demoRx 2) (small ×ˢ Set.univ) e ω} := by
    have hrate : ∀ i e, rate coinGen twoXs i e = twoXs i e := by
      intro i e
      simp [rate, coinGen, demoGen, demoSource]
    simp only [hrate]
    exact Fin.sum_univ_two _
  rw [hends, hsum]
  have p1 : ∀ e, coins {ω | Leads (demoWorld reader) coinGen coinRx (small ×ˢ Set.univ) e ω}
      = ENNReal.ofReal (1 / 2) := by
    intro e
    have : {ω | Leads (demoWorld reader) coinGen coinRx (small ×ˢ Set.univ) e ω}
        = reader.draw ⁻¹' (Set.Iic (1 / 2) ×ˢ Set.univ) := by
      ext ω
      refine coin_leads.trans ?_
      simp [small_iff]
    rw [this, hd.measure_preimage (measurableSet_Iic.prod MeasurableSet.univ).nullMeasurableSet,
      Measure.prod_prod, measure_univ, mul_one, unit, Measure.restrict_apply measurableSet_Iic]
    have h' : Set.Iic (1 / 2 : ℝ) ∩ Set.Ico 0 1 = Set.Icc 0 (1 / 2) := by
      ext x
      simp only [Set.mem_inter_iff, Set.mem_Iic, Set.mem_Icc, Set.mem_Ico]
      constructor
      · rintro ⟨h1, h2, h3⟩; exact ⟨h2, h1⟩
      · rintro ⟨h1, h2⟩; exact ⟨h2, h1, by linarith⟩
    rw [h', Real.volume_Icc]; norm_num
  have p2 : ∀ e, ENNReal.ofReal 2
      * coins {ω | Leads (demoWorld reader) coinGen (demoRx 2) (small ×ˢ Set.univ) e ω}
        = (Set.Iic (1 / 2 : ℝ)).indicator (fun _ => ENNReal.ofReal 2) e := by
    intro e
    by_cases h : e ≤ 1 / 2
    · have : {ω | Leads (demoWorld reader) coinGen (demoRx 2) (small ×ˢ Set.univ) e ω}
          = Set.univ := by
        ext ω
        refine plain_leads.trans ?_
        simpa [small_iff] using h
      rw [this, measure_univ, mul_one, Set.indicator_of_mem (by exact h)]
    · have : {ω | Leads (demoWorld reader) coinGen (demoRx 2) (small ×ˢ Set.univ) e ω} = ∅ := by
        refine Set.eq_empty_of_forall_notMem fun ω k => h ?_
        exact small_iff.1 (plain_leads.1 k).1
      rw [this, measure_empty, mul_zero, Set.indicator_of_notMem (by exact h)]
  simp only [p1, p2]
  rw [lintegral_mul_const' _ _ ENNReal.ofReal_ne_top, lintegral_indicator measurableSet_Iic,
    lintegral_const, Measure.restrict_restrict measurableSet_Iic, Measure.restrict_apply_univ]
  have hset : Set.Iic (1 / 2 : ℝ) ∩ Set.Icc 0 1 = Set.Icc 0 (1 / 2) := by
    ext x
    simp only [Set.mem_inter_iff, Set.mem_Iic, Set.mem_Icc]
    constructor
    · rintro ⟨h1, h2, h3⟩; exact ⟨h2, h1⟩
    · rintro ⟨h1, h2⟩; exact ⟨h2, h1, by linarith⟩
  have hramp : ∫⁻ e in Set.Icc (0 : ℝ) 1, ENNReal.ofReal |e| = ENNReal.ofReal (1 / 2) := by
    rw [← ramp_integral, ofReal_integral_eq_lintegral_ofReal]
    · exact setLIntegral_congr_fun measurableSet_Icc fun e he => by rw [abs_of_nonneg he.1]
    · exact continuous_id.integrableOn_Icc
    · exact (ae_restrict_iff' measurableSet_Icc).2 (Filter.Eventually.of_forall fun e he => he.1)
  rw [hset, hramp, Real.volume_Icc, ← ENNReal.ofReal_mul (by norm_num),
    ← ENNReal.ofReal_mul (by norm_num), ← ENNReal.ofReal_add (by norm_num) (by norm_num),
    ← ENNReal.ofReal_div_of_pos (by norm_num), ← ENNReal.ofReal_mul (by norm_num)]
  norm_num

/-- Two events in succession. -/
example : coins (starts (demoWorld reader) coinGen [small, small])
    = ENNReal.ofReal (35 / 72) * ENNReal.ofReal (35 / 72) := by
  have h := (C132_sequence coin_ideal coin_usable (Or.inl rfl)
    (coin_fresh (T := Set.univ) (by simp)) (Ts := [small, small])
    (fun T hT => by
      have : T = small := by simpa using hT
      rw [this]; exact coin_fresh small_measurable)).2
  rw [h]
  simp [coin_small]

/-- An event and the next number of the engine. -/
example : coins (events (demoWorld reader) coinGen (small ×ˢ {ω | ω 0 ≤ 1 / 3}))
    = ENNReal.ofReal (35 / 72) * coins {ω | ω 0 ≤ 1 / 3} := by
  rw [C132_independent coin_ideal coin_usable (coin_fresh small_measurable)
    (measurableSet_le (measurable_pi_apply 0) measurable_const), coin_small]

/-- The reaction that draws a number: any event at energies up to 1/2. -/
example : coins (made (demoWorld reader) coinGen 0 (Set.Iic (1 / 2)) (small ×ˢ Set.univ))
    = ENNReal.ofReal (ends (demoWorld reader) coinGen twoXs 3)
      * ((∫⁻ e in Set.Icc coinGen.source.Emin coinGen.source.Emax ∩ Set.Iic (1 / 2),
            ENNReal.ofReal (rate coinGen twoXs 0 e)
              * coins {ω | Leads (demoWorld reader) coinGen coinRx (small ×ˢ Set.univ) e ω})
        / ENNReal.ofReal (∫ e in Set.Icc coinGen.source.Emin coinGen.source.Emax,
            rates coinGen twoXs e)) :=
  (C132_reaction coin_ideal coin_usable rfl measurableSet_Iic
    ((coin_fresh small_measurable).measurable coinRx (by simp [coinGen]) _ MeasurableSet.univ)).2

end Marley.Props
