import Verif.Props.Strong

/-!
# C136: the probabilities of events as ratios of rates, without a limit for the passes of loops
-/

set_option autoImplicit false

namespace Marley.Props
open Marley Marley.Gen Marley.Sampling Marley.Rot MeasureTheory Filter
open scoped Topology

/-! ### Specification -/

/-- The engines with which reaction `r` at the energy `e` leads, after de-excitation and rotation, to an event in `T`,
when loops may be passed as often as need be. -/
def leadsInTheEnd {Ω : Type} (E : Engine Ω) (F : Family) (r : Loops) (T : Set (Event ℝ)) (e : ℝ) : Set Ω :=
  {ω | ∃ N, ∀ j, N ≤ j → Leads ((F.plan j).world E) ((F.plan j).gen E ω) ((r.at j).rx E) (T ×ˢ Set.univ) e ω}

section
variable {Ω : Type} [MeasurableSpace Ω] {μ : Measure Ω} {E : Engine Ω} {F : Family}
  {s : Nat → ℝ → ℝ} {m : ℝ} {T : Set (Event ℝ)}

/-! ### Lemmas -/

theorem limit_of_settled [IsFiniteMeasure μ] {R : Nat → Set Ω} {L : Set Ω}
    (hn : ∀ᶠ j in atTop, NullMeasurableSet (R j) μ) (h : ∀ᵐ ω ∂μ, ∀ᶠ j in atTop, (ω ∈ R j ↔ ω ∈ L)) :
    Tendsto (fun j => μ (R j)) atTop (𝓝 (μ L)) := by
  obtain ⟨N, hN⟩ := eventually_atTop.1 hn
  set A : Set Ω := ⋃ i, ⋂ j, ⋂ _ : i ≤ j, toMeasurable μ (R j) with hA
  have hAm : MeasurableSet A := MeasurableSet.iUnion fun i => MeasurableSet.iInter fun j => MeasurableSet.iInter fun _ =>
    measurableSet_toMeasurable _ _
  have hsame : ∀ᵐ ω ∂μ, ∀ j, N ≤ j → (ω ∈ toMeasurable μ (R j) ↔ ω ∈ R j) := by
    rw [ae_all_iff]
    intro j
    by_cases hj : N ≤ j
    · filter_upwards [(hN j hj).toMeasurable_ae_eq] with ω h _
      exact iff_of_eq h
    · exact ae_of_all _ fun ω h => absurd h hj
  have hlim : ∀ᵐ ω ∂μ, (∀ᶠ j in atTop, (ω ∈ toMeasurable μ (R j) ↔ ω ∈ A)) ∧ (ω ∈ A ↔ ω ∈ L) := by
    filter_upwards [hsame, h] with ω h1 h2
    have h3 : ∀ᶠ j in atTop, (ω ∈ toMeasurable μ (R j) ↔ ω ∈ L) := by
      filter_upwards [h2, eventually_ge_atTop N] with j h4 h5
      rw [h1 j h5]; exact h4
    have h4 : ω ∈ A ↔ ω ∈ L := by
      have hmem : ω ∈ A ↔ ∀ᶠ j in atTop, ω ∈ toMeasurable μ (R j) := by
        simp only [hA, Set.mem_iUnion, Set.mem_iInter, eventually_atTop]
      rw [hmem]
      constructor
      · intro h5
        obtain ⟨j, h6, h7⟩ := (h5.and h3).exists
        exact h7.1 h6
      · intro h5
        filter_upwards [h3] with j h6
        exact h6.2 h5
    refine ⟨?_, h4⟩
    filter_upwards [h3] with j h5
    rw [h5, h4]
  have ht := tendsto_measure_of_ae_tendsto_indicator_of_isFiniteMeasure atTop hAm
    (fun j => measurableSet_toMeasurable μ (R j)) (hlim.mono fun ω h => h.1)
  simp only [measure_toMeasurable] at ht
  have hAe : A =ᵐ[μ] L := hlim.mono fun ω h => propext h.2
  rwa [measure_congr hAe] at ht

omit [MeasurableSpace Ω] in
theorem follow_ends (hp : Parts E F) {r : Loops} (hr : r ∈ F.rx) {e : ℝ}
    (he : e ∈ Set.Icc F.base.source.Emin F.base.source.Emax) {ω : Ω} (ho : Often E ω) :
    ∃ N v, ∀ j, N ≤ j → follow ((F.plan j).world E) ((F.plan j).gen E ω) ((r.at j).rx E) e ω = some v := by
  obtain ⟨N, v, hN⟩ := hp.reactions r hr e he ω ho
  dsimp only at hN
  have hstep : ∀ j, follow ((F.plan j).world E) ((F.plan j).gen E ω) ((r.at j).rx E) e ω
      = match r.create j F.base.source.pid e Ω E ω with
        | none => none
        | some (.error x) => some (.error x)
        | some (.ok (ev, ω)) => finish ((F.plan j).world E) F.base.deexcite F.base.rotator ev ω := fun j => rfl
  cases v with
  | error x => exact ⟨N, .error x, fun j hj => by rw [hstep, hN j hj]⟩
  | ok v =>
    obtain ⟨ev, g2⟩ := v
    have hdec : Ends fun n => (if F.base.deexcite then F.dec n ev Ω E g2 else some (.ok (ev, g2)) :
        Option (Res (Event ℝ × Ω))) := by
      cases hde : F.base.deexcite with
      | false => exact .of _
      | true => exact hp.decays hde r hr e he ω ho N ev g2 (hN N le_rfl)
    obtain ⟨N3, w, hN3⟩ := hdec
    dsimp only at hN3
    have hfin : ∀ n, N3 ≤ n → finish ((F.plan n).world E) F.base.deexcite F.base.rotator ev g2
        = finish ((F.plan N3).world E) F.base.deexcite F.base.rotator ev g2 := by
      intro n hn
      unfold finish
      rw [show (if F.base.deexcite then ((F.plan n).world E).decay ev g2 else some (.ok (ev, g2)) :
        Option (Res (Event ℝ × Ω))) = some w from hN3 n hn,
        show (if F.base.deexcite then ((F.plan N3).world E).decay ev g2 else some (.ok (ev, g2)) :
        Option (Res (Event ℝ × Ω))) = some w from hN3 N3 le_rfl]
      cases w with
      | error e => rfl
      | ok w => rfl
    have hsome : ∃ z, finish ((F.plan N3).world E) F.base.deexcite F.base.rotator ev g2 = some z := by
      unfold finish
      rw [show (if F.base.deexcite then ((F.plan N3).world E).decay ev g2 else some (.ok (ev, g2)) :
        Option (Res (Event ℝ × Ω))) = some w from hN3 N3 le_rfl]
      cases w with
      | error e => exact ⟨_, rfl⟩
      | ok w =>
        dsimp only
        generalize Rotator.process _ _ _ _ = y
        cases y with
        | error e => exact ⟨_, rfl⟩
        | ok y => exact ⟨_, rfl⟩
    obtain ⟨z, hz⟩ := hsome
    refine ⟨max N N3, z, fun j hj => ?_⟩
    rw [hstep, hN j (le_of_max_le_left hj)]
    exact (hfin j (le_of_max_le_right hj)).trans hz

omit [MeasurableSpace Ω] in
theorem leads_settled (hp : Parts E F) {r : Loops} (hr : r ∈ F.rx) {e : ℝ}
    (he : e ∈ Set.Icc F.base.source.Emin F.base.source.Emax) {ω ω0 : Ω} (ho : Often E ω) :
    ∀ᶠ j in atTop, (Leads ((F.plan j).world E) ((F.plan j).gen E ω0) ((r.at j).rx E) (T ×ˢ Set.univ) e ω ↔
      ω ∈ leadsInTheEnd E F r T e) := by
  obtain ⟨N, v, hN⟩ := follow_ends hp hr he ho
  have hiff : ∀ j, N ≤ j →
      (Leads ((F.plan j).world E) ((F.plan j).gen E ω) ((r.at j).rx E) (T ×ˢ Set.univ) e ω ↔
        ∃ ev rot ω', v = .ok (ev, rot, ω') ∧ (ev, ω') ∈ T ×ˢ (Set.univ : Set Ω)) := by
    intro j hj
    unfold Leads
    rw [hN j hj]
    simp only [Option.some.injEq]
  filter_upwards [eventually_ge_atTop N] with j hj
  refine (show Leads ((F.plan j).world E) ((F.plan j).gen E ω0) ((r.at j).rx E) (T ×ˢ Set.univ) e ω ↔
    Leads ((F.plan j).world E) ((F.plan j).gen E ω) ((r.at j).rx E) (T ×ˢ Set.univ) e ω from Iff.rfl).trans ?_
  constructor
  · intro h
    exact ⟨N, fun i hi => (hiff i hi).2 ((hiff j hj).1 h)⟩
  · rintro ⟨M, hM⟩
    exact (hiff j hj).2 ((hiff (max M N) (le_max_right _ _)).1 (hM _ (le_max_left _ _)))

/-! ### Theorem -/

/-- **C136**, with loops that are passed as often as need be: the probability that an event is in `T` is the share of
such events: the integral over the energies of the source of the rate of each reaction times the probability that it
leads to such an event, divided by the integral of all rates. -/
theorem C136_share (hI : Ideal E μ) (h : Steady E F μ s m T) :
    μ (inTheEnd E F 1 fun evs => tally T evs = 1)
      = (∑ i : Fin F.rx.length, ∫⁻ e in Set.Icc F.base.source.Emin F.base.source.Emax,
          ENNReal.ofReal (rate ((F.plan 0).gen silent ()) s i e) * μ (leadsInTheEnd E F F.rx[i] T e))
        / ENNReal.ofReal (∫ e in Set.Icc F.base.source.Emin F.base.source.Emax,
          rates ((F.plan 0).gen silent ()) s e) := by
  have := hI.prob
  obtain ⟨ω0⟩ : Nonempty Ω := nonempty_of_isProbabilityMeasure μ
  have hlen : ∀ j, ((F.plan j).gen E ω0).reactions.length = F.rx.length := fun j => by
    simp [Plan.gen, Family.plan]
  have hlen0 : ((F.plan 0).gen silent ()).reactions.length = F.rx.length := by
    simp [Plan.gen, Family.plan]
  have htot : ∀ j e, totalOf ((F.plan j).gen E ω0) s e = totalOf ((F.plan 0).gen silent ()) s e := by
    intro j e
    unfold totalOf
    rw [hlen, hlen0]
  have hrate : ∀ j i e, rate ((F.plan j).gen E ω0) s i e = rate ((F.plan 0).gen silent ()) s i e := by
    intro j i e
    unfold rate
    rw [htot]
    rfl
  have hrates : ∀ j e, rates ((F.plan j).gen E ω0) s e = rates ((F.plan 0).gen silent ()) s e := by
    intro j e
    unfold rates
    rw [hlen, hlen0]
    exact Finset.sum_congr rfl fun i _ => hrate j i e
  obtain ⟨J, hJ⟩ := (h.usable.and h.inside).exists
  have hU := hJ.1 ω0
  set D := ∫ e in Set.Icc F.base.source.Emin F.base.source.Emax, rates ((F.plan 0).gen silent ()) s e with hD
  have hDj : ∀ j, ∫ e in Set.Icc ((F.plan j).gen E ω0).source.Emin ((F.plan j).gen E ω0).source.Emax,
      rates ((F.plan j).gen E ω0) s e = D := by
    intro j
    simp only [hrates]
    rfl
  have hDpos : 0 < D := by rw [← hDj J]; exact hU.possible
  -- the loop of rejection sampling ends
  have hends : Tendsto (fun j => ENNReal.ofReal (ends ((F.plan j).world E) ((F.plan j).gen E ω0) s m)) atTop (𝓝 1) := by
    set V := m * F.base.norm * (F.base.source.Emax - F.base.source.Emin) with hV
    have hVpos : 0 < V := mul_pos (mul_pos hU.positive hU.norm) (sub_pos.2 hU.range)
    have hle : D ≤ V := by
      obtain ⟨-, p1⟩ := share_bounds hU.range hU.positive (density_measurable hU.sections hU.measurable) hU.density
      rw [share] at p1
      simp only [rates_density hU.sections] at p1
      rw [integral_div, div_div, hDj J] at p1
      have h2 : ((F.plan J).gen E ω0).norm * (m * (((F.plan J).gen E ω0).source.Emax
          - ((F.plan J).gen E ω0).source.Emin)) = V := by
        rw [hV]
        show F.base.norm * (m * (F.base.source.Emax - F.base.source.Emin)) = _
        ring
      rw [h2] at p1
      exact (div_le_one hVpos).1 p1
    have hform : ∀ j, ends ((F.plan j).world E) ((F.plan j).gen E ω0) s m = 1 - (1 - D / V) ^ j := by
      intro j
      unfold ends
      rw [hDj]
      rfl
    simp only [hform]
    have := ENNReal.tendsto_ofReal ((tendsto_pow_atTop_nhds_zero_of_lt_one (r := 1 - D / V)
      (sub_nonneg.2 ((div_le_one hVpos).2 hle)) (sub_lt_self _ (div_pos hDpos hVpos))).const_sub 1)
    simpa using this
  -- the reactions
  have hone : ∀ i : Fin F.rx.length, Tendsto (fun j => ∫⁻ e in Set.Icc F.base.source.Emin F.base.source.Emax,
      ENNReal.ofReal (rate ((F.plan 0).gen silent ()) s i e)
        * μ {ω | Leads ((F.plan j).world E) ((F.plan j).gen E ω0) ((F.rx[i].at j).rx E) (T ×ˢ Set.univ) e ω}) atTop
      (𝓝 (∫⁻ e in Set.Icc F.base.source.Emin F.base.source.Emax,
        ENNReal.ofReal (rate ((F.plan 0).gen silent ()) s i e) * μ (leadsInTheEnd E F F.rx[i] T e))) := by
    intro i
    have hmem : ∀ j, (F.rx[i].at j).rx E ∈ ((F.plan j).gen E ω0).reactions := by
      intro j
      simp only [Plan.gen, Family.plan, List.map_map, List.mem_map, Function.comp]
      exact ⟨F.rx[i], List.getElem_mem _, rfl⟩
    have hmeas : ∀ᶠ j in atTop, MeasurableSet {p : ℝ × Ω | Leads ((F.plan j).world E) ((F.plan j).gen E ω0)
        ((F.rx[i].at j).rx E) (T ×ˢ Set.univ) p.1 p.2} :=
      h.inside.mono fun j hj => (hj ω0).measurable _ (hmem j) _ MeasurableSet.univ
    have hrm : Measurable fun e => rate ((F.plan 0).gen silent ()) s i e := by
      unfold rate totalOf
      have hpdf : Measurable ((F.plan 0).gen silent ()).source.pdf := hU.measurable
      have hs := h.workable.sections.measurable
      split_ifs
      · exact hpdf.mul (hs i)
      · exact hpdf.mul ((hs i).div (Finset.measurable_fun_sum _ fun k _ => hs k))
    refine tendsto_lintegral_filter_of_dominated_convergence
      (fun e => ENNReal.ofReal (rate ((F.plan 0).gen silent ()) s i e)) ?_ ?_ ?_ ?_
    · filter_upwards [hmeas] with j hj
      exact hrm.ennreal_ofReal.mul (measurable_measure_prodMk_left hj)
    · exact Eventually.of_forall fun j => ae_of_all _ fun e => mul_le_of_le_one_right' prob_le_one
    · have hbd : ∀ e ∈ Set.Icc F.base.source.Emin F.base.source.Emax,
          ENNReal.ofReal (rate ((F.plan 0).gen silent ()) s i e) ≤ ENNReal.ofReal (m * F.base.norm) := by
        intro e he
        refine ENNReal.ofReal_le_ofReal ((?_ : _ ≤ rates ((F.plan J).gen E ω0) s e).trans (hU.bounded e he))
        rw [← hrate J]
        exact Finset.single_le_sum (f := fun k => rate ((F.plan J).gen E ω0) s k e)
          (fun k _ => rate_nonneg hU.sections hU.nonneg k e) (Finset.mem_range.2 (by rw [hlen]; exact i.2))
      refine ((setLIntegral_mono' measurableSet_Icc hbd).trans_lt ?_).ne
      rw [setLIntegral_const, Real.volume_Icc]
      exact ENNReal.mul_lt_top ENNReal.ofReal_lt_top ENNReal.ofReal_lt_top
    · refine (ae_restrict_iff' measurableSet_Icc).2 (ae_of_all _ fun e he => ?_)
      refine ENNReal.Tendsto.const_mul ?_ (Or.inr ENNReal.ofReal_ne_top)
      refine limit_of_settled ?_ ?_
      · filter_upwards [hmeas] with j hj
        exact (measurable_prodMk_left hj).nullMeasurableSet
      · filter_upwards [often_ae hI] with ω ho
        exact leads_settled h.parts (List.getElem_mem _) he ho
  have hN := tendsto_finsetSum Finset.univ fun i _ => hone i
  have hlim := (inTheEnd_spec hI h ω0 1 1).2
  refine tendsto_nhds_unique hlim ?_
  have hprod := ENNReal.Tendsto.mul hends (Or.inl one_ne_zero)
    (ENNReal.Tendsto.div_const hN (b := ENNReal.ofReal D) (Or.inr (by simpa using hDpos)))
    (Or.inr ENNReal.one_ne_top)
  rw [one_mul] at hprod
  refine hprod.congr' ?_
  filter_upwards [h.usable, h.all, h.inside, h.outside] with j g1 g2 g3 g4
  rw [C136_binomial (W := (F.plan j).world E) hI (g1 ω0) h.rotator (g2 ω0) (g3 ω0) (g4 ω0) 1 1]
  rw [(C132_event (W := (F.plan j).world E) hI (g1 ω0) fun r hr => (g3 ω0).measurable r hr _ MeasurableSet.univ).2, hDj]
  simp only [Nat.choose_self, Nat.cast_one, one_mul, pow_one, Nat.sub_self, pow_zero, mul_one]
  congr 2
  refine Fintype.sum_equiv (finCongr (hlen j).symm) _ _ fun i => ?_
  simp only [hrate]
  have hget : ((F.plan j).gen E ω0).reactions[(finCongr (hlen j).symm i : Fin _)] = (F.rx[i].at j).rx E := by
    simp [Plan.gen, Family.plan]
    rfl
  rw [hget]
  rfl

/-- **C136**: so, if no event ends with an exception, the share of the events in `T` tends to this ratio of rates in
almost every run that goes on and on. -/
theorem C136_strong_rates (hI : Ideal E μ) (h : Steady E F μ s m T) (hone : μ (inTheEnd E F 1 fun _ => True) = 1) :
    ∀ᵐ ω ∂μ, ∃ evs, Yields E F ω evs ∧
      Tendsto (fun n : ℕ => (tally T ((List.range n).map evs) : ℝ) / n) atTop
        (𝓝 ((∑ i : Fin F.rx.length, ∫⁻ e in Set.Icc F.base.source.Emin F.base.source.Emax,
            ENNReal.ofReal (rate ((F.plan 0).gen silent ()) s i e) * μ (leadsInTheEnd E F F.rx[i] T e))
          / ENNReal.ofReal (∫ e in Set.Icc F.base.source.Emin F.base.source.Emax,
            rates ((F.plan 0).gen silent ()) s e)).toReal) := by
  rw [← C136_share hI h]
  exact C136_strong hI h hone

end

/-! ### Example -/

/-- In almost every run of a generator that meets the hypotheses, the share of the events with a small number tends to
their share of the rates. -/
example : ∀ᵐ ω ∂coins, ∃ evs, Yields reader coinFamily ω evs ∧
    Tendsto (fun n : ℕ => (tally small ((List.range n).map evs) : ℝ) / n) atTop
      (𝓝 ((∑ i : Fin coinFamily.rx.length, ∫⁻ e in Set.Icc coinFamily.base.source.Emin coinFamily.base.source.Emax,
          ENNReal.ofReal (rate ((coinFamily.plan 0).gen silent ()) twoXs i e)
            * coins (leadsInTheEnd reader coinFamily coinFamily.rx[i] small e))
        / ENNReal.ofReal (∫ e in Set.Icc coinFamily.base.source.Emin coinFamily.base.source.Emax,
          rates ((coinFamily.plan 0).gen silent ()) twoXs e)).toReal) :=
  C136_strong_rates coins_ideal coinFamily_steady coinFamily_complete

end Marley.Props
