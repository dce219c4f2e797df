import Verif.Props.Histogram
import Verif.Props.EventEnds
import Mathlib.MeasureTheory.Integral.Indicator

/-!
# C136 without a limit for the passes of loops

The probabilities of C136 with a limit for the passes of loops tend, as the limit grows, to those without (C134:
runs end with probability one).
-/

set_option autoImplicit false

namespace Marley.Props
open Marley Marley.Gen Marley.Sampling Marley.Rot MeasureTheory Filter
open scoped Topology

/-! ### Specification -/

/-- The engines for which a run of `n` events gives events with `Q`, when loops may be passed as often as need be:
from some number of passes on these are the events. -/
def inTheEnd {Ω : Type} (E : Engine Ω) (F : Family) (n : Nat) (Q : List (Event ℝ) → Prop) : Set Ω :=
  {ω | ∃ N evs, Q evs ∧ ∀ j, N ≤ j → ∃ g',
    ((F.plan j).gen E ω).createEvents ((F.plan j).world E) n = some (.ok (evs, g'))}

/-- The generator meets the hypotheses of C136, with any number of passes from some number on. -/
structure Steady {Ω : Type} [MeasurableSpace Ω] (E : Engine Ω) (F : Family) (μ : Measure Ω) (s : Nat → ℝ → ℝ) (m : ℝ)
    (T : Set (Event ℝ)) : Prop where
  workable : Workable F s
  parts : Parts E F
  rotator : Consistent F.base.rotator
  usable : ∀ᶠ j in atTop, ∀ ω, Usable ((F.plan j).world E) ((F.plan j).gen E ω) s m
  all : ∀ᶠ j in atTop, ∀ ω, Renews ((F.plan j).world E) ((F.plan j).gen E ω) μ Set.univ
  inside : ∀ᶠ j in atTop, ∀ ω, Renews ((F.plan j).world E) ((F.plan j).gen E ω) μ T
  outside : ∀ᶠ j in atTop, ∀ ω, Renews ((F.plan j).world E) ((F.plan j).gen E ω) μ Tᶜ

section
variable {Ω : Type} [MeasurableSpace Ω] {μ : Measure Ω} {E : Engine Ω} {F : Family}
  {s : Nat → ℝ → ℝ} {m : ℝ} {T : Set (Event ℝ)}

/-! ### Lemmas -/

theorem runs_null {W : World Ω} {g : Gen Ω} (hI : Ideal W.engine μ) (h : Usable W g s m) (hd : Consistent g.rotator)
    (hu : Renews W g μ Set.univ) (hT : Renews W g μ T) (hT' : Renews W g μ Tᶜ) (n k : Nat) :
    NullMeasurableSet (runs W g n fun evs => tally T evs = k) μ := by
  rw [runs_patterns]
  refine NullMeasurableSet.biUnion (Finset.countable_toSet _) fun p _ => ?_
  refine (C132_sequence hI h hd hu (Ts := asked T p) ?_).1
  intro S hS
  simp only [asked, List.mem_map] at hS
  obtain ⟨b, -, rfl⟩ := hS
  cases b
  · exact hT'
  · exact hT

omit [MeasurableSpace Ω] in
/-- A run that ends gives, from some number of passes on, what it gives in the end. -/
theorem inTheEnd_iff {n : Nat} {Q : List (Event ℝ) → Prop} {ω ω0 : Ω}
    (h : Ends fun j => (((F.plan j).gen E ω).createEvents ((F.plan j).world E) n).map
      (Except.map fun x => (x.1, x.2.eng))) :
    ∀ᶠ j in atTop, (ω ∈ runs ((F.plan j).world E) ((F.plan j).gen E ω0) n Q ↔ ω ∈ inTheEnd E F n Q) := by
  obtain ⟨N, v, hv⟩ := h
  dsimp only at hv
  have hmem : ∀ j, ω ∈ runs ((F.plan j).world E) ((F.plan j).gen E ω0) n Q ↔
      ∃ evs g', ((F.plan j).gen E ω).createEvents ((F.plan j).world E) n = some (.ok (evs, g')) ∧ Q evs := fun j => Iff.rfl
  cases v with
  | error e =>
    have hno : ∀ j, N ≤ j → ∀ evs g',
        ((F.plan j).gen E ω).createEvents ((F.plan j).world E) n ≠ some (.ok (evs, g')) := by
      intro j hj evs g' h1
      have := hv j hj
      rw [h1] at this
      simp [Except.map] at this
    filter_upwards [eventually_ge_atTop N] with j hj
    rw [hmem]
    constructor
    · rintro ⟨evs, g', h1, -⟩
      exact absurd h1 (hno j hj evs g')
    · rintro ⟨M, evs, -, h1⟩
      obtain ⟨g', h2⟩ := h1 (max M N) (le_max_left _ _)
      exact absurd h2 (hno _ (le_max_right _ _) evs g')
  | ok v =>
    obtain ⟨evs, ω'⟩ := v
    have hyes : ∀ j, N ≤ j → ∃ g',
        ((F.plan j).gen E ω).createEvents ((F.plan j).world E) n = some (.ok (evs, g')) := by
      intro j hj
      have := hv j hj
      cases h1 : ((F.plan j).gen E ω).createEvents ((F.plan j).world E) n with
      | none => rw [h1] at this; simp at this
      | some r =>
        rw [h1] at this
        cases r with
        | error e => simp [Except.map] at this
        | ok r =>
          simp only [Option.map_some, Except.map, Option.some.injEq, Except.ok.injEq, Prod.mk.injEq] at this
          exact ⟨r.2, by rw [← this.1]⟩
    filter_upwards [eventually_ge_atTop N] with j hj
    rw [hmem]
    constructor
    · rintro ⟨evs', g', h1, hq⟩
      obtain ⟨g'', h2⟩ := hyes j hj
      rw [h2] at h1
      simp only [Option.some.injEq, Except.ok.injEq, Prod.mk.injEq] at h1
      exact ⟨N, evs, h1.1 ▸ hq, hyes⟩
    · rintro ⟨M, evs', hq, h1⟩
      obtain ⟨g', h2⟩ := h1 (max M N) (le_max_left _ _)
      obtain ⟨g'', h3⟩ := hyes (max M N) (le_max_right _ _)
      rw [h3] at h2
      simp only [Option.some.injEq, Except.ok.injEq, Prod.mk.injEq] at h2
      obtain ⟨g3, h4⟩ := hyes j hj
      exact ⟨evs, g3, h4, h2.1 ▸ hq⟩

/-- The probabilities with limits for the passes tend to those without. -/
theorem inTheEnd_limit [IsFiniteMeasure μ] {n : Nat} {Q : List (Event ℝ) → Prop} (ω0 : Ω)
    (he : ∀ᵐ ω ∂μ, Ends fun j => (((F.plan j).gen E ω).createEvents ((F.plan j).world E) n).map
      (Except.map fun x => (x.1, x.2.eng)))
    (hn : ∀ᶠ j in atTop, NullMeasurableSet (runs ((F.plan j).world E) ((F.plan j).gen E ω0) n Q) μ) :
    NullMeasurableSet (inTheEnd E F n Q) μ ∧
    Tendsto (fun j => μ (runs ((F.plan j).world E) ((F.plan j).gen E ω0) n Q)) atTop (𝓝 (μ (inTheEnd E F n Q))) := by
  obtain ⟨N, hN⟩ := eventually_atTop.1 hn
  set R : Nat → Set Ω := fun j => runs ((F.plan j).world E) ((F.plan j).gen E ω0) n Q with hR
  set A : Set Ω := ⋃ i, ⋂ j, ⋂ _ : i ≤ j, toMeasurable μ (R j) with hA
  have hAm : MeasurableSet A := MeasurableSet.iUnion fun i => MeasurableSet.iInter fun j => MeasurableSet.iInter fun _ =>
    measurableSet_toMeasurable _ _
  have hsame : ∀ᵐ ω ∂μ, ∀ j, N ≤ j → (ω ∈ toMeasurable μ (R j) ↔ ω ∈ R j) := by
    rw [ae_all_iff]
    intro j
    by_cases hj : N ≤ j
    · filter_upwards [(hN j hj).toMeasurable_ae_eq] with ω h _
      exact iff_of_eq h
    · exact ae_of_all _ fun ω h => absurd h hj
  have hlim : ∀ᵐ ω ∂μ, (∀ᶠ j in atTop, (ω ∈ toMeasurable μ (R j) ↔ ω ∈ A)) ∧ (ω ∈ A ↔ ω ∈ inTheEnd E F n Q) := by
    filter_upwards [hsame, he] with ω h1 h2
    have h3 : ∀ᶠ j in atTop, (ω ∈ toMeasurable μ (R j) ↔ ω ∈ inTheEnd E F n Q) := by
      filter_upwards [inTheEnd_iff (ω0 := ω0) h2, eventually_ge_atTop N] with j h4 h5
      rw [h1 j h5]; exact h4
    have h4 : ω ∈ A ↔ ω ∈ inTheEnd E F n Q := by
      have hmem : ω ∈ A ↔ ∀ᶠ j in atTop, ω ∈ toMeasurable μ (R j) := by
        simp only [hA, Set.mem_iUnion, Set.mem_iInter, eventually_atTop]
      rw [hmem]
      constructor
      · intro h5
        obtain ⟨j, h6, h7⟩ := (h5.and h3).exists
        exact h7.1 h6
      · intro h5
        filter_upwards [h3] with j h6
        exact h6.2 h5
    refine ⟨?_, h4⟩
    filter_upwards [h3] with j h5
    rw [h5, h4]
  have ht := tendsto_measure_of_ae_tendsto_indicator_of_isFiniteMeasure atTop hAm
    (fun j => measurableSet_toMeasurable μ (R j)) (hlim.mono fun ω h => h.1)
  simp only [measure_toMeasurable] at ht
  have hAe : A =ᵐ[μ] inTheEnd E F n Q := hlim.mono fun ω h => propext h.2
  rw [measure_congr hAe] at ht
  exact ⟨hAm.nullMeasurableSet.congr hAe, ht⟩

theorem inTheEnd_spec (hI : Ideal E μ) (h : Steady E F μ s m T) (ω0 : Ω) (n k : Nat) :
    NullMeasurableSet (inTheEnd E F n fun evs => tally T evs = k) μ ∧
    Tendsto (fun j => μ (runs ((F.plan j).world E) ((F.plan j).gen E ω0) n fun evs => tally T evs = k))
      atTop (𝓝 (μ (inTheEnd E F n fun evs => tally T evs = k))) := by
  have := hI.prob
  refine inTheEnd_limit ω0 ((C134_ends_partial hI h.workable h.parts).mono fun ω h => h n) ?_
  filter_upwards [h.usable, h.all, h.inside, h.outside] with j h1 h2 h3 h4
  exact runs_null hI (h1 ω0) h.rotator (h2 ω0) (h3 ω0) (h4 ω0) n k

/-! ### Theorems -/

/-- **C136**, with loops that are passed as often as need be: the number of events in `T` in a run has a binomial
law, with the probabilities of one event in `T` and of one that is not. -/
theorem C136_unlimited (hI : Ideal E μ) (h : Steady E F μ s m T) (n k : Nat) :
    μ (inTheEnd E F n fun evs => tally T evs = k)
      = n.choose k * μ (inTheEnd E F 1 fun evs => tally T evs = 1) ^ k
        * μ (inTheEnd E F 1 fun evs => tally T evs = 0) ^ (n - k) := by
  have := hI.prob
  obtain ⟨ω0⟩ : Nonempty Ω := nonempty_of_isProbabilityMeasure μ
  have hlim := fun n k => (inTheEnd_spec hI h ω0 n k).2
  have hprod : Tendsto (fun j => (n.choose k : ENNReal)
      * μ (runs ((F.plan j).world E) ((F.plan j).gen E ω0) 1 fun evs => tally T evs = 1) ^ k
      * μ (runs ((F.plan j).world E) ((F.plan j).gen E ω0) 1 fun evs => tally T evs = 0) ^ (n - k)) atTop
      (𝓝 (n.choose k * μ (inTheEnd E F 1 fun evs => tally T evs = 1) ^ k
        * μ (inTheEnd E F 1 fun evs => tally T evs = 0) ^ (n - k))) := by
    have hfin : ∀ (A : Set Ω) (i : Nat), μ A ^ i ≠ ⊤ := fun A i => ENNReal.pow_ne_top (measure_ne_top _ _)
    refine ENNReal.Tendsto.mul (ENNReal.Tendsto.const_mul (ENNReal.Tendsto.pow (hlim 1 1)) (Or.inr (ENNReal.natCast_ne_top _)))
      (Or.inr (hfin _ _)) (ENNReal.Tendsto.pow (hlim 1 0)) (Or.inr (ENNReal.mul_ne_top (ENNReal.natCast_ne_top _) (hfin _ _)))
  refine tendsto_nhds_unique (hlim n k) (hprod.congr' ?_)
  filter_upwards [h.usable, h.all, h.inside, h.outside] with j h1 h2 h3 h4
  have hb := fun n k => C136_binomial (W := (F.plan j).world E) hI (h1 ω0) h.rotator (h2 ω0) (h3 ω0) (h4 ω0) n k
  rw [hb n k, hb 1 1, hb 1 0]
  simp

/-- **C136**: these two probabilities add up to the one that an event is made at all. -/
theorem C136_unlimited_sum (hI : Ideal E μ) (h : Steady E F μ s m T) :
    μ (inTheEnd E F 1 fun evs => tally T evs = 1) + μ (inTheEnd E F 1 fun evs => tally T evs = 0)
      = μ (inTheEnd E F 1 fun _ => True) := by
  have := hI.prob
  obtain ⟨ω0⟩ : Nonempty Ω := nonempty_of_isProbabilityMeasure μ
  rw [← measure_union₀' (inTheEnd_spec hI h ω0 1 1).1]
  · congr 1
    ext ω
    constructor
    · rintro (⟨N, evs, -, h1⟩ | ⟨N, evs, -, h1⟩) <;> exact ⟨N, evs, trivial, h1⟩
    · rintro ⟨N, evs, -, hevs⟩
      have hlen : tally T evs ≤ 1 := by
        obtain ⟨g', h3⟩ := hevs N le_rfl
        rw [← createEvents_length h3]
        exact List.length_filter_le _ _
      rcases Nat.le_one_iff_eq_zero_or_eq_one.1 hlen with h3 | h3
      · exact Or.inr ⟨N, evs, h3, hevs⟩
      · exact Or.inl ⟨N, evs, h3, hevs⟩
  · refine Disjoint.aedisjoint (Set.disjoint_left.2 ?_)
    rintro ω ⟨N, evs, h1, h2⟩ ⟨M, evs', h3, h4⟩
    obtain ⟨g', h5⟩ := h2 (max N M) (le_max_left _ _)
    obtain ⟨g'', h6⟩ := h4 (max N M) (le_max_right _ _)
    rw [h5] at h6
    simp only [Option.some.injEq, Except.ok.injEq, Prod.mk.injEq] at h6
    rw [h6.1] at h1
    omega

end

/-! ### Example -/

/-- The reactions and the generator of `coinGen`, with any number of passes. -/
noncomputable def coinFamily : Family where
  base := { demoPlan 3 [0, 0] with deexcite := false }
  rx := [⟨12, 1000180400, fun _ e => .ok |e|, fun _ _ _ _ E g => some (.ok (demoEvent (E.draw g).1, (E.draw g).2))⟩,
    ⟨12, 1000180400, fun _ _ => .ok 2, fun _ _ e _ _ g => some (.ok (demoEvent e, g))⟩]
  dec := fun _ ev _ _ g => some (.ok (ev, g))

theorem coins_ideal : Ideal reader coins := reader_ideal

theorem coinFamily_gen (j : Nat) (ω : ℕ → ℝ) :
    (coinFamily.plan j).gen reader ω = { coinGen with eng := ω } := rfl

theorem coinFamily_usable (j : Nat) (ω : ℕ → ℝ) :
    Usable ((coinFamily.plan j).world reader) ((coinFamily.plan j).gen reader ω) twoXs 3 := by
  obtain ⟨h1, h2, h3, h4, h5, h6, h7, h8, h9, h10, h11⟩ := coin_usable
  exact ⟨rfl, rfl, ⟨h3.value, h3.nonneg, h3.measurable⟩, h4, h5, h6, h7, rfl, h9, h10, h11⟩

theorem coinFamily_renews (j : Nat) (ω : ℕ → ℝ) {T : Set (Event ℝ)} (hT : MeasurableSet {x | demoEvent x ∈ T}) :
    Renews ((coinFamily.plan j).world reader) ((coinFamily.plan j).gen reader ω) coins T :=
  ⟨(coin_fresh hT).measurable, (coin_fresh hT).independent⟩

theorem coinFamily_workable : Workable coinFamily twoXs where
  arith := rfl
  cached := rfl
  sections :=
    { value := fun e he j r hj => by
        match j, hj with
        | 0, hj => cases hj; exact ⟨|e|, rfl, by show twoXs 0 e = |e| * 1; simp [twoXs]⟩
        | 1, hj => cases hj; exact ⟨2, rfl, by show twoXs 1 e = 2 * 1; simp [twoXs]⟩
        | _ + 2, hj => simp [coinFamily, Family.plan, Plan.gen] at hj
      nonneg := coin_sections.nonneg
      measurable := coin_sections.measurable }
  norm := one_pos
  bounded := ⟨3, fun e he => (coin_usable.bounded e he).trans_eq (mul_one 3)⟩
  somewhere := Or.inl ⟨0, 1, 2, le_rfl, one_pos, le_rfl, two_pos, fun e he => by
    show 2 ≤ rates coinGen twoXs e
    rw [coin_rates he.1.le]
    linarith [he.1]⟩

theorem coinFamily_parts {E : Engine (ℕ → ℝ)} : Parts E coinFamily where
  finite n := by
    refine ⟨fun r hr pdg e => ?_, fun ev => .ok ev⟩
    simp only [coinFamily, Family.plan, List.map_cons, List.map_nil, List.mem_cons, List.not_mem_nil, or_false] at hr
    rcases hr with rfl | rfl
    · exact Determined.then .draw (fun u => .ok (demoEvent u)) fun G E g => rfl
    · exact .ok (demoEvent e)
  reactions r hr e he g _ := by
    simp only [coinFamily, List.mem_cons, List.not_mem_nil, or_false] at hr
    rcases hr with rfl | rfl
    · exact ⟨0, _, fun _ _ => rfl⟩
    · exact ⟨0, _, fun _ _ => rfl⟩
  decays h := by cases h

theorem coinFamily_steady : Steady reader coinFamily coins twoXs 3 small where
  workable := coinFamily_workable
  parts := coinFamily_parts
  rotator := Or.inl rfl
  usable := Eventually.of_forall coinFamily_usable
  all := Eventually.of_forall fun j ω => coinFamily_renews j ω (by simp)
  inside := Eventually.of_forall fun j ω => coinFamily_renews j ω small_measurable
  outside := Eventually.of_forall fun j ω => coinFamily_renews j ω small_measurable.compl

/-- It makes an event with probability one. -/
theorem coinFamily_complete : coins (inTheEnd reader coinFamily 1 fun _ => True) = 1 := by
  have : IsProbabilityMeasure coins := coin_ideal.prob
  set ω0 : ℕ → ℝ := fun _ => 0
  have hren := fun j => coinFamily_renews j ω0 (T := Set.univ) (by simp)
  have hval : ∀ j, coins (runs ((coinFamily.plan j).world reader) ((coinFamily.plan j).gen reader ω0) 1 fun _ => True)
      = ENNReal.ofReal (1 - (1 / 6) ^ j) := by
    intro j
    rw [C136_completed coins_ideal (coinFamily_usable j ω0) (Or.inl rfl) (hren j) 1, pow_one,
      (C132_event coins_ideal (coinFamily_usable j ω0) fun r hr => by
        have := (hren j).measurable r hr _ MeasurableSet.univ
        rwa [Set.univ_prod_univ] at this).2]
    have hint : ∫ e in Set.Icc ((coinFamily.plan j).gen reader ω0).source.Emin
        ((coinFamily.plan j).gen reader ω0).source.Emax, rates ((coinFamily.plan j).gen reader ω0) twoXs e = 5 / 2 :=
      coin_integral
    have hends : ends ((coinFamily.plan j).world reader) ((coinFamily.plan j).gen reader ω0) twoXs 3 = 1 - (1 / 6) ^ j := by
      unfold ends
      rw [hint]
      have : (3 : ℝ) * ((coinFamily.plan j).gen reader ω0).norm * (((coinFamily.plan j).gen reader ω0).source.Emax
          - ((coinFamily.plan j).gen reader ω0).source.Emin) = 3 := by
        show (3 : ℝ) * 1 * (1 - 0) = 3
        norm_num
      rw [this]
      show 1 - (1 - 5 / 2 / 3) ^ j = 1 - (1 / 6 : ℝ) ^ j
      norm_num
    have hrate : ∀ i e, rate coinGen twoXs i e = twoXs i e := by
      intro i e
      simp [rate, coinGen, demoGen, demoSource]
    have hsum : ∑ i : Fin ((coinFamily.plan j).gen reader ω0).reactions.length,
        ∫⁻ e in Set.Icc ((coinFamily.plan j).gen reader ω0).source.Emin ((coinFamily.plan j).gen reader ω0).source.Emax,
          ENNReal.ofReal (rate ((coinFamily.plan j).gen reader ω0) twoXs i e)
            * coins {ω | Leads ((coinFamily.plan j).world reader) ((coinFamily.plan j).gen reader ω0)
              ((coinFamily.plan j).gen reader ω0).reactions[i] Set.univ e ω}
        = (∫⁻ e in Set.Icc (0 : ℝ) 1, ENNReal.ofReal (rate coinGen twoXs 0 e)
            * coins {ω | Leads (demoWorld reader) coinGen coinRx Set.univ e ω})
          + ∫⁻ e in Set.Icc (0 : ℝ) 1, ENNReal.ofReal (rate coinGen twoXs 1 e)
            * coins {ω | Leads (demoWorld reader) coinGen (demoRx 2) Set.univ e ω} :=
      Fin.sum_univ_two _
    rw [hint, hends, hsum]
    have p1 : ∀ e, {ω | Leads (demoWorld reader) coinGen coinRx Set.univ e ω} = Set.univ := fun e => by
      ext ω; exact coin_leads.trans (by simp)
    have p2 : ∀ e, {ω | Leads (demoWorld reader) coinGen (demoRx 2) Set.univ e ω} = Set.univ := fun e => by
      ext ω; exact plain_leads.trans (by simp)
    simp only [p1, p2, measure_univ, mul_one, hrate]
    have hramp : ∫⁻ e in Set.Icc (0 : ℝ) 1, ENNReal.ofReal (twoXs 0 e) = ENNReal.ofReal (1 / 2) := by
      rw [← ramp_integral, ofReal_integral_eq_lintegral_ofReal]
      · exact setLIntegral_congr_fun measurableSet_Icc fun e he => by simp [twoXs, abs_of_nonneg he.1]
      · exact continuous_id.integrableOn_Icc
      · exact (ae_restrict_iff' measurableSet_Icc).2 (Filter.Eventually.of_forall fun e he => he.1)
    have htwo : ∫⁻ e in Set.Icc (0 : ℝ) 1, ENNReal.ofReal (twoXs 1 e) = ENNReal.ofReal 2 := by
      simp [twoXs]
    rw [hramp, htwo, ← ENNReal.ofReal_add (by norm_num) (by norm_num), ← ENNReal.ofReal_div_of_pos (by norm_num)]
    norm_num
  refine tendsto_nhds_unique (inTheEnd_limit (E := reader) (F := coinFamily) (Q := fun _ => True) ω0
    ((C134_ends_partial coins_ideal coinFamily_workable coinFamily_parts).mono fun ω h => h 1) ?_).2 ?_
  · refine Eventually.of_forall fun j => ?_
    have hr : runs ((coinFamily.plan j).world reader) ((coinFamily.plan j).gen reader ω0) 1 (fun _ => True)
        = starts ((coinFamily.plan j).world reader) ((coinFamily.plan j).gen reader ω0) [Set.univ] := by
      ext ω
      constructor
      · rintro ⟨evs, g', h1, -⟩
        refine ⟨evs, g', h1, ?_⟩
        obtain ⟨ev, rfl⟩ := List.length_eq_one_iff.1 (createEvents_length h1)
        exact .cons trivial .nil
      · rintro ⟨evs, g', h1, -⟩
        exact ⟨evs, g', h1, trivial⟩
    rw [hr]
    exact (C132_sequence coins_ideal (coinFamily_usable j ω0) (Or.inl rfl) (hren j) (Ts := [Set.univ]) (by
      intro S hS
      rw [List.mem_singleton.1 hS]; exact hren j)).1
  · simp only [hval]
    have := ENNReal.tendsto_ofReal ((tendsto_pow_atTop_nhds_zero_of_lt_one (r := (1 / 6 : ℝ)) (by norm_num)
      (by norm_num)).const_sub 1)
    simpa using this

/-- A generator that meets the hypotheses. -/
example (n k : Nat) :
    coins (inTheEnd reader coinFamily n fun evs => tally small evs = k)
      = n.choose k * coins (inTheEnd reader coinFamily 1 fun evs => tally small evs = 1) ^ k
        * coins (inTheEnd reader coinFamily 1 fun evs => tally small evs = 0) ^ (n - k) :=
  C136_unlimited coins_ideal coinFamily_steady n k

/-- Its two probabilities add up to one. -/
example : coins (inTheEnd reader coinFamily 1 fun evs => tally small evs = 1)
    + coins (inTheEnd reader coinFamily 1 fun evs => tally small evs = 0) = 1 := by
  rw [C136_unlimited_sum coins_ideal coinFamily_steady, coinFamily_complete]

end Marley.Props
