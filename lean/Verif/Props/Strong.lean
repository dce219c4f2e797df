import Verif.Props.Unlimited
import Mathlib.Probability.StrongLaw

/-!
# C136: the strong law of large numbers for events

In almost every run that goes on and on, the share of the events with a property tends to the probability of one
such event.
-/

set_option autoImplicit false

namespace Marley.Props
open Marley Marley.Gen Marley.Sampling Marley.Rot MeasureTheory Filter ProbabilityTheory
open scoped Topology Function

/-! ### Specification -/

/-- The engine `ω` gives the events `evs 0`, `evs 1`, …: each run of `n` events gives the first `n` of them, once
loops may be passed often enough. -/
def Yields {Ω : Type} (E : Engine Ω) (F : Family) (ω : Ω) (evs : ℕ → Event ℝ) : Prop :=
  ∀ n, ∀ᶠ j in atTop, ∃ g',
    ((F.plan j).gen E ω).createEvents ((F.plan j).world E) n = some (.ok ((List.range n).map evs, g'))

section
variable {Ω : Type} [MeasurableSpace Ω] {E : Engine Ω} {F : Family} {T : Set (Event ℝ)}

/-! ### Lemmas -/

/-- The events of `s` are in `T`. -/
def allIn (T : Set (Event ℝ)) (s : Finset Nat) (evs : List (Event ℝ)) : Prop :=
  ∀ i ∈ s, ∃ ev, evs[i]? = some ev ∧ ev ∈ T

omit [MeasurableSpace Ω] in
theorem createEvents_take {W : World Ω} {n : Nat} : ∀ {g g' : Gen Ω} {evs : List (Event ℝ)},
    g.createEvents W (n + 1) = some (.ok (evs, g')) → ∃ g'', g.createEvents W n = some (.ok (evs.take n, g'')) := by
  induction n with
  | zero => intro g g' evs _; exact ⟨g, by simp [Gen.createEvents]⟩
  | succ n ih =>
    intro g g' evs h
    rw [Gen.createEvents] at h
    rw [Gen.createEvents]
    cases h1 : g.createEvent W with
    | none => rw [h1] at h; simp at h
    | some r =>
      rw [h1] at h
      cases r with
      | error e => simp at h
      | ok r =>
        obtain ⟨ev, g1⟩ := r
        dsimp only at h ⊢
        cases h2 : Gen.createEvents W (n + 1) g1 with
        | none => rw [h2] at h; simp at h
        | some r =>
          rw [h2] at h
          cases r with
          | error e => simp at h
          | ok r =>
            obtain ⟨l, g2⟩ := r
            simp only [Option.some.injEq, Except.ok.injEq, Prod.mk.injEq] at h
            obtain ⟨g3, h3⟩ := ih h2
            rw [h3]
            exact ⟨g3, by rw [← h.1]; simp⟩

/-- If runs of any number of events are completed, they are the beginnings of one sequence of events. -/
theorem yields_of_ends {ω : Ω} (h : ∀ n, ω ∈ inTheEnd E F n fun _ => True) : ∃ evs, Yields E F ω evs := by
  choose N L hL using h
  have hL : ∀ n, ∀ᶠ j in atTop, ∃ g',
      ((F.plan j).gen E ω).createEvents ((F.plan j).world E) n = some (.ok (L n, g')) := fun n =>
    eventually_atTop.2 ⟨N n, (hL n).2⟩
  have hlen : ∀ n, (L n).length = n := by
    intro n
    obtain ⟨j, g', h⟩ := (hL n).exists
    exact createEvents_length h
  have htake : ∀ n, (L (n + 1)).take n = L n := by
    intro n
    obtain ⟨j, ⟨g1, h1⟩, ⟨g2, h2⟩⟩ := ((hL (n + 1)).and (hL n)).exists
    obtain ⟨g3, h3⟩ := createEvents_take h1
    rw [h3] at h2
    simp only [Option.some.injEq, Except.ok.injEq, Prod.mk.injEq] at h2
    exact h2.1
  refine ⟨fun i => (L (i + 1))[i]'(by rw [hlen]; exact Nat.lt_succ_self i), fun n => ?_⟩
  have : (List.range n).map (fun i => (L (i + 1))[i]'(by rw [hlen]; exact Nat.lt_succ_self i)) = L n := by
    induction n with
    | zero => symm; simpa using hlen 0
    | succ n ih =>
      rw [List.range_succ, List.map_append, ih, ← htake n]
      simp only [List.map_cons, List.map_nil]
      rw [List.take_append_getElem]
      exact List.take_of_length_le (hlen (n + 1)).le
  rw [this]
  exact hL n

omit [MeasurableSpace Ω] in
theorem Yields.iff {ω : Ω} {evs : ℕ → Event ℝ} (h : Yields E F ω evs) (n : Nat) (Q : List (Event ℝ) → Prop) :
    ω ∈ inTheEnd E F n Q ↔ Q ((List.range n).map evs) := by
  constructor
  · rintro ⟨N, l, hq, hl⟩
    obtain ⟨j, ⟨g1, h1⟩, h2⟩ := ((h n).and (eventually_ge_atTop N)).exists
    obtain ⟨g2, h3⟩ := hl j h2
    rw [h1] at h3
    simp only [Option.some.injEq, Except.ok.injEq, Prod.mk.injEq] at h3
    rw [h3.1]; exact hq
  · intro hq
    obtain ⟨N, hN⟩ := eventually_atTop.1 (h n)
    exact ⟨N, _, hq, hN⟩

theorem allIn_range {evs : ℕ → Event ℝ} {n : Nat} {s : Finset Nat} (hs : s ⊆ Finset.range n) :
    allIn T s ((List.range n).map evs) ↔ ∀ i ∈ s, evs i ∈ T := by
  unfold allIn
  refine forall₂_congr fun i hi => ?_
  have := Finset.mem_range.1 (hs hi)
  simp [this]

open Classical in
theorem tally_range (evs : ℕ → Event ℝ) (n : Nat) :
    (tally T ((List.range n).map evs) : ℝ) = ∑ i ∈ Finset.range n, if evs i ∈ T then 1 else 0 := by
  induction n with
  | zero => simp [tally]
  | succ n ih =>
    rw [Finset.sum_range_succ, ← ih, List.range_succ, List.map_append]
    unfold tally
    rw [List.filter_append, List.length_append]
    by_cases h : evs n ∈ T <;> simp [h]

theorem runs_allIn {W : World Ω} {g : Gen Ω} {n : Nat} {s : Finset Nat} (hs : s ⊆ Finset.range n) :
    runs W g n (allIn T s) = starts W g ((List.range n).map fun i => if i ∈ s then T else Set.univ) := by
  ext ω
  have key : ∀ evs : List (Event ℝ), evs.length = n →
      (allIn T s evs ↔ List.Forall₂ (· ∈ ·) evs ((List.range n).map fun i => if i ∈ s then T else Set.univ)) := by
    intro evs hl
    rw [List.forall₂_iff_get]
    constructor
    · intro h
      refine ⟨by simpa using hl, fun i h1 h2 => ?_⟩
      by_cases hi : i ∈ s
      · obtain ⟨ev, h3, h4⟩ := h i hi
        rw [List.getElem?_eq_getElem h1] at h3
        simp only [Option.some.injEq] at h3
        simp [hi, h3, h4]
      · simp [hi]
    · rintro ⟨-, h⟩ i hi
      have hin : i < evs.length := hl ▸ Finset.mem_range.1 (hs hi)
      have := h i hin (by simpa using hl ▸ hin)
      simp [hi] at this
      exact ⟨evs[i], List.getElem?_eq_getElem hin, this⟩
  constructor
  · rintro ⟨evs, g', h, hq⟩
    exact ⟨evs, g', by simpa using h, (key evs (createEvents_length h)).1 hq⟩
  · rintro ⟨evs, g', h, hq⟩
    simp only [List.length_map, List.length_range] at h
    exact ⟨evs, g', h, (key evs (createEvents_length h)).2 hq⟩

theorem prod_allIn (f : Set (Event ℝ) → ENNReal) {n : Nat} {s : Finset Nat} (hs : s ⊆ Finset.range n) :
    (((List.range n).map fun i => if i ∈ s then T else Set.univ).map f).prod
      = f T ^ s.card * f Set.univ ^ (n - s.card) := by
  have h1 : (((List.range n).map fun i => if i ∈ s then T else Set.univ).map f).prod
      = ∏ i ∈ Finset.range n, if i ∈ s then f T else f Set.univ := by
    clear hs
    induction n with
    | zero => simp
    | succ n ih =>
      rw [List.range_succ, List.map_append, List.map_append, List.prod_append, ih, Finset.prod_range_succ]
      simp [apply_ite f]
  rw [h1, Finset.prod_ite, Finset.prod_const, Finset.prod_const]
  have h2 : (Finset.range n).filter (· ∈ s) = s := by
    ext i; simp only [Finset.mem_filter]; exact ⟨fun h => h.2, fun h => ⟨hs h, h⟩⟩
  have h3 : (Finset.range n).filter (· ∉ s) = Finset.range n \ s := by
    ext i; simp
  rw [h2, h3, Finset.card_sdiff_of_subset hs, Finset.card_range]

variable {μ : Measure Ω} {s : Nat → ℝ → ℝ} {m : ℝ}

/-- The probability that given events are in `T`. -/
theorem allIn_measure (hI : Ideal E μ) (h : Steady E F μ s m T)
    (hone : μ (inTheEnd E F 1 fun _ => True) = 1)
    {n : Nat} {S : Finset Nat} (hs : S ⊆ Finset.range n) :
    NullMeasurableSet (inTheEnd E F n (allIn T S)) μ ∧
    μ (inTheEnd E F n (allIn T S)) = μ (inTheEnd E F 1 fun evs => tally T evs = 1) ^ S.card := by
  have := hI.prob
  obtain ⟨ω0⟩ : Nonempty Ω := nonempty_of_isProbabilityMeasure μ
  set a : Nat → ENNReal := fun j => μ (runs ((F.plan j).world E) ((F.plan j).gen E ω0) 1 fun evs => tally T evs = 1) with ha
  set b : Nat → ENNReal := fun j => μ (runs ((F.plan j).world E) ((F.plan j).gen E ω0) 1 fun evs => tally T evs = 0) with hb
  have h1 := (inTheEnd_spec hI h ω0 1 1).2
  have h0 := (inTheEnd_spec hI h ω0 1 0).2
  have hsum := (C136_unlimited_sum hI h).trans hone
  have hu : Tendsto (fun j => a j + b j) atTop (𝓝 1) := by
    rw [← hsum]; exact h1.add h0
  have hval : ∀ᶠ j in atTop,
      NullMeasurableSet (runs ((F.plan j).world E) ((F.plan j).gen E ω0) n (allIn T S)) μ ∧
      a j ^ S.card * (a j + b j) ^ (n - S.card)
        = μ (runs ((F.plan j).world E) ((F.plan j).gen E ω0) n (allIn T S)) := by
    filter_upwards [h.usable, h.all, h.inside, h.outside] with j g1 g2 g3 g4
    have hseq := C132_sequence (W := (F.plan j).world E) hI (g1 ω0) h.rotator (g2 ω0)
      (Ts := (List.range n).map fun i => if i ∈ S then T else Set.univ) (by
        intro X hX
        simp only [List.mem_map] at hX
        obtain ⟨i, -, rfl⟩ := hX
        split
        · exact g3 ω0
        · exact g2 ω0)
    rw [runs_allIn hs]
    refine ⟨hseq.1, ?_⟩
    rw [hseq.2, prod_allIn _ hs]
    have hbin := fun k => C136_binomial (W := (F.plan j).world E) hI (g1 ω0) h.rotator (g2 ω0) (g3 ω0) (g4 ω0) 1 k
    have e1 : a j = μ (events ((F.plan j).world E) ((F.plan j).gen E ω0) (T ×ˢ Set.univ)) := by
      rw [ha]; dsimp only; rw [hbin 1]; simp
    have e0 : b j = μ (events ((F.plan j).world E) ((F.plan j).gen E ω0) (Tᶜ ×ˢ Set.univ)) := by
      rw [hb]; dsimp only; rw [hbin 0]; simp
    have e2 : a j + b j = μ (events ((F.plan j).world E) ((F.plan j).gen E ω0) (Set.univ ×ˢ Set.univ)) := by
      rw [e1, e0, Set.univ_prod_univ]
      exact (events_split hI (g1 ω0) (g3 ω0)).symm
    rw [e2, e1]
  have hl := inTheEnd_limit ω0 (Q := allIn T S) ((C134_ends_partial hI h.workable h.parts).mono fun ω h => h n)
    (hval.mono fun j h => h.1)
  refine ⟨hl.1, tendsto_nhds_unique hl.2 (Tendsto.congr' (hval.mono fun j h => h.2) ?_)⟩
  have hfin : μ (inTheEnd E F 1 fun evs => tally T evs = 1) ^ S.card ≠ ⊤ := ENNReal.pow_ne_top (measure_ne_top _ _)
  have := ENNReal.Tendsto.mul (ENNReal.Tendsto.pow (n := S.card) h1) (Or.inr (by simp))
    (ENNReal.Tendsto.pow (n := n - S.card) hu) (Or.inr hfin)
  simpa using this

/-! ### Theorem -/

/-- **C136**, the strong law of large numbers, if events are made with probability one (no exceptions): in almost every run that goes on and on, the share of the events in
`T` among the first `n` tends to the probability that one event is in `T`. -/
theorem C136_strong (hI : Ideal E μ) (h : Steady E F μ s m T)
    (hone : μ (inTheEnd E F 1 fun _ => True) = 1) :
    ∀ᵐ ω ∂μ, ∃ evs, Yields E F ω evs ∧
      Tendsto (fun n : ℕ => (tally T ((List.range n).map evs) : ℝ) / n) atTop
        (𝓝 (μ.real (inTheEnd E F 1 fun evs => tally T evs = 1))) := by
  classical
  have := hI.prob
  set p := μ (inTheEnd E F 1 fun evs => tally T evs = 1) with hp
  have hyields : ∀ᵐ ω ∂μ, ∃ evs, Yields E F ω evs := by
    have : ∀ᵐ ω ∂μ, ∀ n, ω ∈ inTheEnd E F n (allIn T ∅) := by
      rw [ae_all_iff]
      intro n
      obtain ⟨h1, h2⟩ := allIn_measure hI h hone (n := n) (S := ∅) (by simp)
      rw [Finset.card_empty, pow_zero] at h2
      exact (mem_ae_iff_prob_eq_one₀ h1).2 h2
    filter_upwards [this] with ω h1
    refine yields_of_ends fun n => ?_
    obtain ⟨N, evs, -, h2⟩ := h1 n
    exact ⟨N, evs, trivial, h2⟩
  set A : Nat → Set Ω := fun i => inTheEnd E F (i + 1) (allIn T {i}) with hA
  have hAm : ∀ i, NullMeasurableSet (A i) μ ∧ μ (A i) = p := fun i => by
    have := allIn_measure hI h hone (n := i + 1) (S := {i}) (by simp)
    simpa using this
  set B : Nat → Set Ω := fun i => toMeasurable μ (A i) with hB
  have hBA : ∀ᵐ ω ∂μ, ∀ i, ω ∈ B i ↔ ω ∈ A i := by
    rw [ae_all_iff]
    intro i
    filter_upwards [(hAm i).1.toMeasurable_ae_eq] with ω h
    exact iff_of_eq h
  have hBm : ∀ i, MeasurableSet (B i) := fun i => measurableSet_toMeasurable _ _
  have hBp : ∀ i, μ (B i) = p := fun i => by rw [hB]; dsimp only; rw [measure_toMeasurable, (hAm i).2]
  have hyA : ∀ {ω : Ω} {evs : ℕ → Event ℝ}, Yields E F ω evs → ∀ i, ω ∈ A i ↔ evs i ∈ T := by
    intro ω evs hy i
    rw [hA]; dsimp only
    rw [hy.iff, allIn_range (by simp)]
    simp
  have hind : iIndepSet B μ := by
    rw [iIndepSet_iff_meas_biInter hBm]
    intro S
    have h1 : μ (⋂ i ∈ S, B i) = μ (inTheEnd E F (S.sup id + 1) (allIn T S)) := by
      refine measure_congr ?_
      filter_upwards [hBA, hyields] with ω h1 ⟨evs, hy⟩
      refine propext ?_
      show ω ∈ (⋂ i ∈ S, B i) ↔ ω ∈ inTheEnd E F (S.sup id + 1) (allIn T S)
      rw [hy.iff, allIn_range]
      · simp only [Set.mem_iInter]
        exact forall₂_congr fun i _ => (h1 i).trans (hyA hy i)
      · intro i hi
        rw [Finset.mem_range]
        exact Nat.lt_succ_of_le (Finset.le_sup (f := id) hi)
    rw [h1, (allIn_measure hI h hone (n := S.sup id + 1) (S := S) (by
      intro i hi
      rw [Finset.mem_range]
      exact Nat.lt_succ_of_le (Finset.le_sup (f := id) hi))).2]
    simp [hBp, hp]
  set X : Nat → Ω → ℝ := fun i => (B i).indicator fun _ => 1 with hX
  have hXm : ∀ i, Measurable (X i) := fun i => measurable_const.indicator (hBm i)
  have hfun : iIndepFun X μ := hind.iIndepFun_indicator
  have hint : Integrable (X 0) μ := (integrable_const 1).indicator (hBm 0)
  have hident : ∀ i, IdentDistrib (X i) (X 0) μ μ := by
    intro i
    refine ⟨(hXm i).aemeasurable, (hXm 0).aemeasurable, ?_⟩
    have hmap : ∀ i, μ.map (X i) = p • Measure.dirac 1 + (1 - p) • Measure.dirac 0 := by
      intro i
      ext S hS
      rw [Measure.map_apply (hXm i) hS]
      have hpre : X i ⁻¹' S = (if (1 : ℝ) ∈ S then B i else ∅) ∪ (if (0 : ℝ) ∈ S then (B i)ᶜ else ∅) := by
        ext ω
        by_cases hω : ω ∈ B i <;> by_cases h1 : (1 : ℝ) ∈ S <;> by_cases h0 : (0 : ℝ) ∈ S <;> simp [hX, hω, h1, h0]
      have hc : μ (B i)ᶜ = 1 - p := by rw [prob_compl_eq_one_sub (hBm i), hBp]
      rw [hpre, measure_union]
      · by_cases h1 : (1 : ℝ) ∈ S <;> by_cases h0 : (0 : ℝ) ∈ S <;> simp [h1, h0, hc, hBp, hS]
      · by_cases h1 : (1 : ℝ) ∈ S <;> by_cases h0 : (0 : ℝ) ∈ S <;> simp [h1, h0, disjoint_compl_right]
      · by_cases h0 : (0 : ℝ) ∈ S <;> simp [h0, (hBm i)]
    rw [hmap i, hmap 0]
  have hmean : ∫ ω, X 0 ω ∂μ = μ.real (inTheEnd E F 1 fun evs => tally T evs = 1) := by
    rw [hX]; dsimp only
    rw [integral_indicator_const _ (hBm 0)]
    simp [Measure.real, hBp, hp]
  have hlaw := strong_law_ae_real X hint (fun i j hij => hfun.indepFun hij) hident
  rw [hmean] at hlaw
  filter_upwards [hlaw, hyields, hBA] with ω h1 ⟨evs, hy⟩ h2
  refine ⟨evs, hy, h1.congr fun n => ?_⟩
  rw [tally_range]
  congr 1
  refine Finset.sum_congr rfl fun i _ => ?_
  have := (h2 i).trans (hyA hy i)
  by_cases h3 : evs i ∈ T
  · simp [hX, h3, this.2 h3]
  · simp [hX, h3, mt this.1 h3]

end

/-- A generator that meets the hypotheses: the example of C136_unlimited. -/
example : ∀ᵐ ω ∂coins, ∃ evs, Yields reader coinFamily ω evs ∧
    Tendsto (fun n : ℕ => (tally small ((List.range n).map evs) : ℝ) / n) atTop
      (𝓝 (coins.real (inTheEnd reader coinFamily 1 fun evs => tally small evs = 1))) :=
  C136_strong coins_ideal coinFamily_steady coinFamily_complete

end Marley.Props
