import Verif.Props.Share
import Mathlib.Probability.CentralLimitTheorem

/-!
# C136: averages over events

In almost every run that goes on and on, the average of a quantity over the events tends to its expectation
for one event, and the errors are normal: the usual error bars are right for long runs.
-/

set_option autoImplicit false

namespace Marley.Props
open Marley Marley.Gen Marley.Sampling Marley.Rot MeasureTheory Filter ProbabilityTheory
open scoped Topology Function

/-! ### Specification -/

open Classical in
/-- The quantity `f` of the first event (zero if none is made). -/
noncomputable def firstValue {Ω : Type} (E : Engine Ω) (F : Family) (f : Event ℝ → ℝ) (ω : Ω) : ℝ :=
  if h : ∃ ev, ω ∈ inTheEnd E F 1 (· = [ev]) then f h.choose else 0

open Classical in
/-- The sum of the quantity `f` over the events of a run of `n` (zero if they are not made). -/
noncomputable def sumOver {Ω : Type} (E : Engine Ω) (F : Family) (f : Event ℝ → ℝ) (n : Nat) (ω : Ω) : ℝ :=
  if h : ∃ evs, ω ∈ inTheEnd E F n (· = evs) then (h.choose.map f).sum else 0

section
variable {Ω : Type} [MeasurableSpace Ω] {E : Engine Ω} {F : Family}
  {μ : Measure Ω} {s : Nat → ℝ → ℝ} {m : ℝ} {f : Event ℝ → ℝ}

/-! ### Lemmas -/

/-- Event `i` is in `U i`, for each of the `n` events. -/
def eachIn (U : Nat → Set (Event ℝ)) (n : Nat) (evs : List (Event ℝ)) : Prop :=
  List.Forall₂ (· ∈ ·) evs ((List.range n).map U)

theorem eachIn_range {U : Nat → Set (Event ℝ)} {evs : ℕ → Event ℝ} {n : Nat} :
    eachIn U n ((List.range n).map evs) ↔ ∀ i < n, evs i ∈ U i := by
  unfold eachIn
  rw [List.forall₂_iff_get]
  simp

omit [MeasurableSpace Ω] in
theorem runs_eachIn {W : World Ω} {g : Gen Ω} {U : Nat → Set (Event ℝ)} {n : Nat} :
    runs W g n (eachIn U n) = starts W g ((List.range n).map U) := by
  unfold runs starts eachIn
  simp

theorem tendsto_prod_range {a : Nat → Nat → ENNReal} {b : Nat → ENNReal} (n : Nat)
    (h : ∀ i < n, Tendsto (fun j => a j i) atTop (𝓝 (b i))) (hb : ∀ i, b i ≠ ⊤) :
    Tendsto (fun j => (((List.range n).map (a j)).prod)) atTop (𝓝 (∏ i ∈ Finset.range n, b i)) := by
  induction n with
  | zero => simp
  | succ n ih =>
    simp only [List.range_succ, List.map_append, List.prod_append, List.map_cons, List.map_nil, List.prod_cons,
      List.prod_nil, mul_one, Finset.prod_range_succ]
    exact ENNReal.Tendsto.mul (ih fun i hi => h i (Nat.lt_succ_of_lt hi)) (Or.inr (hb n)) (h n (Nat.lt_succ_self n))
      (Or.inr (ENNReal.prod_ne_top fun i _ => hb i))

/-- The events of a run are independent. -/
theorem eachIn_measure (hI : Ideal E μ) {U : Nat → Set (Event ℝ)} (h : ∀ i, Steady E F μ s m (U i)) (n : Nat) :
    NullMeasurableSet (inTheEnd E F n (eachIn U n)) μ ∧
    μ (inTheEnd E F n (eachIn U n)) = ∏ i ∈ Finset.range n, μ (inTheEnd E F 1 fun evs => tally (U i) evs = 1) := by
  have := hI.prob
  obtain ⟨ω0⟩ : Nonempty Ω := nonempty_of_isProbabilityMeasure μ
  have hin : ∀ᶠ j in atTop, ∀ i ∈ Finset.range n, (∀ ω, Renews ((F.plan j).world E) ((F.plan j).gen E ω) μ (U i)) ∧
      ∀ ω, Renews ((F.plan j).world E) ((F.plan j).gen E ω) μ (U i)ᶜ :=
    (Filter.eventually_all_finset _).2 fun i _ => (h i).inside.and (h i).outside
  have hval : ∀ᶠ j in atTop, NullMeasurableSet (runs ((F.plan j).world E) ((F.plan j).gen E ω0) n (eachIn U n)) μ ∧
      ((List.range n).map fun i => μ (runs ((F.plan j).world E) ((F.plan j).gen E ω0) 1 fun evs => tally (U i) evs = 1)).prod
        = μ (runs ((F.plan j).world E) ((F.plan j).gen E ω0) n (eachIn U n)) := by
    filter_upwards [(h 0).usable, (h 0).all, hin] with j g1 g2 g3
    have hseq := C132_sequence (W := (F.plan j).world E) hI (g1 ω0) (h 0).rotator (g2 ω0)
      (Ts := (List.range n).map U) (by
        intro X hX
        simp only [List.mem_map, List.mem_range] at hX
        obtain ⟨i, hi, rfl⟩ := hX
        exact (g3 i (Finset.mem_range.2 hi)).1 ω0)
    rw [runs_eachIn]
    refine ⟨hseq.1, ?_⟩
    rw [hseq.2, List.map_map]
    congr 1
    refine List.map_congr_left fun i hi => ?_
    have hi := g3 i (Finset.mem_range.2 (List.mem_range.1 hi))
    rw [C136_binomial (W := (F.plan j).world E) hI (g1 ω0) (h 0).rotator (g2 ω0) (hi.1 ω0) (hi.2 ω0) 1 1]
    simp
  have hl := inTheEnd_limit ω0 (Q := eachIn U n)
    ((C134_ends_partial hI (h 0).workable (h 0).parts).mono fun ω h => h n) (hval.mono fun j h => h.1)
  have hl' := inTheEnd_spec hI (h 0) ω0 1 1
  refine ⟨hl.1, tendsto_nhds_unique hl.2 (Tendsto.congr' (hval.mono fun j h => h.2) ?_)⟩
  exact tendsto_prod_range n (fun i _ => (inTheEnd_spec hI (h i) ω0 1 1).2) fun i => measure_ne_top _ _

theorem yields_ae (hI : Ideal E μ) {T : Set (Event ℝ)} (h : Steady E F μ s m T)
    (hone : μ (inTheEnd E F 1 fun _ => True) = 1) : ∀ᵐ ω ∂μ, ∃ evs, Yields E F ω evs :=
  (C136_strong hI h hone).mono fun _ ⟨evs, hy, _⟩ => ⟨evs, hy⟩

/-- The values of `f` for the events of a run are independent and have the same law. -/
theorem values_law (hI : Ideal E μ) (h : ∀ B, MeasurableSet B → Steady E F μ s m (f ⁻¹' B))
    (hone : μ (inTheEnd E F 1 fun _ => True) = 1) :
    ∃ X : Nat → Ω → ℝ, (∀ᵐ ω ∂μ, ∃ evs, Yields E F ω evs) ∧
      (∀ ω, (∃ evs, Yields E F ω evs) → ∃ evs, Yields E F ω evs ∧ ∀ i, X i ω = f (evs i)) ∧
      (∀ i, AEMeasurable (X i) μ) ∧ X 0 =ᵐ[μ] firstValue E F f ∧ iIndepFun X μ ∧
      ∀ i, IdentDistrib (X i) (X 0) μ μ := by
  classical
  have := hI.prob
  have hyields := yields_ae hI (h Set.univ MeasurableSet.univ) hone
  set X : Nat → Ω → ℝ := fun i ω => if h : ∃ evs, Yields E F ω evs then f (h.choose i) else 0 with hX
  have hXv : ∀ {ω}, (∃ evs, Yields E F ω evs) → ∃ evs, Yields E F ω evs ∧ ∀ i, X i ω = f (evs i) := by
    intro ω hy
    exact ⟨hy.choose, hy.choose_spec, fun i => by rw [hX]; dsimp only; rw [dif_pos hy]⟩
  have huniv : μ (inTheEnd E F 1 fun evs => tally Set.univ evs = 1) = 1 := by
    rw [← hone]
    congr 1
    ext ω
    constructor
    · rintro ⟨N, evs, -, h1⟩; exact ⟨N, evs, trivial, h1⟩
    · rintro ⟨N, evs, -, h1⟩
      refine ⟨N, evs, ?_, h1⟩
      obtain ⟨g', h2⟩ := h1 N le_rfl
      rw [← createEvents_length h2]
      simp [tally]
  set p : Set ℝ → ENNReal := fun B => μ (inTheEnd E F 1 fun evs => tally (f ⁻¹' B) evs = 1) with hp
  have hp1 : p Set.univ = 1 := huniv
  -- sets of values of finitely many events
  have hset : ∀ (V : Nat → Set ℝ), (∀ i, MeasurableSet (V i)) → ∀ n,
      (inTheEnd E F n (eachIn (fun i => f ⁻¹' V i) n) =ᵐ[μ] {ω | ∀ i < n, X i ω ∈ V i}) ∧
      NullMeasurableSet {ω | ∀ i < n, X i ω ∈ V i} μ ∧ μ {ω | ∀ i < n, X i ω ∈ V i} = ∏ i ∈ Finset.range n, p (V i) := by
    intro V hV n
    have hae : inTheEnd E F n (eachIn (fun i => f ⁻¹' V i) n) =ᵐ[μ] {ω | ∀ i < n, X i ω ∈ V i} := by
      filter_upwards [hyields] with ω hy
      obtain ⟨evs, hy, hv⟩ := hXv hy
      refine propext ?_
      show ω ∈ inTheEnd E F n (eachIn (fun i => f ⁻¹' V i) n) ↔ ∀ i < n, X i ω ∈ V i
      rw [hy.iff, eachIn_range]
      simp only [hv, Set.mem_preimage]
    have hm := eachIn_measure hI (U := fun i => f ⁻¹' V i) (fun i => h _ (hV i)) n
    exact ⟨hae, hm.1.congr hae, by rw [← measure_congr hae, hm.2]⟩
  have hsingle : ∀ i B, MeasurableSet B → NullMeasurableSet (X i ⁻¹' B) μ ∧ μ (X i ⁻¹' B) = p B := by
    intro i B hB
    obtain ⟨-, h1, h2⟩ := hset (fun k => if k = i then B else Set.univ)
      (fun k => by split_ifs; exacts [hB, MeasurableSet.univ]) (i + 1)
    have hs : {ω | ∀ k < i + 1, X k ω ∈ if k = i then B else Set.univ} = X i ⁻¹' B := by
      ext ω
      constructor
      · intro h3
        have := h3 i (Nat.lt_succ_self i)
        simpa using this
      · intro h3 k _
        by_cases hk : k = i
        · subst hk; simpa using h3
        · simp [hk]
    rw [hs] at h1 h2
    refine ⟨h1, h2.trans ?_⟩
    rw [Finset.prod_eq_single_of_mem i (Finset.mem_range.2 (Nat.lt_succ_self i))]
    · simp
    · intro k _ hk; simp [hk, hp1]
  have hXm : ∀ i, AEMeasurable (X i) μ := fun i =>
    NullMeasurable.aemeasurable fun B hB => (hsingle i B hB).1
  have hindep : iIndepFun X μ := by
    rw [iIndepFun_iff_measure_inter_preimage_eq_mul]
    intro S A hA
    have hlt : ∀ k ∈ S, k < S.sup id + 1 := fun k hk => Nat.lt_succ_of_le (Finset.le_sup (f := id) hk)
    obtain ⟨-, -, h2⟩ := hset (fun k => if k ∈ S then A k else Set.univ)
      (fun k => by split_ifs with hk; exacts [hA k hk, MeasurableSet.univ]) (S.sup id + 1)
    have hs : {ω | ∀ k < S.sup id + 1, X k ω ∈ if k ∈ S then A k else Set.univ} = ⋂ i ∈ S, X i ⁻¹' A i := by
      ext ω
      simp only [Set.mem_iInter, Set.mem_preimage]
      constructor
      · intro h3 k hk
        have := h3 k (hlt k hk)
        rwa [if_pos hk] at this
      · intro h3 k _
        by_cases hk : k ∈ S
        · rw [if_pos hk]; exact h3 k hk
        · rw [if_neg hk]; trivial
    rw [hs] at h2
    rw [h2, ← Finset.prod_subset (s₁ := S)]
    · refine Finset.prod_congr rfl fun k hk => ?_
      rw [if_pos hk, (hsingle k _ (hA k hk)).2]
    · exact fun k hk => Finset.mem_range.2 (hlt k hk)
    · intro k _ hk
      rw [if_neg hk, hp1]
  have hident : ∀ i, IdentDistrib (X i) (X 0) μ μ := by
    intro i
    refine ⟨hXm i, hXm 0, ?_⟩
    ext B hB
    rw [Measure.map_apply_of_aemeasurable (hXm i) hB, Measure.map_apply_of_aemeasurable (hXm 0) hB,
      (hsingle i B hB).2, (hsingle 0 B hB).2]
  have hmean : X 0 =ᵐ[μ] firstValue E F f := by
    filter_upwards [hyields] with ω hy
    obtain ⟨evs, hy, hv⟩ := hXv hy
    rw [hv 0, firstValue]
    have hex : ∃ ev, ω ∈ inTheEnd E F 1 (· = [ev]) := ⟨evs 0, (hy.iff 1 _).2 (by simp)⟩
    rw [dif_pos hex]
    have := (hy.iff 1 _).1 hex.choose_spec
    simp only [List.range_one, List.map_cons, List.map_nil, List.cons.injEq, and_true] at this
    rw [this]
  exact ⟨X, hyields, fun ω hy => hXv hy, hXm, hmean, hindep, hident⟩

/-! ### Theorems -/

/-- **C136**: averages over events tend to expectations, for quantities `f` that have one, if events are made with
probability one (no exceptions): in almost every run that goes on and on, the average of `f` over the first `n` events
tends to its mean value for one event. -/
theorem C136_average (hI : Ideal E μ) (h : ∀ B, MeasurableSet B → Steady E F μ s m (f ⁻¹' B))
    (hone : μ (inTheEnd E F 1 fun _ => True) = 1) (hf : Integrable (firstValue E F f) μ) :
    ∀ᵐ ω ∂μ, ∃ evs, Yields E F ω evs ∧
      Tendsto (fun n : ℕ => (∑ i ∈ Finset.range n, f (evs i)) / n) atTop (𝓝 (∫ ω, firstValue E F f ω ∂μ)) := by
  obtain ⟨X, hyields, hXv, hXm, hsame, hindep, hident⟩ := values_law hI h hone
  have hlaw := strong_law_ae_real X ((integrable_congr hsame).2 hf) (fun i j hij => hindep.indepFun hij) hident
  rw [integral_congr_ae hsame] at hlaw
  filter_upwards [hlaw, hyields] with ω h1 hy
  obtain ⟨evs, hy, hv⟩ := hXv ω hy
  exact ⟨evs, hy, h1.congr fun n => by simp only [hv]⟩

/-- **C136**: bounded quantities have a mean value. -/
theorem C136_average_bounded (hI : Ideal E μ) (h : ∀ B, MeasurableSet B → Steady E F μ s m (f ⁻¹' B))
    (hone : μ (inTheEnd E F 1 fun _ => True) = 1) {C : ℝ} (hf : ∀ ev, |f ev| ≤ C) :
    ∀ᵐ ω ∂μ, ∃ evs, Yields E F ω evs ∧
      Tendsto (fun n : ℕ => (∑ i ∈ Finset.range n, f (evs i)) / n) atTop (𝓝 (∫ ω, firstValue E F f ω ∂μ)) := by
  have := hI.prob
  obtain ⟨X, -, -, hXm, hsame, -, -⟩ := values_law hI h hone
  refine C136_average hI h hone (Integrable.of_bound ((hXm 0).congr hsame).aestronglyMeasurable C
    (ae_of_all _ fun ω => ?_))
  unfold firstValue
  split_ifs
  · exact hf _
  · simpa using (abs_nonneg _).trans (hf (demoEvent 0))

/-- **C136**, the central limit theorem: the errors of averages over long runs are normal. The sum of `f` over `n` events
minus `n` times the mean value, divided by the square root of `n`, tends in distribution to the normal law with mean
zero and the variance of `f` for one event. -/
theorem C136_normal (hI : Ideal E μ) (h : ∀ B, MeasurableSet B → Steady E F μ s m (f ⁻¹' B))
    (hone : μ (inTheEnd E F 1 fun _ => True) = 1) (hf : MemLp (firstValue E F f) 2 μ) [IsProbabilityMeasure μ] :
    TendstoInDistribution (fun (n : ℕ) ω => (√n)⁻¹ * (sumOver E F f n ω - n * ∫ ω, firstValue E F f ω ∂μ)) atTop id
      (fun _ => μ) (gaussianReal 0 Var[firstValue E F f; μ].toNNReal) := by
  obtain ⟨X, hyields, hXv, hXm, hsame, hindep, hident⟩ := values_law hI h hone
  have hvar : Var[X 0; μ] = Var[firstValue E F f; μ] := variance_congr hsame
  have hclt := tendstoInDistribution_inv_sqrt_mul_sum_sub (P := μ) (X := X)
    (P' := gaussianReal 0 Var[firstValue E F f; μ].toNNReal) (Y := id) (by rw [hvar]; exact HasLaw.id)
    ((memLp_congr_ae hsame).2 hf) hindep hident
  rw [integral_congr_ae hsame] at hclt
  refine hclt.congr (fun n => ?_) (EventuallyEq.refl _ _)
  filter_upwards [hyields] with ω hy
  obtain ⟨evs, hy, hv⟩ := hXv ω hy
  have hex : ∃ l, ω ∈ inTheEnd E F n (· = l) := ⟨(List.range n).map evs, (hy.iff n _).2 rfl⟩
  have hl := (hy.iff n _).1 hex.choose_spec
  have hsum : sumOver E F f n ω = ∑ k ∈ Finset.range n, X k ω := by
    rw [sumOver, dif_pos hex, ← hl]
    simp only [hv, List.map_map]
    clear hl hex
    induction n with
    | zero => simp
    | succ n ih => rw [Finset.sum_range_succ, ← ih, List.range_succ]; simp
  rw [hsum]

/-- **C136**, error bars: the share of the runs in which the average of `f` over `n` events is at most `z` standard
errors from the mean value tends to the probability that a normal variable is at most `z` from its mean (in units of
its standard deviation). -/
theorem C136_errors (hI : Ideal E μ) (h : ∀ B, MeasurableSet B → Steady E F μ s m (f ⁻¹' B))
    (hone : μ (inTheEnd E F 1 fun _ => True) = 1) (hf : MemLp (firstValue E F f) 2 μ)
    (hv : Var[firstValue E F f; μ] ≠ 0) (z : ℝ) :
    Tendsto (fun n : ℕ => μ {ω | |sumOver E F f n ω / n - ∫ ω, firstValue E F f ω ∂μ|
        ≤ z * √(Var[firstValue E F f; μ] / n)}) atTop
      (𝓝 (gaussianReal 0 1 (Set.Icc (-z) z))) := by
  have := hI.prob
  have hclt := C136_normal hI h hone hf
  set v := Var[firstValue E F f; μ] with hvdef
  set M := ∫ ω, firstValue E F f ω ∂μ with hM
  have hvpos : 0 < v := lt_of_le_of_ne (variance_nonneg _ _) (Ne.symm hv)
  have hσ : 0 < √v := Real.sqrt_pos.2 hvpos
  have hv' : v.toNNReal ≠ 0 := by simpa using hvpos
  have hno : NullSingletonClass (gaussianReal 0 v.toNNReal) := nullSingletonClass_gaussianReal hv'
  have hfr : ((gaussianReal 0 v.toNNReal).map id) (frontier (Set.Icc (-(z * √v)) (z * √v))) = 0 := by
    rw [Measure.map_id]
    refine measure_mono_null (t := {-(z * √v), z * √v}) ?_ ?_
    · rcases le_or_gt (-(z * √v)) (z * √v) with hle | hlt
      · rw [frontier_Icc hle]
      · rw [Set.Icc_eq_empty (not_le.2 hlt)]; simp
    · exact (Set.toFinite _).measure_zero _
  have hp := ProbabilityMeasure.tendsto_measure_of_null_frontier_of_tendsto' hclt.tendsto
    (E := Set.Icc (-(z * √v)) (z * √v)) hfr
  have hgauss : ((gaussianReal 0 v.toNNReal).map id) (Set.Icc (-(z * √v)) (z * √v)) = gaussianReal 0 1 (Set.Icc (-z) z) := by
    have hmap : (gaussianReal 0 1).map (√v * ·) = gaussianReal 0 v.toNNReal := by
      rw [gaussianReal_map_const_mul]
      congr 1
      · simp
      · ext; simp [Real.sq_sqrt hvpos.le, hvpos.le]
    rw [Measure.map_id, ← hmap, Measure.map_apply (measurable_const_mul _) measurableSet_Icc]
    congr 1
    ext x
    simp only [Set.mem_preimage, Set.mem_Icc, mul_comm (√v) x, ← neg_mul, mul_le_mul_iff_left₀ hσ]
  simp only [ProbabilityMeasure.coe_mk, hgauss] at hp
  refine hp.congr' ?_
  filter_upwards [eventually_gt_atTop 0] with n hn
  rw [Measure.map_apply_of_aemeasurable (hclt.forall_aemeasurable n) measurableSet_Icc]
  congr 1
  ext ω
  have hn' : (0 : ℝ) < n := Nat.cast_pos.2 hn
  have hs : 0 < √(n : ℝ) := Real.sqrt_pos.2 hn'
  have hsq : √(n : ℝ) * √(n : ℝ) = n := Real.mul_self_sqrt hn'.le
  rw [Set.mem_preimage, Set.mem_Icc, ← abs_le]
  show |(√(n : ℝ))⁻¹ * (sumOver E F f n ω - n * M)| ≤ z * √v ↔ |sumOver E F f n ω / n - M| ≤ z * √(v / n)
  have e1 : sumOver E F f n ω / n - M = ((√(n : ℝ))⁻¹ * (sumOver E F f n ω - n * M)) * (√(n : ℝ))⁻¹ := by
    field_simp
    rw [Real.sq_sqrt hn'.le]
    ring
  rw [e1, abs_mul _ (√(n : ℝ))⁻¹, abs_of_pos (inv_pos.2 hs), Real.sqrt_div hvpos.le, div_eq_mul_inv, ← mul_assoc,
    mul_le_mul_iff_left₀ (inv_pos.2 hs)]

end

/-! ### Example -/

/-- The energy of the projectile, cut at 0 and 1. -/
noncomputable def cutEnergy (ev : Event ℝ) : ℝ := max 0 (min 1 ((ev.initial.map (·.E)).sum))

theorem cutEnergy_steady (B : Set ℝ) (hB : MeasurableSet B) :
    Steady reader coinFamily coins twoXs 3 (cutEnergy ⁻¹' B) := by
  have hm : MeasurableSet {x | demoEvent x ∈ cutEnergy ⁻¹' B} := by
    have : {x | demoEvent x ∈ cutEnergy ⁻¹' B} = (fun x : ℝ => max 0 (min 1 x)) ⁻¹' B := by
      ext x
      simp [cutEnergy, demoEvent, demoProjectile]
    rw [this]
    exact (measurable_const.max (measurable_const.min measurable_id)) hB
  exact ⟨coinFamily_workable, coinFamily_parts, Or.inl rfl, Eventually.of_forall coinFamily_usable,
    Eventually.of_forall fun j ω => coinFamily_renews j ω (by simp),
    Eventually.of_forall fun j ω => coinFamily_renews j ω hm,
    Eventually.of_forall fun j ω => coinFamily_renews j ω hm.compl⟩

/-- The average energy in runs of a generator that meets the hypotheses. -/
example : ∀ᵐ ω ∂coins, ∃ evs, Yields reader coinFamily ω evs ∧
    Tendsto (fun n : ℕ => (∑ i ∈ Finset.range n, cutEnergy (evs i)) / n) atTop
      (𝓝 (∫ ω, firstValue reader coinFamily cutEnergy ω ∂coins)) :=
  C136_average_bounded coins_ideal cutEnergy_steady coinFamily_complete (C := 1) fun ev => by
    rw [cutEnergy, abs_of_nonneg (le_max_left _ _)]
    exact max_le zero_le_one (min_le_left _ _)

theorem cut_iff {x : ℝ} : demoEvent x ∈ cutEnergy ⁻¹' Set.Iic (1 / 2) ↔ demoEvent x ∈ small := by
  rw [small_iff]
  show max 0 (min 1 ((demoEvent x).initial.map (·.E)).sum) ≤ 1 / 2 ↔ _
  have : ((demoEvent x).initial.map (·.E)).sum = x := by simp [demoEvent, demoProjectile]
  rw [this]
  constructor
  · intro h
    have h1 : min 1 x ≤ 1 / 2 := (le_max_right _ _).trans h
    rcases min_le_iff.1 h1 with h2 | h2
    · norm_num at h2
    · exact h2
  · intro h
    exact max_le (by norm_num) ((min_le_right _ _).trans h)

/-- Half of the events have an energy up to 1/2. -/
theorem cut_half : coins (inTheEnd reader coinFamily 1 fun evs => tally (cutEnergy ⁻¹' Set.Iic (1 / 2)) evs = 1) = 1 / 2 := by
  have : IsProbabilityMeasure coins := coin_ideal.prob
  rw [C136_share coins_ideal (cutEnergy_steady _ measurableSet_Iic)]
  have h := (C132_event coin_ideal coin_usable fun r hr =>
    (coin_fresh small_measurable).measurable r hr _ MeasurableSet.univ).2
  rw [coin_small, coin_integral] at h
  have hends : ends (demoWorld reader) coinGen twoXs 3 = 35 / 36 := by
    unfold ends
    rw [coin_integral]
    norm_num [demoWorld, coinGen, demoGen, demoSource]
  rw [hends] at h
  have hint : ∫ e in Set.Icc coinFamily.base.source.Emin coinFamily.base.source.Emax,
      rates ((coinFamily.plan 0).gen silent ()) twoXs e = 5 / 2 := coin_integral
  rw [hint]
  have hl : ∀ (i : Fin 2) (e : ℝ), leadsInTheEnd reader coinFamily coinFamily.rx[i] (cutEnergy ⁻¹' Set.Iic (1 / 2)) e
      = {ω | Leads (demoWorld reader) coinGen coinGen.reactions[i] (small ×ˢ Set.univ) e ω} := by
    intro i e
    ext ω
    have h0 : ω ∈ leadsInTheEnd reader coinFamily coinFamily.rx[i] (cutEnergy ⁻¹' Set.Iic (1 / 2)) e ↔
        Leads (demoWorld reader) coinGen coinGen.reactions[i] ((cutEnergy ⁻¹' Set.Iic (1 / 2)) ×ˢ Set.univ) e ω := by
      constructor
      · rintro ⟨N, hN⟩
        have := hN N le_rfl
        fin_cases i <;> exact this
      · intro h
        refine ⟨0, fun j _ => ?_⟩
        fin_cases i <;> exact h
    rw [h0]
    fin_cases i
    · refine coin_leads.trans (Iff.trans ?_ coin_leads.symm)
      rw [Set.mem_prod, Set.mem_prod, cut_iff]
    · refine plain_leads.trans (Iff.trans ?_ plain_leads.symm)
      rw [Set.mem_prod, Set.mem_prod, cut_iff]
  have hsum : (∑ i : Fin coinFamily.rx.length, ∫⁻ e in Set.Icc coinFamily.base.source.Emin coinFamily.base.source.Emax,
      ENNReal.ofReal (rate ((coinFamily.plan 0).gen silent ()) twoXs i e)
        * coins (leadsInTheEnd reader coinFamily coinFamily.rx[i] (cutEnergy ⁻¹' Set.Iic (1 / 2)) e))
      = ∑ i : Fin coinGen.reactions.length, ∫⁻ e in Set.Icc coinGen.source.Emin coinGen.source.Emax,
        ENNReal.ofReal (rate coinGen twoXs i e)
          * coins {ω | Leads (demoWorld reader) coinGen coinGen.reactions[i] (small ×ˢ Set.univ) e ω} := by
    refine Fintype.sum_congr (α := Fin 2) _ _ fun i => ?_
    refine lintegral_congr fun e => ?_
    exact congrArg (fun A => ENNReal.ofReal (rate coinGen twoXs i e) * coins A) (hl i e)
  rw [hsum]
  revert h
  generalize (∑ i : Fin coinGen.reactions.length, ∫⁻ e in Set.Icc coinGen.source.Emin coinGen.source.Emax,
        ENNReal.ofReal (rate coinGen twoXs i e)
          * coins {ω | Leads (demoWorld reader) coinGen coinGen.reactions[i] (small ×ˢ Set.univ) e ω})
    / ENNReal.ofReal (5 / 2) = q
  intro h
  have h2 : ENNReal.ofReal (35 / 36) * q = ENNReal.ofReal (35 / 36) * (1 / 2) := by
    rw [← h, show (35 / 72 : ℝ) = 35 / 36 * (1 / 2) by norm_num, ENNReal.ofReal_mul (by norm_num)]
    congr 1
    rw [ENNReal.ofReal_div_of_pos (by norm_num)]
    simp
  exact (ENNReal.mul_right_inj (by simp) ENNReal.ofReal_ne_top).1 h2

theorem cut_bounded (ω : ℕ → ℝ) : |firstValue reader coinFamily cutEnergy ω| ≤ 1 := by
  unfold firstValue
  split_ifs
  · rw [cutEnergy, abs_of_nonneg (le_max_left _ _)]
    exact max_le zero_le_one (min_le_left _ _)
  · simp

theorem cut_memLp : MemLp (firstValue reader coinFamily cutEnergy) 2 coins := by
  have : IsProbabilityMeasure coins := coin_ideal.prob
  obtain ⟨X, -, -, hXm, hsame, -, -⟩ := values_law coins_ideal cutEnergy_steady coinFamily_complete
  exact MemLp.of_bound ((hXm 0).congr hsame).aestronglyMeasurable 1 (ae_of_all _ cut_bounded)

theorem cut_variance : Var[firstValue reader coinFamily cutEnergy; coins] ≠ 0 := by
  have : IsProbabilityMeasure coins := coin_ideal.prob
  intro h0
  have hc := ae_eq_integral_of_variance_eq_zero cut_memLp h0
  set c := ∫ ω, firstValue reader coinFamily cutEnergy ω ∂coins
  have hset : inTheEnd reader coinFamily 1 (fun evs => tally (cutEnergy ⁻¹' Set.Iic (1 / 2)) evs = 1)
      =ᵐ[coins] {_ω : ℕ → ℝ | c ≤ 1 / 2} := by
    filter_upwards [yields_ae coins_ideal coinFamily_steady coinFamily_complete, hc] with ω ⟨evs, hy⟩ hω
    refine propext ?_
    show ω ∈ inTheEnd reader coinFamily 1 (fun evs => tally (cutEnergy ⁻¹' Set.Iic (1 / 2)) evs = 1) ↔ c ≤ 1 / 2
    have hex : ∃ ev, ω ∈ inTheEnd reader coinFamily 1 (· = [ev]) := ⟨evs 0, (hy.iff 1 _).2 (by simp)⟩
    have h1 := (hy.iff 1 _).1 hex.choose_spec
    simp only [List.range_one, List.map_cons, List.map_nil, List.cons.injEq, and_true] at h1
    rw [← hω, firstValue, dif_pos hex, ← h1, hy.iff]
    by_cases h2 : cutEnergy (evs 0) ≤ 1 / 2
    · have h3 : evs 0 ∈ cutEnergy ⁻¹' Set.Iic (1 / 2) := h2
      simp only [h2, iff_true]
      unfold tally
      rw [List.range_one, List.map_cons, List.map_nil, List.filter_cons_of_pos (by simpa using h3)]
      rfl
    · have h3 : evs 0 ∉ cutEnergy ⁻¹' Set.Iic (1 / 2) := h2
      simp only [h2, iff_false]
      unfold tally
      rw [List.range_one, List.map_cons, List.map_nil, List.filter_cons_of_neg (by simpa using h3)]
      simp
  have h1 := cut_half
  rw [measure_congr hset] at h1
  by_cases h2 : c ≤ 1 / 2
  · rw [show {_ω : ℕ → ℝ | c ≤ 1 / 2} = Set.univ from Set.eq_univ_of_forall fun _ => h2, measure_univ] at h1
    have := congrArg ENNReal.toReal h1
    norm_num at this
  · rw [show {_ω : ℕ → ℝ | c ≤ 1 / 2} = ∅ from Set.eq_empty_of_forall_notMem fun _ h => h2 h, measure_empty] at h1
    have := congrArg ENNReal.toReal h1
    norm_num at this

/-- Error bars of one standard error for the average energy, in runs of a generator that meets the hypotheses. -/
example : Tendsto (fun n : ℕ => coins {ω | |sumOver reader coinFamily cutEnergy n ω / n
      - ∫ ω, firstValue reader coinFamily cutEnergy ω ∂coins|
        ≤ 1 * √(Var[firstValue reader coinFamily cutEnergy; coins] / n)}) atTop
      (𝓝 (gaussianReal 0 1 (Set.Icc (-1) 1))) :=
  C136_errors coins_ideal cutEnergy_steady coinFamily_complete cut_memLp cut_variance 1

end Marley.Props
