import Verif.Lemmas.RejectionLaw
import Mathlib.Analysis.SpecificLimits.Basic
import Mathlib.Analysis.SpecialFunctions.Integrals.Basic
import Mathlib.Tactic.NormNum

/-! # C122: rejection sampling follows the density

The draws are independent and uniform in [0, 1) (`iid`, `stream` in
`Verif/Spec/RejectionLaw.lean`), the arithmetic is exact.  `unit`, `iid` and
`stream` are all the reader needs besides the model of `rejection_sample`. -/

set_option autoImplicit false

namespace Marley.Props
open Marley.Sampling MeasureTheory

variable {σ : Type}

/-- The function `f` has the value `v x` at each point of the range, in whatever
state it is called. -/
def Evaluates (f : ℝ → σ → Res (ℝ × σ)) (v : ℝ → ℝ) (a b : ℝ) (I : σ → Prop) : Prop :=
  ∀ x ∈ Set.Icc a b, ∀ st, I st → ∃ st', f x st = .ok (v x, st') ∧ I st'

/-- How often `n` trials are enough and the abscissa lies in `A`. -/
theorem loop_law {f : ℝ → σ → Res (ℝ × σ)} {v : ℝ → ℝ} {a b m safety : ℝ} {I : σ → Prop}
    (hab : a < b) (hm : 0 < m) (hv : Measurable v)
    (hr : ∀ x ∈ Set.Icc a b, 0 ≤ v x ∧ v x ≤ m) (hf : Evaluates f v a b I)
    {B : Set (ℝ × ℝ)} (hB : MeasurableSet B) (n : Nat) (st : σ) (hI : I st) :
    iid n {d | ∃ r, rejectLoop exact replay f a b safety n m (stream d) st = some (.ok r) ∧
        (r.x, (replay.draw r.gen).1) ∈ B}
      = ENNReal.ofReal ((∑ k ∈ Finset.range n, (1 - share v a b m) ^ k)
        * ((∫ x in Set.Icc a b, (chance B x).toReal * v x) / (m * (b - a)))) := by
  rw [← event_real hab hm hv hr hB]
  refine measure_congr ?_
  filter_upwards [iid_mem n] with d hd
  exact propext (loop_event hab (fun x hx => (hr x hx).2) hf n d hd st hI).symm

/-- **C122**: within `n` trials an abscissa in `A` is returned with the probability
`(1 - (1 - p)^n) * (∫_A v / ∫ v)`, where `p` is the share of the box
`[xmin, xmax] × [0, fmax]` below the curve: whenever `rejection_sample` returns,
the abscissa has the density `v` up to its norm, and the number of trials does not
depend on it. -/
theorem C122_density {f : ℝ → σ → Res (ℝ × σ)} {v : ℝ → ℝ} {a b m : ℝ} {I : σ → Prop}
    (safety tolerance : ℝ) (hab : a < b) (hm : 0 < m) (hv : Measurable v)
    (hr : ∀ x ∈ Set.Icc a b, 0 ≤ v x ∧ v x ≤ m) (hpos : 0 < ∫ x in Set.Icc a b, v x)
    (hf : Evaluates f v a b I) {A : Set ℝ} (hA : MeasurableSet A) (n : Nat) (st : σ)
    (hI : I st) :
    iid n {d | ∃ r, rejectionSample exact replay n f a b (some m) safety tolerance (stream d) st
        = some (.ok r) ∧ r.x ∈ A}
      = ENNReal.ofReal ((1 - (1 - (∫ x in Set.Icc a b, v x) / (m * (b - a))) ^ n)
        * ((∫ x in Set.Icc a b ∩ A, v x) / ∫ x in Set.Icc a b, v x)) := by
  have h := loop_law (safety := safety) hab hm hv hr hf (B := A ×ˢ Set.univ)
    (hA.prod MeasurableSet.univ) n st hI
  simp only [Set.mem_prod, Set.mem_univ, and_true] at h
  simp only [rejectionSample]
  rw [h]
  have hc : ∀ x, (chance (A ×ˢ Set.univ) x).toReal * v x = A.indicator v x := by
    intro x
    by_cases hx : x ∈ A <;> simp [chance, hx]
  simp only [hc]
  rw [setIntegral_indicator hA]
  have hbox : 0 < m * (b - a) := mul_pos hm (by linarith)
  have hg := geometric (p := share v a b m) n
  rw [share] at hg ⊢
  rw [← hg]
  congr 1
  field_simp

/-- **C122** when the maximum is searched for: the same, if the maximum found, times
the safety factor, is not exceeded. -/
theorem C122_searched {f : ℝ → σ → Res (ℝ × σ)} {v : ℝ → ℝ} {a b : ℝ} {I : σ → Prop}
    (safety tolerance : ℝ) (hab : a < b) (hv : Measurable v) {n : Nat} {x₀ y : ℝ} {st st₀ : σ}
    (hs : maximize n f a b tolerance st = some (.ok (x₀, y, st₀))) (hI : I st₀)
    (hm : 0 < y * safety) (hr : ∀ x ∈ Set.Icc a b, 0 ≤ v x ∧ v x ≤ y * safety)
    (hpos : 0 < ∫ x in Set.Icc a b, v x) (hf : Evaluates f v a b I) {A : Set ℝ}
    (hA : MeasurableSet A) :
    iid n {d | ∃ r, rejectionSample exact replay n f a b none safety tolerance (stream d) st
        = some (.ok r) ∧ r.x ∈ A}
      = ENNReal.ofReal ((1 - (1 - (∫ x in Set.Icc a b, v x) / (y * safety * (b - a))) ^ n)
        * ((∫ x in Set.Icc a b ∩ A, v x) / ∫ x in Set.Icc a b, v x)) := by
  have h := C122_density safety tolerance hab hm hv hr hpos hf hA n st₀ hI
  simp only [rejectionSample, hs] at h ⊢
  exact h

/-- **C122**, the end of the loop: the probability that more than `n` trials are
needed is `(1 - p)^n`, and it vanishes as `n` grows. -/
theorem C122_ends {f : ℝ → σ → Res (ℝ × σ)} {v : ℝ → ℝ} {a b m : ℝ} {I : σ → Prop}
    (safety tolerance : ℝ) (hab : a < b) (hm : 0 < m) (hv : Measurable v)
    (hr : ∀ x ∈ Set.Icc a b, 0 ≤ v x ∧ v x ≤ m) (hpos : 0 < ∫ x in Set.Icc a b, v x)
    (hf : Evaluates f v a b I) (st : σ) (hI : I st) :
    Filter.Tendsto (fun n => iid n {d | ∃ r, rejectionSample exact replay n f a b (some m) safety
        tolerance (stream d) st = some (.ok r)}) Filter.atTop (nhds 1) := by
  have h := fun n => C122_density safety tolerance hab hm hv hr hpos hf (A := Set.univ)
    MeasurableSet.univ n st hI
  simp only [Set.mem_univ, and_true, Set.inter_univ, div_self hpos.ne', mul_one] at h
  simp only [h]
  have hb := share_bounds hab hm hv hr
  have hp : 0 < share v a b m := div_pos hpos (mul_pos hm (by linarith))
  have ht : Filter.Tendsto (fun n : Nat => 1 - (1 - share v a b m) ^ n) Filter.atTop
      (nhds (1 - 0)) :=
    (tendsto_pow_atTop_nhds_zero_of_lt_one (by linarith) (by linarith)).const_sub 1
  rw [sub_zero] at ht
  have h2 := (ENNReal.continuous_ofReal.tendsto 1).comp ht
  rw [ENNReal.ofReal_one] at h2
  exact h2

/-- **C122**, nothing to sample: where the density vanishes the loop does not end,
except for draws of probability zero. -/
theorem C122_endless {f : ℝ → σ → Res (ℝ × σ)} {v : ℝ → ℝ} {a b m : ℝ} {I : σ → Prop}
    (safety tolerance : ℝ) (hab : a < b) (hm : 0 < m) (hv : Measurable v)
    (hr : ∀ x ∈ Set.Icc a b, 0 ≤ v x ∧ v x ≤ m) (hzero : ∫ x in Set.Icc a b, v x = 0)
    (hf : Evaluates f v a b I) (n : Nat) (st : σ) (hI : I st) :
    iid n {d | ∃ r, rejectionSample exact replay n f a b (some m) safety tolerance (stream d) st
        = some (.ok r)} = 0 := by
  have h := loop_law (safety := safety) hab hm hv hr hf (B := Set.univ) MeasurableSet.univ n st hI
  simp only [Set.mem_univ, and_true] at h
  simp only [rejectionSample]
  rw [h]
  have hc : ∀ x, (chance Set.univ x).toReal * v x = v x := by intro x; simp [chance]
  simp only [hc, hzero]
  simp

/-- A maximum that is estimated too low: if the function is never below it, the
first trial is accepted and the abscissa is uniform, whatever the function. -/
theorem C122_underestimated {f : ℝ → σ → Res (ℝ × σ)} {v : ℝ → ℝ} {a b m : ℝ} {I : σ → Prop}
    (safety tolerance : ℝ) (hab : a < b) (hm : 0 ≤ m) (hr : ∀ x ∈ Set.Icc a b, m ≤ v x)
    (hf : Evaluates f v a b I) {A : Set ℝ} (hA : MeasurableSet A) (n : Nat) (st : σ)
    (hI : I st) :
    iid (n + 1) {d | ∃ r, rejectionSample exact replay (n + 1) f a b (some m) safety tolerance
        (stream d) st = some (.ok r) ∧ r.x ∈ A}
      = (ENNReal.ofReal (b - a))⁻¹ * volume (A ∩ Set.Icc a b) := by
  have hi := spread_lintegral hab (g := A.indicator 1) (measurable_one.indicator hA)
  rw [lintegral_indicator_one hA, Measure.restrict_apply hA] at hi
  rw [← hi]
  show _ = ∫⁻ u, (spread a b ⁻¹' A).indicator 1 u ∂unit
  have h1 : MeasurePreserving (fun d : (Fin (n + 1) → ℝ × ℝ) × ℝ => (d.1 0).1) (iid (n + 1)) unit :=
    measurePreserving_fst.comp (measurePreserving_fst.comp (uncons_preserving n))
  have h2 : MeasurePreserving (fun d : (Fin (n + 1) → ℝ × ℝ) × ℝ => (d.1 0).2) (iid (n + 1)) unit :=
    measurePreserving_snd.comp (measurePreserving_fst.comp (uncons_preserving n))
  have hy : ∀ᵐ d ∂(iid (n + 1)), (d.1 0).2 ∈ Set.Ico (0 : ℝ) 1 :=
    h2.quasiMeasurePreserving.ae (ae_restrict_mem measurableSet_Ico)
  rw [lintegral_indicator_one (spread_measurable a b hA),
    ← h1.measure_preimage (spread_measurable a b hA).nullMeasurableSet]
  refine measure_congr ?_
  filter_upwards [iid_mem (n + 1), hy] with d hd hd2
  have hx := spread_mem hab (hd 0)
  obtain ⟨st', he, _⟩ := hf _ hx st hI
  have hle := hr _ hx
  have e1 : uniform exact replay a b true (stream d)
      = (spread a b (d.1 0).1, (d.1 0).2 :: stream (uncons n d).2) := by
    rw [stream_succ]; rfl
  have e2 : uniform exact replay 0 m true ((d.1 0).2 :: stream (uncons n d).2)
      = ((d.1 0).2 * m, stream (uncons n d).2) := by
    simp [uniform, exact, replay]
  have hacc : ¬ (d.1 0).2 * m > v (spread a b (d.1 0).1) := by
    have := hd2.2
    intro h
    nlinarith
  refine propext ?_
  show (∃ r, rejectLoop _ _ _ _ _ _ _ _ _ _ = _ ∧ _) ↔ spread a b (d.1 0).1 ∈ A
  rw [rejectLoop]
  simp only [e1, e2, he, if_neg hacc]
  constructor
  · rintro ⟨r, hr, h⟩; cases hr; exact h
  · intro h; exact ⟨_, rfl, h⟩

/-! ## Cases -/

theorem ramp_integral : ∫ x in Set.Icc (0 : ℝ) 1, x = 1 / 2 := by
  rw [integral_Icc_eq_integral_Ioc, ← intervalIntegral.integral_of_le zero_le_one, integral_id]
  norm_num

/-- A density that rises from 0 to 1, sampled with the maximum 2. -/
example : (0 : ℝ) < 1 ∧ (0 : ℝ) < 2 ∧ Measurable (fun x : ℝ => x) ∧
    (∀ x ∈ Set.Icc (0 : ℝ) 1, 0 ≤ x ∧ x ≤ 2) ∧ 0 < ∫ x in Set.Icc (0 : ℝ) 1, x ∧
    Evaluates (logged fun x => x) (fun x => x) 0 1 (fun _ => True) := by
  refine ⟨by norm_num, by norm_num, measurable_id, fun x hx => ⟨hx.1, by linarith [hx.2]⟩, ?_,
    fun x _ st _ => ⟨x :: st, rfl, trivial⟩⟩
  rw [ramp_integral]
  norm_num

/-- Its lower half is met by a quarter of the samples; three trials are enough with
the probability `37 / 64`. -/
example : iid 3 {d | ∃ r, rejectionSample exact replay 3 (logged fun x => x) 0 1 (some 2) 1 1
    (stream d) [] = some (.ok r) ∧ r.x ∈ Set.Iic (1 / 2 : ℝ)}
      = ENNReal.ofReal (37 / 64 * (1 / 4)) := by
  have hq : ∫ x in Set.Icc (0 : ℝ) 1 ∩ Set.Iic (1 / 2), x = 1 / 8 := by
    have : Set.Icc (0 : ℝ) 1 ∩ Set.Iic (1 / 2) = Set.Icc 0 (1 / 2) := by
      ext x
      simp only [Set.mem_inter_iff, Set.mem_Icc, Set.mem_Iic]
      constructor
      · rintro ⟨⟨h, _⟩, h'⟩; exact ⟨h, h'⟩
      · rintro ⟨h, h'⟩; exact ⟨⟨h, by linarith⟩, h'⟩
    rw [this, integral_Icc_eq_integral_Ioc, ← intervalIntegral.integral_of_le (by norm_num),
      integral_id]
    norm_num
  rw [C122_density (f := logged fun x => x) (a := 0) (b := 1) (m := 2) (v := fun x => x) (I := fun _ => True) 1 1 (by norm_num) (by norm_num)
    measurable_id (fun x hx => ⟨hx.1, by linarith [hx.2]⟩) (by rw [ramp_integral]; norm_num)
    (fun x _ st _ => ⟨x :: st, rfl, trivial⟩) measurableSet_Iic 3 [] trivial, hq, ramp_integral]
  congr 1
  norm_num

/-- The search for the maximum of a constant succeeds, and the hypotheses of
`C122_searched` are met. -/
example : ∃ x₀ y st₀, maximize 1 (logged fun _ => 1) 0 1 2 [] = some (.ok (x₀, y, st₀)) ∧
    0 < y * 1 ∧ ∀ x ∈ Set.Icc (0 : ℝ) 1, (0 : ℝ) ≤ 1 ∧ (1 : ℝ) ≤ y * 1 := by
  have h5 : Real.sqrt 5 ≤ 3 := Real.sqrt_le_iff.2 ⟨by norm_num, by norm_num⟩
  have h0 := Real.sqrt_nonneg 5
  have hg : 0 ≤ golden ∧ golden ≤ 3 / 2 := by
    unfold golden
    constructor <;> linarith
  have hc : ¬ Brent.continues ⟨0, 1, 0 + golden * (1 - 0), 0 + golden * (1 - 0),
      0 + golden * (1 - 0), 0, 0, -1 * 1, -1 * 1, -1 * 1⟩ 2 := by
    have hs : 0 ≤ sqrtEps * |0 + golden * (1 - 0)| :=
      mul_nonneg (Real.sqrt_nonneg _) (abs_nonneg _)
    simp only [Brent.continues, Brent.tol, gt_iff_lt, not_lt]
    rw [abs_le, show (0.5 : ℝ) = 1 / 2 by norm_num]
    generalize sqrtEps * |0 + golden * (1 - 0)| = t at hs ⊢
    obtain ⟨g0, g1⟩ := hg
    constructor <;> linarith
  refine ⟨0 + golden * (1 - 0), 1, [0 + golden * (1 - 0)], ?_, by norm_num,
    fun _ _ => ⟨by norm_num, by norm_num⟩⟩
  simp only [maximize, minimize, negated, logged, brentLoop, if_neg hc]
  norm_num

/-- A density that vanishes. -/
example : ∫ x in Set.Icc (0 : ℝ) 1, (fun _ => (0 : ℝ)) x = 0 ∧
    Evaluates (logged fun _ => 0) (fun _ => 0) 0 1 (fun _ => True) :=
  ⟨by simp, fun x _ st _ => ⟨x :: st, rfl, trivial⟩⟩

/-- A step from 1 to 3. -/
noncomputable def step3 (x : ℝ) : ℝ := if x < 1 / 2 then 1 else 3

/-- **C122** does not hold for a maximum estimated too low, although it is replaced
by a larger one as soon as it is exceeded: three quarters of this density lie in
the upper half, but half of the samples. -/
theorem C122_estimate_violated (n : Nat) :
    (∫ x in Set.Icc (0 : ℝ) 1 ∩ Set.Ici (1 / 2), step3 x) / (∫ x in Set.Icc (0 : ℝ) 1, step3 x)
      = 3 / 4 ∧
    iid (n + 1) {d | ∃ r, rejectionSample exact replay (n + 1) (logged step3) 0 1 (some 1) 1.01 1
      (stream d) [] = some (.ok r) ∧ r.x ∈ Set.Ici (1 / 2 : ℝ)} = ENNReal.ofReal (1 / 2) := by
  have hset : Set.Icc (0 : ℝ) 1 ∩ Set.Ici (1 / 2) = Set.Icc (1 / 2) 1 := by
    ext x
    simp only [Set.mem_inter_iff, Set.mem_Icc, Set.mem_Ici]
    constructor
    · rintro ⟨⟨_, h⟩, h'⟩; exact ⟨h', h⟩
    · rintro ⟨h, h'⟩; exact ⟨⟨by linarith, h'⟩, h⟩
  have hup : ∫ x in Set.Icc (1 / 2 : ℝ) 1, step3 x = 3 / 2 := by
    rw [setIntegral_congr_fun (g := fun _ => 3) measurableSet_Icc
      (fun x hx => by simp only [step3]; rw [if_neg (not_lt.2 hx.1)])]
    simp [measureReal_def]
    norm_num
  have hlo : ∫ x in Set.Ico (0 : ℝ) (1 / 2), step3 x = 1 / 2 := by
    rw [setIntegral_congr_fun (g := fun _ => 1) measurableSet_Ico
      (fun x hx => by simp only [step3]; rw [if_pos hx.2])]
    simp [measureReal_def]
  have hsm : Measurable step3 :=
    Measurable.ite measurableSet_Iio measurable_const measurable_const
  have hall : ∫ x in Set.Icc (0 : ℝ) 1, step3 x = 2 := by
    have hr : ∀ x : ℝ, 0 ≤ step3 x ∧ step3 x ≤ 3 := fun x => by
      unfold step3; split_ifs <;> norm_num
    have hu : Set.Icc (0 : ℝ) 1 = Set.Ico 0 (1 / 2) ∪ Set.Icc (1 / 2) 1 :=
      (Set.Ico_union_Icc_eq_Icc (by norm_num) (by norm_num)).symm
    rw [hu, setIntegral_union (Set.disjoint_left.2 fun x h h' => absurd h.2 (not_lt.2 h'.1))
      measurableSet_Icc ((bounded_integrable (b := 1 / 2) hsm fun x _ => hr x).mono_set
        Set.Ico_subset_Icc_self) (bounded_integrable hsm fun x _ => hr x), hlo, hup]
    norm_num
  refine ⟨?_, ?_⟩
  · rw [hset, hup, hall]
    norm_num
  · rw [C122_underestimated (f := logged step3) (a := 0) (b := 1) (m := 1) (v := step3) (I := fun _ => True) 1.01 1 (by norm_num) (by norm_num)
      (fun x _ => by unfold step3; split_ifs <;> norm_num)
      (fun x _ st _ => ⟨x :: st, rfl, trivial⟩) measurableSet_Ici n [] trivial, Set.inter_comm,
      hset, Real.volume_Icc]
    norm_num

end Marley.Props
