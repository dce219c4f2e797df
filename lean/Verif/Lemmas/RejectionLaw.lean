import Verif.Spec.RejectionLaw
import Mathlib.MeasureTheory.Integral.Lebesgue.Map
import Mathlib.MeasureTheory.Integral.Bochner.Set
import Mathlib.MeasureTheory.Integral.Bochner.L1
import Mathlib.MeasureTheory.Integral.IntegrableOn
import Mathlib.Algebra.Ring.GeomSum
import Mathlib.Tactic.Linarith
import Mathlib.Tactic.FieldSimp

/-! The law of what rejection sampling returns when the draws are independent and
uniform. -/

set_option autoImplicit false

namespace Marley.Sampling
open MeasureTheory

instance unit_prob : IsProbabilityMeasure unit := ⟨by simp [unit]⟩

instance iid_prob (n : Nat) : IsProbabilityMeasure (iid n) := by
  unfold iid; infer_instance

/-- The first of the numbers that are left. -/
def nextDraw : (n : Nat) → (Fin n → ℝ × ℝ) × ℝ → ℝ
  | 0, q => q.2
  | _ + 1, q => (q.1 0).1

/-- The first pair apart from the rest. -/
def uncons (n : Nat) (q : (Fin (n + 1) → ℝ × ℝ) × ℝ) : (ℝ × ℝ) × ((Fin n → ℝ × ℝ) × ℝ) :=
  (q.1 0, (fun i => q.1 i.succ, q.2))

theorem uncons_preserving (n : Nat) :
    MeasurePreserving (uncons n) (iid (n + 1)) ((unit.prod unit).prod (iid n)) := by
  have h1 := (measurePreserving_piFinSuccAbove
    (fun _ : Fin (n + 1) => unit.prod unit) 0).prod (MeasurePreserving.id unit)
  have h2 := measurePreserving_prodAssoc (unit.prod unit)
    (Measure.pi fun _ : Fin n => unit.prod unit) unit
  exact h2.comp h1

theorem nextDraw_preserving (n : Nat) : MeasurePreserving (nextDraw n) (iid n) unit := by
  cases n with
  | zero => exact measurePreserving_snd
  | succ n =>
    exact measurePreserving_fst.comp (measurePreserving_fst.comp (uncons_preserving n))

theorem stream_succ {n : Nat} (q : (Fin (n + 1) → ℝ × ℝ) × ℝ) :
    stream q = (uncons n q).1.1 :: (uncons n q).1.2 :: stream (uncons n q).2 := by
  simp [stream, uncons, List.ofFn_succ]

theorem stream_head (n : Nat) (q : (Fin n → ℝ × ℝ) × ℝ) :
    ∃ l, stream q = nextDraw n q :: l := by
  cases n with
  | zero => exact ⟨[], by simp [stream, nextDraw]⟩
  | succ n => exact ⟨_, stream_succ q⟩

/-- The point of the range that a number stands for. -/
def spread (a b u : ℝ) : ℝ := u * (b - a) + a

/-- A pair is accepted. -/
def accepted (v : ℝ → ℝ) (a b m : ℝ) : Set (ℝ × ℝ) := {p | p.2 * m ≤ v (spread a b p.1)}

/-- One of the pairs is accepted, and the first point accepted, together with the
number drawn next, belongs to `B`. -/
def event (v : ℝ → ℝ) (a b m : ℝ) (B : Set (ℝ × ℝ)) : (n : Nat) → Set ((Fin n → ℝ × ℝ) × ℝ)
  | 0 => ∅
  | n + 1 => uncons n ⁻¹'
      {q | (q.1 ∈ accepted v a b m ∧ (spread a b q.1.1, nextDraw n q.2) ∈ B) ∨
        (q.1 ∉ accepted v a b m ∧ q.2 ∈ event v a b m B n)}

variable {v : ℝ → ℝ} {a b m : ℝ} {B : Set (ℝ × ℝ)}

theorem spread_measurable (a b : ℝ) : Measurable (spread a b) := by
  unfold spread; fun_prop

theorem accepted_measurable (hv : Measurable v) : MeasurableSet (accepted v a b m) :=
  measurableSet_le (by fun_prop) (hv.comp ((spread_measurable a b).comp measurable_fst))

theorem event_step_measurable (hv : Measurable v) (hB : MeasurableSet B) (n : Nat)
    (hn : MeasurableSet (event v a b m B n)) :
    MeasurableSet {q : (ℝ × ℝ) × ((Fin n → ℝ × ℝ) × ℝ) |
      (q.1 ∈ accepted v a b m ∧ (spread a b q.1.1, nextDraw n q.2) ∈ B) ∨
        (q.1 ∉ accepted v a b m ∧ q.2 ∈ event v a b m B n)} := by
  have h1 : Measurable fun q : (ℝ × ℝ) × ((Fin n → ℝ × ℝ) × ℝ) =>
      (spread a b q.1.1, nextDraw n q.2) :=
    ((spread_measurable a b).comp (measurable_fst.comp measurable_fst)).prodMk
      ((nextDraw_preserving n).measurable.comp measurable_snd)
  have h2 : MeasurableSet {q : (ℝ × ℝ) × ((Fin n → ℝ × ℝ) × ℝ) | q.1 ∈ accepted v a b m} :=
    measurable_fst (accepted_measurable hv)
  exact (h2.inter (h1 hB)).union (h2.compl.inter (measurable_snd hn))

theorem event_measurable (hv : Measurable v) (hB : MeasurableSet B) (n : Nat) :
    MeasurableSet (event v a b m B n) := by
  induction n with
  | zero => exact MeasurableSet.empty
  | succ n ih =>
    exact (uncons_preserving n).measurable (event_step_measurable hv hB n ih)

/-- How likely the number drawn next goes with the point `x`. -/
noncomputable def chance (B : Set (ℝ × ℝ)) (x : ℝ) : ENNReal := unit {w | (x, w) ∈ B}

theorem chance_measurable (hB : MeasurableSet B) : Measurable (chance B) :=
  measurable_measure_prodMk_left hB

theorem event_succ (hv : Measurable v) (hB : MeasurableSet B) (n : Nat) :
    iid (n + 1) (event v a b m B (n + 1))
      = (∫⁻ p in accepted v a b m, chance B (spread a b p.1) ∂(unit.prod unit))
        + (unit.prod unit) (accepted v a b m)ᶜ * iid n (event v a b m B n) := by
  have hs := event_step_measurable (a := a) (b := b) (m := m) hv hB n (event_measurable hv hB n)
  have hA := accepted_measurable (a := a) (b := b) (m := m) hv
  rw [event, (uncons_preserving n).measure_preimage hs.nullMeasurableSet, Measure.prod_apply hs,
    ← lintegral_add_compl _ hA]
  congr 1
  · refine setLIntegral_congr_fun hA fun p hp => ?_
    have hm : MeasurableSet {w | (spread a b p.1, w) ∈ B} := measurable_prodMk_left hB
    rw [chance, ← (nextDraw_preserving n).measure_preimage hm.nullMeasurableSet]
    congr 1
    ext q
    simp [hp]
  · rw [mul_comm, ← setLIntegral_const]
    refine setLIntegral_congr_fun hA.compl fun p hp => ?_
    have hp : p ∉ accepted v a b m := hp
    congr 1
    ext q
    simp [hp]

/-- The uniform distribution, spread over a range. -/
theorem spread_lintegral (hab : a < b) {g : ℝ → ENNReal} (hg : Measurable g) :
    ∫⁻ u, g (spread a b u) ∂unit
      = (ENNReal.ofReal (b - a))⁻¹ * ∫⁻ x in Set.Icc a b, g x := by
  have hd : 0 < b - a := by linarith
  have key : Measure.map (spread a b) volume
      = (ENNReal.ofReal (b - a))⁻¹ • (volume : Measure ℝ) := by
    have : spread a b = (fun x => x + a) ∘ (fun u => u * (b - a)) := rfl
    rw [this, ← Measure.map_map (by fun_prop) (by fun_prop), Real.map_volume_mul_right hd.ne',
      Measure.map_smul, (measurePreserving_add_right volume a).map_eq, abs_inv, abs_of_pos hd,
      ENNReal.ofReal_inv_of_pos hd]
  have hpre : Set.Ico (0 : ℝ) 1 = spread a b ⁻¹' Set.Ico a b := by
    ext u
    simp only [Set.mem_Ico, Set.mem_preimage, spread]
    constructor
    · rintro ⟨h1, h2⟩
      exact ⟨by nlinarith, by nlinarith⟩
    · rintro ⟨h1, h2⟩
      exact ⟨by by_contra h; nlinarith, by by_contra h; nlinarith⟩
  rw [unit, hpre, ← setLIntegral_map measurableSet_Ico hg (spread_measurable a b), key,
    Measure.restrict_smul, lintegral_smul_measure, smul_eq_mul,
    restrict_Ico_eq_restrict_Icc]

/-- The ordinates that are accepted. -/
theorem unit_accept (hm : 0 < m) {y : ℝ} (h0 : 0 ≤ y) (h1 : y ≤ m) :
    unit {t | t * m ≤ y} = ENNReal.ofReal (y / m) := by
  have hs : MeasurableSet {t : ℝ | t * m ≤ y} := measurableSet_le (by fun_prop) (by fun_prop)
  have hle : y / m ≤ 1 := (div_le_one hm).2 h1
  have h0' : 0 ≤ y / m := div_nonneg h0 hm.le
  rw [unit, Measure.restrict_congr_set Ico_ae_eq_Icc, Measure.restrict_apply hs]
  have : {t : ℝ | t * m ≤ y} ∩ Set.Icc 0 1 = Set.Icc 0 (y / m) := by
    ext t
    simp only [Set.mem_inter_iff, Set.mem_ofPred_eq, Set.mem_Icc]
    rw [← le_div_iff₀ hm]
    constructor
    · rintro ⟨h, h', _⟩; exact ⟨h', h⟩
    · rintro ⟨h, h'⟩; exact ⟨h', h, h'.trans hle⟩
  rw [this, Real.volume_Icc, sub_zero]

theorem spread_mem (hab : a < b) {u : ℝ} (h : u ∈ Set.Ico (0 : ℝ) 1) :
    spread a b u ∈ Set.Icc a b := by
  obtain ⟨h0, h1⟩ := h
  exact ⟨by unfold spread; nlinarith, by unfold spread; nlinarith⟩

theorem trial_lintegral (hab : a < b) (hm : 0 < m) (hv : Measurable v)
    (hr : ∀ x ∈ Set.Icc a b, 0 ≤ v x ∧ v x ≤ m) {g : ℝ → ENNReal} (hg : Measurable g) :
    ∫⁻ p in accepted v a b m, g (spread a b p.1) ∂(unit.prod unit)
      = (ENNReal.ofReal (m * (b - a)))⁻¹ * ∫⁻ x in Set.Icc a b, g x * ENNReal.ofReal (v x) := by
  have hA := accepted_measurable (a := a) (b := b) (m := m) hv
  have hgs : Measurable fun p : ℝ × ℝ => g (spread a b p.1) :=
    hg.comp ((spread_measurable a b).comp measurable_fst)
  rw [← lintegral_indicator hA, lintegral_prod _ (hgs.indicator hA).aemeasurable]
  have step : ∀ᵐ u ∂unit, (∫⁻ t, (accepted v a b m).indicator
      (fun p => g (spread a b p.1)) (u, t) ∂unit)
        = g (spread a b u) * ENNReal.ofReal (v (spread a b u) / m) := by
    refine (ae_restrict_iff' measurableSet_Ico).2 (Filter.Eventually.of_forall fun u hu => ?_)
    have hx := hr _ (spread_mem hab hu)
    rw [← unit_accept hm hx.1 hx.2]
    have hs : MeasurableSet {t : ℝ | t * m ≤ v (spread a b u)} :=
      measurableSet_le (by fun_prop) (by fun_prop)
    rw [← setLIntegral_const, ← lintegral_indicator hs]
    rfl
  rw [lintegral_congr_ae step,
    spread_lintegral (g := fun x => g x * ENNReal.ofReal (v x / m)) hab (by fun_prop)]
  have h2 : ∀ x, g x * ENNReal.ofReal (v x / m)
      = (ENNReal.ofReal m)⁻¹ * (g x * ENNReal.ofReal (v x)) := by
    intro x
    rw [ENNReal.ofReal_div_of_pos hm, div_eq_mul_inv]
    ring
  simp_rw [h2]
  rw [lintegral_const_mul _ (by fun_prop), ← mul_assoc, ENNReal.ofReal_mul hm.le,
    ENNReal.mul_inv (Or.inr (by simp)) (Or.inl (by simp)), mul_comm (ENNReal.ofReal m)⁻¹]

/-- The probability of the event: as many terms as there are trials. -/
theorem event_measure (hab : a < b) (hm : 0 < m) (hv : Measurable v)
    (hr : ∀ x ∈ Set.Icc a b, 0 ≤ v x ∧ v x ≤ m) (hB : MeasurableSet B) (n : Nat) :
    iid n (event v a b m B n)
      = (∑ k ∈ Finset.range n, (unit.prod unit) (accepted v a b m)ᶜ ^ k)
        * ((ENNReal.ofReal (m * (b - a)))⁻¹
          * ∫⁻ x in Set.Icc a b, chance B x * ENNReal.ofReal (v x)) := by
  induction n with
  | zero => simp [event]
  | succ n ih =>
    rw [event_succ hv hB, ih, trial_lintegral hab hm hv hr (chance_measurable hB),
      Finset.sum_range_succ', pow_zero, add_mul, one_mul, add_comm, Finset.sum_congr rfl
        (fun k _ => pow_succ' ((unit.prod unit) (accepted v a b m)ᶜ) k), ← Finset.mul_sum,
      mul_assoc]

/-- One pair is accepted as often as the curve fills the box. -/
theorem accepted_measure (hab : a < b) (hm : 0 < m) (hv : Measurable v)
    (hr : ∀ x ∈ Set.Icc a b, 0 ≤ v x ∧ v x ≤ m) :
    (unit.prod unit) (accepted v a b m)
      = (ENNReal.ofReal (m * (b - a)))⁻¹ * ∫⁻ x in Set.Icc a b, ENNReal.ofReal (v x) := by
  have h := trial_lintegral hab hm hv hr (g := fun _ => 1) measurable_const
  simpa using h

theorem bounded_integrable (hv : Measurable v)
    (hr : ∀ x ∈ Set.Icc a b, 0 ≤ v x ∧ v x ≤ m) : IntegrableOn v (Set.Icc a b) := by
  refine Measure.integrableOn_of_bounded (M := m) (by simp) hv.aestronglyMeasurable ?_
  refine (ae_restrict_iff' measurableSet_Icc).2 (Filter.Eventually.of_forall fun x hx => ?_)
  rw [Real.norm_eq_abs, abs_of_nonneg (hr x hx).1]
  exact (hr x hx).2

/-- The share of the box under the curve. -/
noncomputable def share (v : ℝ → ℝ) (a b m : ℝ) : ℝ := (∫ x in Set.Icc a b, v x) / (m * (b - a))

theorem share_bounds (hab : a < b) (hm : 0 < m) (hv : Measurable v)
    (hr : ∀ x ∈ Set.Icc a b, 0 ≤ v x ∧ v x ≤ m) : 0 ≤ share v a b m ∧ share v a b m ≤ 1 := by
  have hbox : 0 < m * (b - a) := mul_pos hm (by linarith)
  constructor
  · exact div_nonneg (setIntegral_nonneg measurableSet_Icc fun x hx => (hr x hx).1) hbox.le
  · rw [share, div_le_one hbox]
    have h := setIntegral_mono_on (bounded_integrable hv hr)
      (integrableOn_const (by simp) (by simp) : IntegrableOn (fun _ => m) (Set.Icc a b))
      measurableSet_Icc (fun x hx => (hr x hx).2)
    refine h.trans (le_of_eq ?_)
    rw [setIntegral_const, measureReal_def, Real.volume_Icc,
      ENNReal.toReal_ofReal (by linarith), smul_eq_mul, mul_comm]

theorem rejected_measure (hab : a < b) (hm : 0 < m) (hv : Measurable v)
    (hr : ∀ x ∈ Set.Icc a b, 0 ≤ v x ∧ v x ≤ m) :
    (unit.prod unit) (accepted v a b m)ᶜ = ENNReal.ofReal (1 - share v a b m) := by
  have hbox : 0 < m * (b - a) := mul_pos hm (by linarith)
  rw [prob_compl_eq_one_sub (accepted_measurable hv), accepted_measure hab hm hv hr,
    ← ofReal_integral_eq_lintegral_ofReal (bounded_integrable hv hr)
      ((ae_restrict_iff' measurableSet_Icc).2
        (Filter.Eventually.of_forall fun x hx => (hr x hx).1)),
    mul_comm, ← div_eq_mul_inv, ← ENNReal.ofReal_div_of_pos hbox,
    ENNReal.ofReal_sub _ (share_bounds hab hm hv hr).1, ENNReal.ofReal_one]
  rfl

/-- The probability of the event in real numbers. -/
theorem event_real (hab : a < b) (hm : 0 < m) (hv : Measurable v)
    (hr : ∀ x ∈ Set.Icc a b, 0 ≤ v x ∧ v x ≤ m) (hB : MeasurableSet B) (n : Nat) :
    iid n (event v a b m B n)
      = ENNReal.ofReal ((∑ k ∈ Finset.range n, (1 - share v a b m) ^ k)
        * ((∫ x in Set.Icc a b, (chance B x).toReal * v x) / (m * (b - a)))) := by
  have hbox : 0 < m * (b - a) := mul_pos hm (by linarith)
  have hq : 0 ≤ 1 - share v a b m := by linarith [(share_bounds hab hm hv hr).2]
  have hle : ∀ x, chance B x ≤ 1 := fun x => prob_le_one
  have hpos : ∀ x ∈ Set.Icc a b, 0 ≤ (chance B x).toReal * v x := fun x hx =>
    mul_nonneg ENNReal.toReal_nonneg (hr x hx).1
  have hint : IntegrableOn (fun x => (chance B x).toReal * v x) (Set.Icc a b) := by
    refine bounded_integrable (m := m) ((chance_measurable hB).ennreal_toReal.mul hv)
      fun x hx => ⟨hpos x hx, ?_⟩
    have h1 : (chance B x).toReal ≤ 1 := ENNReal.toReal_mono (by simp) (hle x)
    nlinarith [(hr x hx).1, (hr x hx).2]
  rw [event_measure hab hm hv hr hB, rejected_measure hab hm hv hr,
    ENNReal.ofReal_mul (Finset.sum_nonneg fun k _ => pow_nonneg hq k),
    ENNReal.ofReal_sum_of_nonneg (fun k _ => pow_nonneg hq k),
    ENNReal.ofReal_div_of_pos hbox, div_eq_mul_inv,
    ofReal_integral_eq_lintegral_ofReal hint
      ((ae_restrict_iff' measurableSet_Icc).2 (Filter.Eventually.of_forall hpos)),
    mul_comm (∫⁻ x in Set.Icc a b, _) _]
  congr 2
  · exact funext fun k => (ENNReal.ofReal_pow hq k).symm
  · refine setLIntegral_congr_fun measurableSet_Icc fun x _ => ?_
    rw [ENNReal.ofReal_mul ENNReal.toReal_nonneg,
      ENNReal.ofReal_toReal (ne_top_of_le_ne_top (by simp) (hle x))]

theorem geometric {p : ℝ} (n : Nat) : (∑ k ∈ Finset.range n, (1 - p) ^ k) * p = 1 - (1 - p) ^ n := by
  have h := geom_sum_mul (1 - p) n
  linarith [h]

/-- Almost all sequences of draws stay in [0, 1). -/
theorem iid_mem (n : Nat) : ∀ᵐ d ∂(iid n), ∀ i, (d.1 i).1 ∈ Set.Ico (0 : ℝ) 1 := by
  refine ae_all_iff.2 fun i => ?_
  have h1 : MeasurePreserving (fun d : (Fin n → ℝ × ℝ) × ℝ => (d.1 i).1) (iid n) unit :=
    measurePreserving_fst.comp
      ((measurePreserving_eval (fun _ : Fin n => unit.prod unit) i).comp measurePreserving_fst)
  exact h1.quasiMeasurePreserving.ae (ae_restrict_mem measurableSet_Ico)

variable {σ : Type}

/-- The loop returns exactly when the event takes place. -/
theorem loop_event {f : ℝ → σ → Res (ℝ × σ)} {I : σ → Prop} (hab : a < b) {safety : ℝ}
    (hr : ∀ x ∈ Set.Icc a b, v x ≤ m)
    (hf : ∀ x ∈ Set.Icc a b, ∀ st, I st → ∃ st', f x st = .ok (v x, st') ∧ I st') (n : Nat)
    (d : (Fin n → ℝ × ℝ) × ℝ) (hd : ∀ i, (d.1 i).1 ∈ Set.Ico (0 : ℝ) 1) (st : σ) (hI : I st) :
    d ∈ event v a b m B n ↔
      ∃ r, rejectLoop exact replay f a b safety n m (stream d) st = some (.ok r) ∧
        (r.x, (replay.draw r.gen).1) ∈ B := by
  induction n generalizing st with
  | zero => simp [event, rejectLoop]
  | succ n ih =>
    have hx := spread_mem hab (hd 0)
    obtain ⟨st', he, hI'⟩ := hf _ hx st hI
    have hle := hr _ hx
    have hx0 : (d.1 0).1 * (b - a) + a = spread a b (d.1 0).1 := rfl
    obtain ⟨l, hl⟩ := stream_head n (uncons n d).2
    have hn : nextDraw n (uncons n d).2 = (replay.draw (stream (uncons n d).2)).1 := by
      rw [hl]; rfl
    have ih := ih (uncons n d).2 (fun i => hd i.succ) st' hI'
    rw [stream_succ, rejectLoop]
    have h1 : uniform exact replay a b true
        ((uncons n d).1.1 :: (uncons n d).1.2 :: stream (uncons n d).2)
          = (spread a b (d.1 0).1, (uncons n d).1.2 :: stream (uncons n d).2) := rfl
    have h2 : uniform exact replay 0 m true ((uncons n d).1.2 :: stream (uncons n d).2)
          = ((d.1 0).2 * m, stream (uncons n d).2) := by
      simp [uniform, exact, replay, uncons]
    simp only [h1, h2, he]
    rw [if_neg (not_lt.2 hle)]
    show (((uncons n d).1 ∈ accepted v a b m ∧ _) ∨ (_ ∧ _)) ↔ _
    by_cases hacc : (uncons n d).1 ∈ accepted v a b m
    · have hacc' : ¬ (d.1 0).2 * m > v (spread a b (d.1 0).1) := not_lt.2 hacc
      rw [if_neg hacc']
      simp only [hacc, true_and, not_true, false_and, or_false, hn]
      constructor
      · intro h; exact ⟨_, rfl, h⟩
      · rintro ⟨r, hr, h⟩; cases hr; exact h
    · have hacc' : (d.1 0).2 * m > v (spread a b (d.1 0).1) := not_le.1 hacc
      rw [if_pos hacc']
      simp only [hacc, false_and, not_false_eq_true, true_and, false_or]
      exact ih

end Marley.Sampling
