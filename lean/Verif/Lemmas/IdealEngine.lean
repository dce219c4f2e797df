import Verif.Spec.IdealEngine
import Verif.Lemmas.RejectionLaw
import Mathlib.Probability.ProductMeasure

/-! Programs that draw from an ideal engine. -/

set_option autoImplicit false

namespace Marley.Sampling
open MeasureTheory

/-! ### There is an ideal engine -/

/-- A number in front of a sequence. -/
def consSeq (p : ℝ × (ℕ → ℝ)) : ℕ → ℝ
  | 0 => p.1
  | k + 1 => p.2 k

theorem consSeq_measurable : Measurable consSeq := by
  refine measurable_pi_iff.2 fun k => ?_
  cases k with
  | zero => exact measurable_fst
  | succ k => exact (measurable_pi_apply k).comp measurable_snd

theorem consSeq_map : (unit.prod (Measure.infinitePi fun _ : ℕ => unit)).map consSeq
    = Measure.infinitePi fun _ : ℕ => unit := by
  refine Measure.eq_infinitePi _ fun s t ht => ?_
  rw [Measure.map_apply consSeq_measurable
    (MeasurableSet.pi s.countable_toSet fun i _ => ht i)]
  classical
  let s' : Finset ℕ := (Finset.range (s.sup id + 1)).filter fun k => k + 1 ∈ s
  have hs' : ∀ k, k ∈ s' ↔ k + 1 ∈ s := by
    intro k
    simp only [s', Finset.mem_filter, Finset.mem_range, and_iff_right_iff_imp]
    intro h
    have := Finset.le_sup (f := id) h
    simp only [id] at this
    omega
  have hset : consSeq ⁻¹' Set.pi s t
      = (if 0 ∈ s then t 0 else Set.univ) ×ˢ Set.pi s' fun k => t (k + 1) := by
    ext ⟨u, g⟩
    simp only [Set.mem_preimage, Set.mem_pi, Set.mem_prod, Finset.mem_coe]
    constructor
    · intro h
      refine ⟨?_, fun k hk => h (k + 1) ((hs' k).1 hk)⟩
      split_ifs with h0
      · exact h 0 h0
      · trivial
    · rintro ⟨h1, h2⟩ i hi
      cases i with
      | zero => rw [if_pos hi] at h1; exact h1
      | succ k => exact h2 k ((hs' k).2 hi)
  rw [hset, Measure.prod_prod, Measure.infinitePi_pi _ fun k _ => ht (k + 1)]
  have hsplit : s = (if 0 ∈ s then {0} else ∅) ∪ s'.map ⟨Nat.succ, Nat.succ_injective⟩ := by
    ext i
    cases i with
    | zero => by_cases h : 0 ∈ s <;> simp [h]
    | succ k => by_cases h : 0 ∈ s <;> simp [h, hs']
  have hdis : Disjoint (if 0 ∈ s then ({0} : Finset ℕ) else ∅)
      (s'.map ⟨Nat.succ, Nat.succ_injective⟩) := by
    rw [Finset.disjoint_left]
    intro i hi
    split_ifs at hi
    · simp only [Finset.mem_singleton] at hi
      simp [hi]
    · simp at hi
  conv_rhs => rw [hsplit, Finset.prod_union hdis, Finset.prod_map]
  congr 1
  split_ifs <;> simp

/-- A sequence of independent uniform numbers makes an ideal engine. -/
theorem reader_ideal : Ideal reader (Measure.infinitePi fun _ : ℕ => unit) := by
  refine ⟨inferInstance, ?_, ?_⟩
  · exact (measurable_pi_apply 0).prodMk (measurable_pi_iff.2 fun k => measurable_pi_apply (k + 1))
  · have hm : Measurable reader.draw :=
      (measurable_pi_apply 0).prodMk (measurable_pi_iff.2 fun k => measurable_pi_apply (k + 1))
    conv_lhs => rw [← consSeq_map]
    rw [Measure.map_map hm consSeq_measurable]
    have : reader.draw ∘ consSeq = id := by
      ext p <;> rfl
    rw [this, Measure.map_id]

/-! ### The loop of rejection sampling -/

section
variable {Ω σ : Type} [MeasurableSpace Ω] {E : Engine Ω} {μ : Measure Ω}
  {v : ℝ → ℝ} {a b m : ℝ} {Q : Set (ℝ × Ω)}

/-- Two draws. -/
def twoDraws (E : Engine Ω) (g : Ω) : (ℝ × ℝ) × Ω :=
  (((E.draw g).1, (E.draw (E.draw g).2).1), (E.draw (E.draw g).2).2)

theorem twoDraws_preserving (h : Ideal E μ) :
    MeasurePreserving (twoDraws E) μ ((unit.prod unit).prod μ) := by
  haveI := h.prob
  have h1 := (MeasurePreserving.id unit).prod h.draws
  have h2 := (measurePreserving_prodAssoc unit unit μ).symm
  exact h2.comp (h1.comp h.draws)

/-- The loop accepts within `n` trials, and the point and the state that is left belong to
`Q`. -/
def accepts (E : Engine Ω) (v : ℝ → ℝ) (a b m : ℝ) (Q : Set (ℝ × Ω)) : Nat → Set Ω
  | 0 => ∅
  | n + 1 => twoDraws E ⁻¹'
      {q | (q.1 ∈ accepted v a b m ∧ (spread a b q.1.1, q.2) ∈ Q) ∨
        (q.1 ∉ accepted v a b m ∧ q.2 ∈ accepts E v a b m Q n)}

theorem accepts_step (hv : Measurable v) (hQ : MeasurableSet Q) {L : Set Ω}
    (hL : MeasurableSet L) :
    MeasurableSet {q : (ℝ × ℝ) × Ω |
      (q.1 ∈ accepted v a b m ∧ (spread a b q.1.1, q.2) ∈ Q) ∨
        (q.1 ∉ accepted v a b m ∧ q.2 ∈ L)} := by
  have h1 : Measurable fun q : (ℝ × ℝ) × Ω => (spread a b q.1.1, q.2) :=
    ((spread_measurable a b).comp (measurable_fst.comp measurable_fst)).prodMk measurable_snd
  have h2 : MeasurableSet {q : (ℝ × ℝ) × Ω | q.1 ∈ accepted v a b m} :=
    measurable_fst (accepted_measurable hv)
  exact (h2.inter (h1 hQ)).union (h2.compl.inter (measurable_snd hL))

theorem accepts_measurable (hE : Ideal E μ) (hv : Measurable v) (hQ : MeasurableSet Q) (n : Nat) :
    MeasurableSet (accepts E v a b m Q n) := by
  induction n with
  | zero => exact MeasurableSet.empty
  | succ n ih => exact (twoDraws_preserving hE).measurable (accepts_step hv hQ ih)

theorem accepts_measure (hE : Ideal E μ) (hab : a < b) (hm : 0 < m) (hv : Measurable v)
    (hr : ∀ x ∈ Set.Icc a b, 0 ≤ v x ∧ v x ≤ m) (hQ : MeasurableSet Q) (n : Nat) :
    μ (accepts E v a b m Q n)
      = (∑ k ∈ Finset.range n, ENNReal.ofReal (1 - share v a b m) ^ k)
        * ((ENNReal.ofReal (m * (b - a)))⁻¹
          * ∫⁻ x in Set.Icc a b, μ {g | (x, g) ∈ Q} * ENNReal.ofReal (v x)) := by
  haveI := hE.prob
  induction n with
  | zero => simp [accepts]
  | succ n ih =>
    have hs := accepts_step (a := a) (b := b) (m := m) hv hQ
      (accepts_measurable hE (a := a) (b := b) (m := m) hv hQ n)
    have hA := accepted_measurable (a := a) (b := b) (m := m) hv
    have hQm : Measurable fun x => μ {g | (x, g) ∈ Q} := measurable_measure_prodMk_left hQ
    have hstep : μ (accepts E v a b m Q (n + 1))
        = (∫⁻ p in accepted v a b m, μ {g | (spread a b p.1, g) ∈ Q} ∂(unit.prod unit))
          + (unit.prod unit) (accepted v a b m)ᶜ * μ (accepts E v a b m Q n) := by
      rw [accepts, (twoDraws_preserving hE).measure_preimage hs.nullMeasurableSet,
        Measure.prod_apply hs, ← lintegral_add_compl _ hA]
      congr 1
      · refine setLIntegral_congr_fun hA fun p hp => ?_
        congr 1
        ext q
        simp [hp]
      · rw [mul_comm, ← setLIntegral_const]
        refine setLIntegral_congr_fun hA.compl fun p hp => ?_
        have hp : p ∉ accepted v a b m := hp
        congr 1
        ext q
        simp [hp]
    rw [hstep, ih, trial_lintegral hab hm hv hr (g := fun x => μ {g | (x, g) ∈ Q}) hQm,
      rejected_measure hab hm hv hr, Finset.sum_range_succ', pow_zero, add_mul, one_mul, add_comm,
      Finset.sum_congr rfl (fun k _ => pow_succ' (ENNReal.ofReal (1 - share v a b m)) k),
      ← Finset.mul_sum, mul_assoc]

/-- The loop returns exactly when the event takes place. -/
theorem accepts_iff (hE : Ideal E μ) {f : ℝ → σ → Res (ℝ × σ)} {I : σ → Prop} (hab : a < b)
    {safety : ℝ} (hr : ∀ x ∈ Set.Icc a b, v x ≤ m)
    (hf : ∀ x ∈ Set.Icc a b, ∀ st, I st → ∃ st', f x st = .ok (v x, st') ∧ I st') (n : Nat) :
    ∀ᵐ g ∂μ, ∀ st, I st → (g ∈ accepts E v a b m Q n ↔
      ∃ r, rejectLoop exact E f a b safety n m g st = some (.ok r) ∧ (r.x, r.gen) ∈ Q) := by
  haveI := hE.prob
  induction n with
  | zero =>
    refine Filter.Eventually.of_forall fun g st _ => ?_
    simp [accepts, rejectLoop]
  | succ n ih =>
    have h1 : ∀ᵐ q ∂((unit.prod unit).prod μ), q.1.1 ∈ Set.Ico (0 : ℝ) 1 :=
      Measure.quasiMeasurePreserving_fst.ae (Measure.quasiMeasurePreserving_fst.ae
        (ae_restrict_mem measurableSet_Ico))
    have h2 : ∀ᵐ q ∂((unit.prod unit).prod μ), ∀ st, I st → (q.2 ∈ accepts E v a b m Q n ↔
        ∃ r, rejectLoop exact E f a b safety n m q.2 st = some (.ok r) ∧ (r.x, r.gen) ∈ Q) :=
      Measure.quasiMeasurePreserving_snd.ae ih
    have hq := (twoDraws_preserving hE).quasiMeasurePreserving
    filter_upwards [hq.ae h1, hq.ae h2] with g k1 k2 st hI
    have hx := spread_mem hab k1
    obtain ⟨st', he, hI'⟩ := hf _ hx st hI
    have hle := hr _ hx
    have e1 : uniform exact E a b true g = (spread a b (twoDraws E g).1.1, (E.draw g).2) := rfl
    have e2 : uniform exact E 0 m true (E.draw g).2
        = ((twoDraws E g).1.2 * m, (twoDraws E g).2) := by
      simp [uniform, exact, twoDraws]
    have ih := k2 st' hI'
    rw [rejectLoop]
    simp only [e1, e2, he]
    rw [if_neg (not_lt.2 hle)]
    show (((twoDraws E g).1 ∈ accepted v a b m ∧ _) ∨ (_ ∧ _)) ↔ _
    by_cases hacc : (twoDraws E g).1 ∈ accepted v a b m
    · have hacc' : ¬ (twoDraws E g).1.2 * m > v (spread a b (twoDraws E g).1.1) := not_lt.2 hacc
      rw [if_neg hacc']
      simp only [hacc, true_and, not_true, false_and, or_false]
      constructor
      · intro h; exact ⟨_, rfl, h⟩
      · rintro ⟨r, hr, h⟩; cases hr; exact h
    · have hacc' : (twoDraws E g).1.2 * m > v (spread a b (twoDraws E g).1.1) := not_le.1 hacc
      rw [if_pos hacc']
      simp only [hacc, false_and, not_false_eq_true, true_and, false_or]
      exact ih

/-- As long as the bound is a bound it stays the same. -/
theorem loop_bound (hE : Ideal E μ) {f : ℝ → σ → Res (ℝ × σ)} {I : σ → Prop} (hab : a < b)
    {safety : ℝ} (hr : ∀ x ∈ Set.Icc a b, v x ≤ m)
    (hf : ∀ x ∈ Set.Icc a b, ∀ st, I st → ∃ st', f x st = .ok (v x, st') ∧ I st') (n : Nat) :
    ∀ᵐ g ∂μ, ∀ st, I st → ∀ r, rejectLoop exact E f a b safety n m g st = some (.ok r) →
      r.fmax = m := by
  haveI := hE.prob
  induction n with
  | zero =>
    refine Filter.Eventually.of_forall fun g st _ r h => ?_
    simp [rejectLoop] at h
  | succ n ih =>
    have h1 : ∀ᵐ q ∂((unit.prod unit).prod μ), q.1.1 ∈ Set.Ico (0 : ℝ) 1 :=
      Measure.quasiMeasurePreserving_fst.ae (Measure.quasiMeasurePreserving_fst.ae
        (ae_restrict_mem measurableSet_Ico))
    have h2 : ∀ᵐ q ∂((unit.prod unit).prod μ), ∀ st, I st → ∀ r,
        rejectLoop exact E f a b safety n m q.2 st = some (.ok r) → r.fmax = m :=
      Measure.quasiMeasurePreserving_snd.ae ih
    have hq := (twoDraws_preserving hE).quasiMeasurePreserving
    filter_upwards [hq.ae h1, hq.ae h2] with g k1 k2 st hI r
    have hx := spread_mem hab k1
    obtain ⟨st', he, hI'⟩ := hf _ hx st hI
    have hle := hr _ hx
    have e1 : uniform exact E a b true g = (spread a b (twoDraws E g).1.1, (E.draw g).2) := rfl
    have e2 : uniform exact E 0 m true (E.draw g).2
        = ((twoDraws E g).1.2 * m, (twoDraws E g).2) := by
      simp [uniform, exact, twoDraws]
    rw [rejectLoop]
    simp only [e1, e2, he]
    rw [if_neg (not_lt.2 hle)]
    split_ifs
    · exact k2 st' hI' r
    · intro h; cases h; rfl

end

end Marley.Sampling
