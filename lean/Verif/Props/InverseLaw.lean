import Verif.Lemmas.RejectionLaw
import Verif.Props.Sampling

/-! # C125: inverse transform sampling follows the cumulative function

The number drawn is uniform in [0, 1), the arithmetic is exact. -/

set_option autoImplicit false

namespace Marley.Props
open Marley.Sampling MeasureTheory

theorem unit_below {y : ℝ} (h0 : 0 ≤ y) (h1 : y ≤ 1) :
    unit {u | u ≤ y} = ENNReal.ofReal y ∧ unit {u | u < y} = ENNReal.ofReal y := by
  have h := unit_accept (m := 1) one_pos h0 h1
  simp only [mul_one, div_one] at h
  refine ⟨h, ?_⟩
  have hs : MeasurableSet {u : ℝ | u < y} := measurableSet_lt measurable_id measurable_const
  have e : {u : ℝ | u < y} ∩ Set.Ico 0 1 = Set.Ico 0 y := by
    ext u
    simp only [Set.mem_inter_iff, Set.mem_ofPred_eq, Set.mem_Ico]
    constructor
    · rintro ⟨a, b, -⟩
      exact ⟨b, a⟩
    · rintro ⟨a, b⟩
      exact ⟨b, a, b.trans_le h1⟩
  rw [unit, Measure.restrict_apply hs, e, Real.volume_Ico, sub_zero]

/-- **C125**: the point sampled is at most `t` with a probability between the values of
the normalised cumulative function half a tolerance below and above `t`. -/
theorem C125_distribution {cdf : ℝ → ℝ} {xmin xmax tolerance : ℝ} (h : xmin ≤ xmax)
    (ht : 0 ≤ tolerance) (hc : ∀ s t, xmin ≤ s → s ≤ t → t ≤ xmax → cdf s ≤ cdf t)
    (h0 : 0 ≤ cdf xmin) (h1 : 0 < cdf xmax) (n : Nat) (hn : xmax - xmin ≤ tolerance * 2 ^ n)
    (t : ℝ) :
    (∀ s, xmin ≤ s → s ≤ xmax → s + tolerance / 2 ≤ t →
      ENNReal.ofReal (cdf s / cdf xmax) ≤ unit {u | ∃ x g',
        inverseTransform exact replay (n + 1) cdf xmin xmax tolerance [u] = some (x, g') ∧
          x ≤ t}) ∧
    (∀ s, xmin ≤ s → s ≤ xmax → t + tolerance / 2 < s →
      unit {u | ∃ x g',
        inverseTransform exact replay (n + 1) cdf xmin xmax tolerance [u] = some (x, g') ∧
          x ≤ t} ≤ ENNReal.ofReal (cdf s / cdf xmax)) := by
  have hu : ∀ u : ℝ, (uniform exact replay 0 1 true [u]).1 = u := by
    intro u
    simp [uniform, exact, replay]
  have hF0 : ∀ s, xmin ≤ s → s ≤ xmax → 0 ≤ cdf s / cdf xmax := fun s a b =>
    div_nonneg (h0.trans (hc xmin s (le_refl _) a b)) h1.le
  have hF1 : ∀ s, xmin ≤ s → s ≤ xmax → cdf s / cdf xmax ≤ 1 := fun s a b =>
    (div_le_one h1).2 (hc s xmax a b (le_refl _))
  have key : ∀ u x g',
      inverseTransform exact replay (n + 1) cdf xmin xmax tolerance [u] = some (x, g') →
      ∃ z, Crosses (fun t => cdf t / cdf xmax) xmin xmax u z ∧ |x - z| ≤ tolerance / 2 := by
    intro u x g' e
    have := C22_crossing (n + 1) h ht hc h0 h1 [u] e
    rwa [hu] at this
  constructor
  · intro s a b hst
    rw [← (unit_below (hF0 s a b) (hF1 s a b)).2]
    refine measure_mono fun u hus => ?_
    obtain ⟨⟨x, g'⟩, e⟩ := C22_terminates (A := exact) (E := replay) cdf n hn [u]
    obtain ⟨z, hz, hxz⟩ := key u x g' e
    refine ⟨x, g', e, ?_⟩
    have hzs : z ≤ s := by
      by_contra hlt
      have h3 : cdf s / cdf xmax ≤ u := hz.2.2.1 s a (not_le.1 hlt)
      have h4 : u < cdf s / cdf xmax := hus
      exact absurd h3 (not_le.2 h4)
    have := (abs_le.1 hxz).2
    linarith
  · intro s a b hst
    rw [← (unit_below (hF0 s a b) (hF1 s a b)).1]
    refine measure_mono fun u hus => ?_
    obtain ⟨x, g', e, hx⟩ := hus
    obtain ⟨z, hz, hxz⟩ := key u x g' e
    refine hz.2.2.2 s ?_ b
    have := (abs_le.1 hxz).1
    linarith

/-- **C125** for a cumulative function of slope at most `L`: the distribution function
of the points sampled differs from the normalised cumulative function by less than
the tolerance allows. -/
theorem C125_accuracy {cdf : ℝ → ℝ} {xmin xmax tolerance L : ℝ} (h : xmin ≤ xmax)
    (ht : 0 ≤ tolerance) (hc : ∀ s t, xmin ≤ s → s ≤ t → t ≤ xmax → cdf s ≤ cdf t)
    (hL : ∀ s t, xmin ≤ s → s ≤ t → t ≤ xmax → cdf t - cdf s ≤ L * (t - s)) (hL0 : 0 ≤ L)
    (h0 : cdf xmin = 0) (h1 : 0 < cdf xmax) (n : Nat) (hn : xmax - xmin ≤ tolerance * 2 ^ n)
    {t : ℝ} (ha : xmin ≤ t) (hb : t ≤ xmax) :
    |(unit {u | ∃ x g',
        inverseTransform exact replay (n + 1) cdf xmin xmax tolerance [u] = some (x, g') ∧
          x ≤ t}).toReal - cdf t / cdf xmax| ≤ L * tolerance / 2 / cdf xmax := by
  obtain ⟨low, high⟩ := C125_distribution h ht hc h0.ge h1 n hn t
  set P := unit {u | ∃ x g',
    inverseTransform exact replay (n + 1) cdf xmin xmax tolerance [u] = some (x, g') ∧ x ≤ t}
    with hP
  have htop : unit Set.univ = 1 := by simp [unit]
  have hP1 : P ≤ 1 := htop ▸ measure_mono (Set.subset_univ _)
  have hPt : P ≠ ⊤ := ne_top_of_le_ne_top ENNReal.one_ne_top hP1
  have hF0 : ∀ s, xmin ≤ s → s ≤ xmax → 0 ≤ cdf s / cdf xmax := fun s a b =>
    div_nonneg (h0.ge.trans (hc xmin s (le_refl _) a b)) h1.le
  rw [abs_le]
  constructor
  · have hlow : cdf t / cdf xmax - L * tolerance / 2 / cdf xmax ≤ P.toReal := by
      rw [← sub_div]
      by_cases hs : xmin ≤ t - tolerance / 2
      · have h3 := low (t - tolerance / 2) hs (by linarith) (by linarith)
        have h4 := (ENNReal.ofReal_le_iff_le_toReal hPt).1 h3
        refine le_trans ?_ h4
        gcongr
        have := hL (t - tolerance / 2) t hs (by linarith) hb
        linarith
      · have h5 := hL xmin t (le_refl _) ha hb
        have h6 : L * (t - xmin) ≤ L * (tolerance / 2) :=
          mul_le_mul_of_nonneg_left (by linarith [not_le.1 hs]) hL0
        have h7 : (cdf t - L * tolerance / 2) / cdf xmax ≤ 0 :=
          div_nonpos_of_nonpos_of_nonneg (by linarith) h1.le
        exact h7.trans ENNReal.toReal_nonneg
    linarith
  · have hhigh : P.toReal ≤ cdf t / cdf xmax + L * tolerance / 2 / cdf xmax := by
      by_cases hs : t + tolerance / 2 < xmax
      · have h3 : ∀ s, t + tolerance / 2 < s → s ≤ xmax →
            P.toReal ≤ (cdf t + L * (s - t)) / cdf xmax := by
          intro s hs1 hs2
          have h4 := ENNReal.toReal_le_of_le_ofReal (hF0 s (by linarith) hs2)
            (high s (by linarith) hs2 hs1)
          refine h4.trans ?_
          gcongr
          have := hL t s ha (by linarith) hs2
          linarith
        have h5 : P.toReal * cdf xmax ≤ cdf t + L * (tolerance / 2) := by
          refine le_of_forall_pos_le_add fun ε hε => ?_
          obtain ⟨d, d0, d1, d2⟩ : ∃ d : ℝ, 0 < d ∧ d ≤ xmax - (t + tolerance / 2) ∧ L * d ≤ ε := by
            refine ⟨min (xmax - (t + tolerance / 2)) (ε / (L + 1)), lt_min (by linarith)
              (by positivity), min_le_left _ _, ?_⟩
            calc L * min (xmax - (t + tolerance / 2)) (ε / (L + 1)) ≤ L * (ε / (L + 1)) := by
                  gcongr
                  exact min_le_right _ _
              _ ≤ (L + 1) * (ε / (L + 1)) := by
                  gcongr
                  linarith
              _ = ε := by field_simp
          have h6 := (le_div_iff₀ h1).1 (h3 (t + tolerance / 2 + d) (by linarith) (by linarith))
          linarith
        rw [← add_div, le_div_iff₀ h1]
        linarith
      · have h7 : P.toReal ≤ 1 := ENNReal.toReal_le_of_le_ofReal zero_le_one (by simpa using hP1)
        refine h7.trans ?_
        rw [← add_div, le_div_iff₀ h1]
        have h8 := hL t xmax ha hb (le_refl _)
        have h9 : L * (xmax - t) ≤ L * (tolerance / 2) :=
          mul_le_mul_of_nonneg_left (by linarith [not_lt.1 hs]) hL0
        linarith
    linarith

-- the density 2x on [0, 1]: at most 1/2 with probability 1/4, up to the tolerance
example : |(unit {u | ∃ x g', inverseTransform exact replay 41 (fun x => x ^ 2) 0 1 (1 / 10 ^ 12) [u]
    = some (x, g') ∧ x ≤ 1 / 2}).toReal - (1 / 2) ^ 2 / 1 ^ 2| ≤ 2 * (1 / 10 ^ 12) / 2 / 1 ^ 2 := by
  refine C125_accuracy (cdf := fun x => x ^ 2) (L := 2) (by norm_num) (by norm_num) ?_ ?_
    (by norm_num) (by norm_num) (by norm_num) 40 (by norm_num) (by norm_num) (by norm_num)
  · intro s t hs hst _
    exact pow_le_pow_left₀ hs hst 2
  · intro s t hs hst ht
    show t ^ 2 - s ^ 2 ≤ 2 * (t - s)
    nlinarith

end Marley.Props
