import Mathlib.Analysis.SpecialFunctions.PolarCoord
import Mathlib.MeasureTheory.Function.JacobianOneDim
import Mathlib.MeasureTheory.Measure.Haar.InnerProductSpace
import Mathlib.Analysis.SpecialFunctions.Integrals.Basic
import Mathlib.Tactic.Linarith
import Mathlib.Tactic.FieldSimp

/-! Integrals over directions in space: a polar cosine and an azimuth, each uniform,
describe the unit sphere evenly. -/

set_option autoImplicit false

namespace Marley.Sphere
open MeasureTheory Real

/-- The direction with polar cosine `c` and azimuth `φ`, as `(z, (x, y))`. -/
noncomputable def vec (c φ : ℝ) : ℝ × ℝ × ℝ := (c, √(1 - c ^ 2) * cos φ, √(1 - c ^ 2) * sin φ)

/-- Distance from the origin. -/
noncomputable def nrm (p : ℝ × ℝ × ℝ) : ℝ := √(p.1 ^ 2 + p.2.1 ^ 2 + p.2.2 ^ 2)

/-- Scaled to length one. -/
noncomputable def scaled (p : ℝ × ℝ × ℝ) : ℝ × ℝ × ℝ :=
  (p.1 / nrm p, p.2.1 / nrm p, p.2.2 / nrm p)

theorem vec_measurable : Measurable fun p : ℝ × ℝ => vec p.1 p.2 := by
  unfold vec; fun_prop

theorem nrm_measurable : Measurable nrm := by unfold nrm; fun_prop

theorem scaled_measurable : Measurable scaled := by
  have := nrm_measurable
  unfold scaled; fun_prop

theorem cos_image : cos '' Set.Ioo 0 π = Set.Ioo (-1) 1 := by
  ext c
  constructor
  · rintro ⟨t, ⟨h0, h1⟩, rfl⟩
    constructor
    · rw [← cos_pi]; exact cos_lt_cos_of_nonneg_of_le_pi h0.le le_rfl h1
    · rw [← cos_zero]; exact cos_lt_cos_of_nonneg_of_le_pi le_rfl h1.le h0
  · rintro ⟨h0, h1⟩
    exact ⟨arccos c, ⟨arccos_pos.2 h1, arccos_lt_pi.2 h0⟩, cos_arccos h0.le h1.le⟩

/-- Substituting the cosine. -/
theorem cos_lintegral (h : ℝ → ENNReal) :
    ∫⁻ t in Set.Ioo 0 π, ENNReal.ofReal (sin t) * h (cos t) = ∫⁻ c in Set.Ioo (-1) 1, h c := by
  rw [← cos_image, lintegral_image_eq_lintegral_abs_deriv_mul (f' := fun t => -sin t)
    measurableSet_Ioo (fun t _ => (hasDerivAt_cos t).hasDerivWithinAt)
    (injOn_cos.mono Set.Ioo_subset_Icc_self)]
  refine setLIntegral_congr_fun measurableSet_Ioo fun t ht => ?_
  rw [abs_neg, abs_of_pos (sin_pos_of_pos_of_lt_pi ht.1 ht.2)]

theorem square_lintegral : ∫⁻ r in Set.Ioo (0 : ℝ) 1, ENNReal.ofReal (r * r)
    = ENNReal.ofReal (1 / 3) := by
  have hi : IntegrableOn (fun r : ℝ => r * r) (Set.Ioo 0 1) :=
    ((continuous_id.mul continuous_id).integrableOn_Icc).mono_set Set.Ioo_subset_Icc_self
  rw [← ofReal_integral_eq_lintegral_ofReal hi
    (Filter.Eventually.of_forall fun r => mul_self_nonneg r), ← integral_Ioc_eq_integral_Ioo,
    ← intervalIntegral.integral_of_le zero_le_one]
  have : (fun r : ℝ => r * r) = fun r => r ^ 2 := by funext r; ring
  rw [this, integral_pow]
  norm_num

/-- A half-disc in polar coordinates. -/
theorem half_disc {h : ℝ → ENNReal} (hh : Measurable h) :
    ∫⁻ q : ℝ × ℝ, (if 0 < q.2 ∧ √(q.1 ^ 2 + q.2 ^ 2) < 1 then
        ENNReal.ofReal q.2 * h (q.1 / √(q.1 ^ 2 + q.2 ^ 2)) else 0)
      = ENNReal.ofReal (1 / 3) * ∫⁻ c in Set.Ioo (-1) 1, h c := by
  have key : ∀ p ∈ polarCoord.target, ENNReal.ofReal p.1 •
      (if 0 < (polarCoord.symm p).2 ∧
          √((polarCoord.symm p).1 ^ 2 + (polarCoord.symm p).2 ^ 2) < 1 then
        ENNReal.ofReal (polarCoord.symm p).2 * h ((polarCoord.symm p).1 /
          √((polarCoord.symm p).1 ^ 2 + (polarCoord.symm p).2 ^ 2)) else 0)
      = (Set.Ioo 0 1).indicator (fun r => ENNReal.ofReal (r * r)) p.1 *
        (Set.Ioo 0 π).indicator (fun t => ENNReal.ofReal (sin t) * h (cos t)) p.2 := by
    rintro ⟨r, t⟩ hp
    simp only [polarCoord_target, Set.mem_prod, Set.mem_Ioi, Set.mem_Ioo] at hp
    obtain ⟨hr, ht0, ht1⟩ := hp
    have hsq : √((r * cos t) ^ 2 + (r * sin t) ^ 2) = r := by
      rw [show (r * cos t) ^ 2 + (r * sin t) ^ 2 = r ^ 2 by
        rw [mul_pow, mul_pow, ← mul_add, cos_sq_add_sin_sq, mul_one], sqrt_sq hr.le]
    simp only [polarCoord_symm_apply, hsq, smul_eq_mul]
    by_cases h1 : r < 1
    · by_cases h2 : 0 < t
      · have hs := sin_pos_of_pos_of_lt_pi h2 ht1
        rw [if_pos ⟨mul_pos hr hs, h1⟩, Set.indicator_of_mem (s := Set.Ioo (0 : ℝ) 1) ⟨hr, h1⟩,
          Set.indicator_of_mem (s := Set.Ioo 0 π) ⟨h2, ht1⟩, ENNReal.ofReal_mul hr.le, ENNReal.ofReal_mul hr.le,
          mul_div_cancel_left₀ _ hr.ne']
        ring
      · have hs : ¬ 0 < r * sin t := by
          have := sin_nonpos_of_nonpos_of_neg_pi_le (not_lt.1 h2) ht0.le
          nlinarith
        rw [if_neg (fun h => hs h.1), Set.indicator_of_notMem (s := Set.Ioo 0 π)
          (fun h => h2 h.1), mul_zero, mul_zero]
    · rw [if_neg (fun h => h1 h.2), Set.indicator_of_notMem (s := Set.Ioo (0 : ℝ) 1)
        (fun h => h1 h.2), mul_zero, zero_mul]
  rw [← lintegral_comp_polarCoord_symm,
    setLIntegral_congr_fun polarCoord.open_target.measurableSet key, polarCoord_target,
    Measure.volume_eq_prod, ← Measure.prod_restrict,
    lintegral_prod_mul ((Measurable.indicator (by fun_prop) measurableSet_Ioo).aemeasurable)
      ((Measurable.indicator (by fun_prop) measurableSet_Ioo).aemeasurable),
    lintegral_indicator measurableSet_Ioo, lintegral_indicator measurableSet_Ioo,
    Measure.restrict_restrict measurableSet_Ioo, Measure.restrict_restrict measurableSet_Ioo,
    Set.inter_eq_left.2 (Set.Ioo_subset_Ioi_self),
    Set.inter_eq_left.2 (Set.Ioo_subset_Ioo (by linarith [pi_pos]) le_rfl), square_lintegral,
    cos_lintegral]

/-- The ball in spherical coordinates. -/
theorem ball_lintegral {g : ℝ × ℝ × ℝ → ENNReal} (hg : Measurable g) :
    ∫⁻ p in {p | nrm p < 1}, g (scaled p)
      = ENNReal.ofReal (1 / 3) *
        ∫⁻ φ in Set.Ioo (-π) π, ∫⁻ c in Set.Ioo (-1) 1, g (vec c φ) := by
  have hs : MeasurableSet {p | nrm p < 1} := measurableSet_lt nrm_measurable measurable_const
  have hF : Measurable ({p | nrm p < 1}.indicator fun p => g (scaled p)) :=
    (hg.comp scaled_measurable).indicator hs
  rw [← lintegral_indicator hs, Measure.volume_eq_prod, lintegral_prod _ hF.aemeasurable]
  generalize hFd : ({p | nrm p < 1}.indicator fun p => g (scaled p)) = F at hF
  have h1 : ∀ z, ∫⁻ q, F (z, q) = ∫⁻ φ in Set.Ioo (-π) π, ∫⁻ ρ in Set.Ioi 0,
      ENNReal.ofReal ρ * F (z, ρ * cos φ, ρ * sin φ) := by
    intro z
    rw [← lintegral_comp_polarCoord_symm, polarCoord_target, Measure.volume_eq_prod,
      ← Measure.prod_restrict]
    simp only [polarCoord_symm_apply, smul_eq_mul]
    rw [lintegral_prod_symm _ (by
      refine Measurable.aemeasurable (Measurable.mul (by fun_prop) (hF.comp ?_))
      fun_prop)]
  simp only [h1]
  rw [lintegral_lintegral_swap (by
    refine Measurable.aemeasurable (Measurable.lintegral_prod_right' (ν := volume.restrict (Set.Ioi 0))
      (f := fun q : (ℝ × ℝ) × ℝ =>
        ENNReal.ofReal q.2 * F (q.1.1, q.2 * cos q.1.2, q.2 * sin q.1.2)) ?_)
    exact Measurable.mul (by fun_prop) (hF.comp (by fun_prop))),
    ← lintegral_const_mul _ (Measurable.lintegral_prod_right' (ν := volume.restrict (Set.Ioo (-1) 1))
      (f := fun q : ℝ × ℝ => g (vec q.2 q.1)) (hg.comp (vec_measurable.comp measurable_swap)))]
  refine lintegral_congr fun φ => ?_
  rw [← half_disc (h := fun c => g (vec c φ))
    (hg.comp (vec_measurable.comp (measurable_id.prodMk measurable_const))),
    Measure.volume_eq_prod, lintegral_prod _ (by
      refine Measurable.aemeasurable (Measurable.ite ?_ ?_ measurable_const)
      · exact (measurableSet_lt measurable_const measurable_snd).inter
          (measurableSet_lt (f := fun q : ℝ × ℝ => √(q.1 ^ 2 + q.2 ^ 2)) (by fun_prop)
            measurable_const)
      · refine Measurable.mul (by fun_prop) (hg.comp (vec_measurable.comp
          (g := fun p : ℝ × ℝ => vec p.1 p.2)
          (f := fun q : ℝ × ℝ => (q.1 / √(q.1 ^ 2 + q.2 ^ 2), φ)) (by fun_prop))))]
  refine lintegral_congr fun z => ?_
  rw [← lintegral_indicator measurableSet_Ioi]
  refine lintegral_congr fun ρ => ?_
  subst hFd
  by_cases hρ : 0 < ρ
  · have hn : nrm (z, ρ * cos φ, ρ * sin φ) = √(z ^ 2 + ρ ^ 2) := by
      unfold nrm
      congr 1
      dsimp only
      rw [mul_pow, mul_pow, add_assoc, ← mul_add, cos_sq_add_sin_sq, mul_one]
    rw [Set.indicator_of_mem (by exact hρ)]
    by_cases h1 : √(z ^ 2 + ρ ^ 2) < 1
    · rw [if_pos ⟨hρ, h1⟩, Set.indicator_of_mem (by show nrm _ < 1; rw [hn]; exact h1)]
      congr 2
      have hr : 0 < √(z ^ 2 + ρ ^ 2) := sqrt_pos.2 (by positivity)
      have hs : √(1 - (z / √(z ^ 2 + ρ ^ 2)) ^ 2) = ρ / √(z ^ 2 + ρ ^ 2) := by
        rw [show 1 - (z / √(z ^ 2 + ρ ^ 2)) ^ 2 = (ρ / √(z ^ 2 + ρ ^ 2)) ^ 2 by
          rw [div_pow, div_pow, sq_sqrt (by positivity)]
          field_simp
          ring, sqrt_sq (by positivity)]
      simp only [scaled, vec, hn, hs, Prod.mk.injEq, true_and]
      constructor <;> ring
    · rw [if_neg (fun h => h1 h.2),
        Set.indicator_of_notMem (by show ¬ nrm _ < 1; rw [hn]; exact h1), mul_zero]
  · rw [Set.indicator_of_notMem (by exact hρ), if_neg (fun h => hρ h.1)]

end Marley.Sphere
