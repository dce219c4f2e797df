import Verif.Lemmas.Sphere
import Verif.Lemmas.RejectionLaw
import Verif.Spec.Isotropy
import Verif.Props.Rotation
import Mathlib.Analysis.InnerProductSpace.Projection.Reflection

/-! # C124: random directions are isotropic

The two numbers drawn are independent and uniform in [0, 1), the arithmetic is
exact.  Vocabulary in `Verif/Spec/Isotropy.lean`. -/

set_option autoImplicit false

namespace Marley.Props
open Marley.Sampling Marley.Rot Marley.Sphere MeasureTheory
open scoped RealInnerProductSpace

/-- `(z, (x, y))` as a point of space. -/
noncomputable def place (p : ℝ × ℝ × ℝ) : Space := !₂[p.2.1, p.2.2, p.1]

/-- The coordinates of a point. -/
def coords (x : Space) : ℝ × ℝ × ℝ := (x 2, x 0, x 1)

theorem place_measurable : Measurable place := by
  have h : Measurable fun p : ℝ × ℝ × ℝ => (![p.2.1, p.2.2, p.1] : Fin 3 → ℝ) := by
    refine measurable_pi_iff.2 fun i => ?_
    fin_cases i
    · exact measurable_snd.fst
    · exact measurable_snd.snd
    · exact measurable_fst
  exact (PiLp.volume_preserving_toLp (Fin 3)).measurable.comp h

theorem coords_preserving : MeasurePreserving coords volume volume := by
  have h1 := PiLp.volume_preserving_ofLp (Fin 3)
  have h2 := volume_preserving_piFinSuccAbove (fun _ : Fin 3 => ℝ) 2
  have h3 := (MeasurePreserving.id (volume : Measure ℝ)).prod (volume_preserving_finTwoArrow ℝ)
  exact h3.comp (h2.comp h1)

theorem nrm_coords (x : Space) : nrm (coords x) = ‖x‖ := by
  rw [EuclideanSpace.norm_eq, Fin.sum_univ_three, nrm, coords]
  simp only [Real.norm_eq_abs, sq_abs]
  congr 1
  ring

theorem place_scaled (x : Space) : place (scaled (coords x)) = ‖x‖⁻¹ • x := by
  have h : nrm (x 2, x 0, x 1) = ‖x‖ := nrm_coords x
  ext i
  fin_cases i <;> simp [place, scaled, h, coords] <;> ring

/-- The volume of a cone in spherical coordinates. -/
theorem cone_volume {S : Set Space} (hS : MeasurableSet S) :
    volume (cone S) = ENNReal.ofReal (1 / 3) * ∫⁻ φ in Set.Ioo (-Real.pi) Real.pi,
      ∫⁻ c in Set.Ioo (-1) 1, S.indicator 1 (place (vec c φ)) := by
  have hm : Measurable fun p : ℝ × ℝ × ℝ => (S.indicator 1 (place p) : ENNReal) :=
    (measurable_one.indicator hS).comp place_measurable
  rw [← ball_lintegral hm]
  have hs : MeasurableSet {p | nrm p < 1} := measurableSet_lt nrm_measurable measurable_const
  have hq : MeasurableSet ((fun p => place (scaled p)) ⁻¹' S) :=
    (place_measurable.comp scaled_measurable) hS
  have hset : cone S = coords ⁻¹' ({p | nrm p < 1} ∩ ((fun p => place (scaled p)) ⁻¹' S)) := by
    ext x
    show (‖x‖ < 1 ∧ ‖x‖⁻¹ • x ∈ S) ↔ (nrm (coords x) < 1 ∧ place (scaled (coords x)) ∈ S)
    rw [nrm_coords, place_scaled]
  rw [hset, coords_preserving.measure_preimage (hs.inter hq).nullMeasurableSet, Set.inter_comm,
    ← Measure.restrict_apply hq, ← lintegral_indicator_one hq]
  rfl

theorem vec_shift (c φ : ℝ) : vec c (φ + 2 * Real.pi) = vec c φ := by
  simp [vec, Real.cos_add_two_pi, Real.sin_add_two_pi]

/-- A full turn may begin anywhere. -/
theorem turn_lintegral {k : ℝ → ENNReal} (hk : ∀ φ, k (φ + 2 * Real.pi) = k φ) :
    ∫⁻ φ in Set.Ioo (-Real.pi) Real.pi, k φ = ∫⁻ φ in Set.Icc 0 (2 * Real.pi), k φ := by
  have hp := Real.pi_pos
  have e1 : ∫⁻ φ in Set.Ioo (-Real.pi) Real.pi, k φ
      = ∫⁻ φ in Set.Ico (-Real.pi) Real.pi, k φ := by
    rw [Measure.restrict_congr_set (Ioo_ae_eq_Icc.trans Ico_ae_eq_Icc.symm)]
  have e2 : ∫⁻ φ in Set.Icc 0 (2 * Real.pi), k φ = ∫⁻ φ in Set.Ico 0 (2 * Real.pi), k φ := by
    rw [Measure.restrict_congr_set Ico_ae_eq_Icc]
  have u1 : Set.Ico (-Real.pi) Real.pi = Set.Ico (-Real.pi) 0 ∪ Set.Ico 0 Real.pi :=
    (Set.Ico_union_Ico_eq_Ico (by linarith) hp.le).symm
  have u2 : Set.Ico 0 (2 * Real.pi) = Set.Ico 0 Real.pi ∪ Set.Ico Real.pi (2 * Real.pi) :=
    (Set.Ico_union_Ico_eq_Ico hp.le (by linarith)).symm
  have hsh : ∫⁻ φ in Set.Ico (-Real.pi) 0, k φ = ∫⁻ φ in Set.Ico Real.pi (2 * Real.pi), k φ := by
    have hmp := measurePreserving_add_right (volume : Measure ℝ) (2 * Real.pi)
    have hpre : Set.Ico (-Real.pi) 0
        = (fun x => x + 2 * Real.pi) ⁻¹' Set.Ico Real.pi (2 * Real.pi) := by
      ext x
      simp only [Set.mem_Ico, Set.mem_preimage]
      constructor <;> rintro ⟨h1, h2⟩ <;> constructor <;> linarith
    have h := hmp.setLIntegral_comp_preimage_emb
      (MeasurableEquiv.addRight (2 * Real.pi)).measurableEmbedding k
      (Set.Ico Real.pi (2 * Real.pi))
    rw [hpre, ← h]
    exact lintegral_congr fun φ => (hk φ).symm
  rw [e1, e2, u1, u2, lintegral_union measurableSet_Ico
      (Set.disjoint_left.2 fun x h h' => absurd h.2 (not_lt.2 h'.1)),
    lintegral_union measurableSet_Ico
      (Set.disjoint_left.2 fun x h h' => absurd h.2 (not_lt.2 h'.1)), hsh, add_comm]

theorem drawn_angles (p : ℝ × ℝ) :
    drawnAngles p = (spread (-1) 1 p.1, spread 0 (2 * Real.pi) p.2) := by
  simp [drawnAngles, uniform, exact, replay, spread]

theorem drawn_place (p : ℝ × ℝ) : (drawnDirection p).toSpace
    = place (vec (spread (-1) 1 p.1) (spread 0 (2 * Real.pi) p.2)) := by
  have hsq : ∀ x : ℝ, Utils.realSqrt x = √x := by
    intro x
    unfold Utils.realSqrt
    split_ifs with h
    · exact (Real.sqrt_eq_zero_of_nonpos h.le).symm
    · rfl
  rw [drawnDirection, drawn_angles]
  simp only [isotropicDirection, hsq]
  rfl

theorem drawn_measurable : Measurable fun p : ℝ × ℝ => (drawnDirection p).toSpace := by
  simp only [drawn_place]
  exact place_measurable.comp (vec_measurable.comp
    (g := fun p : ℝ × ℝ => vec p.1 p.2)
    (f := fun p : ℝ × ℝ => (spread (-1) 1 p.1, spread 0 (2 * Real.pi) p.2))
    (((spread_measurable _ _).comp measurable_fst).prodMk
      ((spread_measurable _ _).comp measurable_snd)))

/-- The law of the direction in terms of polar cosine and azimuth. -/
theorem drawn_law {S : Set Space} (hS : MeasurableSet S) :
    (unit.prod unit) {p | (drawnDirection p).toSpace ∈ S}
      = (ENNReal.ofReal (4 * Real.pi))⁻¹ * ∫⁻ φ in Set.Ioo (-Real.pi) Real.pi,
        ∫⁻ c in Set.Ioo (-1) 1, S.indicator 1 (place (vec c φ)) := by
  have hp := Real.pi_pos
  have hm : Measurable fun q : ℝ × ℝ => (S.indicator 1 (place (vec q.1 q.2)) : ENNReal) :=
    (measurable_one.indicator hS).comp (place_measurable.comp vec_measurable)
  have hmc : ∀ φ, Measurable fun c => (S.indicator 1 (place (vec c φ)) : ENNReal) := fun φ =>
    Measurable.comp (g := fun q : ℝ × ℝ => (S.indicator 1 (place (vec q.1 q.2)) : ENNReal))
      (f := fun c => (c, φ)) hm measurable_prodMk_right
  have hm1 : Measurable fun φ => ∫⁻ c in Set.Icc (-1) 1,
      (S.indicator 1 (place (vec c φ)) : ENNReal) :=
    Measurable.lintegral_prod_left' (μ := volume.restrict (Set.Icc (-1) 1)) hm
  have hset : {p | (drawnDirection p).toSpace ∈ S}
      = (fun p => (drawnDirection p).toSpace) ⁻¹' S := rfl
  rw [hset, ← lintegral_indicator_one (drawn_measurable hS),
    lintegral_prod_symm _ ((measurable_one.indicator (drawn_measurable hS)).aemeasurable)]
  have hin : ∀ w, ∫⁻ u, ((fun p => (drawnDirection p).toSpace) ⁻¹' S).indicator 1 (u, w) ∂unit
      = (ENNReal.ofReal (1 - -1))⁻¹ * ∫⁻ c in Set.Icc (-1) 1,
          (S.indicator 1 (place (vec c (spread 0 (2 * Real.pi) w))) : ENNReal) := by
    intro w
    have hmw := hmc (spread 0 (2 * Real.pi) w)
    have h1 : (-1 : ℝ) < 1 := by norm_num
    rw [← spread_lintegral h1 hmw]
    refine lintegral_congr fun u => ?_
    have h2 : ((fun p => (drawnDirection p).toSpace) ⁻¹' S).indicator (1 : ℝ × ℝ → ENNReal) (u, w)
        = S.indicator 1 (drawnDirection (u, w)).toSpace := rfl
    rw [h2, drawn_place]
  simp only [hin]
  have hm2 : Measurable fun w => ∫⁻ c in Set.Icc (-1) 1,
      (S.indicator 1 (place (vec c (spread 0 (2 * Real.pi) w))) : ENNReal) :=
    hm1.comp (spread_measurable _ _)
  have h02 : (0 : ℝ) < 2 * Real.pi := by linarith
  rw [lintegral_const_mul _ hm2, spread_lintegral h02 hm1,
    ← turn_lintegral (k := fun φ => ∫⁻ c in Set.Icc (-1) 1,
      (S.indicator 1 (place (vec c φ)) : ENNReal)) (fun φ => by simp only [vec_shift]), ← mul_assoc,
    ← ENNReal.mul_inv (Or.inr ENNReal.ofReal_ne_top)
      (Or.inl ENNReal.ofReal_ne_top), ← ENNReal.ofReal_mul (by norm_num)]
  have : Set.Icc (-1 : ℝ) 1 =ᵐ[volume] Set.Ioo (-1 : ℝ) 1 := Ioo_ae_eq_Icc.symm
  rw [Measure.restrict_congr_set this]
  congr 3
  ring

theorem ball_cone : cone Set.univ = Metric.ball (0 : Space) 1 := by
  ext x
  simp [cone]

/-- **C124**: the direction lies in a set of directions with the probability of its
share of the full solid angle. -/
theorem C124_uniform {S : Set Space} (hS : MeasurableSet S) :
    (unit.prod unit) {p | (drawnDirection p).toSpace ∈ S} = solidShare S := by
  have hball : volume (Metric.ball (0 : Space) 1)
      = ENNReal.ofReal (1 / 3) * ENNReal.ofReal (4 * Real.pi) := by
    rw [← ball_cone, cone_volume MeasurableSet.univ]
    have h1 : (ENNReal.ofReal (1 - -1)) * ENNReal.ofReal (Real.pi - -Real.pi)
        = ENNReal.ofReal (4 * Real.pi) := by
      rw [← ENNReal.ofReal_mul (by norm_num)]
      congr 1
      ring
    simp only [Set.indicator_univ, Pi.one_apply, lintegral_const, Measure.restrict_apply,
      MeasurableSet.univ, Set.univ_inter, Real.volume_Ioo, one_mul, h1]
  have hpi : ENNReal.ofReal (4 * Real.pi) ≠ 0 := by
    simpa using Real.pi_pos
  rw [drawn_law hS, solidShare, hball, cone_volume hS, ENNReal.mul_div_mul_left _ _
    (by simp) (by simp), div_eq_mul_inv, mul_comm]

/-- **C124**, isotropy: turning or reflecting the direction does not change its
distribution. -/
theorem C124_isotropic (R : Space ≃ₗᵢ[ℝ] Space) {S : Set Space} (hS : MeasurableSet S) :
    (unit.prod unit) {p | R (drawnDirection p).toSpace ∈ S}
      = (unit.prod unit) {p | (drawnDirection p).toSpace ∈ S} := by
  have hR : MeasurableSet (R ⁻¹' S) := R.continuous.measurable hS
  have h := C124_uniform hR
  rw [C124_uniform hS, ← show solidShare (R ⁻¹' S) = solidShare S from ?_]
  · exact h
  · have hset : cone (R ⁻¹' S) = R ⁻¹' cone S := by
      ext x
      show (‖x‖ < 1 ∧ R (‖x‖⁻¹ • x) ∈ S) ↔ (‖R x‖ < 1 ∧ ‖R x‖⁻¹ • R x ∈ S)
      rw [R.norm_map, map_smul]
    rw [solidShare, solidShare, hset, R.measurePreserving.measure_preimage_emb
      R.toHomeomorph.measurableEmbedding]

/-- **C124**, angles: the cosine of the angle with any axis is uniform in [-1, 1]. -/
theorem C124_axis {n : Space} (hn : ‖n‖ = 1) {t : ℝ} (h0 : -1 ≤ t) (h1 : t ≤ 1) :
    (unit.prod unit) {p | ⟪n, (drawnDirection p).toSpace⟫ ≤ t}
      = ENNReal.ofReal ((t + 1) / 2) := by
  have hez : ‖(place (1, 0, 0) : Space)‖ = 1 := by
    rw [← nrm_coords]
    simp [nrm, coords, place]
  obtain ⟨R, hR⟩ : ∃ R : Space ≃ₗᵢ[ℝ] Space, R n = place (1, 0, 0) :=
    ⟨_, Submodule.reflection_sub (by rw [hn, hez])⟩
  have hin : ∀ x : Space, ⟪place (1, 0, 0), x⟫ = x 2 := by
    intro x
    simp [place, PiLp.inner_apply, Fin.sum_univ_three]
  have hS : MeasurableSet {x : Space | ⟪place (1, 0, 0), x⟫ ≤ t} :=
    measurableSet_le (by fun_prop) measurable_const
  have h := C124_isotropic R hS
  have hl : {p : ℝ × ℝ | R (drawnDirection p).toSpace ∈ {x : Space | ⟪place (1, 0, 0), x⟫ ≤ t}}
      = {p | ⟪n, (drawnDirection p).toSpace⟫ ≤ t} := by
    ext p
    show ⟪place (1, 0, 0), R _⟫ ≤ t ↔ _
    rw [← hR, R.inner_map_map]
    rfl
  have hr : {p : ℝ × ℝ | (drawnDirection p).toSpace ∈ {x : Space | ⟪place (1, 0, 0), x⟫ ≤ t}}
      = {p | p.1 * 2 ≤ t + 1} := by
    ext p
    show ⟪place (1, 0, 0), _⟫ ≤ t ↔ _
    rw [hin, drawn_place]
    show spread (-1) 1 p.1 ≤ t ↔ p.1 * 2 ≤ t + 1
    unfold spread
    constructor <;> intro h <;> linarith
  rw [hl, hr] at h
  rw [h]
  have hpr : {p : ℝ × ℝ | p.1 * 2 ≤ t + 1} = Prod.fst ⁻¹' {u : ℝ | u * 2 ≤ t + 1} := rfl
  have hms : MeasurableSet {u : ℝ | u * 2 ≤ t + 1} := measurableSet_le (by fun_prop) (by fun_prop)
  rw [hpr, (measurePreserving_fst (μ := unit) (ν := unit)).measure_preimage hms.nullMeasurableSet,
    unit_accept (by norm_num) (by linarith) (by linarith)]

/-! ## What the program does with such directions -/

theorem drawn_cosine {p : ℝ × ℝ} (hp : 0 ≤ p.1 ∧ p.1 < 1) : (drawnAngles p).1 ^ 2 ≤ 1 := by
  rw [drawn_angles]
  simp only [spread]
  nlinarith [hp.1, hp.2]

theorem unit_ae : ∀ᵐ p ∂(unit.prod unit), 0 ≤ p.1 ∧ p.1 < 1 := by
  have h : ∀ᵐ u ∂unit, 0 ≤ u ∧ u < 1 := ae_restrict_mem measurableSet_Ico
  exact (Measure.quasiMeasurePreserving_fst (μ := unit) (ν := unit)).ae h

/-- **C124**, projectiles: once random directions were asked for, and whatever was done
before, the direction in which the projectile of an event moves afterwards is
isotropic, with `n` its momentum. -/
theorem C124_projectile {r0 : Rotator} (h0 : Rotator.make ⟨0, 0, 1⟩ = .ok r0) (ops : List RotOp)
    (hops : DrawsOk ops) (hr : (rotRun r0 ops).randomize = true) {ev : Event ℝ} {p : Particle ℝ}
    {ps : List (Particle ℝ)} (he : ev.initial = p :: ps) {pdir : V3} {n : ℝ} (hn : 0 < n)
    (hu : dot pdir pdir = 1) (hp : momentumOf p = ⟨n * pdir.x, n * pdir.y, n * pdir.z⟩)
    {S : Set Space} (hS : MeasurableSet S) :
    (unit.prod unit) {q | ∃ r' ev' p' ps', (rotRun r0 ops).process ev (drawnAngles q).1
        (drawnAngles q).2 = .ok (r', ev') ∧ ev'.initial = p' :: ps' ∧
        n⁻¹ • (momentumOf p').toSpace ∈ S} = solidShare S := by
  rw [← C124_uniform hS]
  refine measure_congr ?_
  filter_upwards [unit_ae] with q hq
  obtain ⟨r', ev', h1, h2, -⟩ := C49_rotated h0 ops hops he (drawnAngles q).2 (drawn_cosine hq)
    ⟨hu, n, hn, hp⟩
  obtain ⟨p', ps', h3, h4, -⟩ := C49_projectile_direction he hp h2
  have h5 : n⁻¹ • (momentumOf p').toSpace = (drawnDirection q).toSpace := by
    rw [h4, wanted, if_pos hr]
    ext i
    fin_cases i <;> simp [V3.toSpace, drawnDirection, hn.ne']
  refine propext ⟨?_, fun h => ⟨r', ev', p', ps', h1, h3, ?_⟩⟩
  · rintro ⟨r1, ev1, p1, ps1, g1, g3, g4⟩
    rw [h1] at g1
    cases g1
    rw [h3] at g3
    cases g3
    show (drawnDirection q).toSpace ∈ S
    rwa [← h5]
  · rw [h5]
    exact h

/-- **C124**, decays: a particle at rest that decays into two sends them out in
opposite directions with a momentum `k` that does not depend on the draws, the first
one into an isotropic direction. -/
theorem C124_decay {t a b : Particle ℝ} (hm : a.mass + b.mass ≤ t.mass) (ht : 0 < t.mass)
    (hE : t.E ≠ 0) (hx : t.px = 0) (hy : t.py = 0) (hz : t.pz = 0) :
    ∃ k : ℝ, ∀ q : ℝ × ℝ, ∃ a' b',
      Kin.twoBodyDecay t a b (drawnAngles q).1 (drawnAngles q).2 = .ok (a', b') ∧
      (momentumOf a').toSpace = k • (drawnDirection q).toSpace ∧
      (momentumOf b').toSpace = -(k • (drawnDirection q).toSpace) := by
  refine ⟨Utils.realSqrt ((if (t.mass ^ 2 - b.mass ^ 2 + a.mass ^ 2) / (2 * t.mass) < a.mass
    then a.mass else (t.mass ^ 2 - b.mass ^ 2 + a.mass ^ 2) / (2 * t.mass)) ^ 2 - a.mass ^ 2),
    fun q => ?_⟩
  have hb : ∀ p, Kin.lorentzBoost (-0 / t.E) (-0 / t.E) (-0 / t.E) p = .ok p := by
    intro p
    norm_num [Kin.lorentzBoost, Kin.beta2]
  simp only [Kin.twoBodyDecay]
  rw [if_neg (not_lt.2 hm), if_neg (by simp [ht.ne', hE]), hx, hy, hz]
  simp only [hb]
  refine ⟨_, _, rfl, ?_, ?_⟩ <;>
  · ext i
    fin_cases i <;>
      simp [V3.toSpace, momentumOf, Kin.setMomentum, drawnDirection, isotropicDirection, mul_assoc]

/-- **C124**, decays in flight: they are decays at rest seen from a frame in which the
parent moves. -/
theorem C124_in_flight {t a b a' b' : Particle ℝ} {c phi : ℝ}
    (h : Kin.twoBodyDecay t a b c phi = .ok (a', b')) :
    ∃ a0 b0, Kin.twoBodyDecay { t with E := t.mass, px := 0, py := 0, pz := 0 } a b c phi
        = .ok (a0, b0) ∧
      Kin.lorentzBoost (-t.px / t.E) (-t.py / t.E) (-t.pz / t.E) a0 = .ok a' ∧
      Kin.lorentzBoost (-t.px / t.E) (-t.py / t.E) (-t.pz / t.E) b0 = .ok b' := by
  have hb : ∀ p, Kin.lorentzBoost (-0 / t.mass) (-0 / t.mass) (-0 / t.mass) p = .ok p := by
    intro p
    norm_num [Kin.lorentzBoost, Kin.beta2]
  simp only [Kin.twoBodyDecay] at h ⊢
  by_cases h1 : t.mass < a.mass + b.mass
  · rw [if_pos h1] at h
    cases h
  by_cases h2 : t.mass = 0 ∨ t.E = 0
  · rw [if_neg h1, if_pos h2] at h
    cases h
  rw [if_neg h1, if_neg h2] at h
  rw [if_neg h1, if_neg (by simpa using fun h => h2 (Or.inl h))]
  simp only [hb]
  refine ⟨_, _, rfl, ?_⟩
  split at h
  · cases h
  · rename_i x hx
    split at h
    · cases h
    · rename_i y hy
      cases h
      exact ⟨hx, hy⟩

-- half of all directions point up
example : (unit.prod unit) {p | ⟪(!₂[3/5, 0, 4/5] : Space), (drawnDirection p).toSpace⟫ ≤ 0}
    = ENNReal.ofReal ((0 + 1) / 2) := by
  refine C124_axis ?_ (by norm_num) (by norm_num)
  rw [EuclideanSpace.norm_eq, Fin.sum_univ_three]
  simp only [PiLp.toLp_apply, Matrix.cons_val]
  norm_num

-- a rotator asked for random directions after an event, and a moving projectile
example : ∃ r0, Rotator.make ⟨0, 0, 1⟩ = .ok r0 ∧
    (rotRun r0 [.process ⟨[⟨12, 1, 0, 0, 1, 0, 0⟩], [], 0, 0, ⟨true⟩⟩ 0 0,
      .setRandomize true]).randomize = true := by
  obtain ⟨u, h1, -⟩ := isDirection_normalize (v := ⟨0, 0, 1⟩) (by simp [V3.Nonzero])
  exact ⟨_, by rw [Rotator.make, if_neg (by norm_num), h1], rfl⟩

-- a decay into a photon and a lighter nucleus
example : ∃ k : ℝ, ∀ q : ℝ × ℝ, ∃ a' b',
    Kin.twoBodyDecay ⟨1, 5, 0, 0, 0, 5, 0⟩ ⟨22, 0, 0, 0, 0, 0, 0⟩ ⟨1, 3, 0, 0, 0, 3, 0⟩
      (drawnAngles q).1 (drawnAngles q).2 = .ok (a', b') ∧
    (momentumOf a').toSpace = k • (drawnDirection q).toSpace ∧
    (momentumOf b').toSpace = -(k • (drawnDirection q).toSpace) :=
  C124_decay (by norm_num) (by norm_num) (by norm_num) rfl rfl rfl

end Marley.Props
