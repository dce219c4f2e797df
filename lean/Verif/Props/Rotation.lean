import Verif.Lemmas.Rotation
import Verif.Spec.Kinematics

/-!
# Rotations: C48, C49

Vocabulary in Verif/Spec/Rotation.lean.
-/

set_option autoImplicit false

namespace Marley.Props
open Marley Marley.Kin Marley.Rot

theorem isDirection_normalize {v : V3} (h : v.Nonzero) :
    ∃ u, normalize v = .ok u ∧ IsDirection v u := by
  obtain ⟨n, h1, h2, h3⟩ := normalize_ok h
  refine ⟨_, h3, unit_of_scaled h1 h2, n, h1, ?_⟩
  ext <;> dsimp only <;> field_simp

theorem isDirection_unique {v u w : V3} (h1 : IsDirection v u) (h2 : IsDirection v w) : u = w := by
  obtain ⟨a1, n, n0, a2⟩ := h1
  obtain ⟨b1, k, k0, b2⟩ := h2
  rw [a2] at b2
  simp only [V3.mk.injEq] at b2
  obtain ⟨c1, c2, c3⟩ := b2
  have hnk : n ^ 2 = k ^ 2 := by
    simp only [dot] at a1 b1
    have e1 : (n * u.x) ^ 2 + (n * u.y) ^ 2 + (n * u.z) ^ 2 = n ^ 2 := by
      linear_combination n ^ 2 * a1
    rw [c1, c2, c3] at e1
    linear_combination -e1 + k ^ 2 * b1
  have hk : n = k := by nlinarith
  subst hk
  ext
  · exact mul_left_cancel₀ n0.ne' c1
  · exact mul_left_cancel₀ n0.ne' c2
  · exact mul_left_cancel₀ n0.ne' c3

/-! ## C48 -/

/-- C48: the matrix built from two nonzero vectors is a proper rotation that
turns the direction of the first into the direction of the second. -/
theorem C48_rotation {a b a' b' : V3} (ha : IsDirection a a') (hb : IsDirection b b') :
    ∃ m, rotationMatrix a b = .ok m ∧ IsRotation m ∧ rotate m a' = b' := by
  have nz : ∀ {v u : V3}, IsDirection v u → v.Nonzero := by
    rintro v u ⟨h1, n, n0, h2⟩ ⟨e1, e2, e3⟩
    rw [h2] at e1 e2 e3
    simp only [mul_eq_zero, n0.ne', false_or] at e1 e2 e3
    simp [dot, e1, e2, e3] at h1
  have na := nz ha
  have nb := nz hb
  obtain ⟨ua, h1, h2⟩ := isDirection_normalize na
  obtain ⟨ub, h3, h4⟩ := isDirection_normalize nb
  rw [rotationMatrix, if_neg na, if_neg nb, h1, h3, isDirection_unique h2 ha,
    isDirection_unique h4 hb]
  dsimp only
  split_ifs with h
  · exact ⟨_, rfl, near_isRotation ha.1 h, near_maps ha.1 hb.1 h⟩
  · refine ⟨_, rfl, generic_isRotation ha.1 hb.1 ?_, generic_maps ha.1⟩
    have := (abs_le.1 (not_lt.1 h)).1
    intro h0; linarith

/-- C48: every nonzero vector has exactly one direction, so the previous theorem
covers every pair of nonzero vectors. -/
theorem C48_direction_exists {a : V3} (ha : a.Nonzero) : ∃! u, IsDirection a u :=
  let ⟨u, _, h⟩ := isDirection_normalize ha
  ⟨u, h, fun _ h' => isDirection_unique h' h⟩

/-- C48: a null vector is rejected with `marley::Error`. -/
theorem C48_null_rejected (a b : V3) (h : ¬a.Nonzero ∨ ¬b.Nonzero) :
    rotationMatrix a b = .error .marleyError := by
  rw [rotationMatrix]
  split_ifs with h1 h2
  · rfl
  · rfl
  · rcases h with h | h
    · exact absurd h1 h
    · exact absurd h2 h

-- both branches are met: opposite vectors and perpendicular ones
example : IsDirection ⟨0, 0, 2⟩ ⟨0, 0, 1⟩ ∧ IsDirection ⟨0, 0, -3⟩ ⟨0, 0, -1⟩ ∧
    IsDirection ⟨3, 4, 0⟩ ⟨3/5, 4/5, 0⟩ := by
  refine ⟨⟨by norm_num [dot], 2, by norm_num, by norm_num⟩,
    ⟨by norm_num [dot], 3, by norm_num, by norm_num⟩,
    ⟨by norm_num [dot], 5, by norm_num, by norm_num⟩⟩
example : ¬ (⟨0, 0, 0⟩ : V3).Nonzero := by simp [V3.Nonzero]

/-! ## C49 -/

/-- What can be done to a rotator. -/
inductive RotOp where
  /-- `set_projectile_direction` -/
  | setDirection (d : V3)
  /-- `set_randomize_directions` -/
  | setRandomize (b : Bool)
  /-- `process_event`, with the two draws used if directions are random -/
  | process (ev : Event ℝ) (cosTheta phi : ℝ)

/-- The rotator after an operation; a throwing operation leaves it as it was. -/
noncomputable def rotStep (r : Rotator) : RotOp → Rotator
  | .setDirection d => match r.setDirection d with
    | .ok r' => r'
    | .error _ => r
  | .setRandomize b => r.setRandomize b
  | .process ev c phi => match r.process ev c phi with
    | .ok (r', _) => r'
    | .error _ => r

/-- Invariant: the stored matrix turns the last projectile direction into the
configured one, unless the last direction is marked as equal to the configured
one. -/
structure RotInv (r : Rotator) : Prop where
  unit : dot r.dir r.dir = 1
  mat : r.last ≠ r.dir → IsRotation r.mat ∧ rotate r.mat r.last = r.dir

theorem rotInv_default {r : Rotator} (h : Rotator.make ⟨0, 0, 1⟩ = .ok r) : RotInv r := by
  obtain ⟨u, h1, h2⟩ := isDirection_normalize (v := ⟨0, 0, 1⟩) (by simp [V3.Nonzero])
  have h3 : u = ⟨0, 0, 1⟩ :=
    isDirection_unique h2 ⟨by norm_num [dot], 1, by norm_num, by norm_num⟩
  subst h3
  rw [Rotator.make, if_neg (by norm_num), h1] at h
  cases h
  exact ⟨by norm_num [dot], fun h => absurd rfl h⟩

theorem rotInv_setDirection {r r' : Rotator} {d : V3} (h : r.setDirection d = .ok r') :
    RotInv r' ∧ IsDirection d r'.dir ∧ r'.randomize = r.randomize := by
  rw [Rotator.setDirection] at h
  have hd : d.Nonzero := by
    rintro ⟨e1, e2, e3⟩
    have : normalize d = .error .marleyError := by
      simp [Rot.normalize, e1, e2, e3]
    rw [this] at h; cases h
  obtain ⟨u, h1, h2⟩ := isDirection_normalize hd
  rw [h1] at h
  cases h
  exact ⟨⟨h2.1, fun h => absurd rfl h⟩, h2, rfl⟩

theorem setDirection_ok {r : Rotator} {d : V3} (hd : d.Nonzero) :
    ∃ r', r.setDirection d = .ok r' := by
  obtain ⟨u, h1, -⟩ := isDirection_normalize hd
  exact ⟨_, by rw [Rotator.setDirection, h1]⟩

theorem turned (m : Mat) (l : List (Particle ℝ)) :
    List.Forall₂ (TurnedBy m) l (l.map (rotateParticle m)) := by
  induction l with
  | nil => exact .nil
  | cons p l ih => exact .cons ⟨rfl, rfl, rfl, rfl, rfl⟩ ih

theorem identity_rotation : IsRotation identity ∧ ∀ v, rotate identity v = v := by
  refine ⟨⟨fun v w => ?_, ?_⟩, fun v => ?_⟩
  · simp [rotate, identity, dot]
  · simp [det, identity, dot, cross]
  · simp [rotate, identity, dot]

theorem turned_identity (l : List (Particle ℝ)) : List.Forall₂ (TurnedBy identity) l l := by
  induction l with
  | nil => exact .nil
  | cons p l ih => exact .cons ⟨(identity_rotation.2 _).symm, rfl, rfl, rfl, rfl⟩ ih

/-- The event `ev'` is `ev` with all momenta turned by one rotation which takes
`pdir` to `dir`. -/
def EventTurned (pdir dir : V3) (ev ev' : Event ℝ) : Prop :=
  ∃ m, IsRotation m ∧ rotate m pdir = dir ∧ List.Forall₂ (TurnedBy m) ev.initial ev'.initial ∧
    List.Forall₂ (TurnedBy m) ev.final ev'.final ∧ ev'.Ex = ev.Ex ∧ ev'.twoJ = ev.twoJ ∧
    ev'.parity = ev.parity

theorem apply_spec {r : Rotator} (hr : RotInv r) {pdir : V3} (hp : dot pdir pdir = 1)
    (ev : Event ℝ) : ∃ r' ev', r.apply pdir ev = .ok (r', ev') ∧ RotInv r' ∧ r'.dir = r.dir ∧
      r'.randomize = r.randomize ∧ EventTurned pdir r.dir ev ev' := by
  rw [Rotator.apply]
  split_ifs with h1 h2
  · exact ⟨r, ev, rfl, hr, rfl, rfl, identity, identity_rotation.1,
      by rw [identity_rotation.2, h1], turned_identity _, turned_identity _, rfl, rfl, rfl⟩
  · obtain ⟨m, m1, m2, m3⟩ := C48_rotation
      (⟨hp, 1, one_pos, by simp⟩ : IsDirection pdir pdir)
      (⟨hr.unit, 1, one_pos, by simp⟩ : IsDirection r.dir r.dir)
    rw [m1]
    exact ⟨_, _, rfl, ⟨hr.unit, fun _ => ⟨m2, m3⟩⟩, rfl, rfl, m, m2, m3, turned _ _, turned _ _,
      rfl, rfl, rfl⟩
  · have h3 : pdir = r.last := not_not.1 h2
    obtain ⟨m2, m3⟩ := hr.mat (fun h => h1 (h3.trans h))
    rw [← h3] at m3
    exact ⟨_, _, rfl, hr, rfl, rfl, r.mat, m2, m3, turned _ _, turned _ _, rfl, rfl, rfl⟩

theorem isotropic_unit {c phi : ℝ} (hc : c ^ 2 ≤ 1) :
    dot (isotropicDirection c phi) (isotropicDirection c phi) = 1 := by
  have h : Utils.realSqrt (1 - c ^ 2) ^ 2 = 1 - c ^ 2 := by
    rw [Utils.realSqrt, if_neg (by linarith), Real.sq_sqrt (by linarith)]
  simp only [isotropicDirection, dot]
  linear_combination (Utils.realSqrt (1 - c ^ 2) ^ 2) * Real.sin_sq_add_cos_sq phi + h

theorem nonzero_of_unit {v : V3} (h : dot v v = 1) : v.Nonzero := by
  rintro ⟨e1, e2, e3⟩; simp [dot, e1, e2, e3] at h

/-- The direction in which `process` will put the projectile. -/
noncomputable def wanted (r : Rotator) (c phi : ℝ) : V3 :=
  if r.randomize then isotropicDirection c phi else r.dir

theorem process_spec {r : Rotator} (hr : RotInv r) {ev : Event ℝ} {p : Particle ℝ}
    {ps : List (Particle ℝ)} (he : ev.initial = p :: ps) {c : ℝ} (phi : ℝ) (hc : c ^ 2 ≤ 1)
    {pdir : V3} (hp : IsDirection (momentumOf p) pdir) :
    ∃ r' ev', r.process ev c phi = .ok (r', ev') ∧ RotInv r' ∧ r'.dir = wanted r c phi ∧
      r'.randomize = r.randomize ∧ EventTurned pdir (wanted r c phi) ev ev' := by
  obtain ⟨hu, n, n0, hn⟩ := hp
  simp only [momentumOf, V3.mk.injEq] at hn
  obtain ⟨e1, e2, e3⟩ := hn
  have hm : momentum p = n := by
    rw [momentum, e1, e2, e3]
    have : (n * pdir.x) ^ 2 + (n * pdir.y) ^ 2 + (n * pdir.z) ^ 2 = n ^ 2 := by
      simp only [dot] at hu; linear_combination n ^ 2 * hu
    rw [this, Real.sqrt_sq n0.le]
  have hd : (⟨p.px / n, p.py / n, p.pz / n⟩ : V3) = pdir := by
    rw [e1, e2, e3]; ext <;> dsimp only <;> field_simp
  simp only [Rotator.process, he, hm, hd]
  rw [if_neg (not_le.2 n0)]
  by_cases hrand : r.randomize = true
  · simp only [wanted, hrand, if_true]
    obtain ⟨r1, h1⟩ := setDirection_ok (r := r) (nonzero_of_unit (isotropic_unit (phi := phi) hc))
    rw [h1]
    obtain ⟨i1, i2, i3⟩ := rotInv_setDirection h1
    have i4 : r1.dir = isotropicDirection c phi :=
      isDirection_unique i2 ⟨isotropic_unit hc, 1, one_pos, by simp⟩
    obtain ⟨r', ev', a1, a2, a3, a4, a5⟩ := apply_spec i1 hu ev
    exact ⟨r', ev', a1, a2, a3.trans i4, by rw [a4, i3, hrand], i4 ▸ a5⟩
  · simp only [Bool.not_eq_true] at hrand
    simp only [wanted, hrand, Bool.false_eq_true, if_false]
    obtain ⟨r', ev', a1, a2, a3, a4, a5⟩ := apply_spec hr hu ev
    exact ⟨r', ev', a1, a2, a3, by rw [a4, hrand], a5⟩

theorem rotInv_step {r : Rotator} (hr : RotInv r) (op : RotOp)
    (hop : ∀ ev c phi, op = .process ev c phi → c ^ 2 ≤ 1) : RotInv (rotStep r op) := by
  cases op with
  | setDirection d =>
    simp only [rotStep]
    cases h : r.setDirection d with
    | ok r' => exact (rotInv_setDirection h).1
    | error e => exact hr
  | setRandomize b => exact ⟨hr.unit, hr.mat⟩
  | process ev c phi =>
    have hc := hop ev c phi rfl
    simp only [rotStep]
    rcases he : ev.initial with _ | ⟨p, ps⟩
    · simp only [Rotator.process, he]; exact hr
    · by_cases hm : (momentumOf p).Nonzero
      · obtain ⟨u, -, hu⟩ := isDirection_normalize hm
        obtain ⟨r', ev', h1, h2, -⟩ := process_spec hr he phi hc hu
        rw [h1]; exact h2
      · have : momentum p = 0 := by
          simp only [V3.Nonzero, not_not, momentumOf] at hm
          rw [momentum, hm.1, hm.2.1, hm.2.2]; simp
        simp only [Rotator.process, he, this]
        rw [if_pos le_rfl]; exact hr

/-- The state after a sequence of operations on a default-constructed rotator. -/
noncomputable def rotRun (r : Rotator) (ops : List RotOp) : Rotator := ops.foldl rotStep r

/-- Cosines drawn by the generator lie between -1 and 1. -/
def DrawsOk (ops : List RotOp) : Prop :=
  ∀ ev c phi, RotOp.process ev c phi ∈ ops → c ^ 2 ≤ 1

theorem rotInv_run {r : Rotator} (hr : RotInv r) (ops : List RotOp) (h : DrawsOk ops) :
    RotInv (rotRun r ops) := by
  induction ops generalizing r with
  | nil => exact hr
  | cons op ops ih =>
    exact ih (rotInv_step hr op (fun ev c phi e => h ev c phi (by simp [e])))
      (fun ev c phi hm => h ev c phi (by simp [hm]))

/-- C49: whatever was done before with a default-constructed rotator, processing
an event whose projectile moves in direction `pdir` turns all its particles by
one proper rotation, which takes `pdir` to the configured direction (the random
one if random directions were requested); nothing else in the event changes. -/
theorem C49_rotated {r0 : Rotator} (h0 : Rotator.make ⟨0, 0, 1⟩ = .ok r0) (ops : List RotOp)
    (hops : DrawsOk ops) {ev : Event ℝ} {p : Particle ℝ} {ps : List (Particle ℝ)}
    (he : ev.initial = p :: ps) {c : ℝ} (phi : ℝ) (hc : c ^ 2 ≤ 1) {pdir : V3}
    (hp : IsDirection (momentumOf p) pdir) :
    ∃ r' ev', (rotRun r0 ops).process ev c phi = .ok (r', ev') ∧
      EventTurned pdir (wanted (rotRun r0 ops) c phi) ev ev' ∧
      r'.dir = wanted (rotRun r0 ops) c phi ∧ r'.randomize = (rotRun r0 ops).randomize :=
  let ⟨r', ev', h1, _, h3, h4, h5⟩ := process_spec (rotInv_run (rotInv_default h0) ops hops) he phi hc hp
  ⟨r', ev', h1, h5, h3, h4⟩

/-- C49: in such an event the projectile moves along the configured direction
with unchanged speed. -/
theorem C49_projectile_direction {pdir dir : V3} {ev ev' : Event ℝ} {p : Particle ℝ}
    {ps : List (Particle ℝ)} (he : ev.initial = p :: ps) {n : ℝ}
    (hp : momentumOf p = ⟨n * pdir.x, n * pdir.y, n * pdir.z⟩) (h : EventTurned pdir dir ev ev') :
    ∃ p' ps', ev'.initial = p' :: ps' ∧ momentumOf p' = ⟨n * dir.x, n * dir.y, n * dir.z⟩ ∧
      p'.E = p.E := by
  obtain ⟨m, h1, h2, h3, -⟩ := h
  rw [he] at h3
  generalize ev'.initial = l at h3
  cases h3 with
  | cons hpp hrest =>
    refine ⟨_, _, rfl, ?_, hpp.2.1⟩
    rw [hpp.1, hp, rotate_scale, h2]

/-- C49: products of four-momenta of any two particles turned by one rotation are
unchanged. -/
theorem C49_products {m : Mat} (hm : IsRotation m) {p p' q q' : Particle ℝ} (hp : TurnedBy m p p')
    (hq : TurnedBy m q q') : mink p' q' = mink p q := by
  have h := hm.isometry (momentumOf p) (momentumOf q)
  rw [← hp.1, ← hq.1] at h
  simp only [momentumOf, dot] at h
  rw [mink, mink, hp.2.1, hq.2.1, h]

/-- C49: the configured direction is that of the last accepted
`set_projectile_direction`, until the next one or until a random direction is
drawn. -/
theorem C49_configured (r : Rotator) :
    (∀ d : V3, d.Nonzero → IsDirection d (rotStep r (.setDirection d)).dir) ∧
    (∀ d : V3, ¬d.Nonzero → rotStep r (.setDirection d) = r) ∧
    (∀ b, (rotStep r (.setRandomize b)).dir = r.dir ∧ (rotStep r (.setRandomize b)).randomize = b) := by
  refine ⟨fun d hd => ?_, fun d hd => ?_, fun b => ⟨rfl, rfl⟩⟩
  · obtain ⟨r', h⟩ := setDirection_ok (r := r) hd
    simp only [rotStep, h]
    exact (rotInv_setDirection h).2.1
  · simp only [V3.Nonzero, not_not] at hd
    have : normalize d = .error .marleyError := by simp [Rot.normalize, hd.1, hd.2.1, hd.2.2]
    simp [rotStep, Rotator.setDirection, this]

/-- C49: an event whose projectile does not move is left alone. -/
theorem C49_at_rest (r : Rotator) {ev : Event ℝ} {p : Particle ℝ} {ps : List (Particle ℝ)}
    (he : ev.initial = p :: ps) (hp : ¬(momentumOf p).Nonzero) (c phi : ℝ) :
    r.process ev c phi = .ok (r, ev) := by
  have : momentum p = 0 := by
    simp only [V3.Nonzero, not_not, momentumOf] at hp
    rw [momentum, hp.1, hp.2.1, hp.2.2]; simp
  simp only [Rotator.process, he, this]
  rw [if_pos le_rfl]

/-- The full property fails for a rotator constructed with a direction other than
z: the first event with a projectile along z is not turned at all. -/
theorem C49_constructor_violated :
    ∃ (r r' : Rotator) (ev : Event ℝ) (p : Particle ℝ),
      Rotator.make ⟨1, 0, 0⟩ = .ok r ∧ ev.initial = [p] ∧ momentumOf p = ⟨0, 0, 1⟩ ∧
      r.process ev 0 0 = .ok (r', ev) := by
  obtain ⟨u, h1, h2⟩ := isDirection_normalize (v := ⟨1, 0, 0⟩) (by simp [V3.Nonzero])
  have h3 : u = ⟨1, 0, 0⟩ :=
    isDirection_unique h2 ⟨by norm_num [dot], 1, by norm_num, by norm_num⟩
  subst h3
  have hm : momentum (⟨12, 1, 0, 0, 1, 0, 0⟩ : Particle ℝ) = 1 := by simp [momentum]
  refine ⟨{ Rotator.fresh ⟨1, 0, 0⟩ with dir := ⟨1, 0, 0⟩ },
    { Rotator.fresh ⟨1, 0, 0⟩ with dir := ⟨1, 0, 0⟩ },
    ⟨[⟨12, 1, 0, 0, 1, 0, 0⟩], [], 0, 0, ⟨true⟩⟩, ⟨12, 1, 0, 0, 1, 0, 0⟩,
    by rw [Rotator.make, if_neg (by norm_num), h1], rfl, rfl, ?_⟩
  simp [Rotator.process, hm, Rotator.fresh, Rotator.apply, rotateEvent, rotateParticle, rotate,
    identity, dot]

-- a default-constructed rotator exists, and a sequence of operations with valid draws
example : ∃ r, Rotator.make ⟨0, 0, 1⟩ = .ok r := by
  obtain ⟨u, h1, -⟩ := isDirection_normalize (v := ⟨0, 0, 1⟩) (by simp [V3.Nonzero])
  exact ⟨_, by rw [Rotator.make, if_neg (by norm_num), h1]⟩
example : DrawsOk [.setDirection ⟨1, 1, 0⟩, .process ⟨[⟨12, 1, 0, 0, 1, 0, 0⟩], [], 0, 0, ⟨true⟩⟩ 0 0,
    .setDirection ⟨0, 0, 0⟩, .setRandomize true,
    .process ⟨[⟨12, 1, 0, 0, 1, 0, 0⟩], [], 0, 0, ⟨true⟩⟩ (1/2) 1] := by
  intro ev c phi h
  simp at h
  rcases h with ⟨_, h, _⟩ | ⟨_, h, _⟩ <;> rw [h] <;> norm_num
example : IsDirection (momentumOf ⟨12, 2, 0, 0, 2, 0, 0⟩) ⟨0, 0, 1⟩ :=
  ⟨by norm_num [dot], 2, by norm_num, by norm_num [momentumOf]⟩

end Marley.Props
