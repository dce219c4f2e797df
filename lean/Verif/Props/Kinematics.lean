import Verif.Lemmas.Kinematics

/-!
# Kinematics: C34, C35, C46, C47, C77

Vocabulary in Verif/Spec/Kinematics.lean.  All statements are about exact real
arithmetic; see DESIGN.md.
-/

set_option autoImplicit false

namespace Marley.Props
open Marley Marley.Event Marley.Kin
open Marley.Utils (realSqrt)

/-! ## C46: boosts and rotations of one particle -/

/-- C46: a subluminal boost of a particle on its mass shell succeeds, leaves it
on the mass shell, does not change what particle it is, and is undone by the
boost with the opposite velocity. -/
theorem C46_boost_keeps_mass_shell {bx by' bz : ℝ} (h : bx ^ 2 + by' ^ 2 + bz ^ 2 < 1)
    {p : Particle ℝ} (hp : OnShell p) :
    ∃ p', lorentzBoost bx by' bz p = .ok p' ∧ OnShell p' ∧ SameSpecies p' p ∧
      lorentzBoost (-bx) (-by') (-bz) p' = .ok p :=
  lorentzBoost_spec h hp

/-- C46: velocities of light or more are rejected with `marley::Error`. -/
theorem C46_superluminal_rejected {bx by' bz : ℝ} (h : 1 ≤ bx ^ 2 + by' ^ 2 + bz ^ 2)
    (p : Particle ℝ) : lorentzBoost bx by' bz p = .error .marleyError := by
  have : beta2 bx by' bz = .error .marleyError := by
    rw [beta2]
    split_ifs with h1 h2
    · rfl
    · rfl
    · exact absurd (le_antisymm (not_lt.1 h2) h) h1
  rw [lorentzBoost, this]

/-- C46: products of four-momenta do not change when both particles are
boosted with the same velocity. -/
theorem C46_boost_keeps_products {bx by' bz : ℝ} {p q p' q' : Particle ℝ} (hp : OnShell p)
    (hq : OnShell q) (h1 : lorentzBoost bx by' bz p = .ok p')
    (h2 : lorentzBoost bx by' bz q = .ok q') : mink p' q' = mink p q := by
  by_cases h : bx ^ 2 + by' ^ 2 + bz ^ 2 < 1
  · by_cases h0 : bx ^ 2 + by' ^ 2 + bz ^ 2 = 0
    · rw [lorentzBoost_zero h0] at h1 h2; cases h1; cases h2; rfl
    · rw [lorentzBoost_eq h h0 hp] at h1
      rw [lorentzBoost_eq h h0 hq] at h2
      cases h1; cases h2; exact mink_boosted h h0 p q
  · rw [C46_superluminal_rejected (not_lt.1 h)] at h1; cases h1

/-- C46: a particle at rest moves with the opposite of the boost velocity
afterwards (so the boost is to the frame moving with that velocity). -/
theorem C46_boost_velocity {bx by' bz : ℝ} (h : bx ^ 2 + by' ^ 2 + bz ^ 2 < 1) {p : Particle ℝ}
    (hp : OnShell p) (hx : p.px = 0) (hy : p.py = 0) (hz : p.pz = 0) :
    ∃ p', lorentzBoost bx by' bz p = .ok p' ∧ p'.px = -bx * p'.E ∧ p'.py = -by' * p'.E ∧
      p'.pz = -bz * p'.E := by
  by_cases h0 : bx ^ 2 + by' ^ 2 + bz ^ 2 = 0
  · have b1 : bx = 0 := by nlinarith [sq_nonneg bx, sq_nonneg by', sq_nonneg bz]
    have b2 : by' = 0 := by nlinarith [sq_nonneg bx, sq_nonneg by', sq_nonneg bz]
    have b3 : bz = 0 := by nlinarith [sq_nonneg bx, sq_nonneg by', sq_nonneg bz]
    exact ⟨p, lorentzBoost_zero h0 p, by rw [hx, b1]; ring, by rw [hy, b2]; ring,
      by rw [hz, b3]; ring⟩
  · refine ⟨_, lorentzBoost_eq h h0 hp, ?_, ?_, ?_⟩ <;>
      simp only [boosted, setMomentum, hx, hy, hz] <;> ring

/-- C46: zero velocity changes nothing, whatever the particle. -/
theorem C46_zero_velocity (p : Particle ℝ) : lorentzBoost 0 0 0 p = .ok p :=
  lorentzBoost_zero (by norm_num) p

/-- C46: turning a momentum toward a nonzero direction keeps its length, gives
it that direction, and touches neither energy nor species. -/
theorem C46_rotate {x y z : ℝ} (h : (x, y, z) ≠ (0, 0, 0)) (p : Particle ℝ) :
    ∃ p' k, rotateMomentum x y z p = some p' ∧ 0 ≤ k ∧ p'.px = k * x ∧ p'.py = k * y ∧
      p'.pz = k * z ∧ p'.px ^ 2 + p'.py ^ 2 + p'.pz ^ 2 = p.px ^ 2 + p.py ^ 2 + p.pz ^ 2 ∧
      p'.E = p.E ∧ SameSpecies p' p := by
  have h2 : 0 < x ^ 2 + y ^ 2 + z ^ 2 := by
    by_contra hn
    apply h
    have e1 : x = 0 := by nlinarith [sq_nonneg x, sq_nonneg y, sq_nonneg z]
    have e2 : y = 0 := by nlinarith [sq_nonneg x, sq_nonneg y, sq_nonneg z]
    have e3 : z = 0 := by nlinarith [sq_nonneg x, sq_nonneg y, sq_nonneg z]
    rw [e1, e2, e3]
  have h3 : 0 < Real.sqrt (x ^ 2 + y ^ 2 + z ^ 2) := Real.sqrt_pos.2 h2
  have h4 := Real.sq_sqrt h2.le
  have hm : momentum p ^ 2 = p.px ^ 2 + p.py ^ 2 + p.pz ^ 2 := Real.sq_sqrt (by positivity)
  simp only [rotateMomentum]
  rw [if_neg h3.ne']
  refine ⟨_, momentum p / Real.sqrt (x ^ 2 + y ^ 2 + z ^ 2), rfl,
    div_nonneg (Real.sqrt_nonneg _) h3.le, mul_comm _ _, mul_comm _ _, mul_comm _ _, ?_, rfl,
    rfl, rfl, rfl⟩
  dsimp only
  rw [← hm]
  generalize Real.sqrt (x ^ 2 + y ^ 2 + z ^ 2) = r at h3 h4
  field_simp
  rw [h4]

/-- A particle with mass 3 and momentum 4 along z. -/
def exParticle : Particle ℝ := ⟨2212, 5, 0, 0, 4, 3, 1⟩

theorem exParticle_onShell : OnShell exParticle := by
  constructor <;> norm_num [exParticle]

-- the hypotheses of the boost theorems hold for a moving particle and a velocity of 3/5
example : ∃ p', lorentzBoost (3/5) 0 0 exParticle = .ok p' ∧ OnShell p' :=
  let ⟨p', h1, h2, _⟩ := C46_boost_keeps_mass_shell (by norm_num) exParticle_onShell
  ⟨p', h1, h2⟩
example : lorentzBoost (3/5) (4/5) 0 exParticle = .error .marleyError :=
  C46_superluminal_rejected (by norm_num) _
example : ∃ p', lorentzBoost 0 0 (1/2) ⟨2212, 3, 0, 0, 0, 3, 1⟩ = .ok p' ∧
    p'.pz = -(1/2) * p'.E :=
  let ⟨p', h1, _, _, h2⟩ := C46_boost_velocity (bx := 0) (by' := 0) (bz := 1/2)
    (p := ⟨2212, 3, 0, 0, 0, 3, 1⟩) (by norm_num) (by constructor <;> norm_num) rfl rfl rfl
  ⟨p', h1, h2⟩
example : ((1 : ℝ), (2 : ℝ), (-2 : ℝ)) ≠ (0, 0, 0) := by simp

/-! ## C47: two-body decays -/

theorem decay_energies {M m1 m2 : ℝ} (h1 : 0 ≤ m1) (h2 : 0 ≤ m2) (hM : 0 < M)
    (h : m1 + m2 ≤ M) :
    m1 ≤ (M ^ 2 - m2 ^ 2 + m1 ^ 2) / (2 * M) ∧ m2 ≤ M - (M ^ 2 - m2 ^ 2 + m1 ^ 2) / (2 * M) := by
  constructor
  · rw [le_div_iff₀ (by linarith)]; nlinarith
  · rw [le_sub_comm, div_le_iff₀ (by linarith)]; nlinarith

/-- C47: a parent lighter than the daughters together cannot decay: the call
throws `marley::Error`. -/
theorem C47_forbidden {t a b : Particle ℝ} (c phi : ℝ) (h : t.mass < a.mass + b.mass) :
    twoBodyDecay t a b c phi = .error .marleyError := by
  simp only [twoBodyDecay]; rw [if_pos h]

/-- C47: otherwise the daughters come out on their mass shells with four-momenta
adding up to that of the parent, whatever the momentum of the parent, and in the
rest frame of the parent the first daughter leaves at the requested angles, back
to back with the second. -/
theorem C47_conserves {t a b : Particle ℝ} {c : ℝ} (phi : ℝ) (ht : OnShell t) (hM : 0 < t.mass)
    (ha : 0 ≤ a.mass) (hb : 0 ≤ b.mass) (h : a.mass + b.mass ≤ t.mass) (hc : c ^ 2 ≤ 1) :
    ∃ a' b', twoBodyDecay t a b c phi = .ok (a', b') ∧ OnShell a' ∧ OnShell b' ∧
      SameSpecies a' a ∧ SameSpecies b' b ∧ SumsTo a' b' t ∧
      ∃ ar br, lorentzBoost (t.px / t.E) (t.py / t.E) (t.pz / t.E) a' = .ok ar ∧
        lorentzBoost (t.px / t.E) (t.py / t.E) (t.pz / t.E) b' = .ok br ∧
        PointsAlong ar c phi ∧ br.px = -ar.px ∧ br.py = -ar.py ∧ br.pz = -ar.pz := by
  have hE0 : 0 < t.E := lt_of_lt_of_le hM ht.mass_le
  obtain ⟨g1, g2⟩ := decay_energies ha hb hM h
  simp only [twoBodyDecay]
  rw [if_neg (not_lt.2 h), if_neg (by rintro (h | h) <;> linarith), if_neg (not_lt.2 g1),
    if_neg (not_lt.2 g2)]
  have hE1 : ∃ E1, (t.mass ^ 2 - b.mass ^ 2 + a.mass ^ 2) / (2 * t.mass) = E1 ∧
      2 * t.mass * E1 = t.mass ^ 2 - b.mass ^ 2 + a.mass ^ 2 := by
    refine ⟨_, rfl, ?_⟩; field_simp
  obtain ⟨E1, e1, e2⟩ := hE1
  rw [e1] at g1 g2 ⊢
  have hp : realSqrt (E1 ^ 2 - a.mass ^ 2) ^ 2 = E1 ^ 2 - a.mass ^ 2 :=
    realSqrt_sq (by nlinarith)
  have hs : realSqrt (1 - c ^ 2) ^ 2 = 1 - c ^ 2 := realSqrt_sq (by linarith)
  have hs' : realSqrt (1 - c ^ 2) = Real.sqrt (1 - c ^ 2) := by
    rw [realSqrt, if_neg (by linarith)]
  have hp0 := realSqrt_nonneg (E1 ^ 2 - a.mass ^ 2)
  generalize realSqrt (E1 ^ 2 - a.mass ^ 2) = p at hp hp0
  rw [hs'] at hs ⊢
  generalize hS : Real.sqrt (1 - c ^ 2) = s at hs
  have hmom : (p * s * Real.cos phi) ^ 2 + (p * s * Real.sin phi) ^ 2 + (p * c) ^ 2 =
      E1 ^ 2 - a.mass ^ 2 := by
    have := Real.sin_sq_add_cos_sq phi
    linear_combination (p ^ 2 * s ^ 2) * this + p ^ 2 * hs + hp
  have oa : OnShell (setMomentum a E1 (p * s * Real.cos phi) (p * s * Real.sin phi) (p * c)) := by
    refine ⟨?_, le_trans ha g1, ha⟩
    simp only [setMomentum]; linarith
  have ob : OnShell (setMomentum b (t.mass - E1) (-(p * s * Real.cos phi))
      (-(p * s * Real.sin phi)) (-(p * c))) := by
    refine ⟨?_, le_trans hb g2, hb⟩
    simp only [setMomentum]; nlinarith
  obtain ⟨a', b', h1, h2, h3, h4, h5, h6, h7, h8, h9⟩ := boost_pair ht hM oa ob
    (by simp [setMomentum]) (by simp [setMomentum]) (by simp [setMomentum]) (by simp [setMomentum])
  rw [h1, h2]
  refine ⟨a', b', rfl, h3, h4, h5, h6, h7, _, _, h8, h9, ⟨p, hp0, ?_⟩, rfl, rfl, rfl⟩
  rw [hS]
  exact ⟨mul_assoc _ _ _, mul_assoc _ _ _, rfl⟩

-- a moving parent of mass 3 decaying to a photon and a daughter of mass 1
example : ∃ a' b', twoBodyDecay exParticle ⟨22, 0, 0, 0, 0, 0, 0⟩ ⟨2212, 0, 0, 0, 0, 1, 1⟩ (1/2) 1
    = .ok (a', b') ∧ SumsTo a' b' exParticle :=
  let ⟨a', b', h1, _, _, _, _, h2, _⟩ := C47_conserves (t := exParticle)
    (a := ⟨22, 0, 0, 0, 0, 0, 0⟩) (b := ⟨2212, 0, 0, 0, 0, 1, 1⟩) (c := 1/2) 1 exParticle_onShell
    (by norm_num [exParticle]) (by norm_num) (by norm_num) (by norm_num [exParticle]) (by norm_num)
  ⟨a', b', h1, h2⟩
example : twoBodyDecay exParticle ⟨22, 0, 0, 0, 0, 0, 0⟩ ⟨2212, 0, 0, 0, 0, 4, 1⟩ (1/2) 1
    = .error .marleyError := C47_forbidden _ _ (by norm_num [exParticle])

/-! ## C77: invariant mass of a pair and its center-of-momentum frame -/

theorem OnShell.rest {p : Particle ℝ} (h : OnShell p) (he : p.E = p.mass) :
    p.px = 0 ∧ p.py = 0 ∧ p.pz = 0 := by
  have := h.shell
  rw [he] at this
  refine ⟨?_, ?_, ?_⟩ <;> nlinarith [sq_nonneg p.px, sq_nonneg p.py, sq_nonneg p.pz]

/-- The product of the four-momenta of two particles on their mass shells is at
least that of their masses. -/
theorem mink_ge {p q : Particle ℝ} (hp : OnShell p) (hq : OnShell q) :
    p.mass * q.mass ≤ mink p q := by
  have h1 := hp.shell
  have h2 := hq.shell
  set d := p.px * q.px + p.py * q.py + p.pz * q.pz with hd
  have cs : (d + p.mass * q.mass) ^ 2 ≤ (p.E * q.E) ^ 2 := by
    rw [mul_pow, h1, h2, hd]
    nlinarith [sq_nonneg (p.px * q.py - p.py * q.px), sq_nonneg (p.px * q.pz - p.pz * q.px),
      sq_nonneg (p.py * q.pz - p.pz * q.py), sq_nonneg (p.px * q.mass - q.px * p.mass),
      sq_nonneg (p.py * q.mass - q.py * p.mass), sq_nonneg (p.pz * q.mass - q.pz * p.mass)]
  have := (abs_le_of_sq_le_sq' cs (mul_nonneg hp.energy hq.energy)).2
  simp only [mink]; linarith

/-- C77: `get_mandelstam_s` is the square of the total four-momentum, in every
frame, as soon as one of the particles is massive. -/
theorem C77_mandelstam {p q : Particle ℝ} (hp : OnShell p) (hq : OnShell q) (hm : 0 < p.mass) :
    mandelstamS p q = .ok ((p.E + q.E) ^ 2 -
      ((p.px + q.px) ^ 2 + (p.py + q.py) ^ 2 + (p.pz + q.pz) ^ 2)) := by
  have s1 := hp.shell
  have s2 := hq.shell
  have ge := mink_ge hp hq
  simp only [mink] at ge
  simp only [mandelstamS]
  split_ifs with h1 h2 h3
  · obtain ⟨e1, e2, e3⟩ := OnShell.rest hp h1
    rw [e1, e2, e3, h1, Except.ok.injEq]; nlinarith
  · obtain ⟨e1, e2, e3⟩ := OnShell.rest hq h2
    rw [e1, e2, e3, h2, Except.ok.injEq]; nlinarith
  · have := lt_of_lt_of_le hm hp.mass_le
    have := hq.energy
    linarith
  · have hE : 0 < p.E + q.E := by
      have := lt_of_lt_of_le hm hp.mass_le
      have := hq.energy
      linarith
    generalize hEE : p.E + q.E = E at *
    have hs : (p.mass + q.mass) ^ 2 ≤
        E ^ 2 - ((p.px + q.px) ^ 2 + (p.py + q.py) ^ 2 + (p.pz + q.pz) ^ 2) := by
      rw [← hEE]; nlinarith
    have hs0 : 0 < (p.mass + q.mass) ^ 2 := by
      have := hq.mass; positivity
    generalize p.px + q.px = X at *
    generalize p.py + q.py = Y at *
    generalize p.pz + q.pz = Z at *
    have e1 : 1 - ((X / E) ^ 2 + (Y / E) ^ 2 + (Z / E) ^ 2) =
        (E ^ 2 - (X ^ 2 + Y ^ 2 + Z ^ 2)) / E ^ 2 := by field_simp
    have e2 : (X / E) ^ 2 + (Y / E) ^ 2 + (Z / E) ^ 2 < 1 := by
      have : 0 < (E ^ 2 - (X ^ 2 + Y ^ 2 + Z ^ 2)) / E ^ 2 := div_pos (by linarith) (by positivity)
      linarith
    have hb : beta2 (X / E) (Y / E) (Z / E) = .ok ((X / E) ^ 2 + (Y / E) ^ 2 + (Z / E) ^ 2) := by
      simp only [beta2]; rw [if_neg e2.ne, if_neg (not_lt.2 e2.le)]
    rw [hb]
    dsimp only
    generalize hS : E ^ 2 - (X ^ 2 + Y ^ 2 + Z ^ 2) = S at *
    have hS0 : 0 < S := by linarith
    have e3 : 1 / Real.sqrt (S / E ^ 2) * (E - (X / E * X + Y / E * Y + Z / E * Z)) =
        Real.sqrt S := by
      rw [Real.sqrt_div hS0.le, Real.sqrt_sq hE.le]
      have h5 : E - (X / E * X + Y / E * Y + Z / E * Z) = S / E := by
        rw [← hS]; field_simp
      rw [h5]
      have h6 := Real.sqrt_pos.2 hS0
      have h7 := Real.sq_sqrt hS0.le
      field_simp
      exact h7.symm
    rw [e1, e3, if_neg (not_lt.2 ?_), Real.sq_sqrt hS0.le]
    exact Real.le_sqrt_of_sq_le hs

theorem cm_momentum {p q : Particle ℝ} {x y z : ℝ} (h0 : x ^ 2 + y ^ 2 + z ^ 2 ≠ 0)
    (hx : p.px + q.px = x * (p.E + q.E)) (hy : p.py + q.py = y * (p.E + q.E))
    (hz : p.pz + q.pz = z * (p.E + q.E)) :
    (boosted x y z p).px + (boosted x y z q).px = 0 ∧
      (boosted x y z p).py + (boosted x y z q).py = 0 ∧
      (boosted x y z p).pz + (boosted x y z q).pz = 0 := by
  simp only [boosted, setMomentum]
  generalize 1 / Real.sqrt (1 - (x ^ 2 + y ^ 2 + z ^ 2)) = g
  have k : (-g * p.E + (g - 1) * (x * p.px + y * p.py + z * p.pz) / (x ^ 2 + y ^ 2 + z ^ 2)) +
      (-g * q.E + (g - 1) * (x * q.px + y * q.py + z * q.pz) / (x ^ 2 + y ^ 2 + z ^ 2)) =
        -(p.E + q.E) := by
    have h1 : x * p.px + y * p.py + z * p.pz + (x * q.px + y * q.py + z * q.pz) =
        (x ^ 2 + y ^ 2 + z ^ 2) * (p.E + q.E) := by
      linear_combination x * hx + y * hy + z * hz
    generalize x * p.px + y * p.py + z * p.pz = d1 at *
    generalize x * q.px + y * q.py + z * q.pz = d2 at *
    generalize x ^ 2 + y ^ 2 + z ^ 2 = b at *
    field_simp
    linear_combination (g - 1) * h1
  refine ⟨?_, ?_, ?_⟩
  · linear_combination x * k + hx
  · linear_combination y * k + hy
  · linear_combination z * k + hz

theorem sum_sq_zero {x y z : ℝ} (h : x ^ 2 + y ^ 2 + z ^ 2 = 0) : x = 0 ∧ y = 0 ∧ z = 0 := by
  refine ⟨?_, ?_, ?_⟩ <;> nlinarith [sq_nonneg x, sq_nonneg y, sq_nonneg z]

/-- C77: after `boost_to_cm_frame` of two particles (one massive) their momenta
are opposite, both are still on their mass shells, and the total energy squared
is what `get_mandelstam_s` gives for the original pair. -/
theorem C77_cm_frame {p q : Particle ℝ} (hp : OnShell p) (hq : OnShell q) (hm : 0 < p.mass) :
    ∃ p' q', boostToCm p q = .ok (p', q') ∧ OnShell p' ∧ OnShell q' ∧ SameSpecies p' p ∧
      SameSpecies q' q ∧ p'.px + q'.px = 0 ∧ p'.py + q'.py = 0 ∧ p'.pz + q'.pz = 0 ∧
      mandelstamS p q = .ok ((p'.E + q'.E) ^ 2) := by
  have hE : 0 < p.E + q.E := by
    have := lt_of_lt_of_le hm hp.mass_le
    have := hq.energy
    linarith
  have ge := mink_ge hp hq
  have s1 := hp.shell
  have s2 := hq.shell
  simp only [mink] at ge
  have hs : 0 < (p.E + q.E) ^ 2 -
      ((p.px + q.px) ^ 2 + (p.py + q.py) ^ 2 + (p.pz + q.pz) ^ 2) := by
    have e : (p.E + q.E) ^ 2 - ((p.px + q.px) ^ 2 + (p.py + q.py) ^ 2 + (p.pz + q.pz) ^ 2) =
        p.mass ^ 2 + q.mass ^ 2 + 2 * (p.E * q.E - (p.px * q.px + p.py * q.py + p.pz * q.pz)) := by
      linear_combination s1 + s2
    have e2 := mul_nonneg hp.mass hq.mass
    have e3 : 0 < p.mass ^ 2 := by positivity
    rw [e]; linarith [sq_nonneg q.mass]
  have hlt : ((p.px + q.px) / (p.E + q.E)) ^ 2 + ((p.py + q.py) / (p.E + q.E)) ^ 2 +
      ((p.pz + q.pz) / (p.E + q.E)) ^ 2 < 1 := by
    rw [div_pow, div_pow, div_pow, ← add_div, ← add_div, div_lt_one (by positivity)]
    linarith
  rw [C77_mandelstam hp hq hm]
  simp only [boostToCm]
  rw [if_neg hE.ne']
  obtain ⟨p', a1, a2, a3, -⟩ := lorentzBoost_spec hlt hp
  obtain ⟨q', b1, b2, b3, -⟩ := lorentzBoost_spec hlt hq
  have hpp := C46_boost_keeps_products hp hp a1 a1
  have hqq := C46_boost_keeps_products hq hq b1 b1
  have hpq := C46_boost_keeps_products hp hq a1 b1
  rw [a1, b1]
  have hmom : p'.px + q'.px = 0 ∧ p'.py + q'.py = 0 ∧ p'.pz + q'.pz = 0 := by
    by_cases h0 : ((p.px + q.px) / (p.E + q.E)) ^ 2 + ((p.py + q.py) / (p.E + q.E)) ^ 2 +
        ((p.pz + q.pz) / (p.E + q.E)) ^ 2 = 0
    · rw [lorentzBoost_zero h0] at a1 b1
      cases a1; cases b1
      rw [div_pow, div_pow, div_pow, ← add_div, ← add_div, div_eq_zero_iff] at h0
      exact sum_sq_zero (h0.resolve_right (by positivity))
    · rw [lorentzBoost_eq hlt h0 hp] at a1
      rw [lorentzBoost_eq hlt h0 hq] at b1
      cases a1; cases b1
      exact cm_momentum h0 (by field_simp) (by field_simp) (by field_simp)
  refine ⟨p', q', rfl, a2, b2, a3, b3, hmom.1, hmom.2.1, hmom.2.2, ?_⟩
  simp only [mink] at hpp hqq hpq
  obtain ⟨m1, m2, m3⟩ := hmom
  rw [Except.ok.injEq]
  have e1 : q'.px = -p'.px := by linarith
  have e2 : q'.py = -p'.py := by linarith
  have e3 : q'.pz = -p'.pz := by linarith
  rw [e1, e2, e3] at hqq hpq
  linear_combination -hpp - hqq - 2 * hpq

-- a moving massive particle and a photon
example : OnShell exParticle ∧ OnShell (⟨22, 2, 2, 0, 0, 0, 0⟩ : Particle ℝ) ∧
    0 < exParticle.mass :=
  ⟨exParticle_onShell, by constructor <;> norm_num, by norm_num [exParticle]⟩

/-- C77, the excluded case: for two massless particles flying the same way the
call throws, because the pair has no center-of-momentum frame (its invariant
mass is zero). -/
theorem C77_collinear_massless : mandelstamS ⟨22, 1, 0, 0, 1, 0, 0⟩ ⟨22, 2, 0, 0, 2, 0, 0⟩
    = .error .marleyError := by
  simp only [mandelstamS, beta2]
  norm_num

end Marley.Props
