import Verif.Model.Kinematics
import Verif.Spec.Kinematics
import Mathlib.Tactic.FieldSimp
import Mathlib.Tactic.LinearCombination
import Mathlib.Tactic.Linarith

/-! Helper lemmas for relativistic kinematics. -/

set_option autoImplicit false

namespace Marley.Kin
open Marley Marley.Event
open Marley.Utils (realSqrt)

theorem realSqrt_sq {x : ℝ} (h : 0 ≤ x) : realSqrt x ^ 2 = x := by
  rw [realSqrt, if_neg (not_lt.2 h), Real.sq_sqrt h]

theorem realSqrt_nonneg (x : ℝ) : 0 ≤ realSqrt x := by
  rw [realSqrt]; split_ifs
  · exact le_rfl
  · exact Real.sqrt_nonneg _

/-- The linear map of `lorentzBoost`, before the energy is clamped. -/
noncomputable def boosted (bx by' bz : ℝ) (p : Particle ℝ) : Particle ℝ :=
  let b := bx ^ 2 + by' ^ 2 + bz ^ 2
  let gamma := 1 / Real.sqrt (1 - b)
  let d := bx * p.px + by' * p.py + bz * p.pz
  let k := -gamma * p.E + (gamma - 1) * d / b
  setMomentum p (gamma * (p.E - d)) (k * bx + p.px) (k * by' + p.py) (k * bz + p.pz)

theorem gamma_sq {b : ℝ} (h : b < 1) : (1 / Real.sqrt (1 - b)) ^ 2 * (1 - b) = 1 := by
  rw [div_pow, Real.sq_sqrt (by linarith), one_pow, one_div, inv_mul_cancel₀ (by linarith)]

theorem gamma_pos {b : ℝ} (h : b < 1) : 0 < 1 / Real.sqrt (1 - b) :=
  one_div_pos.2 (Real.sqrt_pos.2 (by linarith))

/-- The scalar identity behind the invariance of the Minkowski product. -/
theorem boost_identity {b g : ℝ} (hb : b ≠ 0) (hg : g ^ 2 * (1 - b) = 1) (E1 E2 d1 d2 : ℝ) :
    g * (E1 - d1) * (g * (E2 - d2)) -
      ((-g * E1 + (g - 1) * d1 / b) * d2 + (-g * E2 + (g - 1) * d2 / b) * d1 +
        (-g * E1 + (g - 1) * d1 / b) * (-g * E2 + (g - 1) * d2 / b) * b) = E1 * E2 := by
  field_simp
  linear_combination (b * E1 * E2 - d1 * d2) * hg

theorem mink_boosted {bx by' bz : ℝ} (h : bx ^ 2 + by' ^ 2 + bz ^ 2 < 1)
    (h0 : bx ^ 2 + by' ^ 2 + bz ^ 2 ≠ 0) (p q : Particle ℝ) :
    mink (boosted bx by' bz p) (boosted bx by' bz q) = mink p q := by
  have hg := gamma_sq h
  have := boost_identity h0 hg p.E q.E (bx * p.px + by' * p.py + bz * p.pz)
    (bx * q.px + by' * q.py + bz * q.pz)
  simp only [mink, boosted, setMomentum]
  linear_combination this

/-- `|β·p| ≤ |p|` when the speed is below one. -/
theorem dot_lt {bx by' bz : ℝ} (h : bx ^ 2 + by' ^ 2 + bz ^ 2 < 1) (x y z : ℝ) :
    (bx * x + by' * y + bz * z) ^ 2 ≤ x ^ 2 + y ^ 2 + z ^ 2 := by
  nlinarith [sq_nonneg (bx * y - by' * x), sq_nonneg (bx * z - bz * x),
    sq_nonneg (by' * z - bz * y), sq_nonneg x, sq_nonneg y, sq_nonneg z]

theorem OnShell.mink {p : Particle ℝ} (h : OnShell p) : mink p p = p.mass ^ 2 := by
  have := h.shell; simp only [Kin.mink]; linarith

theorem OnShell.mass_le {p : Particle ℝ} (h : OnShell p) : p.mass ≤ p.E := by
  have := h.shell
  nlinarith [h.energy, h.mass, sq_nonneg p.px, sq_nonneg p.py, sq_nonneg p.pz]

theorem boosted_mass (bx by' bz : ℝ) (p : Particle ℝ) :
    (boosted bx by' bz p).mass = p.mass := rfl

theorem boosted_E_nonneg {bx by' bz : ℝ} (h : bx ^ 2 + by' ^ 2 + bz ^ 2 < 1) {p : Particle ℝ}
    (hp : OnShell p) : 0 ≤ (boosted bx by' bz p).E := by
  have h1 := dot_lt h p.px p.py p.pz
  have h2 : (bx * p.px + by' * p.py + bz * p.pz) ^ 2 ≤ p.E ^ 2 := by
    have := hp.shell; nlinarith [sq_nonneg p.mass]
  have h3 := (abs_le_of_sq_le_sq' h2 hp.energy).2
  exact mul_nonneg (gamma_pos h).le (by linarith)

theorem boosted_onShell {bx by' bz : ℝ} (h : bx ^ 2 + by' ^ 2 + bz ^ 2 < 1)
    (h0 : bx ^ 2 + by' ^ 2 + bz ^ 2 ≠ 0) {p : Particle ℝ} (hp : OnShell p) :
    OnShell (boosted bx by' bz p) := by
  refine ⟨?_, boosted_E_nonneg h hp, hp.mass⟩
  have := mink_boosted h h0 p p
  rw [hp.mink] at this
  simp only [Kin.mink] at this
  rw [boosted_mass]; linarith

/-- For a particle on its mass shell the code computes the linear map. -/
theorem lorentzBoost_eq {bx by' bz : ℝ} (h : bx ^ 2 + by' ^ 2 + bz ^ 2 < 1)
    (h0 : bx ^ 2 + by' ^ 2 + bz ^ 2 ≠ 0) {p : Particle ℝ} (hp : OnShell p) :
    lorentzBoost bx by' bz p = .ok (boosted bx by' bz p) := by
  have h1 := (boosted_onShell h h0 hp).mass_le
  rw [lorentzBoost, beta2]
  simp only [boosted, setMomentum] at h1 ⊢
  simp only [if_neg h.ne, if_neg (not_lt.2 h.le), if_neg h0]
  rw [if_neg (not_lt.2 h1)]

theorem lorentzBoost_zero {bx by' bz : ℝ} (h : bx ^ 2 + by' ^ 2 + bz ^ 2 = 0) (p : Particle ℝ) :
    lorentzBoost bx by' bz p = .ok p := by
  have : beta2 bx by' bz = .ok 0 := by
    rw [beta2]; norm_num [h]
  rw [lorentzBoost, this]
  simp

/-- The linear map with `γ` given. -/
theorem boosted_boosted_neg {bx by' bz : ℝ} (h : bx ^ 2 + by' ^ 2 + bz ^ 2 < 1)
    (h0 : bx ^ 2 + by' ^ 2 + bz ^ 2 ≠ 0) (p : Particle ℝ) :
    boosted (-bx) (-by') (-bz) (boosted bx by' bz p) = p := by
  have hg := gamma_sq h
  obtain ⟨pdg, E, px, py, pz, m, q⟩ := p
  simp only [boosted, setMomentum, neg_sq]
  generalize hG : 1 / Real.sqrt (1 - (bx ^ 2 + by' ^ 2 + bz ^ 2)) = g at *
  generalize hB : bx ^ 2 + by' ^ 2 + bz ^ 2 = b at *
  generalize hD : bx * px + by' * py + bz * pz = d at *
  have e1 : ∀ k : ℝ, -bx * (k * bx + px) + -by' * (k * by' + py) + -bz * (k * bz + pz) =
      -(k * b) - d := by intro k; rw [← hB, ← hD]; ring
  rw [e1]
  have e2 : g * (g * (E - d) - (-((-g * E + (g - 1) * d / b) * b) - d)) = E := by
    field_simp
    linear_combination E * hg
  have e3 : -g * (g * (E - d)) + (g - 1) * (-((-g * E + (g - 1) * d / b) * b) - d) / b =
      (-g * E + (g - 1) * d / b) := by
    field_simp
    linear_combination (-d) * hg
  congr 1
  · rw [e3]; ring
  · rw [e3]; ring
  · rw [e3]; ring

/-- Any subluminal boost of a particle on its mass shell: it succeeds, stays on
the shell and undoing it gives the particle back. -/
theorem lorentzBoost_spec {bx by' bz : ℝ} (h : bx ^ 2 + by' ^ 2 + bz ^ 2 < 1) {p : Particle ℝ}
    (hp : OnShell p) : ∃ p', lorentzBoost bx by' bz p = .ok p' ∧ OnShell p' ∧ SameSpecies p' p ∧
      lorentzBoost (-bx) (-by') (-bz) p' = .ok p := by
  by_cases h0 : bx ^ 2 + by' ^ 2 + bz ^ 2 = 0
  · exact ⟨p, lorentzBoost_zero h0 p, hp, ⟨rfl, rfl, rfl⟩, lorentzBoost_zero (by simpa using h0) p⟩
  · refine ⟨_, lorentzBoost_eq h h0 hp, boosted_onShell h h0 hp, ⟨rfl, rfl, rfl⟩, ?_⟩
    rw [lorentzBoost_eq (by simpa using h) (by simpa using h0) (boosted_onShell h h0 hp),
      boosted_boosted_neg h h0]

/-- Two particles of total momentum zero and total energy `M` in some frame,
seen from the frame in which the pair has the momentum of `t`. -/
theorem boost_pair {t p q : Particle ℝ} (ht : OnShell t) (hM : 0 < t.mass) (hp : OnShell p)
    (hq : OnShell q) (hE : p.E + q.E = t.mass) (hx : p.px + q.px = 0) (hy : p.py + q.py = 0)
    (hz : p.pz + q.pz = 0) :
    ∃ p' q', lorentzBoost (-t.px / t.E) (-t.py / t.E) (-t.pz / t.E) p = .ok p' ∧
      lorentzBoost (-t.px / t.E) (-t.py / t.E) (-t.pz / t.E) q = .ok q' ∧
      OnShell p' ∧ OnShell q' ∧ SameSpecies p' p ∧ SameSpecies q' q ∧ SumsTo p' q' t ∧
      lorentzBoost (t.px / t.E) (t.py / t.E) (t.pz / t.E) p' = .ok p ∧
      lorentzBoost (t.px / t.E) (t.py / t.E) (t.pz / t.E) q' = .ok q := by
  have hE0 : 0 < t.E := lt_of_lt_of_le hM ht.mass_le
  have hs := ht.shell
  have e1 : 1 - ((-t.px / t.E) ^ 2 + (-t.py / t.E) ^ 2 + (-t.pz / t.E) ^ 2) =
      (t.mass / t.E) ^ 2 := by
    field_simp; linarith
  have hlt : (-t.px / t.E) ^ 2 + (-t.py / t.E) ^ 2 + (-t.pz / t.E) ^ 2 < 1 := by
    have : 0 < (t.mass / t.E) ^ 2 := by positivity
    linarith
  have n1 : ∀ x : ℝ, -(-x / t.E) = x / t.E := fun x => by ring
  obtain ⟨p', a1, a2, a3, a4⟩ := lorentzBoost_spec hlt hp
  obtain ⟨q', b1, b2, b3, b4⟩ := lorentzBoost_spec hlt hq
  simp only [n1] at a4 b4
  refine ⟨p', q', a1, b1, a2, b2, a3, b3, ?_, a4, b4⟩
  by_cases h0 : (-t.px / t.E) ^ 2 + (-t.py / t.E) ^ 2 + (-t.pz / t.E) ^ 2 = 0
  · rw [lorentzBoost_zero h0] at a1 b1
    cases a1; cases b1
    have k : t.px ^ 2 + t.py ^ 2 + t.pz ^ 2 = 0 := by
      field_simp at h0; linarith
    have kx : t.px = 0 := by nlinarith [sq_nonneg t.px, sq_nonneg t.py, sq_nonneg t.pz]
    have ky : t.py = 0 := by nlinarith [sq_nonneg t.px, sq_nonneg t.py, sq_nonneg t.pz]
    have kz : t.pz = 0 := by nlinarith [sq_nonneg t.px, sq_nonneg t.py, sq_nonneg t.pz]
    refine ⟨?_, by rw [hx, kx], by rw [hy, ky], by rw [hz, kz]⟩
    rw [hE]
    nlinarith [ht.energy, ht.mass]
  · rw [lorentzBoost_eq hlt h0 hp] at a1
    rw [lorentzBoost_eq hlt h0 hq] at b1
    cases a1; cases b1
    have g : 1 / Real.sqrt (1 - ((-t.px / t.E) ^ 2 + (-t.py / t.E) ^ 2 + (-t.pz / t.E) ^ 2)) =
        t.E / t.mass := by
      rw [e1, Real.sqrt_sq (by positivity)]; field_simp
    have qE : q.E = t.mass - p.E := by linarith
    have qx : q.px = -p.px := by linarith
    have qy : q.py = -p.py := by linarith
    have qz : q.pz = -p.pz := by linarith
    simp only [SumsTo, boosted, setMomentum, g, qE, qx, qy, qz]
    generalize (-t.px / t.E) ^ 2 + (-t.py / t.E) ^ 2 + (-t.pz / t.E) ^ 2 = b at h0
    refine ⟨?_, ?_, ?_, ?_⟩ <;> field_simp <;> ring

end Marley.Kin
