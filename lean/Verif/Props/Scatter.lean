import Verif.Props.Kinematics

/-!
# Two-two scattering: C34, C35
-/

set_option autoImplicit false

namespace Marley.Props
open Marley Marley.Event Marley.Kin
open Marley.Utils (realSqrt)

/-- Physically meaningful masses: none negative, the target massive. -/
structure GoodMasses (r : Masses) : Prop where
  a : 0 ≤ r.ma
  b : 0 < r.mb
  c : 0 ≤ r.mc
  d : 0 ≤ r.md

/-- The codes of all four particles have an entry in the charge table (otherwise
constructing them throws). -/
structure KnownCodes (r : Masses) : Prop where
  a : ∃ q, Pdg.charge r.pdgA = .ok q
  b : ∃ q, Pdg.charge r.pdgB = .ok q
  c : ∃ q, Pdg.charge r.pdgC = .ok q
  d : ∃ q, Pdg.charge r.pdgD = .ok q

/-- The pair `a + b → c + d` can be produced: the invariant mass squared of a
projectile of kinetic energy `KEa` and the target at rest reaches that of the
two products at rest. -/
def Reachable (r : Masses) (KEa : ℝ) : Prop :=
  (r.mc + r.md) ^ 2 ≤ (KEa + r.ma + r.mb) ^ 2 - ((KEa + r.ma) ^ 2 - r.ma ^ 2)

/-- C34: with enough energy, the event built from `two_two_scatter` and a
scattering angle has the projectile of that kinetic energy along z and the
target at rest as initial particles, ejectile and residue on their mass shells as
final particles with the same total four-momentum, and in the frame where the
final particles have opposite momenta the ejectile goes at the given angles. -/
theorem C34_conserves {r : Masses} {KEa c : ℝ} (phi Elevel : ℝ) (twoJ : Int) (P : Parity)
    (hr : GoodMasses r) (hk : KnownCodes r) (hKE : 0 ≤ KEa) (h : Reachable r KEa)
    (hc : c ^ 2 ≤ 1) :
    ∃ pr tg ej re : Particle ℝ,
      makeEvent r KEa (twoTwoScatter r KEa) c phi Elevel twoJ P = .ok
        { initial := [pr, tg], final := [ej, re], Ex := Elevel, twoJ := twoJ, parity := P } ∧
      (pr.pdg = r.pdgA ∧ pr.mass = r.ma ∧ pr.E = KEa + r.ma ∧ pr.px = 0 ∧ pr.py = 0 ∧
        0 ≤ pr.pz ∧ OnShell pr) ∧
      (tg.pdg = r.pdgB ∧ tg.mass = r.mb ∧ tg.E = r.mb ∧ tg.px = 0 ∧ tg.py = 0 ∧ tg.pz = 0) ∧
      (ej.pdg = r.pdgC ∧ ej.mass = r.mc ∧ OnShell ej) ∧
      (re.pdg = r.pdgD ∧ re.mass = r.md ∧ OnShell re) ∧
      (ej.E + re.E = pr.E + tg.E ∧ ej.px + re.px = pr.px + tg.px ∧
        ej.py + re.py = pr.py + tg.py ∧ ej.pz + re.pz = pr.pz + tg.pz) ∧
      ∃ ejc rec, boostToCm ej re = .ok (ejc, rec) ∧ PointsAlong ejc c phi ∧
        rec.px = -ejc.px ∧ rec.py = -ejc.py ∧ rec.pz = -ejc.pz := by
  obtain ⟨qa, hqa⟩ := hk.a
  obtain ⟨qb, hqb⟩ := hk.b
  obtain ⟨qc, hqc⟩ := hk.c
  obtain ⟨qd, hqd⟩ := hk.d
  have ha := hr.a
  have hb := hr.b
  -- the invariant mass squared
  have hs : ∃ S : ℝ, r.ma * r.ma + r.mb * r.mb + 2 * r.mb * (KEa + r.ma) = S ∧
      S = (KEa + r.ma + r.mb) ^ 2 - ((KEa + r.ma) ^ 2 - r.ma ^ 2) := ⟨_, rfl, by ring⟩
  obtain ⟨S, hS1, hS2⟩ := hs
  have hS0 : 0 < S := by rw [← hS1]; positivity
  have hM2 := Real.sq_sqrt hS0.le
  have hM : 0 < Real.sqrt S := Real.sqrt_pos.2 hS0
  have hsum : r.mc + r.md ≤ Real.sqrt S :=
    Real.le_sqrt_of_sq_le (by rw [hS2]; exact h)
  generalize hMdef : Real.sqrt S = M at hM2 hM hsum
  -- the projectile momentum
  have hpa : realSqrt (KEa * (KEa + 2 * r.ma)) ^ 2 = KEa * (KEa + 2 * r.ma) :=
    realSqrt_sq (by positivity)
  have hpa0 := realSqrt_nonneg (KEa * (KEa + 2 * r.ma))
  generalize hpad : realSqrt (KEa * (KEa + 2 * r.ma)) = pa at hpa hpa0
  -- the energies in the center-of-momentum frame
  obtain ⟨g1, g2⟩ := decay_energies hr.c hr.d hM hsum
  have hE : ∃ Ec, (S + r.mc * r.mc - r.md * r.md) / (2 * M) = Ec ∧
      2 * M * Ec = S + r.mc * r.mc - r.md * r.md := by
    refine ⟨_, rfl, ?_⟩; field_simp
  obtain ⟨Ec, e1, e2⟩ := hE
  have e3 : (M ^ 2 - r.md ^ 2 + r.mc ^ 2) / (2 * M) = Ec := by
    rw [← e1, hM2]; congr 1; ring
  rw [e3] at g1 g2
  have hp : realSqrt (Ec ^ 2 - r.mc * r.mc) ^ 2 = Ec ^ 2 - r.mc * r.mc :=
    realSqrt_sq (by nlinarith [hr.c])
  have hp0 := realSqrt_nonneg (Ec ^ 2 - r.mc * r.mc)
  have hsc : twoTwoScatter r KEa =
      { s := S, Ec := Ec, pc := realSqrt (Ec ^ 2 - r.mc * r.mc), Ed := M - Ec } := by
    simp only [twoTwoScatter, hS1, hMdef, e1]
    rw [max_eq_left g2]
  generalize realSqrt (Ec ^ 2 - r.mc * r.mc) = p at hp hp0 hsc
  have hs : realSqrt (1 - c ^ 2) ^ 2 = 1 - c ^ 2 := realSqrt_sq (by linarith)
  have hs' : realSqrt (1 - c ^ 2) = Real.sqrt (1 - c ^ 2) := by
    rw [realSqrt, if_neg (by linarith)]
  rw [hsc]
  simp only [makeEvent, hpad, Particle.mk6, hqa, hqb, hqc, hqd]
  rw [hs'] at hs ⊢
  generalize hSq : Real.sqrt (1 - c ^ 2) = s at hs
  have hmom : (s * Real.cos phi * p) ^ 2 + (s * Real.sin phi * p) ^ 2 + (c * p) ^ 2 =
      Ec ^ 2 - r.mc * r.mc := by
    have := Real.sin_sq_add_cos_sq phi
    linear_combination (p ^ 2 * s ^ 2) * this + p ^ 2 * hs + hp
  have oc : OnShell (⟨r.pdgC, Ec, s * Real.cos phi * p, s * Real.sin phi * p, c * p, r.mc, qc⟩ :
      Particle ℝ) := ⟨by dsimp only; linarith, le_trans hr.c g1, hr.c⟩
  have od : OnShell (⟨r.pdgD, M - Ec, -(s * Real.cos phi * p), -(s * Real.sin phi * p), -(c * p),
      r.md, qd⟩ : Particle ℝ) := ⟨by dsimp only; nlinarith, le_trans hr.d g2, hr.d⟩
  -- the pair as one particle
  have ot : OnShell (⟨0, KEa + r.ma + r.mb, 0, 0, pa, M, 0⟩ : Particle ℝ) := by
    refine ⟨?_, ?_, hM.le⟩
    · dsimp only; rw [hM2, hS2, hpa]; ring
    · dsimp only; positivity
  obtain ⟨ej, re, h1, h2, h3, h4, h5, h6, h7, h8, h9⟩ := boost_pair ot hM oc od
    (by ring) (by ring) (by ring) (by ring)
  simp only [neg_zero, zero_div, neg_div] at h1 h2
  rw [h1, h2]
  obtain ⟨k1, k2, k3, k4⟩ := h7
  refine ⟨_, _, ej, re, rfl, ⟨rfl, rfl, rfl, rfl, rfl, hpa0, ?_, ?_, ha⟩,
    ⟨rfl, rfl, rfl, rfl, rfl, rfl⟩, ⟨h5.1, h5.2.1, h3⟩, ⟨h6.1, h6.2.1, h4⟩, ?_, ?_⟩
  · dsimp only; rw [hpa]; ring
  · dsimp only; positivity
  · dsimp only
    exact ⟨by rw [k1], by rw [k2]; ring, by rw [k3]; ring, by rw [k4]; ring⟩
  · simp only [boostToCm, k1, k2, k3, k4]
    rw [if_neg (by positivity)]
    rw [h8, h9]
    refine ⟨_, _, rfl, ⟨p, hp0, ?_⟩, rfl, rfl, rfl⟩
    rw [hSq]
    exact ⟨by ring, by ring, by ring⟩

/-- Electron-neutrino capture with round numbers: massless projectile, target of
mass 10, products of masses 1 and 10. -/
def exMasses : Masses := ⟨12, 1000180400, 11, 1000190400, 0, 10, 1, 10⟩

example : GoodMasses exMasses ∧ KnownCodes exMasses ∧ Reachable exMasses 3 := by
  refine ⟨?_, ?_, ?_⟩
  · constructor <;> norm_num [exMasses]
  · constructor
    · exact ⟨0, by decide⟩
    · exact ⟨18, by decide⟩
    · exact ⟨-1, by decide⟩
    · exact ⟨19, by decide⟩
  · norm_num [Reachable, exMasses]

/-! ## C35 -/

/-- C35: a projectile is at or above threshold exactly when the products (residue
in its ground state) can be produced, and exactly when the maximal level energy
is not negative. -/
theorem C35_threshold {r : Masses} {KEa : ℝ} (hr : GoodMasses r) (hKE : 0 ≤ KEa) :
    (threshold r ≤ KEa ↔ Reachable r KEa) ∧ (threshold r ≤ KEa ↔ 0 ≤ maxLevelEnergy r KEa) := by
  have hb := hr.b
  have h1 : threshold r ≤ KEa ↔ (r.mc + r.md) ^ 2 ≤ (r.ma + r.mb) ^ 2 + 2 * r.mb * KEa := by
    rw [threshold, div_le_iff₀ (by linarith)]
    constructor <;> intro h <;> linarith
  constructor
  · rw [h1, Reachable]
    have e : (KEa + r.ma + r.mb) ^ 2 - ((KEa + r.ma) ^ 2 - r.ma ^ 2) =
      (r.ma + r.mb) ^ 2 + 2 * r.mb * KEa := by ring
    rw [e]
  · rw [h1, maxLevelEnergy, sub_sub, sub_nonneg]
    exact (Real.le_sqrt (add_nonneg hr.c hr.d) (by positivity)).symm

/-- C35: a level is at most the maximal level energy exactly when the products
with the residue in that level can be produced. -/
theorem C35_level {r : Masses} {KEa Elevel : ℝ} (hr : GoodMasses r) (hKE : 0 ≤ KEa)
    (hE : 0 ≤ Elevel) :
    Elevel ≤ maxLevelEnergy r KEa ↔ Reachable { r with md := r.md + Elevel } KEa := by
  have e : (KEa + r.ma + r.mb) ^ 2 - ((KEa + r.ma) ^ 2 - r.ma ^ 2) =
      (r.ma + r.mb) ^ 2 + 2 * r.mb * KEa := by ring
  simp only [Reachable, e, maxLevelEnergy]
  have hb := hr.b
  rw [← Real.le_sqrt (by have := hr.c; have := hr.d; positivity) (by positivity)]
  constructor <;> intro h <;> linarith

/-- C35: below threshold no level can be reached. -/
theorem C35_below_threshold {r : Masses} {KEa Elevel : ℝ} (hr : GoodMasses r) (hKE : 0 ≤ KEa)
    (hE : 0 ≤ Elevel) (h : KEa < threshold r) : maxLevelEnergy r KEa < Elevel := by
  have := (not_congr (C35_threshold hr hKE).2).1 (not_le.2 h)
  linarith

example : threshold exMasses = 21/20 ∧ threshold exMasses ≤ 3 ∧ ¬ threshold exMasses ≤ 1 := by
  norm_num [threshold, exMasses]

end Marley.Props
