import Verif.Lemmas.CrossSection
import Verif.Props.Scatter
import Verif.Props.Sampling

/-!
# Scattering on electrons: cross sections and events (C40, C41, C84)
-/

set_option autoImplicit false

namespace Marley.Props
open Marley Marley.Reaction Marley.Sampling Marley.Kin Marley.Xs

/-- The masses of neutrino-electron scattering: no mass is negative and the electron,
which is both target and product, is massive. -/
structure ElectronGood (r : Electron) : Prop where
  a : 0 ≤ r.ma
  b : 0 < r.mb
  c : 0 ≤ r.mc
  d : r.md = r.mb

/-- C40: the total cross section is the integral of the differential one, for every
projectile, energy and pair of couplings. -/
theorem C40_integral (r : Electron) (pdg : Int) (KEa : ℝ) :
    ∫ c in (-1 : ℝ)..1, elDiff r pdg KEa c = elTotal r pdg KEa := by
  unfold elDiff elTotal
  by_cases h1 : pdg ≠ r.pdgA
  · simp [h1]
  · simp only [if_neg h1]
    by_cases h2 : KEa < threshold (elMasses r)
    · simp [h2]
    · simp only [if_neg h2]
      generalize r.md * r.md / elS r KEa = q
      generalize elEc r KEa = e
      have e1 : ∀ c : ℝ, 2 / Real.pi * (GF * e) ^ 2 * (r.g1 ^ 2 + r.g1 * r.g2 * q * (c - 1)
          + (r.g2 * (1 + 1 / 2 * (1 - q) * (c - 1))) ^ 2) * (Pdg.getZ r.atom : ℝ)
        = 2 / Real.pi * (GF * e) ^ 2 * (Pdg.getZ r.atom : ℝ) *
          ((r.g1 ^ 2 - r.g1 * r.g2 * q + r.g2 ^ 2 * (1 / 2 * (1 + q)) ^ 2)
            + (r.g1 * r.g2 * q + r.g2 ^ 2 * (1 / 2 * (1 + q) * (1 - q))) * c
            + (r.g2 ^ 2 * (1 / 2 * (1 - q)) ^ 2) * c ^ 2) := fun c => by ring
      simp only [e1]
      rw [intervalIntegral.integral_const_mul]
      rw [intervalIntegral.integral_add, intervalIntegral.integral_add,
        intervalIntegral.integral_const_mul, intervalIntegral.integral_const_mul,
        integral_pow, integral_id, intervalIntegral.integral_const]
      · simp only [smul_eq_mul]
        norm_num
        ring
      · exact intervalIntegrable_const
      · exact (continuous_const.mul continuous_id).intervalIntegrable _ _
      · exact (continuous_const.add (continuous_const.mul continuous_id)).intervalIntegrable _ _
      · exact (continuous_const.mul (continuous_id.pow 2)).intervalIntegrable _ _

private theorem q_range {r : Electron} (hr : ElectronGood r) {KEa : ℝ} (hK : 0 ≤ KEa) :
    0 ≤ r.md * r.md / elS r KEa := by
  have := hr.a; have := hr.b
  unfold elS
  rw [hr.d]
  positivity

/-- C40: neither of them is negative. -/
theorem C40_nonneg {r : Electron} (hr : ElectronGood r) (pdg : Int) {KEa c : ℝ} (hK : 0 ≤ KEa)
    (h1 : -1 ≤ c) (h2 : c ≤ 1) : 0 ≤ elDiff r pdg KEa c ∧ 0 ≤ elTotal r pdg KEa := by
  have key : ∀ c : ℝ, -1 ≤ c → c ≤ 1 → 0 ≤ elDiff r pdg KEa c := by
    intro c h1 h2
    unfold elDiff
    split_ifs
    · exact le_refl _
    · exact le_refl _
    · have hq := q_range hr hK
      simp only
      generalize r.md * r.md / elS r KEa = q at hq ⊢
      have hz : (0 : ℝ) ≤ (Pdg.getZ r.atom : ℝ) := by exact_mod_cast getZ_nonneg r.atom
      have ht : 0 ≤ r.g1 ^ 2 + r.g1 * r.g2 * q * (c - 1)
          + (r.g2 * (1 + 1 / 2 * (1 - q) * (c - 1))) ^ 2 := by
        have e : r.g1 ^ 2 + r.g1 * r.g2 * q * (c - 1) + (r.g2 * (1 + 1 / 2 * (1 - q) * (c - 1))) ^ 2
          = (r.g1 - r.g2 * q * ((1 - c) / 2)) ^ 2
            + r.g2 ^ 2 * ((1 + c) / 2 * ((1 + c) / 2 + q * (1 - c))) := by ring
        rw [e]
        have : 0 ≤ (1 + c) / 2 := by linarith
        have : 0 ≤ 1 - c := by linarith
        positivity
      have := Real.pi_pos
      exact mul_nonneg (mul_nonneg (by positivity) ht) hz
  refine ⟨key c h1 h2, ?_⟩
  rw [← C40_integral]
  exact intervalIntegral.integral_nonneg (by norm_num) (fun c hc => key c hc.1 hc.2)

/-- C40: above threshold, for a nucleus with electrons and a projectile with a coupling
that does not vanish, the total cross section is positive. -/
theorem C40_positive {r : Electron} (hr : ElectronGood r) {KEa : ℝ}
    (hK : 0 < KEa) (ht : threshold (elMasses r) ≤ KEa) (hZ : 0 < Pdg.getZ r.atom)
    (hg : r.g1 ≠ 0 ∨ r.g2 ≠ 0) (hmc : r.mc = r.ma) : 0 < elTotal r r.pdgA KEa := by
  have ha := hr.a; have hb := hr.b
  have hs : 0 < elS r KEa := by unfold elS; positivity
  unfold elTotal
  rw [if_neg (by simp), if_neg (not_lt.2 ht)]
  simp only
  have hq : 0 ≤ r.md * r.md / elS r KEa := q_range hr hK.le
  have hq1 : r.md * r.md / elS r KEa < 1 := by
    rw [div_lt_one hs, hr.d]
    unfold elS
    nlinarith [mul_pos hb hK]
  have he : 0 < elEc r KEa := by
    unfold elEc
    have : 0 < elS r KEa + r.mc * r.mc - r.md * r.md := by
      rw [hr.d, hmc]
      unfold elS
      nlinarith [mul_pos hb hK]
    have := Real.sqrt_pos.2 hs
    positivity
  generalize r.md * r.md / elS r KEa = q at hq hq1 ⊢
  have hz : (0 : ℝ) < (Pdg.getZ r.atom : ℝ) := by exact_mod_cast hZ
  have := Real.pi_pos
  have hG : 0 < GF := by unfold GF; norm_num
  have ht : 0 < r.g1 ^ 2 + (r.g2 * r.g2 / 3 - r.g1 * r.g2) * q + r.g2 * r.g2 / 3 * (1 + q ^ 2) := by
    have e : r.g1 ^ 2 + (r.g2 * r.g2 / 3 - r.g1 * r.g2) * q + r.g2 * r.g2 / 3 * (1 + q ^ 2)
      = (r.g1 - r.g2 * q / 2) ^ 2 + r.g2 ^ 2 * (1 / 3 + q / 3 + q ^ 2 / 12) := by ring
    rw [e]
    by_cases h0 : r.g2 = 0
    · rcases hg with h | h
      · rw [h0]; have : 0 < r.g1 ^ 2 := by positivity
        simpa using this
      · exact absurd h0 h
    · have : 0 < r.g2 ^ 2 := by positivity
      positivity
  positivity

/-- C41: the bound used to sample the cosine is at least the differential cross section
everywhere, whatever the couplings and masses. -/
theorem C41_bound (r : Electron) (pdg : Int) (KEa c : ℝ) (h1 : -1 ≤ c) (h2 : c ≤ 1) :
    elDiff r pdg KEa c ≤ elBound r pdg KEa (twoTwoScatter (elMasses r) KEa).s := by
  unfold elBound
  refine le_trans ?_ (le_max_left _ _)
  unfold elDiff
  split_ifs
  · simp
  · simp
  · simp only
    generalize r.md * r.md / elS r KEa = q
    have hz : (0 : ℝ) ≤ (Pdg.getZ r.atom : ℝ) := by exact_mod_cast getZ_nonneg r.atom
    have hp : 0 ≤ 2 / Real.pi * (GF * elEc r KEa) ^ 2 := by have := Real.pi_pos; positivity
    have conv : ∀ T U W : ℝ, U ≤ max T W →
        2 / Real.pi * (GF * elEc r KEa) ^ 2 * U * (Pdg.getZ r.atom : ℝ) ≤
        max (2 / Real.pi * (GF * elEc r KEa) ^ 2 * T * (Pdg.getZ r.atom : ℝ))
          (2 / Real.pi * (GF * elEc r KEa) ^ 2 * W * (Pdg.getZ r.atom : ℝ)) := by
      intro T U W h
      rcases le_max_iff.1 h with h | h
      · exact le_max_of_le_left (mul_le_mul_of_nonneg_right (mul_le_mul_of_nonneg_left h hp) hz)
      · exact le_max_of_le_right (mul_le_mul_of_nonneg_right (mul_le_mul_of_nonneg_left h hp) hz)
    apply conv
    generalize hα : r.g1 * r.g2 * q = α
    generalize 1 / 2 * (1 - q) = β
    rw [le_max_iff]
    by_contra hcon
    push_neg at hcon
    obtain ⟨k1, k2⟩ := hcon
    have i1 : 0 ≤ (1 + c) / 2 := by linarith
    have i2 : 0 ≤ (1 - c) / 2 := by linarith
    have key : (r.g1 ^ 2 + α * (c - 1) + (r.g2 * (1 + β * (c - 1))) ^ 2)
        ≤ (1 - c) / 2 * (r.g1 ^ 2 + α * (-1 - 1) + (r.g2 * (1 + β * (-1 - 1))) ^ 2)
        + (1 + c) / 2 * (r.g1 ^ 2 + α * (1 - 1) + (r.g2 * (1 + β * (1 - 1))) ^ 2) := by
      have : 0 ≤ (r.g2 * β) ^ 2 * ((1 - c) * (1 + c)) := by
        have : 0 ≤ 1 - c := by linarith
        have : 0 ≤ 1 + c := by linarith
        positivity
      nlinarith
    rcases le_or_gt c 0 with hc | hc
    · have : 0 < (1 - c) / 2 := by linarith
      nlinarith
    · have : 0 < (1 + c) / 2 := by linarith
      nlinarith

/-- C41: the bound is a value of the differential cross section, so it is the maximum. -/
theorem C41_attained {r : Electron} (hr : ElectronGood r) (pdg : Int) {KEa : ℝ} (hK : 0 ≤ KEa) :
    ∃ c, -1 ≤ c ∧ c ≤ 1 ∧
      elBound r pdg KEa (twoTwoScatter (elMasses r) KEa).s = elDiff r pdg KEa c := by
  have hl : lowest ≤ 0 := by
    unfold lowest
    rw [neg_nonpos]
    refine mul_nonneg ?_ (by positivity)
    have : (2 : ℝ) ^ (-52 : ℤ) ≤ 1 := by norm_num
    linarith
  have hn := (C40_nonneg hr pdg hK (le_refl (-1 : ℝ)) (by norm_num)).1
  unfold elBound
  set M := max (elDiff r pdg KEa (-1)) (elDiff r pdg KEa 1) with hM
  have hM0 : lowest ≤ M := hl.trans (hn.trans (le_max_left _ _))
  have hMc : ∃ c : ℝ, -1 ≤ c ∧ c ≤ 1 ∧ M = elDiff r pdg KEa c := by
    rcases max_choice (elDiff r pdg KEa (-1)) (elDiff r pdg KEa 1) with h | h
    · exact ⟨-1, le_refl _, by norm_num, h⟩
    · exact ⟨1, by norm_num, le_refl _, h⟩
  simp only
  split
  · rw [max_eq_left hM0]; exact hMc
  · rename_i cth _
    split_ifs with hcth
    · rcases max_choice M (elDiff r pdg KEa cth) with h | h
      · rw [h]; exact hMc
      · rw [h]; exact ⟨cth, hcth.1, hcth.2, rfl⟩
    · rw [max_eq_left hM0]; exact hMc

/-- Electron neutrinos on argon in units of the electron mass, with simple numbers for
the couplings. -/
noncomputable def exElectron : Electron :=
  { pdgA := 12, pdgC := 12, atom := 1000180400, g1 := 1, g2 := 1 / 4, ma := 0, mb := 1, mc := 0, md := 1 }

theorem exElectron_good : ElectronGood exElectron := by
  constructor <;> norm_num [exElectron]

example : threshold (elMasses exElectron) = 0 ∧ elS exElectron (3 / 2) = 4 ∧
    0 < Pdg.getZ exElectron.atom ∧ 0 < elTotal exElectron 12 (3 / 2) ∧
    elDiff exElectron 12 (3 / 2) 1 = 2 / Real.pi * (GF * (3 / 4)) ^ 2 * (17 / 16) * 18 := by
  have e1 : threshold (elMasses exElectron) = 0 := by norm_num [threshold, elMasses, exElectron]
  have e2 : elS exElectron (3 / 2) = 4 := by norm_num [elS, exElectron]
  have e3 : Pdg.getZ exElectron.atom = 18 := by decide +kernel
  have e4 : Real.sqrt 4 = 2 := by
    rw [show (4 : ℝ) = 2 ^ 2 by norm_num]; exact Real.sqrt_sq (by norm_num)
  refine ⟨e1, e2, by rw [e3]; norm_num, ?_, ?_⟩
  · exact C40_positive exElectron_good (by norm_num) (by rw [e1]; norm_num)
      (by rw [e3]; norm_num) (Or.inl (by norm_num [exElectron])) rfl
  · unfold elDiff
    rw [if_neg (by decide), if_neg (by rw [e1]; norm_num), e2, e3]
    have e5 : elEc exElectron (3 / 2) = 3 / 4 := by
      unfold elEc; rw [e2, e4]; norm_num [exElectron]
    rw [e5]
    norm_num [exElectron]

/-! ## C84: events -/

/-- The initial and final particles of an event in which a projectile of kinetic energy
`KEa` moving along z hits a target at rest: projectile, target, ejectile and residue
have the given codes and masses, are on their mass shells, and energy and momentum are
conserved. -/
def Collision (r : Masses) (KEa : ℝ) (ev : Event ℝ) : Prop :=
  ∃ pr tg ej re : Particle ℝ, ev.initial = [pr, tg] ∧ ev.final = [ej, re] ∧
    (pr.pdg = r.pdgA ∧ pr.mass = r.ma ∧ pr.E = KEa + r.ma ∧ pr.px = 0 ∧ pr.py = 0 ∧ 0 ≤ pr.pz ∧
      OnShell pr) ∧
    (tg.pdg = r.pdgB ∧ tg.mass = r.mb ∧ tg.E = r.mb ∧ tg.px = 0 ∧ tg.py = 0 ∧ tg.pz = 0) ∧
    (ej.pdg = r.pdgC ∧ ej.mass = r.mc ∧ OnShell ej) ∧
    (re.pdg = r.pdgD ∧ re.mass = r.md ∧ OnShell re) ∧
    ej.E + re.E = pr.E + tg.E ∧ ej.px + re.px = pr.px + tg.px ∧
    ej.py + re.py = pr.py + tg.py ∧ ej.pz + re.pz = pr.pz + tg.pz

theorem ElectronGood.masses {r : Electron} (h : ElectronGood r) : GoodMasses (elMasses r) :=
  ⟨h.a, h.b, h.c, by rw [show (elMasses r).md = r.mb from h.d]; exact h.b.le⟩

/-- Particles are only made if their codes are in the charge table. -/
theorem makeEvent_known {r : Masses} {KEa c phi Elevel : ℝ} {sc : Scatter} {twoJ : Int} {P : Parity}
    {ev : Event ℝ} (e : makeEvent r KEa sc c phi Elevel twoJ P = .ok ev) : KnownCodes r := by
  have key : ∀ {pdg : Int} {a b c d m : ℝ} {p : Particle ℝ}, Particle.mk6 pdg a b c d m = .ok p →
      ∃ q, Pdg.charge pdg = .ok q := by
    intro pdg a b c d m p h
    unfold Particle.mk6 at h
    split at h
    · exact ⟨_, by assumption⟩
    · cases h
  unfold makeEvent at e
  simp only at e
  split at e
  · rename_i h1 h2 h3 h4
    exact ⟨key h1, key h2, key h3, key h4⟩
  all_goals cases e

/-- C84: an event of scattering on an electron is a collision of that projectile with an
electron at rest, in which energy and momentum are conserved. -/
theorem C84_electron {G : Type} {E : Env G} (hA : E.arith = exact) (hE : E.engine.Lawful)
    {r : Electron} (hr : ElectronGood r) {pdg : Int} {KEa : ℝ}
    (hK : 0 ≤ KEa) {g g' : G} {ev : Event ℝ} (e : elCreate E r pdg KEa g = some (.ok (ev, g'))) :
    pdg = r.pdgA ∧ Collision (elMasses r) KEa ev ∧ ev.Ex = 0 := by
  unfold elCreate at e
  by_cases h1 : pdg ≠ r.pdgA
  · rw [if_pos h1] at e; cases e
  rw [if_neg h1] at e
  by_cases h2 : KEa < threshold (elMasses r)
  · rw [if_pos h2] at e; cases e
  rw [if_neg h2] at e
  simp only at e
  split at e
  · cases e
  · cases e
  · rename_i x hx
    rw [hA] at hx
    have hx' := rejectLoop_range hE (by norm_num) _ hx
    have hc : x.x ^ 2 ≤ 1 := by nlinarith [hx'.1, hx'.2]
    have hR := ((C35_threshold hr.masses hK).1).1 (not_lt.1 h2)
    have hk : KnownCodes (elMasses r) := by
      split at e
      · cases e
      · rename_i hme
        exact makeEvent_known hme
    obtain ⟨pr, tg, ej, re, hm, q1, q2, q3, q4, q5, -⟩ :=
      C34_conserves (uniform E.arith E.engine 0 (2 * Real.pi) false x.gen).1 0 1 ⟨true⟩ hr.masses hk hK hR hc
    rw [hm] at e
    cases e
    exact ⟨not_not.1 h1, ⟨pr, tg, ej, re, rfl, rfl, q1, q2, q3, q4, q5⟩, rfl⟩

end Marley.Props
