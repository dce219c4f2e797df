import Verif.Lemmas.LevelDensity
import Mathlib.Analysis.Real.Pi.Bounds

/-!
# C90: nuclear level densities
-/

set_option autoImplicit false

namespace Marley.Props
open Marley Marley.Density
open Marley.Spec (ShellCorrection levelParameter levelParameter0 fermiGas lowEnergy spinFraction shift damping
  discreteSigma asymptotic fermiSigma2)

/-- The shell correction does not make the level density parameter negative. -/
def SmallShell (t : Mass.Table) (Z A : Int) : Prop :=
  ∃ W, ShellCorrection t Z A W ∧ 0 < levelParameter0 A W

theorem smallShell_ok {t : Mass.Table} {Z A : Int} {m : Bfm} (h : Bfm.make t Z A = .ok m)
    (hs : SmallShell t Z A) : m.Ok := by
  obtain ⟨W, ⟨e, d, h1, h2, rfl⟩, h3⟩ := hs
  obtain ⟨a0, a1, a2, a3, a4, a5, ⟨e', d', b1, b2, b3⟩, a7⟩ := make_members h
  rw [h1] at b1
  rw [h2] at b2
  cases b1
  cases b2
  refine make_ok h ?_
  have hA : (0 : ℝ) < A := by exact_mod_cast (by omega : 0 < A)
  have ha : 0 < asymptotic A := by unfold asymptotic; positivity
  unfold levelParameter0 at h3
  have := pos_of_mul_pos_right h3 ha.le
  rw [a3, b3]
  linarith

/-- Whatever was computed before, a call gives the same result. -/
theorem C90_history (m : Bfm) (before : List Call) (c : Call) :
    ((m.after before).call c).1 = (m.call c).1 := by
  obtain ⟨s, h⟩ := after_state before m
  rw [h, call_sigma]

/-- Densities are positive numbers, for every energy, spin and parity. -/
theorem C90_positive_partial {t : Mass.Table} {Z A : Int} {m : Bfm} (h : Bfm.make t Z A = .ok m)
    (hs : SmallShell t Z A) (before : List Call) {Ex : ℝ} (hE : 0 ≤ Ex) {twoJ : Int} (hJ : 0 ≤ twoJ)
    (P : Parity) : ∃ r1 r2 r3, ((m.after before).total Ex).1 = some r1 ∧
      ((m.after before).spin Ex twoJ).1 = some r2 ∧ ((m.after before).spinParity Ex twoJ P).1 = some r3 ∧
      0 < r1 ∧ 0 < r2 ∧ 0 < r3 := by
  have hm := smallShell_ok h hs
  have hsp := C90_history m before (.spin Ex twoJ)
  have hto := C90_history m before (.total Ex)
  have hpa := C90_history m before (.spinParity Ex twoJ P)
  simp only [Bfm.call] at hsp hto hpa
  have hg := sig2_pos hm hE
  have hs0 : 0 < Real.sqrt (m.sig2 Ex) := by positivity
  have hr := rho_pos hm hE
  have hne : 2 * Real.sqrt (m.sig2 Ex) ^ 2 ≠ 0 := by positivity
  have hJ' : (0 : ℝ) ≤ twoJ := by exact_mod_cast hJ
  have hspin : (m.spin Ex twoJ).1 = some ((twoJ + 1) / (2 * Real.sqrt (m.sig2 Ex) ^ 2) *
      Real.exp (-0.25 * ((twoJ : ℝ) + 1) ^ 2 / (2 * Real.sqrt (m.sig2 Ex) ^ 2)) * m.rho Ex) := by
    simp only [Bfm.spin, total_eq hm hE, Option.bind_eq_bind, Option.bind_some, Utils.fdiv, if_neg hne, Option.pure_def]
  refine ⟨_, _, 0.5 * ((twoJ + 1) / (2 * Real.sqrt (m.sig2 Ex) ^ 2) *
      Real.exp (-0.25 * ((twoJ : ℝ) + 1) ^ 2 / (2 * Real.sqrt (m.sig2 Ex) ^ 2)) * m.rho Ex),
    hto.trans (by rw [total_eq hm hE]), hsp.trans hspin, hpa.trans ?_, hr, by positivity, ?_⟩
  · simp only [Bfm.spinParity, hspin, Option.bind_eq_bind, Option.bind_some, Option.pure_def]
  · positivity

/-- Both parities have half of the levels of a given spin. -/
theorem C90_parity (m : Bfm) (before : List Call) (Ex : ℝ) (twoJ : Int) (P : Parity) :
    ((m.after before).spinParity Ex twoJ P).1 = ((m.after before).spin Ex twoJ).1.map (· / 2) := by
  simp only [Bfm.spinParity]
  cases ((m.after before).spin Ex twoJ).1 with
  | none => rfl
  | some x =>
    simp only [Option.bind_eq_bind, Option.bind_some, Option.pure_def, Option.map_some]
    congr 1
    ring

/-- At each energy there is one spin cut-off parameter that describes the distribution over all spins. -/
theorem C90_spin {t : Mass.Table} {Z A : Int} {m : Bfm} (h : Bfm.make t Z A = .ok m)
    (hs : SmallShell t Z A) (before : List Call) {Ex : ℝ} (hE : 0 ≤ Ex) :
    ∃ σ r, 0 < σ ∧ ((m.after before).total Ex).1 = some r ∧ ∀ twoJ : Int,
      ((m.after before).spin Ex twoJ).1 = some (spinFraction (twoJ / 2) σ * r) := by
  have hm := smallShell_ok h hs
  have hg := sig2_pos hm hE
  have hs0 : 0 < Real.sqrt (m.sig2 Ex) := by positivity
  have hne : 2 * Real.sqrt (m.sig2 Ex) ^ 2 ≠ 0 := by positivity
  refine ⟨Real.sqrt (m.sig2 Ex), m.rho Ex, hs0, (C90_history m before (.total Ex)).trans
    (by simp only [Bfm.call, total_eq hm hE]), fun twoJ => (C90_history m before (.spin Ex twoJ)).trans ?_⟩
  simp only [Bfm.call, Bfm.spin, total_eq hm hE, Option.bind_eq_bind, Option.bind_some, Utils.fdiv, if_neg hne,
    Option.pure_def, spinFraction]
  congr 3
  · congr 1; ring
  · congr 1; ring

theorem quarter_powers {a U : ℝ} (ha : 0 < a) (hU : 0 < U) :
    Real.sqrt (2 * Real.sqrt (a * U)) * U = Real.sqrt 2 * (a ^ (1 / 4 : ℝ) * U ^ (5 / 4 : ℝ)) := by
  rw [Real.sqrt_mul (by norm_num), Real.sqrt_mul ha.le, Real.sqrt_mul (Real.sqrt_nonneg _)]
  have q : ∀ x : ℝ, 0 < x → Real.sqrt (Real.sqrt x) = x ^ (1 / 4 : ℝ) := by
    intro x hx
    rw [Real.sqrt_eq_rpow, Real.sqrt_eq_rpow, ← Real.rpow_mul hx.le]
    norm_num
  rw [q a ha, q U hU]
  have : U ^ (5 / 4 : ℝ) = U ^ (1 / 4 : ℝ) * U := by
    rw [show (5 / 4 : ℝ) = 1 / 4 + 1 by norm_num, Real.rpow_add hU, Real.rpow_one]
  rw [this]
  ring

/-- Above the energy shift the total density is the published combination of the Fermi gas expression with its
low-energy limit; up to the shift it is the limiting value.  The square of the spin cut-off parameter is the Fermi
gas value above the neutron separation energy, and between the shift and that energy it is interpolated. -/
theorem C90_formula {t : Mass.Table} {Z A : Int} {m : Bfm} (h : Bfm.make t Z A = .ok m)
    (hs : SmallShell t Z A) (before : List Call) {Ex : ℝ} (hE : 0 ≤ Ex) : ∃ W Sn σ r, ShellCorrection t Z A W ∧
      Mass.separationEnergy t Z A 2112 true = .ok (some Sn) ∧ 0 < σ ∧ ((m.after before).total Ex).1 = some r ∧
      (shift Z (A - Z) A < Ex → ∀ a U, U = Ex - shift Z (A - Z) A → a = levelParameter A W U →
        1 / r = 1 / fermiGas a U σ + 1 / lowEnergy a U σ ∧
        (Sn ≤ Ex → σ ^ 2 = fermiSigma2 A a U) ∧
        (Ex < Sn → σ ^ 2 = (1 - Ex / Sn) * discreteSigma A ^ 2 +
          Ex / Sn * fermiSigma2 A a (Sn - shift Z (A - Z) A))) ∧
      (Ex ≤ shift Z (A - Z) A → σ = discreteSigma A ∧ r = lowEnergy (levelParameter0 A W) 0 σ) := by
  have hm := smallShell_ok h hs
  obtain ⟨a0, a1, a2, a3, a4, a5, a6, a7⟩ := make_members h
  have hg := sig2_pos hm hE
  have hs0 : 0 < Real.sqrt (m.sig2 Ex) := by positivity
  refine ⟨m.deltaW, m.Sn, Real.sqrt (m.sig2 Ex), m.rho Ex, a6, a7, hs0,
    (C90_history m before (.total Ex)).trans (by simp only [Bfm.call, total_eq hm hE]), ?_, ?_⟩
  · intro hl a U hU ha
    rw [← a5] at hl hU
    have hU0 : 0 < U := by linarith
    have hpar : a = m.parameter U := by
      rw [ha, levelParameter, Bfm.parameter, if_neg (not_le.2 hU0), a2, a3]
      congr 2
      rw [neg_mul]
      ring
    have hap : 0 < a := hpar ▸ parameter_pos hm U
    have haT := hm.aTilde
    refine ⟨?_, fun hS => ?_, fun hS => ?_⟩
    rotate_left
    · rw [Real.sq_sqrt hg.le, sig2_high hl, Bfm.high, if_pos hS, ← hU, ← hpar, Bfm.coef, a1, fermiSigma2, ← a2]
      field_simp
    · have hS0 : 0 < m.Sn := lt_of_le_of_lt hE hS
      rw [Real.sq_sqrt hg.le, sig2_high hl, Bfm.high, if_neg (not_le.2 hS), ← hU, ← hpar, Bfm.coef, a1, fermiSigma2,
        ← a2, ← a4, ← a5]
      field_simp
      ring
    simp only [Bfm.rho, ← hU, Bfm.core, max_eq_left hU0.le, ← hpar]
    have hq := quarter_powers hap hU0
    have hx : 0 < Real.exp (-(a * U) - 1) / a := by positivity
    generalize hσ : Real.sqrt (m.sig2 Ex) = σ at hs0
    have hp := Real.pi_pos
    have h2p : Real.sqrt (2 * Real.pi) = Real.sqrt 2 * Real.sqrt Real.pi := Real.sqrt_mul (by norm_num) _
    have hsp : 0 < Real.sqrt Real.pi := by positivity
    have hs2 : 0 < Real.sqrt 2 := by positivity
    have haq : 0 < a ^ (1 / 4 : ℝ) := by positivity
    have huq : 0 < U ^ (5 / 4 : ℝ) := by positivity
    have e1 : 1 / fermiGas a U σ = 12 * σ * (Real.sqrt 2 * (a ^ (1 / 4 : ℝ) * U ^ (5 / 4 : ℝ)) *
        Real.exp (-2 * Real.sqrt (a * U))) := by
      unfold fermiGas
      rw [h2p, show -2 * Real.sqrt (a * U) = -(2 * Real.sqrt (a * U)) by ring, Real.exp_neg]
      have := Real.exp_pos (2 * Real.sqrt (a * U))
      field_simp
    have e2 : 1 / lowEnergy a U σ = 12 * σ * (Real.exp (-(a * U) - 1) / a) := by
      unfold lowEnergy
      rw [show -(a * U) - 1 = -(1 + a * U) by ring, Real.exp_neg, Real.exp_add]
      have := Real.exp_pos (a * U)
      have := Real.exp_pos 1
      field_simp
    have hden : 0 < Real.sqrt (2 * Real.sqrt (a * U)) * U * Real.exp (-2 * Real.sqrt (a * U))
        + Real.exp (-(a * U) - 1) / a := by positivity
    rw [e1, e2, ← hq, ← mul_add]
    field_simp
  · intro hl
    rw [← a5] at hl
    refine ⟨?_, ?_⟩
    · rw [Bfm.sig2, if_pos hl, Real.sqrt_sq hm.sigmaD.le, a4]
    · have hU : Ex - m.Delta ≤ 0 := by linarith
      rw [Bfm.rho, core_low hm hU, Bfm.parameter, if_pos hU, lowEnergy, mul_zero, Real.exp_zero, mul_one,
        levelParameter0, a2, a3]
      congr 3
      ring

/-- Above the energy shift the density is a continuous function of the energy, up to the shift it is constant. -/
theorem C90_continuous_partial {t : Mass.Table} {Z A : Int} {m : Bfm} (h : Bfm.make t Z A = .ok m)
    (hs : SmallShell t Z A) : ∃ f : ℝ → ℝ, (∀ before Ex, 0 ≤ Ex → ((m.after before).total Ex).1 = some (f Ex)) ∧
      ContinuousOn f {Ex | shift Z (A - Z) A < Ex ∧ 0 ≤ Ex} ∧
      ∃ c, ∀ Ex, Ex ≤ shift Z (A - Z) A → f Ex = c := by
  have hm := smallShell_ok h hs
  obtain ⟨-, -, -, -, -, a5, -, -⟩ := make_members h
  refine ⟨m.rho, fun before Ex hE => (C90_history m before (.total Ex)).trans
    (by simp only [Bfm.call, total_eq hm hE]), ?_, Real.exp 1 * (m.aTilde * (1 + m.gamma * m.deltaW)) /
      (12 * Real.sqrt (m.sigmaD ^ 2)), fun Ex hE => ?_⟩
  · rw [← a5]
    exact rho_continuousOn hm
  · rw [← a5] at hE
    have hU : Ex - m.Delta ≤ 0 := by linarith
    rw [Bfm.rho, core_low hm hU, Bfm.parameter, if_pos hU, Bfm.sig2, if_pos hE]

/-- The density jumps at the energy shift, unless the two spin cut-off parameters happen to agree there. -/
theorem jump_at_shift {m : Bfm} (hm : m.Ok) (hD : 0 < m.Delta) (hS : m.Delta < m.Sn)
    (hne : m.high m.Delta ≠ m.sigmaD ^ 2) {f : ℝ → ℝ}
    (hf : ∀ Ex, 0 ≤ Ex → (m.total Ex).1 = some (f Ex)) : ¬ ContinuousAt f m.Delta := by
  intro hc
  have hfr : ∀ Ex, 0 ≤ Ex → f Ex = m.rho Ex := by
    intro Ex hE
    have := hf Ex hE
    rw [total_eq hm hE] at this
    simpa using this.symm
  have hpos : ∀ Ex, 0 ≤ Ex → 0 < f Ex := fun Ex hE => by rw [hfr Ex hE]; exact rho_pos hm hE
  have hsig : ∀ Ex, 0 ≤ Ex → m.sig2 Ex = (m.core (Ex - m.Delta) / (12 * f Ex)) ^ 2 := by
    intro Ex hE
    have hg := sig2_pos hm hE
    have hc := core_pos hm (Ex - m.Delta)
    rw [hfr Ex hE, Bfm.rho]
    have hq : Real.sqrt (m.sig2 Ex) ^ 2 = m.sig2 Ex := Real.sq_sqrt hg.le
    have hq0 : 0 < Real.sqrt (m.sig2 Ex) := by positivity
    have e : m.core (Ex - m.Delta) / (12 * (m.core (Ex - m.Delta) / (12 * Real.sqrt (m.sig2 Ex))))
        = Real.sqrt (m.sig2 Ex) := by field_simp
    rw [e, hq]
  have hgc : ContinuousAt (fun Ex => (m.core (Ex - m.Delta) / (12 * f Ex)) ^ 2) m.Delta := by
    have h1 : ContinuousAt (fun Ex => m.core (Ex - m.Delta)) m.Delta :=
      ((core_continuous hm).comp (continuous_id.sub continuous_const)).continuousAt
    have h2 : 12 * f m.Delta ≠ 0 := (mul_pos (by norm_num) (hpos _ hD.le)).ne'
    exact (h1.div (continuousAt_const.mul hc) h2).pow 2
  have hv : (m.core (m.Delta - m.Delta) / (12 * f m.Delta)) ^ 2 = m.sigmaD ^ 2 := by
    rw [← hsig _ hD.le, Bfm.sig2, if_pos le_rfl]
  have t1 : Filter.Tendsto (fun Ex => (m.core (Ex - m.Delta) / (12 * f Ex)) ^ 2)
      (nhdsWithin m.Delta (Set.Ioi m.Delta)) (nhds (m.sigmaD ^ 2)) := by
    rw [← hv]
    exact hgc.tendsto.mono_left nhdsWithin_le_nhds
  have t2 : Filter.Tendsto (fun Ex => (m.core (Ex - m.Delta) / (12 * f Ex)) ^ 2)
      (nhdsWithin m.Delta (Set.Ioi m.Delta)) (nhds (m.high m.Delta)) := by
    have h3 : Filter.Tendsto m.high (nhdsWithin m.Delta (Set.Ioi m.Delta)) (nhds (m.high m.Delta)) :=
      (high_continuous (by linarith)).continuousAt.tendsto.mono_left nhdsWithin_le_nhds
    refine h3.congr' ?_
    filter_upwards [self_mem_nhdsWithin] with x hx
    have hx' : m.Delta < x := hx
    rw [← sig2_high hx', hsig x (by linarith)]
  exact hne (tendsto_nhds_unique t2 t1)

/-- A table without atomic masses, and with the neutron mass that gives the nuclide 64Ni a neutron separation energy
of 10 MeV. -/
noncomputable def nickelTable : Mass.Table where
  particle := fun k => if k = 2112 then
      (Mass.liquidDropMass 28 64).bind fun mi => (Mass.liquidDropMass 28 63).map fun mf =>
        (10 - mf + mi) / Mass.microAmu
    else if k = 11 then some 548.5799 else none
  atomic := fun _ => none

theorem nickel_lookup (Z A : Int) : Mass.lookup nickelTable Z A true = .ok (Mass.liquidDropMass Z A, false) := rfl

theorem drop_some (Z : Int) {A : Int} (hA : 0 < A) : ∃ d, Mass.liquidDropExcess Z A = some d := by
  unfold Mass.liquidDropExcess
  rw [if_neg (not_le.2 hA)]
  exact ⟨_, rfl⟩

theorem nickel_shell : ShellCorrection nickelTable 28 64 0 := by
  obtain ⟨d, hd⟩ := drop_some 28 (A := 64) (by norm_num)
  refine ⟨d, d, ?_, hd, by ring⟩
  rw [Mass.massExcess, nickel_lookup, Mass.liquidDropMass, hd]
  simp only [Option.map_some]
  norm_num
  ring

theorem nickel_separation : Mass.separationEnergy nickelTable 28 64 2112 true = .ok (some 10) := by
  obtain ⟨d, hd⟩ := drop_some 28 (A := 64) (by norm_num)
  obtain ⟨e, he⟩ := drop_some 28 (A := 63) (by norm_num)
  have hp : Mass.at' nickelTable.particle 2112 = .ok ((10 - (e + Mass.microAmu * 1e6 * (63 : Int)) +
      (d + Mass.microAmu * 1e6 * (64 : Int))) / Mass.microAmu) := by
    simp only [Mass.at', nickelTable, if_pos, Mass.liquidDropMass, hd, he, Option.map_some, Option.bind_some]
  have hel : Mass.at' nickelTable.particle Mass.ELECTRON = .ok 548.5799 := by
    simp only [Mass.at', nickelTable, Mass.ELECTRON]
    norm_num
  have hz : Pdg.getZ 2112 = 0 := by decide
  have ha : Pdg.getA 2112 = 1 := by decide
  have hm : Mass.microAmu ≠ 0 := by unfold Mass.microAmu; norm_num
  simp only [Mass.separationEnergy, hp, hel, hz, ha, nickel_lookup]
  norm_num [Mass.liquidDropMass, hd, he]
  field_simp
  ring

theorem nickel_made : ∃ m, Bfm.make nickelTable 28 64 = .ok m := by
  obtain ⟨e, d, h1, h2, -⟩ := nickel_shell
  unfold Bfm.make
  rw [if_neg (by norm_num), h1, h2, nickel_separation]
  exact ⟨_, rfl⟩

theorem nickel_small : SmallShell nickelTable 28 64 :=
  ⟨0, nickel_shell, by unfold levelParameter0 asymptotic; rw [zero_mul]; positivity⟩

/-- Densities of nickel-64 are positive numbers, whatever was asked before. -/
example : ∃ m, Bfm.make nickelTable 28 64 = .ok m ∧
    ∃ r1 r2 r3, ((m.after [.spin 3 4]).total 8).1 = some r1 ∧ ((m.after [.spin 3 4]).spin 8 4).1 = some r2 ∧
      ((m.after [.spin 3 4]).spinParity 8 4 ⟨true⟩).1 = some r3 ∧ 0 < r1 ∧ 0 < r2 ∧ 0 < r3 := by
  obtain ⟨m, hm⟩ := nickel_made
  exact ⟨m, hm, C90_positive_partial hm nickel_small [.spin 3 4] (by norm_num) (by norm_num) ⟨true⟩⟩

/-- The total density is not a continuous function of the energy. -/
theorem C90_jump_violated : ∃ t Z A m, Bfm.make t Z A = .ok m ∧ SmallShell t Z A ∧ 0 < shift Z (A - Z) A ∧
    ∀ f : ℝ → ℝ, (∀ Ex, 0 ≤ Ex → (m.total Ex).1 = some (f Ex)) → ¬ ContinuousAt f (shift Z (A - Z) A) := by
  obtain ⟨m, hm⟩ := nickel_made
  have hok := smallShell_ok hm nickel_small
  obtain ⟨a0, a1, a2, a3, a4, a5, ⟨e, d, b1, b2, b3⟩, a7⟩ := make_members hm
  have h64 : ((64 : Int) : ℝ) = 4 ^ (3 : ℝ) := by norm_num
  have p23 : ((64 : Int) : ℝ) ^ (2 / 3 : ℝ) = 16 := by
    rw [h64, ← Real.rpow_mul (by norm_num)]; norm_num
  have p53 : ((64 : Int) : ℝ) ^ (5 / 3 : ℝ) = 1024 := by
    rw [h64, ← Real.rpow_mul (by norm_num)]; norm_num
  have psq : Real.sqrt ((64 : Int) : ℝ) = 8 := by
    rw [show ((64 : Int) : ℝ) = 8 ^ 2 by norm_num]; exact Real.sqrt_sq (by norm_num)
  have hΔ : m.Delta = 0.173015 + 1.5 := by
    rw [a5, shift, if_pos (by decide), psq]; norm_num
  have hSn : m.Sn = 10 := by
    rw [nickel_separation] at a7
    simpa using a7.symm
  have hW : m.deltaW = 0 := by
    obtain ⟨e', d', c1, c2, c3⟩ := nickel_shell
    rw [b1] at c1
    rw [b2] at c2
    cases c1
    cases c2
    rw [b3, ← c3]
  have haT : m.aTilde = 7.7476064 := by
    rw [a2, asymptotic, p23]; norm_num
  have hpar : ∀ U, m.parameter U = 7.7476064 := by
    intro U
    unfold Bfm.parameter
    rw [hW, haT]
    split_ifs <;> ring
  have hco : m.coef = 14.22336 := by
    rw [Bfm.coef, a1, p53]; norm_num
  have hsd : m.sigmaD ^ 2 ≤ 11.0224 := by
    have h1 : ((64 : Int) : ℝ) ^ (0.26 : ℝ) ≤ ((64 : Int) : ℝ) ^ (1 / 3 : ℝ) :=
      Real.rpow_le_rpow_of_exponent_le (by norm_num) (by norm_num)
    have h2 : ((64 : Int) : ℝ) ^ (1 / 3 : ℝ) = 4 := by
      rw [h64, ← Real.rpow_mul (by norm_num)]; norm_num
    have h3 : 0 ≤ ((64 : Int) : ℝ) ^ (0.26 : ℝ) := by positivity
    rw [a4, discreteSigma]
    rw [h2] at h1
    nlinarith
  refine ⟨nickelTable, 28, 64, m, hm, nickel_small, a5 ▸ (by rw [hΔ]; norm_num), fun f hf => ?_⟩
  rw [← a5]
  refine jump_at_shift hok (by rw [hΔ]; norm_num) (by rw [hΔ, hSn]; norm_num) ?_ hf
  have hlt : ¬ m.Sn ≤ m.Delta := by rw [hΔ, hSn]; norm_num
  have hsq : 7 ≤ Real.sqrt (7.7476064 * (10 - (0.173015 + 1.5))) := Real.le_sqrt_of_sq_le (by norm_num)
  rw [Bfm.high, if_neg hlt, hpar, hco, haT, hSn, hΔ]
  have : 12 ≤ 14.22336 * Real.sqrt (7.7476064 * (10 - (0.173015 + 1.5))) / 7.7476064 := by
    rw [le_div_iff₀ (by norm_num)]
    linarith
  apply ne_of_gt
  have : 0 < (0.173015 + 1.5) * (14.22336 * Real.sqrt (7.7476064 * (10 - (0.173015 + 1.5))) / 7.7476064
      - m.sigmaD ^ 2) / 10 := by
    have : 0 < 14.22336 * Real.sqrt (7.7476064 * (10 - (0.173015 + 1.5))) / 7.7476064 - m.sigmaD ^ 2 := by linarith
    positivity
  linarith

/-- With the listed mass of helium-4 the density of levels up to 6 MeV is negative. -/
theorem C90_helium_violated {t : Mass.Table} {m : Bfm} (ht : t.atomic 1000020040 = some 4002603.25413)
    (h : Bfm.make t 2 4 = .ok m) {Ex : ℝ} (hE : Ex ≤ 6) : ∃ r, (m.total Ex).1 = some r ∧ r < 0 := by
  obtain ⟨a0, a1, a2, a3, a4, a5, ⟨e, d, b1, b2, b3⟩, a7⟩ := make_members h
  obtain ⟨c, hc⟩ : ∃ c : ℝ, c = ((4 : Int) : ℝ) ^ (1 / 3 : ℝ) := ⟨_, rfl⟩
  have hc3 : c ^ 3 = 4 := by
    rw [hc, ← Real.rpow_natCast, ← Real.rpow_mul (by norm_num)]
    norm_num
  have hc0 : 0 ≤ c := by rw [hc]; positivity
  have hcl : 1.587 ≤ c := by
    by_contra hn
    have := pow_le_pow_left₀ hc0 (not_le.1 hn).le 3
    norm_num at this
    linarith
  have hcu : c ≤ 1.588 := by
    by_contra hn
    have := pow_le_pow_left₀ (by norm_num) (not_le.1 hn).le 3
    norm_num at this
    linarith
  have hc2 : ((4 : Int) : ℝ) ^ ((2 : ℝ) / 3) = c ^ 2 := by
    rw [hc, ← Real.rpow_natCast, ← Real.rpow_mul (by norm_num)]
    norm_num
  have psq : Real.sqrt ((4 : Int) : ℝ) = 2 := by
    rw [show ((4 : Int) : ℝ) = 2 ^ 2 by norm_num]; exact Real.sqrt_sq (by norm_num)
  have he : e = Mass.microAmu * (4002603.25413 - 4 * 1e6) := by
    have hl : Mass.lookup t 2 4 true = .ok (some 4002603.25413, true) := by
      have : Pdg.nucleusPid 2 4 = 1000020040 := by decide
      simp only [Mass.lookup, this, ht]
    simp only [Mass.massExcess, hl, Option.map_some, if_true] at b1
    cases b1
    norm_num
  have hd : d = -37.48714 + 18.56 * c ^ 2 + 2.868 / c - 1.21129 := by
    unfold Mass.liquidDropExcess at b2
    rw [if_neg (by norm_num)] at b2
    dsimp only at b2
    rw [hc2, ← hc, psq, if_neg (by decide), if_pos (by decide)] at b2
    cases b2
    norm_num
    ring
  have hneg : 1 + m.gamma * m.deltaW < 0 := by
    rw [a3, damping, ← hc, b3, he, hd, Mass.microAmu]
    have hcp : 0 < c := by linarith
    have hdc : 2.868 / c ≥ 1.8 := by
      rw [ge_iff_le, le_div_iff₀ hcp]; linarith
    have hsq : 2.518 ≤ c ^ 2 := by nlinarith
    have : 0.000931494061 * (4002603.25413 - 4 * 1e6) - (-37.48714 + 18.56 * c ^ 2 + 2.868 / c - 1.21129) ≤ -7 := by
      linarith
    have e1 : 0.410289 / c * (0.000931494061 * (4002603.25413 - 4 * 1e6) -
        (-37.48714 + 18.56 * c ^ 2 + 2.868 / c - 1.21129)) ≤ 0.410289 / c * -7 :=
      mul_le_mul_of_nonneg_left this (by positivity)
    have e2 : 0.410289 / c ≥ 0.25 := by
      rw [ge_iff_le, le_div_iff₀ hcp]; linarith
    linarith
  have hΔ : m.Delta = 6.173015 := by
    rw [a5, shift, if_pos (by decide), psq]; norm_num
  have hU : Ex - m.Delta ≤ 0 := by rw [hΔ]; linarith
  have haT : 0 < m.aTilde := by rw [a2, asymptotic]; positivity
  have hsd : 0 < m.sigmaD := by rw [a4, discreteSigma]; positivity
  refine ⟨Real.exp 1 * (m.aTilde * (1 + m.gamma * m.deltaW)) / (12 * m.sigmaD), ?_, ?_⟩
  · unfold Bfm.total
    dsimp only
    have hs : m.newSigma Ex = some m.sigmaD := by
      unfold Bfm.newSigma
      dsimp only
      exact if_pos hU
    rw [if_pos hU, hs]
    simp only [Option.bind_eq_bind, Option.bind_some, Utils.fdiv, Bfm.parameter, if_pos hU]
    exact if_neg (by positivity)
  · exact div_neg_of_neg_of_pos (mul_neg_of_pos_of_neg (Real.exp_pos 1) (mul_neg_of_pos_of_neg haT hneg))
      (by positivity)

/-- A table with the listed masses of the electron, the neutron and helium-4. -/
noncomputable def heliumTable : Mass.Table where
  particle := fun k => if k = 2112 then some 1008664.91585 else if k = 11 then some 548.57990946 else none
  atomic := fun k => if k = 1000020040 then some 4002603.25413 else none

/-- The object for helium-4 exists: it has a density below zero at 3 MeV. -/
example : ∃ m r, Bfm.make heliumTable 2 4 = .ok m ∧ (m.total 3).1 = some r ∧ r < 0 := by
  have ht : heliumTable.atomic 1000020040 = some 4002603.25413 := rfl
  have hl : Mass.lookup heliumTable 2 4 true = .ok (some 4002603.25413, true) := by
    have : Pdg.nucleusPid 2 4 = 1000020040 := by decide
    simp only [Mass.lookup, this, ht]
  have hf : ∃ x, Mass.lookup heliumTable 2 3 true = .ok (some x, false) := by
    have : Pdg.nucleusPid 2 3 = 1000020030 := by decide
    obtain ⟨d, hd⟩ := drop_some 2 (A := 3) (by norm_num)
    have hn : heliumTable.atomic 1000020030 = none := rfl
    simp only [Mass.lookup, this, hn, Mass.liquidDropMass, hd, Option.map_some]
    exact ⟨_, rfl⟩
  obtain ⟨x, hx⟩ := hf
  obtain ⟨d, hd⟩ := drop_some 2 (A := 4) (by norm_num)
  have hs : ∃ s, Mass.separationEnergy heliumTable 2 4 2112 true = .ok (some s) := by
    have hp : Mass.at' heliumTable.particle 2112 = .ok 1008664.91585 := rfl
    have hel : Mass.at' heliumTable.particle Mass.ELECTRON = .ok 548.57990946 := rfl
    have hz : Pdg.getZ 2112 = 0 := by decide
    have ha : Pdg.getA 2112 = 1 := by decide
    simp only [Mass.separationEnergy, hp, hel, hz, ha, hl]
    norm_num
    rw [hx]
    exact ⟨_, rfl⟩
  obtain ⟨s, hs⟩ := hs
  have hm : ∃ m, Bfm.make heliumTable 2 4 = .ok m := by
    unfold Bfm.make
    rw [if_neg (by norm_num), Mass.massExcess, hl, hd, hs]
    exact ⟨_, rfl⟩
  obtain ⟨m, hm⟩ := hm
  obtain ⟨r, h1, h2⟩ := C90_helium_violated ht hm (Ex := 3) (by norm_num)
  exact ⟨m, r, hm, h1, h2⟩

end Marley.Props
