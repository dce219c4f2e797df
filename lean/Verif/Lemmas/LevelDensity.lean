import Verif.Model.LevelDensity
import Verif.Spec.LevelDensity
import Mathlib.Analysis.Calculus.DSlope
import Mathlib.Analysis.SpecialFunctions.ExpDeriv
import Mathlib.Tactic.FieldSimp
import Mathlib.Tactic.Positivity
import Mathlib.Tactic.NormNum
import Mathlib.Tactic.Linarith

/-!
# Lemmas about level densities
-/

set_option autoImplicit false

namespace Marley.Density
open Marley Marley.Spec
open Marley.Utils (fdiv)

theorem tmod_odd (n : Int) : n.tmod 2 ≠ 0 ↔ Odd n := by
  rw [← Int.not_even_iff_odd, even_iff_two_dvd, Int.dvd_iff_tmod_eq_zero]

theorem shift_eq (Z N : Int) (A : ℝ) :
    (if Z.tmod 2 ≠ 0 ∧ N.tmod 2 ≠ 0 then 0.173015 + -12 / Real.sqrt A
      else if ¬ (Z.tmod 2 ≠ 0) ∧ ¬ (N.tmod 2 ≠ 0) then 0.173015 + 12 / Real.sqrt A
      else 0.173015) = shift Z N A := by
  unfold shift
  simp only [tmod_odd, Int.not_odd_iff_even]
  by_cases h1 : Odd Z ∧ Odd N
  · have : ¬ (Even Z ∧ Even N) := fun h => (Int.not_odd_iff_even.2 h.1) h1.1
    rw [if_pos h1, if_neg this, if_pos h1]
    ring
  · rw [if_neg h1]
    by_cases h2 : Even Z ∧ Even N
    · rw [if_pos h2, if_pos h2]
    · rw [if_neg h2, if_neg h2, if_neg h1]

/-- What the constructor makes. -/
theorem make_members {t : Mass.Table} {Z A : Int} {m : Bfm} (h : Bfm.make t Z A = .ok m) :
    1 ≤ A ∧ m.A = A ∧ m.aTilde = asymptotic A ∧ m.gamma = damping A ∧ m.sigmaD = discreteSigma A ∧
    m.Delta = shift Z (A - Z) A ∧ ShellCorrection t Z A m.deltaW ∧
    Mass.separationEnergy t Z A 2112 true = .ok (some m.Sn) := by
  unfold Bfm.make at h
  by_cases hA : A ≤ 0
  · rw [if_pos hA] at h; cases h
  rw [if_neg hA] at h
  dsimp only at h
  rw [shift_eq] at h
  split at h
  · cases h
  · cases h
  rename_i e he
  split at h
  · cases h
  rename_i d hd
  split at h
  · cases h
  · cases h
  rename_i s hs
  cases h
  have hA' : (0 : ℝ) ≤ A := by exact_mod_cast (by omega : 0 ≤ A)
  refine ⟨by omega, rfl, ?_, rfl, rfl, rfl, ⟨e, d, he, hd, rfl⟩, hs⟩
  simp only [asymptotic]
  rw [← Real.rpow_natCast, ← Real.rpow_mul hA']
  norm_num

/-- The conditions under which densities are well defined. -/
structure Bfm.Ok (m : Bfm) : Prop where
  A : 1 ≤ m.A
  aTilde : 0 < m.aTilde
  gamma : 0 < m.gamma
  sigmaD : 0 < m.sigmaD
  shell : 0 < 1 + m.gamma * m.deltaW

variable {m : Bfm}

theorem make_ok {t : Mass.Table} {Z A : Int} (h : Bfm.make t Z A = .ok m)
    (hs : 0 < 1 + m.gamma * m.deltaW) : m.Ok := by
  obtain ⟨h1, h2, h3, h4, h5, -⟩ := make_members h
  have hA : (0 : ℝ) < A := by exact_mod_cast (by omega : 0 < A)
  refine ⟨by omega, ?_, ?_, ?_, hs⟩
  · rw [h3]; unfold asymptotic; positivity
  · rw [h4]; unfold damping; positivity
  · rw [h5]; unfold discreteSigma; positivity

theorem parameter_pos (h : m.Ok) (U : ℝ) : 0 < m.parameter U := by
  have h1 := h.aTilde
  have h2 := h.gamma
  have h3 := h.shell
  unfold Bfm.parameter
  split_ifs with hU
  · positivity
  · have hU' : 0 < U := not_le.1 hU
    have e1 : 1 - Real.exp (-m.gamma * U) ≤ m.gamma * U := by
      have := Real.add_one_le_exp (-m.gamma * U)
      linarith
    have e2 : 0 ≤ 1 - Real.exp (-m.gamma * U) := by
      have : Real.exp (-m.gamma * U) ≤ 1 := Real.exp_le_one_iff.2 (by nlinarith)
      linarith
    refine mul_pos h1 ?_
    rw [div_mul_eq_mul_div]
    rcases le_or_gt 0 m.deltaW with hW | hW
    · positivity
    · have : m.deltaW * m.gamma ≤ m.deltaW * (1 - Real.exp (-m.gamma * U)) / U := by
        rw [le_div_iff₀ hU']
        nlinarith
      linarith

/-- The coefficient of the Fermi gas spin cut-off parameter. -/
noncomputable def Bfm.coef (m : Bfm) : ℝ := 0.01389 * (m.A : ℝ) ^ (5 / 3 : ℝ)

theorem coef_pos (h : m.Ok) : 0 < m.coef := by
  have hA : (0 : ℝ) < m.A := by exact_mod_cast (by have := h.A; omega : 0 < m.A)
  unfold Bfm.coef
  positivity

/-- Square of the spin cut-off parameter. -/
noncomputable def Bfm.sig2 (m : Bfm) (Ex : ℝ) : ℝ :=
  if Ex ≤ m.Delta then m.sigmaD ^ 2
  else if m.Sn ≤ Ex then m.coef * Real.sqrt (m.parameter (Ex - m.Delta) * (Ex - m.Delta)) / m.aTilde
  else m.sigmaD ^ 2 +
    Ex * (m.coef * Real.sqrt (m.parameter (Ex - m.Delta) * (m.Sn - m.Delta)) / m.aTilde - m.sigmaD ^ 2) / m.Sn

theorem sig2_pos (h : m.Ok) {Ex : ℝ} (hE : 0 ≤ Ex) : 0 < m.sig2 Ex := by
  have h1 := h.aTilde
  have h2 := h.sigmaD
  have hc := coef_pos h
  have hp := parameter_pos h (Ex - m.Delta)
  unfold Bfm.sig2
  split_ifs with a b
  · positivity
  · have : 0 < Ex - m.Delta := by linarith [not_le.1 a]
    positivity
  · have a' := not_le.1 a
    have b' := not_le.1 b
    have hs : 0 < m.Sn := by linarith
    have hF : 0 < m.coef * Real.sqrt (m.parameter (Ex - m.Delta) * (m.Sn - m.Delta)) / m.aTilde := by
      have : 0 < m.Sn - m.Delta := by linarith
      positivity
    generalize m.coef * Real.sqrt (m.parameter (Ex - m.Delta) * (m.Sn - m.Delta)) / m.aTilde = F at hF ⊢
    have e : m.sigmaD ^ 2 + Ex * (F - m.sigmaD ^ 2) / m.Sn
        = (m.sigmaD ^ 2 * (m.Sn - Ex) + Ex * F) / m.Sn := by field_simp; ring
    rw [e]
    have : 0 < m.Sn - Ex := by linarith
    positivity

theorem newSigma_eq (h : m.Ok) {Ex : ℝ} (hE : 0 ≤ Ex) :
    m.newSigma Ex = some (Real.sqrt (m.sig2 Ex)) := by
  have h1 := h.aTilde
  have h2 := h.sigmaD
  have hp := parameter_pos h (Ex - m.Delta)
  have hs := sig2_pos h hE
  unfold Bfm.newSigma
  dsimp only
  unfold Bfm.sig2 at hs ⊢
  simp only [Ed, sub_zero]
  by_cases a : Ex ≤ m.Delta
  · rw [if_pos (by linarith : Ex - m.Delta ≤ 0), if_pos a, Real.sqrt_sq h2.le]
  · rw [if_neg (by linarith : ¬ Ex - m.Delta ≤ 0), if_neg a]
    rw [if_neg a] at hs
    have a' := not_le.1 a
    by_cases b : m.Sn ≤ Ex
    · have hU : 0 ≤ m.parameter (Ex - m.Delta) * (Ex - m.Delta) := mul_nonneg hp.le (by linarith)
      rw [if_pos (show Ex ≥ m.Sn from b), if_pos b]
      rw [if_pos b] at hs
      simp only [Bfm.sigmaF2, sqrt?, if_neg (not_lt.2 hU), fdiv, if_neg h1.ne', Option.bind_eq_bind,
        Option.bind_some]
      exact if_neg (not_lt.2 hs.le)
    · have hU : 0 ≤ m.parameter (Ex - m.Delta) * (m.Sn - m.Delta) :=
        mul_nonneg hp.le (by linarith [not_le.1 b])
      have hn : m.Sn ≠ 0 := by linarith [not_le.1 b]
      rw [if_neg (show ¬ Ex ≥ m.Sn from b), if_neg b]
      rw [if_neg b] at hs
      simp only [Bfm.sigmaF2, sqrt?, if_neg (not_lt.2 hU), fdiv, if_neg h1.ne', if_neg hn, Option.bind_eq_bind,
        Option.bind_some]
      exact if_neg (not_lt.2 hs.le)

/-- Twelve times the product of density and spin cut-off parameter. -/
noncomputable def Bfm.core (m : Bfm) (U : ℝ) : ℝ :=
  1 / (Real.sqrt (2 * Real.sqrt (m.parameter U * max U 0)) * max U 0 *
      Real.exp (-2 * Real.sqrt (m.parameter U * max U 0))
    + Real.exp (-(m.parameter U * max U 0) - 1) / m.parameter U)

theorem core_low (h : m.Ok) {U : ℝ} (hU : U ≤ 0) : m.core U = Real.exp 1 * m.parameter U := by
  have hp := parameter_pos h U
  unfold Bfm.core
  rw [max_eq_right hU]
  simp only [mul_zero, Real.sqrt_zero, zero_mul, neg_zero, zero_sub, zero_add]
  rw [Real.exp_neg]
  have := Real.exp_pos 1
  field_simp

theorem core_den_pos (h : m.Ok) (U : ℝ) :
    0 < Real.sqrt (2 * Real.sqrt (m.parameter U * max U 0)) * max U 0 *
      Real.exp (-2 * Real.sqrt (m.parameter U * max U 0))
    + Real.exp (-(m.parameter U * max U 0) - 1) / m.parameter U := by
  have hp := parameter_pos h U
  have : 0 ≤ max U 0 := le_max_right _ _
  positivity

theorem core_pos (h : m.Ok) (U : ℝ) : 0 < m.core U := by
  have := core_den_pos h U
  unfold Bfm.core
  positivity

/-- The total level density. -/
noncomputable def Bfm.rho (m : Bfm) (Ex : ℝ) : ℝ :=
  m.core (Ex - m.Delta) / (12 * Real.sqrt (m.sig2 Ex))

theorem rho_pos (h : m.Ok) {Ex : ℝ} (hE : 0 ≤ Ex) : 0 < m.rho Ex := by
  have h1 := core_pos h (Ex - m.Delta)
  have h2 := sig2_pos h hE
  unfold Bfm.rho
  positivity

theorem total_eq (h : m.Ok) {Ex : ℝ} (hE : 0 ≤ Ex) :
    m.total Ex = (some (m.rho Ex), { m with sigma := some (Real.sqrt (m.sig2 Ex)) }) := by
  have h2 := sig2_pos h hE
  have h3 : 0 < Real.sqrt (m.sig2 Ex) := by positivity
  have hp := parameter_pos h (Ex - m.Delta)
  unfold Bfm.total
  dsimp only
  rw [newSigma_eq h hE]
  by_cases a : Ex - m.Delta ≤ 0
  · rw [if_pos a]
    simp only [Option.bind_eq_bind, Option.bind_some, fdiv]
    rw [if_neg (by positivity), Bfm.rho, core_low h a]
  · rw [if_neg a]
    have a' := not_le.1 a
    have hm : max (Ex - m.Delta) 0 = Ex - m.Delta := max_eq_left a'.le
    have hd := core_den_pos h (Ex - m.Delta)
    rw [hm] at hd
    simp only [sqrt?, fdiv, Option.bind_eq_bind]
    rw [if_neg (not_lt.2 (mul_pos hp a').le), if_neg hp.ne']
    simp only [Option.bind_some]
    rw [if_neg (mul_pos (mul_pos (by norm_num) h3) hd).ne', Bfm.rho, Bfm.core, hm]
    congr 2
    field_simp

/-- The member `sigma` is all that calls change, and they do not read it. -/
theorem call_sigma (m : Bfm) (s : Option ℝ) (c : Call) :
    ({ m with sigma := s }.call c) = m.call c := by
  cases c <;> rfl

theorem call_state (m : Bfm) (c : Call) : ∃ s, (m.call c).2 = { m with sigma := s } := by
  cases c with
  | total Ex =>
    refine ⟨m.newSigma Ex, ?_⟩
    simp only [Bfm.call, Bfm.total]
    split_ifs <;> rfl
  | spin Ex twoJ =>
    refine ⟨m.newSigma Ex, ?_⟩
    simp only [Bfm.call, Bfm.spin, Bfm.total]
    split_ifs <;> rfl
  | spinParity Ex twoJ P =>
    refine ⟨m.newSigma Ex, ?_⟩
    simp only [Bfm.call, Bfm.spinParity, Bfm.spin, Bfm.total]
    split_ifs <;> rfl

theorem after_state (cs : List Call) : ∀ m : Bfm, ∃ s, m.after cs = { m with sigma := s } := by
  induction cs with
  | nil => exact fun m => ⟨m.sigma, rfl⟩
  | cons c cs ih =>
    intro m
    obtain ⟨s, hs⟩ := call_state m c
    obtain ⟨s', hs'⟩ := ih (m.call c).2
    refine ⟨s', ?_⟩
    show (m.call c).2.after cs = _
    rw [hs', hs]

/-! ## Continuity -/

theorem parameter_eq (m : Bfm) (U : ℝ) :
    m.parameter U = m.aTilde * (1 + m.deltaW * dslope (fun x => -Real.exp (-m.gamma * x)) 0 (max U 0)) := by
  unfold Bfm.parameter
  split_ifs with h
  · rw [max_eq_right h, dslope_same]
    have hd : HasDerivAt (fun x : ℝ => -Real.exp (-m.gamma * x)) m.gamma 0 := by
      have h1 : HasDerivAt (fun x : ℝ => -m.gamma * x) (-m.gamma) 0 := by
        simpa using (hasDerivAt_id (0 : ℝ)).const_mul (-m.gamma)
      have h2 := h1.exp.neg
      simp only [mul_zero, Real.exp_zero, one_mul, neg_neg] at h2
      exact h2
    rw [hd.deriv]
    ring
  · have h' := not_le.1 h
    rw [max_eq_left h'.le, dslope_of_ne _ h'.ne', slope_def_field]
    simp only [mul_zero, Real.exp_zero, sub_zero]
    ring

theorem parameter_continuous (m : Bfm) : Continuous m.parameter := by
  have hd : Continuous (dslope (fun x : ℝ => -Real.exp (-m.gamma * x)) 0) := by
    rw [← continuousOn_univ, continuousOn_dslope Filter.univ_mem]
    refine ⟨by fun_prop, ?_⟩
    fun_prop
  have : m.parameter = fun U => m.aTilde *
      (1 + m.deltaW * dslope (fun x => -Real.exp (-m.gamma * x)) 0 (max U 0)) := funext (parameter_eq m)
  rw [this]
  fun_prop

theorem core_continuous (h : m.Ok) : Continuous m.core := by
  have hp := parameter_continuous m
  have hp0 : ∀ U, m.parameter U ≠ 0 := fun U => (parameter_pos h U).ne'
  have hd : ∀ U, Real.sqrt (2 * Real.sqrt (m.parameter U * max U 0)) * max U 0 *
      Real.exp (-2 * Real.sqrt (m.parameter U * max U 0))
      + Real.exp (-(m.parameter U * max U 0) - 1) / m.parameter U ≠ 0 := fun U => (core_den_pos h U).ne'
  unfold Bfm.core
  refine Continuous.div continuous_const ?_ hd
  refine Continuous.add (by fun_prop) ?_
  exact Continuous.div (by fun_prop) hp hp0

/-- `sig2` above `Delta`. -/
noncomputable def Bfm.high (m : Bfm) (Ex : ℝ) : ℝ :=
  if m.Sn ≤ Ex then m.coef * Real.sqrt (m.parameter (Ex - m.Delta) * (Ex - m.Delta)) / m.aTilde
  else m.sigmaD ^ 2 +
    Ex * (m.coef * Real.sqrt (m.parameter (Ex - m.Delta) * (m.Sn - m.Delta)) / m.aTilde - m.sigmaD ^ 2) / m.Sn

theorem sig2_high {Ex : ℝ} (hE : m.Delta < Ex) : m.sig2 Ex = m.high Ex := by
  rw [Bfm.sig2, if_neg (not_le.2 hE), Bfm.high]

theorem high_continuous (hs : m.Sn ≠ 0) : Continuous m.high := by
  have hp := parameter_continuous m
  unfold Bfm.high
  refine Continuous.if_le (by fun_prop) (by fun_prop) continuous_const continuous_id ?_
  intro x hx
  have hx' : x = m.Sn := hx.symm
  subst hx'
  field_simp
  ring

theorem sig2_continuousOn (m : Bfm) : ContinuousOn m.sig2 (Set.Ioi m.Delta ∩ Set.Ici 0) := by
  have hp := parameter_continuous m
  rcases le_or_gt m.Sn 0 with hs | hs
  · have hc : Continuous (fun Ex => m.coef * Real.sqrt (m.parameter (Ex - m.Delta) * (Ex - m.Delta)) / m.aTilde) := by
      fun_prop
    refine hc.continuousOn.congr ?_
    rintro x ⟨h1, h2⟩
    rw [sig2_high h1, Bfm.high, if_pos (le_trans hs h2)]
  · refine (high_continuous hs.ne').continuousOn.congr ?_
    rintro x ⟨h1, -⟩
    exact sig2_high h1

theorem rho_continuousOn (h : m.Ok) : ContinuousOn m.rho (Set.Ioi m.Delta ∩ Set.Ici 0) := by
  unfold Bfm.rho
  refine ContinuousOn.div ?_ ?_ ?_
  · exact ((core_continuous h).comp (continuous_id.sub continuous_const)).continuousOn
  · exact continuousOn_const.mul (sig2_continuousOn m).sqrt
  · rintro x ⟨-, hx⟩
    have := sig2_pos h hx
    positivity

end Marley.Density
