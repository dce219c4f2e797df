import Verif.Spec.Fermi
import Verif.Lemmas.Fermi
import Verif.Props.CrossSection
import Mathlib.Analysis.Complex.ExponentialBounds
import Mathlib.Analysis.Real.Pi.Bounds

/-!
# The Fermi function (C110)
-/

set_option autoImplicit false

namespace Marley.Props
open Marley Marley.Xs Marley.Fermi
open Marley.Reaction (MatEl)
open Marley.Kin (threshold maxLevelEnergy)
open Marley.Sampling (pickFrom pick)

theorem shift_ne {w : ℂ} (hw : 0 < w.re) (k : ℝ) (hk : 0 ≤ k) : w + (k : ℂ) ≠ 0 := by
  intro h
  have := congrArg Complex.re h
  simp at this
  linarith

/-- The loop computes the sum and never divides by zero. -/
theorem sumLoop_ok {z : ℂ} (hz : 0 < z.re) (a0 : ℂ) (a1 a2 a3 a4 a5 a6 a7 a8 : ℚ) :
    sumLoop (z - 1) 1 [a1, a2, a3, a4, a5, a6, a7, a8] a0 =
      .ok (a0 + a1 / z + a2 / (z + 1) + a3 / (z + 2) + a4 / (z + 3) + a5 / (z + 4) + a6 / (z + 5) + a7 / (z + 6) +
        a8 / (z + 7)) := by
  have e : ∀ j : Nat, z - 1 + ((1 + j : ℕ) : ℂ) = z + (j : ℂ) := by intro j; push_cast; ring
  have n : ∀ j : Nat, z - 1 + ((1 + j : ℕ) : ℂ) ≠ 0 := by
    intro j
    rw [e]
    exact_mod_cast shift_ne hz j (by positivity)
  have e0 := e 0; have e1 := e 1; have e2 := e 2; have e3 := e 3
  have e4 := e 4; have e5 := e 5; have e6 := e 6; have e7 := e 7
  have n0 := n 0; have n1 := n 1; have n2 := n 2; have n3 := n 3
  have n4 := n 4; have n5 := n 5; have n6 := n 6; have n7 := n 7
  simp only [Nat.reduceAdd] at *
  simp only [sumLoop, Nat.reduceAdd, if_neg n0, if_neg n1, if_neg n2, if_neg n3, if_neg n4, if_neg n5, if_neg n6, if_neg n7]
  simp only [e0, e1, e2, e3, e4, e5, e6, e7]
  norm_num

theorem series_ne_zero {z : ℂ} (hz : 0 < z.re) (a0 a1 a2 a3 a4 a5 a6 a7 a8 : ℚ)
    (hr : routh 12 (evenPart a0 [a1, a2, a3, a4, a5, a6, a7, a8]) (oddPart a0 [a1, a2, a3, a4, a5, a6, a7, a8]) = true) :
    (a0 : ℂ) + a1 / z + a2 / (z + 1) + a3 / (z + 2) + a4 / (z + 3) + a5 / (z + 4) + a6 / (z + 5) + a7 / (z + 6) +
      a8 / (z + 7) ≠ 0 := by
  intro h0
  have sh : ∀ k : ℕ, z + (k : ℂ) ≠ 0 := fun k => by exact_mod_cast shift_ne hz k (by positivity)
  have num := numerator z a0 a1 a2 a3 a4 a5 a6 a7 a8 (by simpa using sh 0) (by simpa using sh 1) (sh 2) (sh 3)
    (sh 4) (sh 5) (sh 6) (sh 7)
  rw [h0, zero_mul] at num
  apply routh_ne_zero hz hr
  simp only [ev]
  push_cast
  linear_combination (-1 : ℂ) * num

theorem lanczosGamma_ne_zero {z : ℂ} (hz : 0 < z.re) : lanczosGamma z ≠ 0 := by
  unfold lanczosGamma
  refine mul_ne_zero (mul_ne_zero (mul_ne_zero ?_ ?_) (Complex.exp_ne_zero _)) ?_
  · have := Real.sqrt_pos.2 (mul_pos two_pos Real.pi_pos)
    exact_mod_cast this.ne'
  · have : z - 1 + 15 / 2 ≠ 0 := by
      have := shift_ne hz (13 / 2) (by norm_num)
      push_cast at this
      intro h
      apply this
      rw [← h]; ring
    rw [Complex.cpow_def_of_ne_zero this]
    exact Complex.exp_ne_zero _
  · have := series_ne_zero hz p0 _ _ _ _ _ _ _ _ coefficients.2.2
    simp only [p0] at this
    push_cast at this
    intro h
    apply this
    rw [← h]
    ring

/-- To the right of 1/2 the gamma function is the approximation of Lanczos. -/
theorem gamma_right (n : Nat) {z : ℂ} (hz : 1 / 2 ≤ z.re) : gamma (n + 1) z = some (.ok (lanczosGamma z)) := by
  have h0 : 0 < z.re := by linarith
  rw [gamma, if_neg (not_lt.2 hz)]
  have := sumLoop_ok h0 (p0 : ℂ) 676.5203681218851 (-1259.1392167224028) 771.32342877765313 (-176.61502916214059)
    12.507343278686905 (-0.13857109526572012) 9.9843695780195716e-6 1.5056327351493116e-7
  rw [ps, this]
  simp only [lanczosGamma, Option.some.injEq, Except.ok.injEq, p0]
  push_cast
  have e1 : z - 1 + (7 + 1 / 2) = z - 1 + 15 / 2 := by ring
  have e2 : z - 1 + 1 / 2 = z - 1 / 2 := by ring
  rw [e1, e2]
  ring

theorem gamma_left (n : Nat) {z : ℂ} (hz : z.re < 1 / 2) : gamma (n + 2) z =
    if Complex.sin (Real.pi * z) = 0 then some (.error .ub)
    else some (.ok (Real.pi / (Complex.sin (Real.pi * z) * lanczosGamma (1 - z)))) := by
  have h : 1 / 2 ≤ (1 - z).re := by simp; linarith
  have hn := lanczosGamma_ne_zero (z := 1 - z) (by linarith)
  rw [gamma, if_pos hz, gamma_right n h]
  simp only [mul_eq_zero, hn, or_false]

theorem sin_pi_eq_zero {z : ℂ} : Complex.sin (Real.pi * z) = 0 ↔ ∃ k : ℤ, z = k := by
  have hp : (Real.pi : ℂ) ≠ 0 := by exact_mod_cast Real.pi_ne_zero
  rw [Complex.sin_eq_zero_iff]
  constructor
  · rintro ⟨k, h⟩
    exact ⟨k, mul_left_cancel₀ hp (by rw [h]; ring)⟩
  · rintro ⟨k, h⟩
    exact ⟨k, by rw [h]; ring⟩

/-- **C110**: the gamma function is computed with at most one further call, gives a finite number wherever the
gamma function has no pole, and this number is never zero. -/
theorem C110_gamma {z : ℂ} (hz : ∀ k : ℕ, z ≠ -(k : ℂ)) (n : Nat) : ∃ g, gamma (n + 2) z = some (.ok g) ∧ g ≠ 0 ∧
    gamma 2 z = some (.ok g) := by
  by_cases h : z.re < 1 / 2
  · have hs : Complex.sin (Real.pi * z) ≠ 0 := by
      rw [Ne, sin_pi_eq_zero]
      rintro ⟨k, rfl⟩
      have hk : (k : ℝ) < 1 / 2 := by simpa using h
      have hk' : k < 1 := by
        have : (k : ℝ) < 1 := by linarith
        exact_mod_cast this
      obtain ⟨m, hm⟩ := Int.eq_ofNat_of_zero_le (show 0 ≤ -k by omega)
      apply hz m
      have : k = -(m : ℤ) := by omega
      rw [this]; push_cast; rfl
    rw [gamma_left n h, gamma_left 0 h, if_neg hs]
    refine ⟨_, rfl, ?_, rfl⟩
    have hp : (Real.pi : ℂ) ≠ 0 := by exact_mod_cast Real.pi_ne_zero
    have := lanczosGamma_ne_zero (z := 1 - z) (by simp; linarith)
    exact div_ne_zero hp (mul_ne_zero hs this)
  · have h' := not_lt.1 h
    exact ⟨_, gamma_right (n + 1) h', lanczosGamma_ne_zero (by linarith), gamma_right 1 h'⟩

/-- **C110**: at the poles there is no number. -/
theorem C110_pole (k n : Nat) : gamma (n + 2) (-(k : ℂ)) = some (.error .ub) := by
  have h : (-(k : ℂ)).re < 1 / 2 := by
    simp
    have : (0 : ℝ) ≤ k := by positivity
    linarith
  rw [gamma_left n h, if_pos (sin_pi_eq_zero.2 ⟨-k, by push_cast; rfl⟩)]

/-- **C110**: the formula of reflection. -/
theorem C110_reflection {z : ℂ} (hz : ∀ k : ℤ, z ≠ k) (h : z.re ≠ 1 / 2) :
    ∃ g g', gamma 2 z = some (.ok g) ∧ gamma 2 (1 - z) = some (.ok g') ∧
      g * g' = Real.pi / Complex.sin (Real.pi * z) := by
  have main : ∀ z : ℂ, (∀ k : ℤ, z ≠ k) → z.re < 1 / 2 →
      ∃ g g', gamma 2 z = some (.ok g) ∧ gamma 2 (1 - z) = some (.ok g') ∧
        g * g' = Real.pi / Complex.sin (Real.pi * z) := by
    intro z hz h
    have hs : Complex.sin (Real.pi * z) ≠ 0 := by
      rw [Ne, sin_pi_eq_zero]
      rintro ⟨k, hk⟩
      exact hz k hk
    have hl := lanczosGamma_ne_zero (z := 1 - z) (by simp; linarith)
    refine ⟨_, _, by rw [gamma_left 0 h, if_neg hs], gamma_right 1 (by simp; linarith), ?_⟩
    field_simp
  rcases lt_or_gt_of_ne h with h | h
  · exact main z hz h
  · obtain ⟨g, g', h1, h2, h3⟩ := main (1 - z) (fun k hk => hz (1 - k) (by push_cast; rw [← hk]; ring))
      (by simp; linarith)
    rw [sub_sub_cancel] at h2
    refine ⟨g', g, h2, h1, ?_⟩
    rw [mul_comm, h3]
    congr 1
    rw [mul_sub, mul_one, Complex.sin_pi_sub]

theorem conj_scientific (m : ℕ) (s : Bool) (e : ℕ) :
    (starRingEnd ℂ) (OfScientific.ofScientific m s e) = OfScientific.ofScientific m s e := by
  rw [← Rat.cast_ofScientific, map_ratCast]

theorem lanczosGamma_conj {z : ℂ} (hz : 0 < z.re) :
    lanczosGamma ((starRingEnd ℂ) z) = (starRingEnd ℂ) (lanczosGamma z) := by
  have harg : (z - 1 + 15 / 2).arg ≠ Real.pi := by
    intro h
    have := Complex.arg_eq_pi_iff.1 h
    have h1 : (z - 1 + 15 / 2).re = z.re + 13 / 2 := by simp; norm_num; ring
    linarith [this.1]
  have hc : (starRingEnd ℂ) ((z - 1 + 15 / 2) ^ (z - 1 / 2)) =
      ((starRingEnd ℂ) z - 1 + 15 / 2) ^ ((starRingEnd ℂ) z - 1 / 2) := by
    have := Complex.conj_cpow (z - 1 + 15 / 2) ((starRingEnd ℂ) (z - 1 / 2)) harg
    rw [Complex.conj_conj] at this
    rw [← this]
    simp [map_ofNat]
  unfold lanczosGamma
  simp only [map_mul, hc, ← Complex.exp_conj, Complex.conj_ofReal, map_add, map_sub, map_div₀, map_neg, map_one,
    map_ofNat, conj_scientific]

/-- **C110**: conjugate arguments give conjugate values; real arguments real ones. -/
theorem C110_conj (z : ℂ) : gamma 2 ((starRingEnd ℂ) z) =
    (gamma 2 z).map (fun r => r.map (starRingEnd ℂ)) := by
  by_cases h : z.re < 1 / 2
  · have h' : ((starRingEnd ℂ) z).re < 1 / 2 := by simpa using h
    have hs : Complex.sin (Real.pi * (starRingEnd ℂ) z) = (starRingEnd ℂ) (Complex.sin (Real.pi * z)) := by
      rw [← Complex.sin_conj, map_mul, Complex.conj_ofReal]
    rw [gamma_left 0 h, gamma_left 0 h', hs]
    by_cases h0 : Complex.sin (Real.pi * z) = 0
    · simp [h0]; rfl
    · rw [if_neg h0, if_neg (by simpa using h0)]
      have := lanczosGamma_conj (z := 1 - z) (by simp; linarith)
      rw [map_sub, map_one] at this
      rw [this]
      simp [Except.map]
  · have h' : ¬ ((starRingEnd ℂ) z).re < 1 / 2 := by simpa using h
    rw [gamma_right 1 (not_lt.1 h), gamma_right 1 (not_lt.1 h'), lanczosGamma_conj (by linarith [not_lt.1 h])]
    rfl

/-! ## The Fermi function -/

theorem alpha_Z_lt {Z : Int} (hZ : |Z| ≤ 137) : (alpha * Z) ^ 2 < 1 := by
  have h : |(Z : ℝ)| ≤ 137 := by exact_mod_cast hZ
  rw [mul_pow, ← sq_abs (Z : ℝ)]
  have : |(Z : ℝ)| ^ 2 ≤ 137 ^ 2 := pow_le_pow_left₀ (abs_nonneg _) h 2
  have ha : alpha ^ 2 * 137 ^ 2 < 1 := by norm_num [alpha]
  have : alpha ^ 2 * |(Z : ℝ)| ^ 2 ≤ alpha ^ 2 * 137 ^ 2 := mul_le_mul_of_nonneg_left this (sq_nonneg _)
  linarith

theorem nuclearRadius_pos {A : Int} (hA : 0 < A) : 0 < nuclearRadius A := by
  have : (0 : ℝ) < A := by exact_mod_cast hA
  unfold nuclearRadius r0 hbarC
  positivity

/-- The gamma function of the program, as a function of complex numbers. -/
noncomputable def gammaValue (z : ℂ) : ℂ :=
  match gamma 2 z with
  | some (.ok g) => g
  | _ => 0

theorem gamma_upper {x y : ℝ} (hx : 0 < x) : ∃ g, gamma 2 ⟨x, y⟩ = some (.ok g) ∧ g ≠ 0 := by
  have hz : ∀ k : ℕ, (⟨x, y⟩ : ℂ) ≠ -(k : ℂ) := by
    intro k hk
    have := congrArg Complex.re hk
    simp at this
    have : (0 : ℝ) ≤ k := by positivity
    linarith
  obtain ⟨g, h1, h2, -⟩ := C110_gamma hz 0
  exact ⟨g, h1, h2⟩

/-- **C110**: for up to 137 protons and all speeds between zero and one the Fermi function is the formula of the
textbooks with the gamma function of the program, and it is a positive number.  Missing from the full claim: that the gamma function
of the program is close to the true one. -/
theorem C110_value_partial {n : Nuc} (hZ : |n.Zf| ≤ 137) (hA : 0 < n.Af) (hm : 0 < n.mc) {beta : ℝ} (h0 : 0 < beta)
    (h1 : beta < 1) : ∃ f, fermi n (.num beta) = .num f ∧ 0 < f ∧
      f = fermiSpec gammaValue (if 0 < n.pdgC then 1 else -1) n.Zf (nuclearRadius n.Af) n.mc beta := by
  have hs2 := alpha_Z_lt hZ
  have hs : 0 < Real.sqrt (1 - (alpha * n.Zf) ^ 2) := Real.sqrt_pos.2 (by linarith)
  have hb : 0 < 1 - beta * beta := by nlinarith
  have hR : radius n.Af = .num (nuclearRadius n.Af) := by
    unfold radius; rw [if_neg (by omega)]; rfl
  have hRp := nuclearRadius_pos hA
  simp only [fermi, if_neg (show ¬ 1 - (alpha * n.Zf) ^ 2 < 0 by linarith), if_neg h0.ne', hR, Val.num_rsqrt hb]
  generalize hS : Real.sqrt (1 - (alpha * n.Zf) ^ 2) = S at *
  generalize hE : (if n.pdgC > 0 then alpha * n.Zf / beta else alpha * n.Zf / beta * -1) = eta
  obtain ⟨g, e1, e2⟩ := gamma_upper (y := eta) hs
  have hG : 0 < Real.Gamma (1 + 2 * S) := Real.Gamma_pos_of_pos (by linarith)
  have hq : 0 < Real.sqrt (1 - beta * beta) := Real.sqrt_pos.2 hb
  have hbase : 0 < 2 * beta * (1 / Real.sqrt (1 - beta * beta)) * nuclearRadius n.Af * n.mc := by positivity
  have hpow : Fermi.pow (.num (2 * beta * (1 / Real.sqrt (1 - beta * beta)) * nuclearRadius n.Af * n.mc)) (2 * S - 2) =
      .num ((2 * beta * (1 / Real.sqrt (1 - beta * beta)) * nuclearRadius n.Af * n.mc) ^ (2 * S - 2)) := by
    unfold Fermi.pow
    by_cases h : 2 * S - 2 = 0
    · rw [if_pos h, h, Real.rpow_zero]
    · rw [if_neg h]
      dsimp only
      rw [if_neg (not_lt.2 hbase.le), if_neg hbase.ne']
  rw [e1]
  simp only [Val.num_mul, hpow]
  rw [Val.num_div (pow_pos hG 2).ne']
  have hn : 0 < Complex.normSq g := Complex.normSq_pos.2 e2
  have hp := Real.rpow_pos_of_pos hbase (2 * S - 2)
  refine ⟨_, rfl, by positivity, ?_⟩
  have heta : (if 0 < n.pdgC then (1 : ℝ) else -1) * alpha * n.Zf / beta = eta := by
    rw [← hE]
    split_ifs <;> ring
  have hc : (S : ℂ) + eta * Complex.I = ⟨S, eta⟩ := by
    apply Complex.ext <;> simp
  have hgv : gammaValue ⟨S, eta⟩ = g := by unfold gammaValue; rw [e1]
  simp only [fermiSpec, hS, heta, hc, hgv, ← Complex.normSq_eq_norm_sq]
  have hbb : beta ^ 2 = beta * beta := by ring
  have e3 : 2 * (n.mc * beta / Real.sqrt (1 - beta ^ 2)) * nuclearRadius n.Af =
      2 * beta * (1 / Real.sqrt (1 - beta * beta)) * nuclearRadius n.Af * n.mc := by rw [hbb]; ring
  have e4 : 2 * (S - 1) = 2 * S - 2 := by ring
  rw [e3, e4]
  ring

/-- **C110**: a lepton and its antiparticle at the same speed: the factors have the ratio `exp (2 π α Z / β)`, so that
negative leptons, which the nucleus attracts, have the larger one. -/
theorem C110_charge {n n' : Nuc} (hn : n.pdgC > 0) (hn' : ¬ n'.pdgC > 0) (hz : n'.Zf = n.Zf) (ha : n'.Af = n.Af)
    (hmc : n'.mc = n.mc) (hZ : |n.Zf| ≤ 137) (hA : 0 < n.Af) (hm : 0 < n.mc) {beta : ℝ} (h0 : 0 < beta)
    (h1 : beta < 1) : ∃ f f', fermi n (.num beta) = .num f ∧ fermi n' (.num beta) = .num f' ∧
      f = f' * Real.exp (2 * Real.pi * (alpha * n.Zf / beta)) ∧ (0 < n.Zf → f' < f) := by
  obtain ⟨f, e1, e2, e3⟩ := C110_value_partial hZ hA hm h0 h1
  obtain ⟨f', e1', e2', e3'⟩ := C110_value_partial (n := n') (by rw [hz]; exact hZ) (by rw [ha]; exact hA)
    (by rw [hmc]; exact hm) h0 h1
  rw [if_pos hn] at e3
  rw [if_neg hn', hz, ha, hmc] at e3'
  have hr : f = f' * Real.exp (2 * Real.pi * (alpha * n.Zf / beta)) := by
    rw [e3, e3']
    simp only [fermiSpec]
    have hg : ‖gammaValue ((Real.sqrt (1 - (alpha * n.Zf) ^ 2) : ℂ) + ((-1 * alpha * n.Zf / beta : ℝ) : ℂ) * Complex.I)‖ =
        ‖gammaValue ((Real.sqrt (1 - (alpha * n.Zf) ^ 2) : ℂ) + ((1 * alpha * n.Zf / beta : ℝ) : ℂ) * Complex.I)‖ := by
      have hconj : (Real.sqrt (1 - (alpha * n.Zf) ^ 2) : ℂ) + ((-1 * alpha * n.Zf / beta : ℝ) : ℂ) * Complex.I =
          (starRingEnd ℂ) ((Real.sqrt (1 - (alpha * n.Zf) ^ 2) : ℂ) + ((1 * alpha * n.Zf / beta : ℝ) : ℂ) * Complex.I) := by
        simp only [map_add, map_mul, Complex.conj_ofReal, Complex.conj_I]
        push_cast
        ring
      rw [hconj]
      unfold gammaValue
      rw [C110_conj]
      rcases gamma 2 _ with _ | _ | g
      · rfl
      · rfl
      · exact Complex.norm_conj g
    rw [hg]
    have hexp : Real.exp (Real.pi * (1 * alpha * n.Zf / beta)) =
        Real.exp (Real.pi * (-1 * alpha * n.Zf / beta)) * Real.exp (2 * Real.pi * (alpha * n.Zf / beta)) := by
      rw [← Real.exp_add]
      congr 1
      ring
    rw [hexp]
    ring
  refine ⟨f, f', e1, e1', hr, fun hpos => ?_⟩
  have hZ' : (0 : ℝ) < n.Zf := by exact_mod_cast hpos
  have ha' : (0 : ℝ) < alpha := by norm_num [alpha]
  have : 1 < Real.exp (2 * Real.pi * (alpha * n.Zf / beta)) := by
    rw [Real.one_lt_exp_iff]
    have := Real.pi_pos
    positivity
  rw [hr]
  nlinarith

theorem norm_lanczos_one : ‖lanczosGamma 1‖ ^ 2 = 2 * Real.pi * (15 / 2) * Real.exp (-15) *
    (0.99999999999980993 + 676.5203681218851 / 1 - 1259.1392167224028 / 2 + 771.32342877765313 / 3
      - 176.61502916214059 / 4 + 12.507343278686905 / 5 - 0.13857109526572012 / 6
      + 9.9843695780195716e-6 / 7 + 1.5056327351493116e-7 / 8) ^ 2 := by
  have hx : ((0.99999999999980993 : ℂ) + 676.5203681218851 / 1 - 1259.1392167224028 / (1 + 1) + 771.32342877765313 / (1 + 2)
      - 176.61502916214059 / (1 + 3) + 12.507343278686905 / (1 + 4) - 0.13857109526572012 / (1 + 5)
      + 9.9843695780195716e-6 / (1 + 6) + 1.5056327351493116e-7 / (1 + 7)) =
      ((0.99999999999980993 + 676.5203681218851 / 1 - 1259.1392167224028 / 2 + 771.32342877765313 / 3
      - 176.61502916214059 / 4 + 12.507343278686905 / 5 - 0.13857109526572012 / 6
      + 9.9843695780195716e-6 / 7 + 1.5056327351493116e-7 / 8 : ℝ) : ℂ) := by
    push_cast
    norm_num
  have hp : ‖((1 : ℂ) - 1 + 15 / 2) ^ ((1 : ℂ) - 1 / 2)‖ ^ 2 = 15 / 2 := by
    have e : (1 : ℂ) - 1 + 15 / 2 = ((15 / 2 : ℝ) : ℂ) := by push_cast; ring
    have e' : ((1 : ℂ) - 1 / 2).re = 1 / 2 := by norm_num
    rw [e, Complex.norm_cpow_eq_rpow_re_of_pos (by norm_num), e', ← Real.sqrt_eq_rpow, Real.sq_sqrt (by norm_num)]
  have he : ‖Complex.exp (-((1 : ℂ) - 1 + 15 / 2))‖ ^ 2 = Real.exp (-15) := by
    have e' : (-((1 : ℂ) - 1 + 15 / 2)).re = -(15 / 2) := by norm_num
    rw [Complex.norm_exp, e', ← Real.exp_nat_mul]
    norm_num
  have hs : ‖((Real.sqrt (2 * Real.pi) : ℝ) : ℂ)‖ ^ 2 = 2 * Real.pi := by
    rw [Complex.norm_real, Real.norm_eq_abs, sq_abs, Real.sq_sqrt (by positivity)]
  unfold lanczosGamma
  rw [hx, norm_mul, norm_mul, norm_mul, mul_pow, mul_pow, mul_pow, hp, he, hs, Complex.norm_real, Real.norm_eq_abs, sq_abs]

/-- The value at one is one, up to `10 ^ -15`. -/
theorem norm_lanczos_one_near : |‖lanczosGamma 1‖ ^ 2 - 1| ≤ 1e-15 := by
  have h1 := abs_le.1 Real.exp_one_near_20
  have hp1 := Real.pi_gt_d20
  have hp2 := Real.pi_lt_d20
  have he : Real.exp (-15) = (Real.exp 1 ^ 15)⁻¹ := by
    rw [← Real.exp_nat_mul, ← Real.exp_neg]
    norm_num
  have hpos : 0 < Real.exp 1 := Real.exp_pos 1
  have hlo : (363916618873 / 133877442384 - 1 / 10 ^ 20 : ℝ) ^ 15 ≤ Real.exp 1 ^ 15 :=
    pow_le_pow_left₀ (by norm_num) (by linarith [h1.1]) 15
  have hhi : Real.exp 1 ^ 15 ≤ (363916618873 / 133877442384 + 1 / 10 ^ 20 : ℝ) ^ 15 :=
    pow_le_pow_left₀ hpos.le (by linarith [h1.2]) 15
  rw [norm_lanczos_one, he]
  generalize hE : Real.exp 1 ^ 15 = E at *
  have hEp : 0 < E := by rw [← hE]; positivity
  generalize Real.pi = P at *
  generalize hX : (0.99999999999980993 + 676.5203681218851 / 1 - 1259.1392167224028 / 2 + 771.32342877765313 / 3
      - 176.61502916214059 / 4 + 12.507343278686905 / 5 - 0.13857109526572012 / 6
      + 9.9843695780195716e-6 / 7 + 1.5056327351493116e-7 / 8 : ℝ) ^ 2 = X
  have hXp : 0 < X := by rw [← hX]; norm_num
  have e : 2 * P * (15 / 2) * E⁻¹ * X = 15 * P * X / E := by field_simp
  rw [e, abs_le]
  constructor
  · have : (1 - 1e-15) * E ≤ 15 * P * X := by
      have a : (1 - 1e-15) * E ≤ (1 - 1e-15) * (363916618873 / 133877442384 + 1 / 10 ^ 20 : ℝ) ^ 15 :=
        mul_le_mul_of_nonneg_left hhi (by norm_num)
      have b : 15 * 3.14159265358979323846 * X ≤ 15 * P * X :=
        mul_le_mul_of_nonneg_right (by linarith) hXp.le
      have c : (1 - 1e-15) * (363916618873 / 133877442384 + 1 / 10 ^ 20 : ℝ) ^ 15 ≤ 15 * 3.14159265358979323846 * X := by
        rw [← hX]; norm_num
      linarith
    have := (le_div_iff₀ hEp).2 this
    linarith
  · have : 15 * P * X ≤ (1 + 1e-15) * E := by
      have a : (1 + 1e-15) * (363916618873 / 133877442384 - 1 / 10 ^ 20 : ℝ) ^ 15 ≤ (1 + 1e-15) * E :=
        mul_le_mul_of_nonneg_left hlo (by norm_num)
      have b : 15 * P * X ≤ 15 * 3.14159265358979323847 * X :=
        mul_le_mul_of_nonneg_right (by linarith) hXp.le
      have c : 15 * 3.14159265358979323847 * X ≤ (1 + 1e-15) * (363916618873 / 133877442384 - 1 / 10 ^ 20 : ℝ) ^ 15 := by
        rw [← hX]; norm_num
      linarith
    have := (div_le_iff₀ hEp).2 this
    linarith

/-- **C110**: without charge the factor is one, up to `10 ^ -15`. -/
theorem C110_neutral {n : Nuc} (hZ : n.Zf = 0) (hA : 0 < n.Af) (hm : 0 < n.mc) {beta : ℝ} (h0 : 0 < beta)
    (h1 : beta < 1) : ∃ f, fermi n (.num beta) = .num f ∧ |f - 1| ≤ 1e-15 := by
  obtain ⟨f, e1, -, e3⟩ := C110_value_partial (by rw [hZ]; norm_num) hA hm h0 h1
  refine ⟨f, e1, ?_⟩
  have hg : gammaValue 1 = lanczosGamma 1 := by
    unfold gammaValue
    rw [gamma_right 1 (by norm_num)]
  have hG : Real.Gamma 3 = 2 := by
    rw [show (3 : ℝ) = ((2 : ℕ) : ℝ) + 1 by norm_num, Real.Gamma_nat_eq_factorial]
    norm_num [Nat.factorial]
  have hf : f = ‖lanczosGamma 1‖ ^ 2 := by
    rw [e3, hZ]
    simp only [fermiSpec]
    norm_num [hg, hG]
  rw [hf]
  exact norm_lanczos_one_near

/-- **C110** fails from 138 protons on: the factor is not a number, at every speed. -/
theorem C110_heavy_violated {n : Nuc} (hZ : 138 ≤ |n.Zf|) (beta : Val) : fermi n beta = .nan := by
  have h : (138 : ℝ) ≤ |(n.Zf : ℝ)| := by exact_mod_cast hZ
  have h2 : 1 - (alpha * n.Zf) ^ 2 < 0 := by
    rw [mul_pow, ← sq_abs (n.Zf : ℝ)]
    have : (138 : ℝ) ^ 2 ≤ |(n.Zf : ℝ)| ^ 2 := pow_le_pow_left₀ (by norm_num) h 2
    have ha : 1 < alpha ^ 2 * 138 ^ 2 := by norm_num [alpha]
    have : alpha ^ 2 * 138 ^ 2 ≤ alpha ^ 2 * |(n.Zf : ℝ)| ^ 2 := mul_le_mul_of_nonneg_left this (sq_nonneg _)
    linarith
  cases beta with
  | num b => simp only [fermi, if_pos h2]
  | inf _ => rfl
  | nan => rfl

/-- **C110**: the factor is never negative. -/
theorem C110_nonneg (n : Nuc) (beta : Val) : (fermi n beta).NonNeg := by
  cases beta with
  | inf _ => trivial
  | nan => trivial
  | num b =>
    simp only [fermi]
    split_ifs
    · trivial
    · trivial
    all_goals
      split
      · refine Val.NonNeg.div (Val.NonNeg.mul (Val.NonNeg.mul (Val.NonNeg.mul ?_ ?_) ?_) ?_) ?_
        · have := Real.sqrt_nonneg (1 - (alpha * n.Zf) ^ 2)
          change (0 : ℝ) ≤ 2 * (1 + _)
          linarith
        · unfold Fermi.pow
          split_ifs
          · exact zero_le_one
          · split
            · split_ifs
              · trivial
              · rfl
              · rename_i hx hx'
                exact Real.rpow_nonneg (not_lt.1 hx) _
            · exact le_refl (0 : ℝ)
            · trivial
        · exact (Real.exp_pos _).le
        · exact Complex.normSq_nonneg _
        · exact sq_nonneg _
      · trivial

/-- **C110**: total cross sections with this factor are never negative, in every Coulomb mode. -/
theorem C110_total {n : Nuc} (hn : n.Good) {pdg : Int} {KEa t : ℝ} (e : n.totalXs fermi pdg KEa = .ok t) : 0 ≤ t :=
  C37_nonneg hn (C110_nonneg n) e

/-- Quantities of the effective momentum approximation exist, and with attraction the effective energy is larger than the
energy. -/
theorem ema_exists {n : Nuc} (hA : 0 < n.Af) (hm : 0 < n.mc) {beta : ℝ} (h0 : 0 < beta) (h1 : beta < 1) :
    ∃ q : Ema, q.Is n beta ∧ n.mc < q.E ∧ 0 < q.p ∧ (0 < n.pdgC → 0 ≤ n.Zf → q.E ≤ q.Eeff) ∧
      (n.mc < q.Eeff → 0 < q.peff) := by
  have hb : 0 < 1 - beta ^ 2 := by nlinarith
  have hs : 0 < Real.sqrt (1 - beta ^ 2) := Real.sqrt_pos.2 hb
  have hs1 : Real.sqrt (1 - beta ^ 2) < 1 := by
    rw [Real.sqrt_lt' one_pos]
    nlinarith
  have hR := nuclearRadius_pos hA
  unfold nuclearRadius at hR
  have hE : n.mc < n.mc / Real.sqrt (1 - beta ^ 2) := by
    rw [lt_div_iff₀ hs]
    nlinarith
  have hD : 2 * (r0 * (n.Af : ℝ) ^ (1 / 3 : ℝ)) / hbarC = 2 * (r0 * (n.Af : ℝ) ^ (1 / 3 : ℝ) / hbarC) := by ring
  generalize hRR : r0 * (n.Af : ℝ) ^ (1 / 3 : ℝ) / hbarC = R at *
  refine ⟨⟨n.mc / Real.sqrt (1 - beta ^ 2), beta * (n.mc / Real.sqrt (1 - beta ^ 2)),
    n.mc / Real.sqrt (1 - beta ^ 2) - (if n.pdgC > 0 then -1 else 1) * (3 * n.Zf * alpha) / (2 * R),
    Real.sqrt ((n.mc / Real.sqrt (1 - beta ^ 2) - (if n.pdgC > 0 then -1 else 1) * (3 * n.Zf * alpha) / (2 * R)) ^ 2
      - n.mc ^ 2)⟩, ⟨?_, rfl, ?_, Real.sqrt_nonneg _, fun h => ?_⟩, hE, ?_, fun hp hz => ?_, fun h => ?_⟩
  · exact div_mul_cancel₀ _ hs.ne'
  · rw [hD]
    simp only [sub_sub_cancel]
    exact div_mul_cancel₀ _ (by positivity)
  · simp only at h ⊢
    exact Real.sq_sqrt (by nlinarith)
  · exact mul_pos h0 (hm.trans hE)
  · simp only
    rw [if_pos hp]
    have hz' : (0 : ℝ) ≤ n.Zf := by exact_mod_cast hz
    have ha : (0 : ℝ) < alpha := by norm_num [alpha]
    have : 0 ≤ 3 * n.Zf * alpha / (2 * R) := by positivity
    have e : -1 * (3 * n.Zf * alpha) / (2 * R) = -(3 * n.Zf * alpha / (2 * R)) := by ring
    rw [e]
    linarith
  · simp only at h ⊢
    exact Real.sqrt_pos.2 (by nlinarith)

/-- **C110**: the Coulomb correction factor is a positive number without correction, with the Fermi function, and for attracted
leptons in every mode. -/
theorem C110_factor {n : Nuc} (hZ : |n.Zf| ≤ 137) (hA : 0 < n.Af) (hm : 0 < n.mc) {beta : ℝ} (h0 : 0 < beta)
    (h1 : beta < 1) (hc : n.mode = .noCorrection ∨ n.mode = .fermiFunction ∨ 0 < n.pdgC ∧ 0 ≤ n.Zf) :
    ∃ y, coulomb fermi n (.num beta) = .ok (.num y) ∧ 0 < y := by
  obtain ⟨f, e1, e2, -⟩ := C110_value_partial hZ hA hm h0 h1
  rcases hc with hc | hc | ⟨hc, hz⟩
  · exact ⟨1, (C39_one fermi fermi n).2 hc _, one_pos⟩
  · exact ⟨f, by rw [C39_fermi hc, e1], e2⟩
  · obtain ⟨q, hq, q1, q2, q3, q4⟩ := ema_exists hA hm h0 h1
    have hE := q3 hc hz
    have hEe : n.mc < q.Eeff := q1.trans_le hE
    have hp := q4 hEe
    have hE0 : 0 < q.E := hm.trans q1
    have hEe0 : 0 < q.Eeff := hm.trans hEe
    cases hmode : n.mode with
    | noCorrection => exact ⟨1, (C39_one fermi fermi n).2 hmode _, one_pos⟩
    | fermiFunction => exact ⟨f, by rw [C39_fermi hmode, e1], e2⟩
    | ema => exact ⟨_, by rw [(C39_ema hm hA h0 h1 hq).1 hmode, if_pos hEe.le], by positivity⟩
    | mema => exact ⟨_, by rw [(C39_ema hm hA h0 h1 hq).2 hmode, if_pos hEe.le], by positivity⟩
    | fermiAndEma =>
      obtain ⟨y, y1, -, y2⟩ := C39_combined hm hA h0 h1 hq e1 (.inl ⟨hmode, rfl⟩)
      refine ⟨y, y1, ?_⟩
      rcases (y2 hEe.le).1 with rfl | rfl
      · exact e2
      · positivity
    | fermiAndMema =>
      obtain ⟨y, y1, -, y2⟩ := C39_combined hm hA h0 h1 hq e1 (.inr ⟨hmode, rfl⟩)
      refine ⟨y, y1, ?_⟩
      rcases (y2 hEe.le).1 with rfl | rfl
      · exact e2
      · positivity

/-- **C110**: in the combined modes the Coulomb correction factor is a number and not negative for all leptons; it can only be
zero if the effective energy is exactly the mass of the lepton. -/
theorem C110_combined {n : Nuc} (hZ : |n.Zf| ≤ 137) (hA : 0 < n.Af) (hm : 0 < n.mc) {beta : ℝ} (h0 : 0 < beta)
    (h1 : beta < 1) (hc : n.mode = .fermiAndEma ∨ n.mode = .fermiAndMema) :
    ∃ y q, Ema.Is n beta q ∧ coulomb fermi n (.num beta) = .ok (.num y) ∧ 0 ≤ y ∧ (q.Eeff ≠ n.mc → 0 < y) := by
  obtain ⟨f, e1, e2, -⟩ := C110_value_partial hZ hA hm h0 h1
  obtain ⟨q, hq, q1, q2, -, q4⟩ := ema_exists hA hm h0 h1
  have hE0 : 0 < q.E := hm.trans q1
  have hpe := hq.2.2.2.1
  have key : ∀ x y : ℝ, (q.Eeff < n.mc → y = f) → (n.mc ≤ q.Eeff → (y = f ∨ y = x) ∧ |y - 1| ≤ |f - 1| ∧ |y - 1| ≤ |x - 1|) →
      (n.mc ≤ q.Eeff → 0 ≤ x) → (n.mc < q.Eeff → 0 < x) → 0 ≤ y ∧ (q.Eeff ≠ n.mc → 0 < y) := by
    intro x y k1 k2 k3 k4
    rcases lt_trichotomy q.Eeff n.mc with h | h | h
    · rw [k1 h]
      exact ⟨e2.le, fun _ => e2⟩
    · refine ⟨?_, fun h' => absurd h h'⟩
      rcases (k2 h.ge).1 with rfl | rfl
      · exact e2.le
      · exact k3 h.ge
    · rcases (k2 h.le).1 with rfl | rfl
      · exact ⟨e2.le, fun _ => e2⟩
      · exact ⟨(k4 h).le, fun _ => k4 h⟩
  rcases hc with hmode | hmode
  · obtain ⟨y, y1, y2, y3⟩ := C39_combined hm hA h0 h1 hq e1 (.inl ⟨hmode, rfl⟩)
    exact ⟨y, q, hq, y1, key _ y y2 y3 (fun _ => by positivity) (fun h => by have := q4 h; positivity)⟩
  · obtain ⟨y, y1, y2, y3⟩ := C39_combined hm hA h0 h1 hq e1 (.inr ⟨hmode, rfl⟩)
    refine ⟨y, q, hq, y1, key _ y y2 y3 (fun h => ?_) (fun h => ?_)⟩
    · have := hm.trans_le h
      positivity
    · have := q4 h
      have := hm.trans h
      positivity

/-- **C110**: every transition of a charged-current reaction above its threshold has a positive cross section, which is the one
of C83 with the Coulomb correction at the relative speed of the products: without correction, with the Fermi function,
and for attracted leptons in every mode; and in the combined modes for all leptons it is a number and not negative. -/
theorem C110_cross_section_partial {n : Nuc} (hn : n.Good) (hZ : |n.Zf| ≤ 137) (hA : 0 < n.Af) (hmc : 0 < n.mc)
    (hproc : n.proc ≠ .nc) {KEa : ℝ} (hK : 0 ≤ KEa)
    {m : MatEl} (hm : m ∈ n.elements) (hst : m.strength ≠ 0)
    (hr : n.mc + (n.md + m.levelEnergy) < Real.sqrt ((n.ma + n.mb) ^ 2 + 2 * n.mb * KEa)) {k : Cm} (hk : k.Is n KEa m) :
    ∃ rel, 0 < rel ∧ rel < 1 ∧
      (rel * (k.Ec * k.Ed + k.pc ^ 2)) ^ 2
        = (k.Ec * k.Ed + k.pc ^ 2) ^ 2 - (n.mc * (n.md + m.levelEnergy)) ^ 2 ∧
      ((n.mode = .noCorrection ∨ n.mode = .fermiFunction ∨ 0 < n.pdgC ∧ 0 ≤ n.Zf) →
        ∃ f b, coulomb fermi n (.num rel) = .ok (.num f) ∧
          transitionXs fermi n m KEa = .ok (.num (GF ^ 2 / Real.pi * (k.Eb * k.Ed / k.rs ^ 2) * k.Ec * k.pc * m.strength *
            Vud ^ 2 * f), b) ∧
          0 < GF ^ 2 / Real.pi * (k.Eb * k.Ed / k.rs ^ 2) * k.Ec * k.pc * m.strength * Vud ^ 2 * f) ∧
      (n.mode = .fermiAndEma ∨ n.mode = .fermiAndMema →
        ∃ f b, coulomb fermi n (.num rel) = .ok (.num f) ∧
          transitionXs fermi n m KEa = .ok (.num (GF ^ 2 / Real.pi * (k.Eb * k.Ed / k.rs ^ 2) * k.Ec * k.pc * m.strength *
            Vud ^ 2 * f), b) ∧
          0 ≤ GF ^ 2 / Real.pi * (k.Eb * k.Ed / k.rs ^ 2) * k.Ec * k.pc * m.strength * Vud ^ 2 * f) := by
  have hd : 0 < n.md + m.levelEnergy := add_pos_of_pos_of_nonneg hn.d (hn.energy m hm)
  obtain ⟨c1, c2, c3, c4, c5, c6, c7⟩ := cm_spec hn hK hd hr.le
  rw [← cm_unique hn hK hk] at c1 c2 c3 c4 c5 c6 c7
  generalize hM : n.md + m.levelEnergy = M at *
  have hrs : k.rs = Real.sqrt ((n.ma + n.mb) ^ 2 + 2 * n.mb * KEa) := by
    rw [← Real.sqrt_sq c1.le, hk.2.1]
    congr 1
    ring
  have hpc : 0 < k.pc := by
    refine lt_of_le_of_ne c4 (fun h => ?_)
    rw [← h] at c6 c7
    have e1 : k.Ec = n.mc := by nlinarith
    have e2 : k.Ed = M := by nlinarith
    have := hk.2.2.1
    rw [e1, e2, hrs] at this
    linarith
  have hEc : 0 < k.Ec := hmc.trans_le c3
  have hEd : 0 < k.Ed := hd.trans_le c5
  have hprod : n.mc * M ≤ k.Ec * k.Ed := mul_le_mul c3 c5 hd.le hEc.le
  have hpc2 : 0 < k.pc ^ 2 := pow_pos hpc 2
  generalize hdot : k.Ec * k.Ed + k.pc ^ 2 = dot at *
  have hlt : n.mc * M < dot := by rw [← hdot]; linarith
  have hmM : 0 < n.mc * M := mul_pos hmc hd
  have hdp : 0 < dot := hmM.trans hlt
  have hsq : (n.mc * M) ^ 2 < dot ^ 2 := pow_lt_pow_left₀ hlt hmM.le (by norm_num)
  have hR : 0 < dot ^ 2 - (n.mc * M) ^ 2 := by linarith
  have hrel : (Real.sqrt (dot ^ 2 - (n.mc * M) ^ 2) / dot * dot) ^ 2 = dot ^ 2 - (n.mc * M) ^ 2 := by
    rw [div_mul_cancel₀ _ hdp.ne', Real.sq_sqrt hR.le]
  have hrel0 : 0 < Real.sqrt (dot ^ 2 - (n.mc * M) ^ 2) / dot := div_pos (Real.sqrt_pos.2 hR) hdp
  have hrel1 : Real.sqrt (dot ^ 2 - (n.mc * M) ^ 2) / dot < 1 := by
    rw [div_lt_one hdp, Real.sqrt_lt' hdp]
    have := pow_pos hmM 2
    linarith
  generalize Real.sqrt (dot ^ 2 - (n.mc * M) ^ 2) / dot = rel at *
  have hS : 0 < m.strength := lt_of_le_of_ne (hn.strength m hm) (Ne.symm hst)
  have hx : 0 < GF ^ 2 / Real.pi * (k.Eb * k.Ed / k.rs ^ 2) * k.Ec * k.pc * m.strength * Vud ^ 2 := by
    have hGF : (0 : ℝ) < GF := by norm_num [GF]
    have hV : (0 : ℝ) < Vud := by norm_num [Vud]
    have := Real.pi_pos
    positivity
  have hxs : ∀ f, coulomb fermi n (.num rel) = .ok (.num f) → ∃ b, transitionXs fermi n m KEa =
      .ok (.num (GF ^ 2 / Real.pi * (k.Eb * k.Ed / k.rs ^ 2) * k.Ec * k.pc * m.strength * Vud ^ 2 * f), b) :=
    fun f hco => (C83_value (fermi := fermi) hn hK hm hst (by unfold Nuc.Reaches; rw [hM]; exact hr.le) hk rfl).2.2.1 hproc rel f
      hrel0.le (by rw [hM, hdot]; exact hrel) hEc.ne' hco
  refine ⟨rel, hrel0, hrel1, hrel, fun hc => ?_, fun hc => ?_⟩
  · obtain ⟨f, e1, e2⟩ := C110_factor hZ hA hmc hrel0 hrel1 hc
    obtain ⟨b, hb⟩ := hxs f e1
    exact ⟨f, b, e1, hb, mul_pos hx e2⟩
  · obtain ⟨f, -, -, e1, e2, -⟩ := C110_combined hZ hA hmc hrel0 hrel1 hc
    obtain ⟨b, hb⟩ := hxs f e1
    exact ⟨f, b, e1, hb, mul_nonneg hx.le e2⟩

/-! ## Totals -/

theorem ema_ok_zero {n : Nuc} (hA : 0 < n.Af) (hp : 0 < n.pdgC) (hz : 0 ≤ n.Zf) (b : Bool) :
    (emaFactor n (.num 0) b).2 = true := by
  have hR := nuclearRadius_pos hA
  have hr : radius n.Af = .num (nuclearRadius n.Af) := by
    unfold radius; rw [if_neg (by omega)]; rfl
  have ha : (0 : ℝ) < alpha := by norm_num [alpha]
  have hz' : (0 : ℝ) ≤ n.Zf := by exact_mod_cast hz
  have hv : 0 ≤ 3 * n.Zf * alpha / (2 * nuclearRadius n.Af) := by positivity
  simp only [emaFactor, hr, Val.num_mul, if_pos hp, Val.num_sq, Val.num_sub]
  rw [Val.num_rsqrt (by norm_num), Val.num_div (by positivity), Val.num_mul, Val.num_sub, Val.num_le, decide_eq_true_eq]
  have e : -3 * n.Zf * alpha / (2 * nuclearRadius n.Af) = -(3 * n.Zf * alpha / (2 * nuclearRadius n.Af)) := by ring
  rw [e]
  norm_num
  linarith

/-- Modes in which the Coulomb correction does not throw. -/
theorem coulomb_defined_zero {n : Nuc} (hA : 0 < n.Af)
    (hc : n.mode ≠ .ema ∧ n.mode ≠ .mema ∨ 0 < n.pdgC ∧ 0 ≤ n.Zf) : ∃ f, coulomb fermi n (.num 0) = .ok f := by
  unfold coulomb
  rcases hc with ⟨h1, h2⟩ | ⟨h1, h2⟩
  · cases hmode : n.mode with
    | noCorrection => exact ⟨_, rfl⟩
    | fermiFunction => exact ⟨_, rfl⟩
    | ema => exact absurd hmode h1
    | mema => exact absurd hmode h2
    | fermiAndEma => dsimp only; split_ifs <;> exact ⟨_, rfl⟩
    | fermiAndMema => dsimp only; split_ifs <;> exact ⟨_, rfl⟩
  · cases hmode : n.mode with
    | noCorrection => exact ⟨_, rfl⟩
    | fermiFunction => exact ⟨_, rfl⟩
    | ema => simp only [ema_ok_zero hA h1 h2, if_true]; exact ⟨_, rfl⟩
    | mema => simp only [ema_ok_zero hA h1 h2, if_true]; exact ⟨_, rfl⟩
    | fermiAndEma => dsimp only; split_ifs <;> exact ⟨_, rfl⟩
    | fermiAndMema => dsimp only; split_ifs <;> exact ⟨_, rfl⟩

theorem counted_zero_mul (v : Val) : counted (.num 0 * (.num (Vud * Vud) * v)) = .ok 0 := by
  have : ∀ w : Val, counted (.num 0 * w) = .ok 0 := by
    intro w
    change counted (Val.mul _ _) = _
    cases w <;> simp [Val.mul, counted]
  exact this _

/-- The cross section for one level that can be reached. -/
theorem level_counted {n : Nuc} (hn : n.Good) (hZ : |n.Zf| ≤ 137) (hA : 0 < n.Af) (hmc : n.proc ≠ .nc → 0 < n.mc)
    (hc : n.proc ≠ .nc → n.mode ≠ .ema ∧ n.mode ≠ .mema ∨ 0 < n.pdgC ∧ 0 ≤ n.Zf) {KEa : ℝ} (hK : 0 ≤ KEa)
    {m : MatEl} (hm : m ∈ n.elements) (hst : m.strength ≠ 0) (hr : n.Reaches KEa m) :
    ∃ v b y, levelXs fermi n m KEa = .ok (v, b) ∧ counted v = .ok y := by
  have hlt : (n.maxLevel KEa).lt (.num m.levelEnergy) = false := (reaches_iff hn hK m).1 hr
  by_cases hp : n.proc = .nc
  · rw [levelXs_eq hn hK, hp]
    exact ⟨_, _, _, rfl, rfl⟩
  · replace hmc := hmc hp
    replace hc := hc hp
    have hd : 0 < n.md + m.levelEnergy := add_pos_of_pos_of_nonneg hn.d (hn.energy m hm)
    have hconv : ∀ {x : ℝ} {b}, transitionXs fermi n m KEa = .ok (.num x, b) →
        ∃ v b y, levelXs fermi n m KEa = .ok (v, b) ∧ counted v = .ok y := by
      intro x b e
      unfold transitionXs at e
      rw [if_neg hst, if_neg (by simp [hlt])] at e
      cases hl : levelXs fermi n m KEa with
      | error _ => rw [hl] at e; cases e
      | ok w =>
        obtain ⟨v, b'⟩ := w
        rw [hl] at e
        cases e
        exact ⟨_, _, _, rfl, rfl⟩
    rcases lt_or_eq_of_le hr with h | h
    · obtain ⟨k, hk, -⟩ := C83_energies hn hK hm hr
      obtain ⟨rel, -, -, -, h1, h2⟩ := C110_cross_section_partial hn hZ hA hmc hp hK hm hst h hk
      rcases hc with ⟨c1, c2⟩ | c
      · cases hmode : n.mode with
        | noCorrection =>
          obtain ⟨f, b, -, e, -⟩ := h1 (.inl hmode)
          exact hconv e
        | fermiFunction =>
          obtain ⟨f, b, -, e, -⟩ := h1 (.inr (.inl hmode))
          exact hconv e
        | ema => exact absurd hmode c1
        | mema => exact absurd hmode c2
        | fermiAndEma =>
          obtain ⟨f, b, -, e, -⟩ := h2 (.inl hmode)
          exact hconv e
        | fermiAndMema =>
          obtain ⟨f, b, -, e, -⟩ := h2 (.inr hmode)
          exact hconv e
      · obtain ⟨f, b, -, e, -⟩ := h1 (.inr (.inr c))
        exact hconv e
    · obtain ⟨c1, c2, c3, c4, c5, c6, c7⟩ := cm_spec hn hK hd hr
      have e1 : (n.cm (n.md + m.levelEnergy) KEa).rs = Real.sqrt ((n.ma + n.mb) ^ 2 + 2 * n.mb * KEa) := rfl
      have e2 : (n.cm (n.md + m.levelEnergy) KEa).Ed = (n.cm (n.md + m.levelEnergy) KEa).rs
        - (n.cm (n.md + m.levelEnergy) KEa).Ec := rfl
      have hEc : (n.cm (n.md + m.levelEnergy) KEa).Ec = n.mc := by linarith
      have hEd : (n.cm (n.md + m.levelEnergy) KEa).Ed = n.md + m.levelEnergy := by linarith
      have hpc : (n.cm (n.md + m.levelEnergy) KEa).pc = 0 := by
        rw [hEc] at c6
        have : (n.cm (n.md + m.levelEnergy) KEa).pc ^ 2 = 0 := by linarith
        exact pow_eq_zero_iff (by norm_num) |>.1 this
      have hrel : n.rel (n.md + m.levelEnergy) KEa = .num 0 := by
        unfold Nuc.rel
        rw [hpc, hEc, hEd, Val.num_div (by positivity), show ((n.md + m.levelEnergy) * n.mc + 0 ^ 2) ^ 2
          - n.mc * n.mc * (n.md + m.levelEnergy) ^ 2 = 0 by ring, Xs.realSqrt_eq (le_refl 0), Real.sqrt_zero, zero_div]
      have hbase : n.base (n.md + m.levelEnergy) KEa * m.strength = 0 := by
        unfold Nuc.base
        rw [hpc, mul_zero, zero_mul]
      obtain ⟨f, hf⟩ := coulomb_defined_zero hA hc
      rw [levelXs_eq hn hK, hrel, hbase, hf]
      rcases hn.proc with h | h | h
      · rw [h]
        exact ⟨_, _, 0, rfl, counted_zero_mul f⟩
      · rw [h]
        exact ⟨_, _, 0, rfl, counted_zero_mul f⟩
      · exact absurd h hp

theorem partials_total {n : Nuc} (hn : n.Good) {KEa : ℝ} (hK : 0 ≤ KEa) (ms : List MatEl)
    (h : ∀ m ∈ ms, m.strength ≠ 0 → n.Reaches KEa m → ∃ v b y, levelXs fermi n m KEa = .ok (v, b) ∧ counted v = .ok y) :
    ∃ l, partials fermi n KEa none ms = .ok l ∧ l.length ≤ ms.length := by
  induction ms with
  | nil => exact ⟨[], rfl, le_refl _⟩
  | cons m ms ih =>
    obtain ⟨l, h1, h2⟩ := ih (fun m hm => h m (List.mem_cons_of_mem _ hm))
    rw [partials]
    by_cases hr : (n.maxLevel KEa).lt (.num m.levelEnergy) = true
    · rw [if_pos hr]
      exact ⟨[], rfl, by simp⟩
    · rw [if_neg hr]
      by_cases hs : m.strength = 0
      · rw [if_pos hs]
        exact ⟨l, h1, by simp; omega⟩
      · rw [if_neg hs]
        obtain ⟨v, b, y, e1, e2⟩ := h m (by simp) hs ((reaches_iff hn hK m).2 (by simpa using hr))
        rw [e1]
        simp only [e2, h1]
        exact ⟨y :: l, rfl, by simpa using h2⟩

/-- **C110**: the total cross section is a number and not negative, at every energy: for neutral currents, in the modes that do
not rely on the effective momentum alone, and for attracted leptons in every mode. -/
theorem C110_total_defined {n : Nuc} (hn : n.Good) (hZ : |n.Zf| ≤ 137) (hA : 0 < n.Af) (hmc : n.proc ≠ .nc → 0 < n.mc)
    (hc : n.proc ≠ .nc → n.mode ≠ .ema ∧ n.mode ≠ .mema ∨ 0 < n.pdgC ∧ 0 ≤ n.Zf) (pdg : Int) (KEa : ℝ) :
    ∃ t, n.totalXs fermi pdg KEa = .ok t ∧ 0 ≤ t := by
  have : ∃ t, n.totalXs fermi pdg KEa = .ok t := by
    unfold Nuc.totalXs summed
    by_cases h1 : pdg ≠ n.pdgA
    · rw [if_pos h1]; exact ⟨_, rfl⟩
    rw [if_neg h1]
    simp only [Bool.false_eq_true, if_false]
    by_cases h2 : KEa ≤ 0
    · rw [if_pos h2]; exact ⟨_, rfl⟩
    rw [if_neg h2]
    have hK := (not_le.1 h2).le
    obtain ⟨l, hl, -⟩ := partials_total hn hK n.elements (fun m hm hs hr => level_counted hn hZ hA hmc hc hK hm hs hr)
    rw [hl]
    exact ⟨_, rfl⟩
  obtain ⟨t, ht⟩ := this
  exact ⟨t, ht, C110_total hn ht⟩

theorem partials_mem {n : Nuc} (hn : n.Good) {KEa : ℝ} (hK : 0 ≤ KEa) (ms : List MatEl)
    (hs : ms.Pairwise (fun a b => a.levelEnergy ≤ b.levelEnergy)) {l : List ℝ}
    (e : partials fermi n KEa none ms = .ok l) {m : MatEl} (hm : m ∈ ms) (hst : m.strength ≠ 0) (hr : n.Reaches KEa m) :
    ∃ y ∈ l, Partial fermi n KEa m y := by
  induction ms generalizing l with
  | nil => cases hm
  | cons a ms ih =>
    rw [List.pairwise_cons] at hs
    rcases partials_cons e with ⟨h1, rfl⟩ | ⟨h1, h2, h3⟩ | ⟨h1, h2, v, b, x, l', h3, h4, h5, rfl⟩
    · exfalso
      have ha : ¬ n.Reaches KEa a := fun q => by rw [(reaches_iff hn hK a).1 q] at h1; cases h1
      rcases List.mem_cons.1 hm with rfl | hm
      · exact ha hr
      · apply ha
        have := hs.1 m hm
        unfold Nuc.Reaches at hr ⊢
        linarith
    · rcases List.mem_cons.1 hm with rfl | hm
      · exact absurd h2 hst
      · exact ih hs.2 h3 hm
    · rcases List.mem_cons.1 hm with rfl | hm
      · exact ⟨x, by simp, transition_level h1 h2 h3 h4⟩
      · obtain ⟨y, hy, hy'⟩ := ih hs.2 h5 hm
        exact ⟨y, List.mem_cons_of_mem _ hy, hy'⟩

/-- The partial cross sections stored above the threshold of a transition. -/
theorem summed_positive {n : Nuc} (hn : n.Good) (hso : n.Sorted) (hZ : |n.Zf| ≤ 137) (hA : 0 < n.Af) (hmc : 0 < n.mc)
    (hproc : n.proc ≠ .nc) (hc : n.mode = .noCorrection ∨ n.mode = .fermiFunction ∨ 0 < n.pdgC ∧ 0 ≤ n.Zf)
    {KEa : ℝ} (hK : 0 < KEa) {m : MatEl} (hm : m ∈ n.elements) (hst : m.strength ≠ 0)
    (hr : n.mc + (n.md + m.levelEnergy) < Real.sqrt ((n.ma + n.mb) ^ 2 + 2 * n.mb * KEa)) :
    ∃ l, summed fermi n n.pdgA KEa none = .ok (l.sum, l) ∧ (∀ x ∈ l, 0 ≤ x) ∧ 0 < l.sum ∧ l.length ≤ n.elements.length := by
  have hc' : n.mode ≠ .ema ∧ n.mode ≠ .mema ∨ 0 < n.pdgC ∧ 0 ≤ n.Zf := by
    rcases hc with h | h | h
    · exact .inl ⟨by rw [h]; nofun, by rw [h]; nofun⟩
    · exact .inl ⟨by rw [h]; nofun, by rw [h]; nofun⟩
    · exact .inr h
  obtain ⟨l, hl, hlen⟩ := partials_total hn hK.le n.elements
    (fun m hm hs hr => level_counted hn hZ hA (fun _ => hmc) (fun _ => hc') hK.le hm hs hr)
  have hnn := partials_nonneg hn hK.le (C110_nonneg n) _ (fun _ h => h) hl
  obtain ⟨y, hy, v, b, hv, hv'⟩ := partials_mem hn hK.le _ hso hl hm hst hr.le
  obtain ⟨k, hk, -⟩ := C83_energies hn hK.le hm hr.le
  obtain ⟨rel, -, -, -, h1, -⟩ := C110_cross_section_partial hn hZ hA hmc hproc hK.le hm hst hr hk
  obtain ⟨f, b', -, e, hpos⟩ := h1 hc
  rw [e] at hv
  cases hv
  have hy0 : 0 < y := by
    rcases hv' with h | ⟨h, -⟩
    · cases h; exact hpos
    · cases h
  refine ⟨l, ?_, hnn, ?_, hlen⟩
  · unfold summed
    simp only [ne_eq, not_true_eq_false, if_false, Bool.false_eq_true, if_neg (not_le.2 hK), hl]
  · exact hy0.trans_le (List.single_le_sum hnn y hy)

/-- **C110**: above the threshold of a transition with strength the total cross section is positive. -/
theorem C110_total_positive {n : Nuc} (hn : n.Good) (hso : n.Sorted) (hZ : |n.Zf| ≤ 137) (hA : 0 < n.Af) (hmc : 0 < n.mc)
    (hproc : n.proc ≠ .nc) (hc : n.mode = .noCorrection ∨ n.mode = .fermiFunction ∨ 0 < n.pdgC ∧ 0 ≤ n.Zf)
    {KEa : ℝ} (hK : 0 < KEa) {m : MatEl} (hm : m ∈ n.elements) (hst : m.strength ≠ 0)
    (hr : n.mc + (n.md + m.levelEnergy) < Real.sqrt ((n.ma + n.mb) ^ 2 + 2 * n.mb * KEa)) :
    ∃ t, n.totalXs fermi n.pdgA KEa = .ok t ∧ 0 < t := by
  obtain ⟨l, h1, -, h3, -⟩ := summed_positive hn hso hZ hA hmc hproc hc hK hm hst hr
  exact ⟨l.sum, by unfold Nuc.totalXs; rw [h1]; rfl, h3⟩

/-- **C110**: above the threshold of a transition with strength, creating an event always finds a transition. -/
theorem C110_choose {G : Type} {E : Env G} (hE : E.engine.Lawful) (hf : E.fermi = fermi) {n : Nuc} (hn : n.Good) (hso : n.Sorted)
    (hZ : |n.Zf| ≤ 137) (hA : 0 < n.Af) (hmc : 0 < n.mc)
    (hproc : n.proc ≠ .nc) (hc : n.mode = .noCorrection ∨ n.mode = .fermiFunction ∨ 0 < n.pdgC ∧ 0 ≤ n.Zf)
    {KEa : ℝ} (hK : 0 < KEa) {m : MatEl} (hm : m ∈ n.elements) (hst : m.strength ≠ 0)
    (hr : n.mc + (n.md + m.levelEnergy) < Real.sqrt ((n.ma + n.mb) ^ 2 + 2 * n.mb * KEa)) (g : G) :
    ∃ m' g', n.choose E n.pdgA KEa g = .ok (m', g') := by
  obtain ⟨l, h1, h2, h3, h4⟩ := summed_positive hn hso hZ hA hmc hproc hc hK hm hst hr
  have hne : l ≠ [] := by rintro rfl; simp at h3
  have hth : ¬ KEa < threshold (n.masses 0) := fun h => by
    have := C35_below_threshold (Nuc.Good.masses hn (le_refl 0)) hK.le (hn.energy m hm) h
    unfold maxLevelEnergy Nuc.masses at this
    simp only [add_zero] at this
    linarith
  have hpick : ∃ i g', pickFrom E.engine l g = .ok (i, g') := by
    unfold pickFrom
    split_ifs with h
    · exact ⟨_, _, rfl⟩
    · have : ¬ ((l.any (· < 0)) = true ∨ l.sum = 0) := by
        rintro (h' | h')
        · obtain ⟨x, hx, hx'⟩ := List.any_eq_true.1 h'
          exact absurd (h2 x hx) (not_le.2 (by simpa using hx'))
        · exact h3.ne' h'
      unfold pick
      rw [if_neg h, if_neg this]
      exact ⟨_, _, rfl⟩
  obtain ⟨i, g', hi⟩ := hpick
  have hlt : i < n.elements.length := (pickFrom_lt hE hne hi).trans_le h4
  unfold Nuc.choose
  rw [if_neg (by simp), if_neg hth, hf, h1]
  simp only [if_neg (not_le.2 h3), hi, List.getElem?_eq_getElem hlt]
  rw [if_neg (by simpa using hne)]
  exact ⟨_, _, rfl⟩

/-! ## Examples -/

/-- A reaction with potassium-40 as residue. -/
def exFermi (pdgC Zf : Int) : Nuc where
  proc := .neutrinoCC
  pdgA := 12
  pdgB := 1000180400
  pdgC := pdgC
  pdgD := 1000190400
  qD := 1
  Zi := 18
  Ai := 40
  Zf := Zf
  Af := 40
  ma := 0
  mb := 4
  mc := 4
  md := 4
  elements := [⟨0, 2, 1, none⟩]
  mode := .fermiFunction

example : ∃ f, fermi (exFermi 11 19) (.num (1 / 2)) = .num f ∧ 0 < f := by
  obtain ⟨f, h1, h2, -⟩ := C110_value_partial (n := exFermi 11 19) (beta := 1 / 2) (by decide) (by decide)
    (by norm_num [exFermi]) (by norm_num) (by norm_num)
  exact ⟨f, h1, h2⟩

example : ∃ f f', fermi (exFermi 11 19) (.num (1 / 2)) = .num f ∧ fermi (exFermi (-11) 19) (.num (1 / 2)) = .num f' ∧
    f' < f := by
  obtain ⟨f, f', h1, h2, -, h3⟩ := C110_charge (n := exFermi 11 19) (n' := exFermi (-11) 19) (beta := 1 / 2) (by decide)
    (by decide) rfl rfl rfl (by decide) (by decide) (by norm_num [exFermi]) (by norm_num) (by norm_num)
  exact ⟨f, f', h1, h2, h3 (by decide)⟩

example : ∃ f, fermi (exFermi (-11) 0) (.num (1 / 2)) = .num f ∧ |f - 1| ≤ 1e-15 :=
  C110_neutral rfl (by decide) (by norm_num [exFermi]) (by norm_num) (by norm_num)

example (beta : Val) : fermi (exFermi 11 138) beta = .nan := C110_heavy_violated (by decide) beta

example : ∃ g, gamma 2 (-(1 / 2)) = some (.ok g) ∧ g ≠ 0 := by
  obtain ⟨g, h1, h2, -⟩ := C110_gamma (z := -(1 / 2)) (by
    intro k hk
    have h : (1 : ℂ) = ((2 * k : ℕ) : ℂ) := by
      push_cast
      linear_combination (-2 : ℂ) * hk
    have h' : 1 = 2 * k := by exact_mod_cast h
    omega) 0
  exact ⟨g, h1, h2⟩

theorem exFermi_good : (exFermi 11 19).Good where
  a := by norm_num [exFermi]
  b := by norm_num [exFermi]
  c := by norm_num [exFermi]
  d := by norm_num [exFermi]
  strength := by simp [exFermi]
  energy := by simp [exFermi, MatEl.levelEnergy]
  type := by simp [exFermi]
  proc := .inl rfl

example : ∃ x b, transitionXs fermi (exFermi 11 19) ⟨0, 2, 1, none⟩ (21 / 2) = .ok (.num x, b) ∧ 0 < x := by
  have hs : Real.sqrt (((exFermi 11 19).ma + (exFermi 11 19).mb) ^ 2 + 2 * (exFermi 11 19).mb * (21 / 2)) = 10 := by
    rw [show (((exFermi 11 19).ma + (exFermi 11 19).mb) ^ 2 + 2 * (exFermi 11 19).mb * (21 / 2) : ℝ) = 10 ^ 2 by
      norm_num [exFermi]]
    exact Real.sqrt_sq (by norm_num)
  obtain ⟨rel, -, -, -, h, -⟩ := C110_cross_section_partial exFermi_good (by decide) (by decide) (by norm_num [exFermi]) nofun
    (KEa := 21 / 2) (by norm_num) (m := ⟨0, 2, 1, none⟩) (by simp [exFermi]) (by norm_num)
    (by rw [hs]; norm_num [exFermi, MatEl.levelEnergy])
    (k := ⟨10, 29 / 5, 5, 3, 5⟩) (by norm_num [Cm.Is, exFermi, MatEl.levelEnergy])
  obtain ⟨f, b, -, h1, h2⟩ := h (.inr (.inl rfl))
  exact ⟨_, b, h1, h2⟩

/-- In the default mode. -/
example : ∃ y, coulomb fermi { exFermi 11 19 with mode := .fermiAndMema } (.num (1 / 2)) = .ok (.num y) ∧ 0 < y :=
  C110_factor (by decide) (by decide) (by norm_num [exFermi]) (by norm_num) (by norm_num) (.inr (.inr (by decide)))

example : ∃ y, coulomb fermi { exFermi (-11) 19 with mode := .fermiAndMema } (.num (1 / 2)) = .ok (.num y) ∧ 0 ≤ y := by
  obtain ⟨y, -, -, h1, h2, -⟩ := C110_combined (n := { exFermi (-11) 19 with mode := .fermiAndMema }) (beta := 1 / 2)
    (by decide) (by decide) (by norm_num [exFermi]) (by norm_num) (by norm_num) (.inr rfl)
  exact ⟨y, h1, h2⟩

theorem exFermi_reaches : (exFermi 11 19).mc + ((exFermi 11 19).md + MatEl.levelEnergy ⟨0, 2, 1, none⟩) <
    Real.sqrt (((exFermi 11 19).ma + (exFermi 11 19).mb) ^ 2 + 2 * (exFermi 11 19).mb * (21 / 2)) := by
  rw [show (((exFermi 11 19).ma + (exFermi 11 19).mb) ^ 2 + 2 * (exFermi 11 19).mb * (21 / 2) : ℝ) = 10 ^ 2 by
    norm_num [exFermi], Real.sqrt_sq (by norm_num)]
  norm_num [exFermi, MatEl.levelEnergy]

example : ∃ t, (exFermi 11 19).totalXs fermi 12 (21 / 2) = .ok t ∧ 0 < t :=
  C110_total_positive exFermi_good (by simp [Nuc.Sorted, exFermi]) (by decide) (by decide) (by norm_num [exFermi]) nofun
    (.inr (.inl rfl)) (by norm_num) (m := ⟨0, 2, 1, none⟩) (by simp [exFermi]) (by norm_num) exFermi_reaches

/-- At every energy. -/
example (KEa : ℝ) : ∃ t, (exFermi 11 19).totalXs fermi 12 KEa = .ok t ∧ 0 ≤ t :=
  C110_total_defined exFermi_good (by decide) (by decide) (fun _ => by norm_num [exFermi]) (fun _ => .inl (by decide)) 12 KEa

example {G : Type} {E : Env G} (hE : E.engine.Lawful) (hf : E.fermi = fermi) (g : G) :
    ∃ m' g', (exFermi 11 19).choose E 12 (21 / 2) g = .ok (m', g') :=
  C110_choose hE hf exFermi_good (by simp [Nuc.Sorted, exFermi]) (by decide) (by decide) (by norm_num [exFermi]) nofun
    (.inr (.inl rfl)) (by norm_num) (m := ⟨0, 2, 1, none⟩) (by simp [exFermi]) (by norm_num) exFermi_reaches g

end Marley.Props
