import Verif.Model.Generator
import Mathlib.RingTheory.Polynomial.Chebyshev
import Mathlib.Analysis.SpecialFunctions.Trigonometric.Chebyshev.Basic
import Mathlib.Analysis.SpecialFunctions.Integrals.Basic
import Mathlib.MeasureTheory.Integral.IntervalIntegral.FundThmCalculus
import Mathlib.Topology.Algebra.Polynomial
import Mathlib.Analysis.Calculus.Deriv.Polynomial
import Mathlib.Tactic.Linarith
import Mathlib.Tactic.LinearCombination
import Mathlib.Tactic.FieldSimp

/-!
Lemmas about the Clenshaw-Curtis rule of `marley::Integrator`: sums of cosines over
equally spaced angles, integrals of Chebyshev polynomials, exactness.
-/

set_option autoImplicit false

namespace Marley.Gen

open Finset Polynomial
open Polynomial.Chebyshev (T U)

variable {σ : Type}

/-! ## Sums of cosines -/

theorem two_sin_sum (x : ℝ) (n : ℕ) :
    2 * Real.sin (x / 2) * ∑ i ∈ range n, Real.cos (i * x)
      = Real.sin ((n : ℝ) * x - x / 2) + Real.sin (x / 2) := by
  induction n with
  | zero => simp [neg_div]
  | succ n ih =>
    rw [sum_range_succ, mul_add, ih]
    have h1 : ((n + 1 : ℕ) : ℝ) * x - x / 2 = n * x + x / 2 := by push_cast; ring
    rw [h1, Real.sin_add, Real.sin_sub]
    ring

theorem cos_sum_zero {N : ℕ} (hN : 0 < N) {m : ℕ} (h0 : 0 < m) (h1 : m < 2 * N) :
    ∑ n ∈ range (2 * N), Real.cos (n * (m * Real.pi / N)) = 0 := by
  have hN' : (0 : ℝ) < N := by exact_mod_cast hN
  have h := two_sin_sum (m * Real.pi / N) (2 * N)
  have e : ((2 * N : ℕ) : ℝ) * (m * Real.pi / N) - m * Real.pi / N / 2
      = m * (2 * Real.pi) - m * Real.pi / N / 2 := by
    push_cast; field_simp
  rw [e, Real.sin_nat_mul_two_pi_sub] at h
  have hs : 0 < Real.sin (m * Real.pi / N / 2) := by
    apply Real.sin_pos_of_pos_of_lt_pi
    · have : (0 : ℝ) < m := by exact_mod_cast h0
      have := Real.pi_pos
      positivity
    · have h1' : (m : ℝ) < 2 * N := by exact_mod_cast h1
      rw [div_div, div_lt_iff₀ (by positivity)]
      have := Real.pi_pos
      nlinarith
  have h2 : 2 * Real.sin (m * Real.pi / N / 2) *
      ∑ n ∈ range (2 * N), Real.cos (n * (m * Real.pi / N)) = 0 := by
    rw [h]; ring
  rcases mul_eq_zero.1 h2 with h3 | h3
  · linarith
  · exact h3

theorem cos_sum_full {N : ℕ} (hN : 0 < N) (j : ℕ) :
    ∑ n ∈ range (2 * N), Real.cos (n * (((2 * N * j : ℕ) : ℝ) * Real.pi / N)) = 2 * N := by
  have hN' : (N : ℝ) ≠ 0 := by positivity
  have : ∀ n ∈ range (2 * N), Real.cos (n * (((2 * N * j : ℕ) : ℝ) * Real.pi / N)) = 1 := by
    intro n _
    have e : (n : ℝ) * (((2 * N * j : ℕ) : ℝ) * Real.pi / N) = ((n * j : ℕ) : ℝ) * (2 * Real.pi) := by
      push_cast; field_simp
    rw [e, Real.cos_nat_mul_two_pi]
  rw [sum_congr rfl this]
  simp

/-- Sum over all angles of `cos(i n π/N) cos(k n π/N)`. -/
theorem cos_orth {N : ℕ} (hN : 0 < N) {i k : ℕ} (hi : i ≤ N) (hk : k ≤ N) :
    ∑ n ∈ range (2 * N), Real.cos (n * k * Real.pi / N) * Real.cos (n * i * Real.pi / N)
      = if k = i then (if k ≠ 0 ∧ k ≠ N then (N : ℝ) else 2 * N) else 0 := by
  wlog hki : i ≤ k with H
  · rw [sum_congr rfl (fun n _ => mul_comm _ _), H hN hk hi (by omega)]
    by_cases e : k = i
    · subst e; rfl
    · rw [if_neg e, if_neg (Ne.symm e)]
  have e : ∀ n ∈ range (2 * N),
      Real.cos (n * k * Real.pi / N) * Real.cos (n * i * Real.pi / N)
        = (Real.cos (n * (((k - i : ℕ) : ℝ) * Real.pi / N))
          + Real.cos (n * (((k + i : ℕ) : ℝ) * Real.pi / N))) / 2 := by
    intro n _
    have e1 : (n : ℝ) * (((k - i : ℕ) : ℝ) * Real.pi / N) = n * k * Real.pi / N - n * i * Real.pi / N := by
      rw [Nat.cast_sub hki]; ring
    have e2 : (n : ℝ) * (((k + i : ℕ) : ℝ) * Real.pi / N) = n * k * Real.pi / N + n * i * Real.pi / N := by
      push_cast; ring
    rw [e1, e2, Real.cos_add, Real.cos_sub]; ring
  rw [sum_congr rfl e, ← sum_div, sum_add_distrib]
  by_cases hki' : k = i
  · subst hki'
    rw [if_pos rfl]
    have f0 := cos_sum_full hN 0
    rw [show 2 * N * 0 = k - k by omega] at f0
    rw [f0]
    by_cases hc : k ≠ 0 ∧ k ≠ N
    · rw [if_pos hc, cos_sum_zero hN (by omega) (by omega)]; ring
    · rw [if_neg hc]
      have : k = 0 ∨ k = N := by tauto
      rcases this with h | h
      · have f1 := cos_sum_full hN 0
        rw [show 2 * N * 0 = k + k by omega] at f1
        rw [f1]; ring
      · have f1 := cos_sum_full hN 1
        rw [show 2 * N * 1 = k + k by omega] at f1
        rw [f1]; ring
  · rw [if_neg hki', cos_sum_zero hN (by omega) (by omega), cos_sum_zero hN (by omega) (by omega)]
    simp

/-- A sum over a full turn of an even function. -/
theorem sum_fold {N : ℕ} (hN : 0 < N) (g : ℕ → ℝ) (hg : ∀ n, n ≤ 2 * N → g (2 * N - n) = g n) :
    ∑ n ∈ range (2 * N), g n = g 0 + g N + 2 * ∑ i ∈ range (N - 1), g (i + 1) := by
  obtain ⟨M, rfl⟩ : ∃ M, N = M + 1 := ⟨N - 1, by omega⟩
  rw [show 2 * (M + 1) = (M + 1) + (M + 1) by ring, sum_range_add, sum_range_succ' g,
    sum_range_succ' (fun x => g (M + 1 + x))]
  have e : ∑ j ∈ range M, g (M + 1 + (j + 1)) = ∑ i ∈ range M, g (i + 1) := by
    rw [← sum_range_reflect (fun i => g (i + 1)) M]
    apply sum_congr rfl
    intro j hj
    rw [mem_range] at hj
    rw [← hg (M + 1 + (j + 1)) (by omega)]
    congr 1; omega
  rw [e]
  simp only [Nat.add_sub_cancel, Nat.add_zero]
  ring

/-! ## The weights -/

theorem list_sum_range (f : ℕ → ℝ) (n : ℕ) :
    ((List.range n).map f).sum = ∑ i ∈ range n, f i := by
  induction n with
  | zero => simp
  | succ n ih => rw [List.range_succ, List.map_append, List.sum_append, ih, sum_range_succ]; simp

theorem weight_sum (N n : ℕ) :
    weight N n = (∑ k ∈ range (N + 1), (if k ≠ 0 ∧ k ≠ N then (2 : ℝ) else 1)
      / (1 - (2 * (k : ℝ)) ^ 2) * Real.cos (n * k * Real.pi / N)) / N := by
  unfold weight
  rw [list_sum_range]
  congr 1
  apply sum_congr rfl
  intro k _
  dsimp only
  split_ifs <;> ring

theorem weight_reflect {N : ℕ} (hN : 0 < N) {n : ℕ} (hn : n ≤ 2 * N) :
    weight N (2 * N - n) = weight N n := by
  have hN' : (N : ℝ) ≠ 0 := by positivity
  rw [weight_sum, weight_sum]
  congr 1
  apply sum_congr rfl
  intro k _
  congr 1
  rw [Nat.cast_sub hn,
    show (((2 * N : ℕ) : ℝ) - n) * k * Real.pi / N = k * (2 * Real.pi) - n * k * Real.pi / N by
      push_cast; field_simp,
    Real.cos_nat_mul_two_pi_sub]

theorem weight_moment {N : ℕ} (hN : 0 < N) {i : ℕ} (hi : i ≤ N) :
    ∑ n ∈ range (2 * N), weight N n * Real.cos (n * i * Real.pi / N)
      = 2 / (1 - (2 * (i : ℝ)) ^ 2) := by
  have hN' : (N : ℝ) ≠ 0 := by positivity
  have e : ∀ n ∈ range (2 * N), weight N n * Real.cos (n * i * Real.pi / N)
      = (∑ k ∈ range (N + 1), (if k ≠ 0 ∧ k ≠ N then (2 : ℝ) else 1)
        / (1 - (2 * (k : ℝ)) ^ 2) *
          (Real.cos (n * k * Real.pi / N) * Real.cos (n * i * Real.pi / N))) / N := by
    intro n _
    rw [weight_sum, div_mul_eq_mul_div, sum_mul]
    congr 1
    apply sum_congr rfl
    intro k _
    ring
  rw [sum_congr rfl e, ← sum_div, sum_comm]
  have e2 : ∀ k ∈ range (N + 1),
      ∑ n ∈ range (2 * N), (if k ≠ 0 ∧ k ≠ N then (2 : ℝ) else 1)
        / (1 - (2 * (k : ℝ)) ^ 2) *
          (Real.cos (n * k * Real.pi / N) * Real.cos (n * i * Real.pi / N))
      = if k = i then 2 * N / (1 - (2 * (i : ℝ)) ^ 2) else 0 := by
    intro k hk
    rw [mem_range] at hk
    rw [← mul_sum, cos_orth hN hi (by omega)]
    by_cases h : k = i
    · subst h
      rw [if_pos rfl, if_pos rfl]
      split_ifs <;> ring
    · rw [if_neg h, if_neg h, mul_zero]
  rw [sum_congr rfl e2, sum_ite_eq', if_pos (mem_range.2 (by omega))]
  field_simp

/-! ## Integrals of Chebyshev polynomials -/

theorem integral_T_odd {n : ℤ} (h : Odd n) : ∫ x in (-1 : ℝ)..1, (T ℝ n).eval x = 0 := by
  have h1 := intervalIntegral.integral_comp_neg (a := -1) (b := 1) (fun x => (T ℝ n).eval x)
  simp only [Polynomial.Chebyshev.T_eval_neg, Int.negOnePow_odd n h, neg_neg] at h1
  simp only [Units.val_neg, Units.val_one, Int.cast_neg, Int.cast_one, neg_mul, one_mul] at h1
  rw [intervalIntegral.integral_neg] at h1
  linarith

theorem integral_T_even (i : ℕ) :
    ∫ x in (-1 : ℝ)..1, (T ℝ (2 * i)).eval x = 2 / (1 - (2 * (i : ℝ)) ^ 2) := by
  have n1 : (2 * (i : ℝ) + 1) ≠ 0 := by positivity
  have n2 : (2 * (i : ℝ) - 1) ≠ 0 := by
    intro h
    have : (2 * i : ℕ) = 1 := by
      have : (2 * (i : ℝ)) = 1 := by linarith
      exact_mod_cast this
    omega
  have hd : ∀ x : ℝ, HasDerivAt (fun x => ((T ℝ (2 * i + 1)).eval x / (2 * i + 1)
      - (T ℝ (2 * i - 1)).eval x / (2 * i - 1)) / 2) ((T ℝ (2 * i)).eval x) x := by
    intro x
    have a1 := (T ℝ (2 * i + 1)).hasDerivAt x
    have a2 := (T ℝ (2 * i - 1)).hasDerivAt x
    rw [Polynomial.Chebyshev.T_derivative_eq_U] at a1 a2
    have a3 := (((a1.div_const (2 * (i : ℝ) + 1)).sub (a2.div_const (2 * (i : ℝ) - 1))).div_const 2)
    refine a3.congr_deriv ?_
    have u := Polynomial.Chebyshev.two_mul_T_eq_U_sub_U ℝ (2 * i - 2)
    have u' := congrArg (Polynomial.eval x) u
    simp only [eval_mul, eval_sub, eval_ofNat, sub_add_cancel] at u'
    simp only [eval_mul, eval_intCast, add_sub_cancel_right]
    rw [show (2 * (i : ℤ) - 1 - 1) = 2 * i - 2 by ring]
    push_cast
    rw [mul_div_cancel_left₀ _ n1, mul_div_cancel_left₀ _ n2, ← u']
    ring
  rw [intervalIntegral.integral_eq_sub_of_hasDerivAt (fun x _ => hd x)
    ((Polynomial.continuous _).intervalIntegrable _ _)]
  have o1 : Odd (2 * (i : ℤ) + 1) := ⟨i, rfl⟩
  have o2 : Odd (2 * (i : ℤ) - 1) := ⟨i - 1, by ring⟩
  simp only [Polynomial.Chebyshev.T_eval_one, Polynomial.Chebyshev.T_eval_neg_one,
    Int.negOnePow_odd _ o1, Int.negOnePow_odd _ o2, Units.val_neg, Units.val_one, Int.cast_neg,
    Int.cast_one]
  have n3 : (1 - (2 * (i : ℝ)) ^ 2) ≠ 0 := by
    intro h
    have : (2 * (i : ℝ) + 1) * (2 * (i : ℝ) - 1) = 0 := by linear_combination -h
    rcases mul_eq_zero.1 this with h | h
    · exact n1 h
    · exact n2 h
  rw [eq_div_iff n3]
  field_simp
  ring

/-! ## The rule -/

/-- Weight times value, added up over the nodes. -/
noncomputable def quad (N : ℕ) (a b : ℝ) (f : ℝ → ℝ) : ℝ :=
  ((nodes N a b).map (fun p => p.1 * f p.2)).sum

theorem quad_eq (N : ℕ) (a b : ℝ) (f : ℝ → ℝ) :
    quad N a b f = (b - a) / 2 * (weight N 0 / 2 * (f a + f b) + weight N N * f ((b + a) / 2)
      + ∑ i ∈ range (N - 1), weight N (i + 1) *
        (f ((b + a) / 2 + (b - a) / 2 * offset N (i + 1))
          + f ((b + a) / 2 - (b - a) / 2 * offset N (i + 1)))) := by
  have h : ∀ n : ℕ, (((List.range n).flatMap (fun i =>
      [((b - a) / 2 * weight N (i + 1), (b + a) / 2 + (b - a) / 2 * offset N (i + 1)),
       ((b - a) / 2 * weight N (i + 1), (b + a) / 2 - (b - a) / 2 * offset N (i + 1))])).map
        (fun p => p.1 * f p.2)).sum
      = (b - a) / 2 * ∑ i ∈ range n, weight N (i + 1) *
        (f ((b + a) / 2 + (b - a) / 2 * offset N (i + 1))
          + f ((b + a) / 2 - (b - a) / 2 * offset N (i + 1))) := by
    intro n
    induction n with
    | zero => simp
    | succ n ih =>
      rw [List.range_succ, List.flatMap_append, List.map_append, List.sum_append, ih,
        sum_range_succ]
      simp only [List.flatMap_cons, List.flatMap_nil, List.append_nil, List.map_cons, List.map_nil,
        List.sum_cons, List.sum_nil]
      ring
  unfold quad nodes
  dsimp only
  rw [List.map_append, List.sum_append, h]
  simp only [List.map_cons, List.map_nil, List.sum_cons, List.sum_nil]
  ring

theorem quad_affine (N : ℕ) (a b : ℝ) (f : ℝ → ℝ) :
    quad N a b f = (b - a) / 2 * quad N (-1) 1 (fun t => f ((b + a) / 2 + (b - a) / 2 * t)) := by
  rw [quad_eq, quad_eq]
  have e1 : (b + a) / 2 + (b - a) / 2 * -1 = a := by ring
  have e2 : (b + a) / 2 + (b - a) / 2 * 1 = b := by ring
  have e3 : (b + a) / 2 + (b - a) / 2 * ((1 + -1) / 2) = (b + a) / 2 := by ring
  simp only [e1, e2, e3]
  have e4 : ∀ o : ℝ, (b + a) / 2 + (b - a) / 2 * ((1 + -1) / 2 + (1 - -1) / 2 * o)
      = (b + a) / 2 + (b - a) / 2 * o := by intro o; ring
  have e5 : ∀ o : ℝ, (b + a) / 2 + (b - a) / 2 * ((1 + -1) / 2 - (1 - -1) / 2 * o)
      = (b + a) / 2 - (b - a) / 2 * o := by intro o; ring
  simp only [e4, e5]
  ring

theorem quad_add (N : ℕ) (a b : ℝ) (f g : ℝ → ℝ) :
    quad N a b (fun x => f x + g x) = quad N a b f + quad N a b g := by
  unfold quad
  induction nodes N a b with
  | nil => simp
  | cons p l ih => simp only [List.map_cons, List.sum_cons, ih]; ring

theorem quad_smul (N : ℕ) (a b c : ℝ) (f : ℝ → ℝ) :
    quad N a b (fun x => c * f x) = c * quad N a b f := by
  unfold quad
  induction nodes N a b with
  | nil => simp
  | cons p l ih => simp only [List.map_cons, List.sum_cons, ih]; ring

theorem quad_T_odd (N : ℕ) {n : ℤ} (h : Odd n) : quad N (-1) 1 (fun x => (T ℝ n).eval x) = 0 := by
  have e : ∀ x : ℝ, (T ℝ n).eval (-x) = -(T ℝ n).eval x := by
    intro x
    rw [Polynomial.Chebyshev.T_eval_neg, Int.negOnePow_odd n h]
    simp
  have e0 : (T ℝ n).eval 0 = 0 := by have := e 0; simp only [neg_zero] at this; linarith
  rw [quad_eq]
  have m : ((1 : ℝ) + -1) / 2 = 0 := by norm_num
  simp only [m, e0, e, zero_add, zero_sub]
  simp

theorem quad_T_even {N : ℕ} (hN : 0 < N) {i : ℕ} (hi : i ≤ N) :
    quad N (-1) 1 (fun x => (T ℝ (2 * i)).eval x) = 2 / (1 - (2 * (i : ℝ)) ^ 2) := by
  have hN' : (N : ℝ) ≠ 0 := by positivity
  have e : ∀ x : ℝ, (T ℝ (2 * i)).eval (-x) = (T ℝ (2 * i)).eval x := by
    intro x
    rw [Polynomial.Chebyshev.T_eval_neg, Int.negOnePow_even _ ⟨i, by ring⟩]
    simp
  have et : ∀ n : ℕ, (T ℝ (2 * i)).eval (offset N n) = Real.cos (n * i * Real.pi / N) := by
    intro n
    unfold offset
    rw [Polynomial.Chebyshev.T_real_cos]
    congr 1
    push_cast
    field_simp
  have e1 : (T ℝ (2 * i)).eval (1 : ℝ) = Real.cos ((0 : ℕ) * i * Real.pi / N) := by
    rw [← et]; simp [offset]
  have e0 : (T ℝ (2 * i)).eval (0 : ℝ) = Real.cos ((N : ℕ) * i * Real.pi / N) := by
    rw [← et]
    unfold offset
    rw [show (N : ℝ) * (Real.pi / 2 / N) = Real.pi / 2 by field_simp, Real.cos_pi_div_two]
  rw [quad_eq, ← weight_moment hN hi, sum_fold hN]
  · have m : ((1 : ℝ) + -1) / 2 = 0 := by norm_num
    have m2 : ((1 : ℝ) - -1) / 2 = 1 := by norm_num
    simp only [m, m2, zero_add, zero_sub, one_mul, e, et, e1, e0, mul_sum]
    congr 1
    · ring
    · apply sum_congr rfl
      intro j _
      ring
  · intro n hn
    rw [weight_reflect hN hn, Nat.cast_sub hn,
      show (((2 * N : ℕ) : ℝ) - n) * i * Real.pi / N = i * (2 * Real.pi) - n * i * Real.pi / N by
        push_cast; field_simp,
      Real.cos_nat_mul_two_pi_sub]

theorem quad_T {N : ℕ} (hN : 0 < N) {d : ℕ} (hd : d ≤ 2 * N + 1) :
    quad N (-1) 1 (fun x => (T ℝ d).eval x) = ∫ x in (-1 : ℝ)..1, (T ℝ d).eval x := by
  rcases Nat.even_or_odd' d with ⟨i, h | h⟩
  · subst h
    push_cast
    rw [quad_T_even hN (by omega), integral_T_even]
  · have o : Odd (d : ℤ) := ⟨i, by rw [h]; push_cast; ring⟩
    rw [quad_T_odd N o, integral_T_odd o]

theorem quad_unit {N : ℕ} (hN : 0 < N) (d : ℕ) : d ≤ 2 * N + 1 → ∀ p : ℝ[X], p.natDegree ≤ d →
    quad N (-1) 1 (fun x => p.eval x) = ∫ x in (-1 : ℝ)..1, p.eval x := by
  induction d with
  | zero =>
    intro _ p hp
    have hT := quad_T hN (d := 0) (by omega)
    rw [Polynomial.eq_C_of_natDegree_le_zero hp]
    have e : (fun x : ℝ => (C (p.coeff 0)).eval x)
        = fun x => p.coeff 0 * (T ℝ (0 : ℕ)).eval x := by
      funext x; simp
    rw [e, quad_smul, hT, intervalIntegral.integral_const_mul]
  | succ d ih =>
    intro hd p hp
    set l : ℝ := (T ℝ ((d + 1 : ℕ) : ℤ)).coeff (d + 1) with hl
    have hdeg : (T ℝ ((d + 1 : ℕ) : ℤ)).natDegree = d + 1 := by
      rw [Polynomial.Chebyshev.natDegree_T]; omega
    have hl0 : l ≠ 0 := by
      rw [hl]
      have : (T ℝ ((d + 1 : ℕ) : ℤ)).coeff (T ℝ ((d + 1 : ℕ) : ℤ)).natDegree ≠ 0 := by
        rw [Polynomial.coeff_natDegree, Ne, Polynomial.leadingCoeff_eq_zero]
        intro h0
        rw [h0] at hdeg
        simp at hdeg
      rwa [hdeg] at this
    set c : ℝ := p.coeff (d + 1) / l with hc
    have hr : (p - C c * T ℝ ((d + 1 : ℕ) : ℤ)).natDegree ≤ d := by
      rw [Polynomial.natDegree_le_iff_coeff_eq_zero]
      intro m hm
      rw [Polynomial.coeff_sub, Polynomial.coeff_C_mul]
      by_cases h : m = d + 1
      · rw [h, ← hl, hc]; field_simp; ring
      · rw [Polynomial.coeff_eq_zero_of_natDegree_lt (by omega),
          Polynomial.coeff_eq_zero_of_natDegree_lt (p := T ℝ ((d + 1 : ℕ) : ℤ)) (by omega)]
        ring
    have e : (fun x : ℝ => p.eval x) = fun x =>
        (p - C c * T ℝ ((d + 1 : ℕ) : ℤ)).eval x + c * (T ℝ ((d + 1 : ℕ) : ℤ)).eval x := by
      funext x
      simp only [eval_sub, eval_mul, eval_C]
      ring
    have i1 := ih (by omega) _ hr
    have i2 := quad_T hN hd
    rw [e, quad_add, quad_smul, i1, i2, intervalIntegral.integral_add,
      intervalIntegral.integral_const_mul]
    · exact (Polynomial.continuous _).intervalIntegrable _ _
    · exact ((Polynomial.continuous _).const_mul c).intervalIntegrable _ _

theorem quad_exact {N : ℕ} (hN : 0 < N) (a b : ℝ) (p : ℝ[X]) (hp : p.natDegree ≤ 2 * N + 1) :
    quad N a b (fun x => p.eval x) = ∫ x in a..b, p.eval x := by
  rw [quad_affine]
  set q : ℝ[X] := p.comp (C ((b + a) / 2) + C ((b - a) / 2) * X) with hq
  have hqd : q.natDegree ≤ 2 * N + 1 := by
    refine le_trans Polynomial.natDegree_comp_le ?_
    have : (C ((b + a) / 2) + C ((b - a) / 2) * X : ℝ[X]).natDegree ≤ 1 := by
      rw [add_comm]; exact Polynomial.natDegree_linear_le
    nlinarith
  have hqe : ∀ t, p.eval ((b + a) / 2 + (b - a) / 2 * t) = q.eval t := by
    intro t; rw [hq, Polynomial.eval_comp]; simp
  have h := quad_unit hN _ le_rfl q hqd
  simp only [hqe]
  rw [h]
  simp only [← hqe]
  have := intervalIntegral.smul_integral_comp_add_mul (a := -1) (b := 1) (f := fun x => p.eval x)
    ((b - a) / 2) ((b + a) / 2)
  rw [smul_eq_mul] at this
  rw [this]
  congr 1 <;> ring

theorem weightedSum_pure (f : ℝ → ℝ) (l : List (ℝ × ℝ)) (acc : ℝ) (s : σ) :
    weightedSum (fun x s => .ok (f x, s)) l acc s
      = .ok (acc + (l.map (fun p => p.1 * f p.2)).sum, s) := by
  induction l generalizing acc with
  | nil => simp [weightedSum]
  | cons p l ih =>
    obtain ⟨w, x⟩ := p
    simp only [weightedSum, ih, List.map_cons, List.sum_cons]
    rw [add_assoc]

/-! ## Sign of the weights -/

theorem recip_sum (m : ℕ) :
    ∑ k ∈ range m, 2 / (1 - (2 * (k : ℝ)) ^ 2) = 1 + 1 / (2 * (m : ℝ) - 1) := by
  have nz : ∀ j : ℕ, (2 * (j : ℝ) - 1) ≠ 0 := by
    intro j h
    have : (2 * j : ℕ) = 1 := by
      have : (2 * (j : ℝ)) = 1 := by linarith
      exact_mod_cast this
    omega
  induction m with
  | zero => norm_num
  | succ m ih =>
    rw [sum_range_succ, ih]
    have h1 := nz m
    have h2 := nz (m + 1)
    push_cast at h2 ⊢
    have h3 : (1 - (2 * (m : ℝ)) ^ 2) = -((2 * (m : ℝ) - 1) * (2 * ((m : ℝ) + 1) - 1)) := by ring
    rw [h3, div_neg]
    field_simp
    ring

theorem coeff_sum {N : ℕ} (hN : 0 < N) :
    ∑ k ∈ range (N + 1), (if k ≠ 0 ∧ k ≠ N then (2 : ℝ) else 1) / (1 - (2 * (k : ℝ)) ^ 2)
      = 2 * N / ((2 * (N : ℝ)) ^ 2 - 1) := by
  obtain ⟨M, rfl⟩ : ∃ M, N = M + 1 := ⟨N - 1, by omega⟩
  have h := recip_sum (M + 1)
  rw [sum_range_succ'] at h
  rw [sum_range_succ, sum_range_succ']
  have e : ∀ k ∈ range M, (if k + 1 ≠ 0 ∧ k + 1 ≠ M + 1 then (2 : ℝ) else 1)
      / (1 - (2 * ((k + 1 : ℕ) : ℝ)) ^ 2) = 2 / (1 - (2 * ((k + 1 : ℕ) : ℝ)) ^ 2) := by
    intro k hk
    rw [mem_range] at hk
    rw [if_pos ⟨by omega, by omega⟩]
  rw [sum_congr rfl e]
  have h' : ∑ k ∈ range M, 2 / (1 - (2 * ((k + 1 : ℕ) : ℝ)) ^ 2)
      = 1 / (2 * ((M + 1 : ℕ) : ℝ) - 1) - 1 := by
    have h0 : (2 : ℝ) / (1 - (2 * ((0 : ℕ) : ℝ)) ^ 2) = 2 := by norm_num
    rw [h0] at h
    linarith
  rw [h']
  have m0 : (0 : ℝ) ≤ M := by positivity
  have h1 : (2 * ((M : ℝ) + 1) - 1) ≠ 0 := by
    have : (0 : ℝ) < 2 * (M + 1) - 1 := by linarith
    exact this.ne'
  have h2 : (2 * ((M : ℝ) + 1)) ^ 2 - 1 ≠ 0 := by
    have : (0 : ℝ) < (2 * ((M : ℝ) + 1)) ^ 2 - 1 := by nlinarith
    exact this.ne'
  have h3 : 1 - (2 * ((M : ℝ) + 1)) ^ 2 ≠ 0 := by
    intro h; apply h2; linarith
  simp only [ne_eq, not_true_eq_false, and_false, false_and, if_false]
  push_cast
  have h4 : 1 / (1 - (2 * ((M : ℝ) + 1)) ^ 2) = -(1 / ((2 * ((M : ℝ) + 1)) ^ 2 - 1)) := by
    rw [← neg_sub, div_neg]
  rw [h4]
  have h5 : (2 * ((M : ℝ) + 1)) ^ 2 - 1 = (2 * ((M : ℝ) + 1) - 1) * (2 * ((M : ℝ) + 1) + 1) := by
    ring
  have h6 : (2 * ((M : ℝ) + 1) + 1) ≠ 0 := by positivity
  rw [h5]
  field_simp
  ring

theorem weight_pos {N : ℕ} (hN : 0 < N) (n : ℕ) : 0 < weight N n := by
  have hN' : (0 : ℝ) < N := by exact_mod_cast hN
  have hN1 : (1 : ℝ) ≤ N := by exact_mod_cast hN
  rw [weight_sum]
  apply div_pos _ hN'
  refine lt_of_lt_of_le ?_ (sum_le_sum (f := fun k : ℕ =>
    (if k ≠ 0 ∧ k ≠ N then (2 : ℝ) else 1) / (1 - (2 * (k : ℝ)) ^ 2)) ?_)
  · rw [coeff_sum hN]
    apply div_pos (by positivity)
    nlinarith
  · intro k _
    rcases Nat.eq_zero_or_pos k with rfl | hk
    · simp
    · have hk' : (1 : ℝ) ≤ k := by exact_mod_cast hk
      have hd : 1 - (2 * (k : ℝ)) ^ 2 < 0 := by nlinarith
      have hc : (0 : ℝ) < if k ≠ 0 ∧ k ≠ N then (2 : ℝ) else 1 := by split_ifs <;> norm_num
      have hq : (if k ≠ 0 ∧ k ≠ N then (2 : ℝ) else 1) / (1 - (2 * (k : ℝ)) ^ 2) < 0 :=
        div_neg_of_pos_of_neg hc hd
      nlinarith [Real.cos_le_one (n * k * Real.pi / N)]

theorem offset_range (N n : ℕ) : -1 ≤ offset N n ∧ offset N n ≤ 1 :=
  ⟨Real.neg_one_le_cos _, Real.cos_le_one _⟩

theorem nodes_ok {N : ℕ} (hN : 0 < N) {a b : ℝ} (h : a ≤ b) {p : ℝ × ℝ} (hp : p ∈ nodes N a b) :
    0 ≤ p.1 ∧ a ≤ p.2 ∧ p.2 ≤ b := by
  have hA : 0 ≤ (b - a) / 2 := by linarith
  unfold nodes at hp
  simp only [List.mem_append, List.mem_cons, List.not_mem_nil, or_false, List.mem_flatMap] at hp
  have w := fun n => (weight_pos hN n).le
  rcases hp with (rfl | rfl | rfl) | ⟨i, _, rfl | rfl⟩
  · exact ⟨by have := w 0; positivity, le_refl _, h⟩
  · exact ⟨by have := w 0; positivity, h, le_refl _⟩
  · exact ⟨mul_nonneg hA (w N), by dsimp only; linarith, by dsimp only; linarith⟩
  · have o := offset_range N (i + 1)
    exact ⟨mul_nonneg hA (w _), by dsimp only; nlinarith, by dsimp only; nlinarith⟩
  · have o := offset_range N (i + 1)
    exact ⟨mul_nonneg hA (w _), by dsimp only; nlinarith, by dsimp only; nlinarith⟩

theorem quad_mono {N : ℕ} (hN : 0 < N) {a b : ℝ} (h : a ≤ b) (f g : ℝ → ℝ)
    (hfg : ∀ x, a ≤ x → x ≤ b → f x ≤ g x) : quad N a b f ≤ quad N a b g := by
  unfold quad
  apply List.sum_le_sum
  intro p hp
  obtain ⟨h1, h2, h3⟩ := nodes_ok hN h hp
  exact mul_le_mul_of_nonneg_left (hfg _ h2 h3) h1

theorem quad_const {N : ℕ} (hN : 0 < N) (a b c : ℝ) : quad N a b (fun _ => c) = c * (b - a) := by
  have := quad_exact hN a b (C c) (by simp)
  simp only [eval_C, intervalIntegral.integral_const, smul_eq_mul] at this
  rw [this]; ring

end Marley.Gen
