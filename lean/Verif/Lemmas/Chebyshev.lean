import Verif.Model.Chebyshev
import Verif.Lemmas.Quadrature
import Mathlib.Data.List.GetD
import Mathlib.LinearAlgebra.Lagrange
import Mathlib.Analysis.SpecialFunctions.Trigonometric.Chebyshev.Extremal

/-!
Lemmas about Chebyshev interpolation: the polynomial with given coefficients, its
values at the nodes, the barycentric formula, the coefficients of the integral.
-/

set_option autoImplicit false

namespace Marley.Cheb

open Finset Polynomial
open Polynomial.Chebyshev (T U node)
open Marley.Gen (list_sum_range cos_orth sum_fold)

/-- one half at both ends -/
noncomputable def halved (N k : ℕ) : ℝ := if k = 0 ∨ k = N then 1 / 2 else 1

/-- The polynomial with the coefficients `a`, the first and the last of which count
half. -/
noncomputable def poly (N : ℕ) (a : ℕ → ℝ) : ℝ[X] :=
  ∑ k ∈ range (N + 1), C (halved N k * a k) * T ℝ k

theorem poly_degree (N : ℕ) (a : ℕ → ℝ) : (poly N a).degree < ((N + 1 : ℕ) : WithBot ℕ) := by
  refine lt_of_le_of_lt (degree_sum_le _ _) ?_
  rw [Finset.sup_lt_iff (by exact_mod_cast WithBot.bot_lt_coe _)]
  intro k hk
  rw [mem_range] at hk
  refine lt_of_le_of_lt (degree_mul_le _ _) ?_
  refine lt_of_le_of_lt (add_le_add_left degree_C_le _) ?_
  rw [Polynomial.Chebyshev.degree_T, zero_add, Int.natAbs_natCast]
  exact_mod_cast hk

theorem T_node {N : ℕ} (k j : ℕ) : (T ℝ k).eval (node N j) = Real.cos (k * j * Real.pi / N) := by
  rw [node, Polynomial.Chebyshev.T_real_cos]
  congr 1
  push_cast
  ring

/-- Values at the nodes. -/
theorem poly_node {N : ℕ} (hN : 0 < N) (a : ℕ → ℝ) {j : ℕ} (hj : j ≤ N) :
    (poly N a).eval (node N j) = a 0 / 2 + (-1) ^ j * a N / 2 +
      ∑ k ∈ range (N - 1), a (k + 1) * Real.cos (((k + 1 : ℕ) : ℝ) * j * Real.pi / N) := by
  obtain ⟨M, rfl⟩ : ∃ M, N = M + 1 := ⟨N - 1, by omega⟩
  rw [poly, eval_finsetSum, sum_range_succ, sum_range_succ']
  simp only [eval_mul, eval_C, Nat.add_sub_cancel]
  have h0 : (T ℝ ((0 : ℕ) : ℤ)).eval (node (M + 1) j) = 1 := by simp
  have hN' : (T ℝ ((M + 1 : ℕ) : ℤ)).eval (node (M + 1) j) = (-1) ^ j :=
    Polynomial.Chebyshev.eval_T_real_node (by simpa using hj)
  rw [h0, hN']
  have h : ∀ k ∈ range M, halved (M + 1) (k + 1) * a (k + 1) *
      (T ℝ ((k + 1 : ℕ) : ℤ)).eval (node (M + 1) j)
      = a (k + 1) * Real.cos (((k + 1 : ℕ) : ℝ) * j * Real.pi / ((M + 1 : ℕ) : ℝ)) := by
    intro k hk
    rw [mem_range] at hk
    rw [T_node, halved, if_neg (by omega), one_mul]
  rw [sum_congr rfl h]
  simp only [halved]
  rw [if_pos (by simp), if_pos (by simp)]
  ring

theorem getD_map_range (n : ℕ) (f : ℕ → ℝ) {i : ℕ} (h : i < n) :
    ((List.range n).map f).getD i 0 = f i := by
  simp [List.getD, h]

/-- The cosine transform gives twice the values of the polynomial. -/
theorem cost_eq {N : ℕ} (hN : 0 < N) {a : List ℝ} (ha : a.length = N + 1) :
    cost a = (List.range (N + 1)).map (fun j => 2 * (poly N (fun k => a.getD k 0)).eval (node N j)) := by
  unfold cost
  rw [ha]
  apply List.map_congr_left
  intro j hj
  rw [List.mem_range] at hj
  rw [poly_node hN _ (by omega), list_sum_range]
  simp only [Nat.add_sub_cancel, show N + 1 - 2 = N - 1 by omega]
  rw [mul_add, mul_sum]
  congr 1
  · ring
  · apply sum_congr rfl
    intro k _
    ring

theorem poly_congr {N : ℕ} {a b : ℕ → ℝ} (h : ∀ k, k ≤ N → a k = b k) : poly N a = poly N b := by
  apply sum_congr rfl
  intro k hk
  rw [mem_range] at hk
  rw [h k (by omega)]

/-- The discrete cosine transform is its own inverse. -/
theorem poly_transform {N : ℕ} (hN : 0 < N) (f : ℕ → ℝ) {j : ℕ} (hj : j ≤ N) :
    (poly N (fun k => 2 * (poly N f).eval (node N k) / N)).eval (node N j) = f j := by
  have hN' : (N : ℝ) ≠ 0 := by positivity
  -- both sums as sums over the whole circle
  have full : ∀ (g : ℕ → ℝ) (m : ℕ), m ≤ N → (poly N g).eval (node N m) =
      ∑ k ∈ range (N + 1), halved N k * g k * Real.cos (k * m * Real.pi / N) := by
    intro g m _
    rw [poly, eval_finsetSum]
    apply sum_congr rfl
    intro k _
    rw [eval_mul, eval_C, T_node]
  rw [full _ j hj]
  have h1 : ∀ k ∈ range (N + 1), halved N k * (2 * (poly N f).eval (node N k) / N) *
      Real.cos (k * j * Real.pi / N) = ∑ i ∈ range (N + 1), (2 / N * (halved N i * f i)) *
        (halved N k * (Real.cos (k * i * Real.pi / N) * Real.cos (k * j * Real.pi / N))) := by
    intro k hk
    rw [mem_range] at hk
    rw [full f k (by omega), mul_sum, sum_div, mul_sum, sum_mul]
    apply sum_congr rfl
    intro i _
    rw [show (i : ℝ) * k * Real.pi / N = k * i * Real.pi / N by ring]
    ring
  rw [sum_congr rfl h1, sum_comm]
  have h2 : ∀ i ∈ range (N + 1), ∑ k ∈ range (N + 1), (2 / N * (halved N i * f i)) *
        (halved N k * (Real.cos (k * i * Real.pi / N) * Real.cos (k * j * Real.pi / N)))
      = if i = j then f j else 0 := by
    intro i hi
    rw [mem_range] at hi
    rw [← mul_sum]
    set g : ℕ → ℝ := fun k => Real.cos (k * i * Real.pi / N) * Real.cos (k * j * Real.pi / N) with hg
    have hsym : ∀ n, n ≤ 2 * N → g (2 * N - n) = g n := by
      intro n hn
      have e : ∀ m : ℕ, Real.cos (((2 * N - n : ℕ) : ℝ) * m * Real.pi / N)
          = Real.cos (n * m * Real.pi / N) := by
        intro m
        rw [Nat.cast_sub hn]
        rw [show (((2 * N : ℕ) : ℝ) - n) * m * Real.pi / N
          = m * (2 * Real.pi) - n * m * Real.pi / N by push_cast; field_simp,
          Real.cos_nat_mul_two_pi_sub]
      simp only [hg, e]
    have hs : ∑ k ∈ range (N + 1), halved N k * g k = (∑ n ∈ range (2 * N), g n) / 2 := by
      rw [sum_fold hN g hsym]
      obtain ⟨M, rfl⟩ : ∃ M, N = M + 1 := ⟨N - 1, by omega⟩
      rw [sum_range_succ, sum_range_succ']
      have : ∀ k ∈ range M, halved (M + 1) (k + 1) * g (k + 1) = g (k + 1) := by
        intro k hk
        rw [mem_range] at hk
        rw [halved, if_neg (by omega), one_mul]
      rw [sum_congr rfl this]
      simp only [halved, Nat.add_sub_cancel]
      rw [if_pos (by simp), if_pos (by simp)]
      ring
    have ho := cos_orth hN (i := j) (k := i) hj (by omega)
    rw [hs, ho]
    by_cases e : i = j
    · subst e
      simp only [if_true]
      by_cases h3 : i = 0 ∨ i = N
      · rw [if_neg (by tauto), halved, if_pos h3]; field_simp
      · rw [if_pos (by tauto), halved, if_neg h3]; field_simp
    · rw [if_neg e, if_neg e]; ring
  rw [sum_congr rfl h2, sum_ite_eq' (range (N + 1)) j]
  rw [if_pos (by rw [mem_range]; omega)]

/-! ## The barycentric formula -/

theorem node_injOn (N : ℕ) : Set.InjOn (node N) (range (N + 1) : Set ℕ) :=
  (Polynomial.Chebyshev.strictAntiOn_node N).injOn

/-- the polynomial whose roots are the nodes -/
noncomputable def nodePoly (N : ℕ) : ℝ[X] := X * T ℝ N - T ℝ ((N : ℤ) - 1)

theorem nodePoly_eq (N : ℕ) : nodePoly N = T ℝ ((N : ℤ) + 1) - X * T ℝ N := by
  rw [nodePoly, Polynomial.Chebyshev.T_add_one]; ring

theorem nodePoly_root {N : ℕ} (hN : 0 < N) (j : ℕ) : (nodePoly N).eval (node N j) = 0 := by
  have hN' : (N : ℝ) ≠ 0 := by positivity
  rw [nodePoly_eq, eval_sub, eval_mul, eval_X, node, Polynomial.Chebyshev.T_real_cos,
    Polynomial.Chebyshev.T_real_cos]
  push_cast
  rw [show ((N : ℝ) + 1) * (j * Real.pi / N) = j * Real.pi + j * Real.pi / N by field_simp,
    show (N : ℝ) * (j * Real.pi / N) = j * Real.pi by field_simp, Real.cos_add, Real.sin_nat_mul_pi]
  ring

theorem nodePoly_lead {N : ℕ} (hN : 0 < N) :
    (nodePoly N).degree = ((N + 1 : ℕ) : WithBot ℕ) ∧ (nodePoly N).leadingCoeff = 2 ^ (N - 1) := by
  have d1 : (X * T ℝ (N : ℤ)).degree = ((N + 1 : ℕ) : WithBot ℕ) := by
    rw [degree_mul, degree_X, Polynomial.Chebyshev.degree_T]
    push_cast
    simp [add_comm]
  have d2 : (T ℝ ((N : ℤ) - 1)).degree < (X * T ℝ (N : ℤ)).degree := by
    rw [d1, Polynomial.Chebyshev.degree_T]
    have : ((N : ℤ) - 1).natAbs < N + 1 := by omega
    exact_mod_cast this
  constructor
  · rw [nodePoly, degree_sub_eq_left_of_degree_lt d2, d1]
  · rw [nodePoly, leadingCoeff_sub_of_degree_lt d2, leadingCoeff_mul, leadingCoeff_X, one_mul,
      Polynomial.Chebyshev.leadingCoeff_T]
    simp

theorem nodal_eq {N : ℕ} (hN : 0 < N) :
    Lagrange.nodal (range (N + 1)) (node N) = C ((2 : ℝ) ^ (N - 1))⁻¹ * nodePoly N := by
  have hp : ((2 : ℝ) ^ (N - 1)) ≠ 0 := by positivity
  obtain ⟨hd, hl⟩ := nodePoly_lead hN
  have hd' : (C ((2 : ℝ) ^ (N - 1))⁻¹ * nodePoly N).degree = ((N + 1 : ℕ) : WithBot ℕ) := by
    rw [degree_C_mul (inv_ne_zero hp), hd]
  apply Polynomial.eq_of_degree_sub_lt_of_eval_index_eq (range (N + 1)) (node_injOn N)
  · rw [card_range]
    have := degree_sub_lt (p := Lagrange.nodal (range (N + 1)) (node N))
      (q := C ((2 : ℝ) ^ (N - 1))⁻¹ * nodePoly N) (by rw [Lagrange.degree_nodal, card_range, hd'])
      Lagrange.nodal_ne_zero
      (by
        rw [Lagrange.nodal_monic.leadingCoeff, leadingCoeff_mul, leadingCoeff_C, hl,
          inv_mul_cancel₀ hp])
    rwa [Lagrange.degree_nodal, card_range] at this
  · intro i hi
    rw [Lagrange.eval_nodal_at_node hi, eval_mul, nodePoly_root hN, mul_zero]

theorem nodePoly_deriv {N : ℕ} (hN : 0 < N) {j : ℕ} (hj : j ≤ N) :
    halved N j * (derivative (nodePoly N)).eval (node N j) = N * (-1) ^ j := by
  have hU : derivative (nodePoly N) = X * U ℝ ((N : ℤ) - 1) + (N : ℝ[X]) * T ℝ N := by
    rw [nodePoly_eq, derivative_sub, derivative_mul, derivative_X,
      Polynomial.Chebyshev.T_derivative_eq_U, Polynomial.Chebyshev.T_derivative_eq_U]
    have h := Polynomial.Chebyshev.U_eq_X_mul_U_add_T ℝ ((N : ℤ) - 1)
    rw [sub_add_cancel] at h
    rw [show (N : ℤ) + 1 - 1 = N by ring, h]
    push_cast
    ring
  rw [hU, eval_add, eval_mul, eval_X, eval_mul,
    Polynomial.Chebyshev.eval_T_real_node (by simpa using hj)]
  simp only [eval_natCast]
  by_cases h0 : j = 0
  · subst h0
    rw [Polynomial.Chebyshev.node_eq_one, Polynomial.Chebyshev.U_eval_one, halved, if_pos (by simp)]
    push_cast
    ring
  by_cases h1 : j = N
  · subst h1
    rw [Polynomial.Chebyshev.node_eq_neg_one (by omega), Polynomial.Chebyshev.U_eval_neg_one, halved,
      if_pos (by simp)]
    have : ((((j : ℤ) - 1).negOnePow : ℤˣ) : ℤ) = (-1) ^ (j + 1) := by
      obtain ⟨m, rfl⟩ : ∃ m, j = m + 1 := ⟨j - 1, by omega⟩
      push_cast
      rw [show (m : ℤ) + 1 - 1 = m by ring, Int.coe_negOnePow_natCast]
      ring
    rw [this]
    push_cast
    ring
  · have hs : Real.sin (j * Real.pi / N) ≠ 0 := by
      have hN' : (0 : ℝ) < N := by exact_mod_cast hN
      have hj' : (0 : ℝ) < j := by exact_mod_cast Nat.pos_of_ne_zero h0
      have hjN : (j : ℝ) < N := by exact_mod_cast lt_of_le_of_ne hj h1
      apply ne_of_gt
      apply Real.sin_pos_of_pos_of_lt_pi
      · have := Real.pi_pos; positivity
      · rw [div_lt_iff₀ hN']
        have := Real.pi_pos
        nlinarith
    have hu := Polynomial.Chebyshev.U_real_cos (j * Real.pi / N) ((N : ℤ) - 1)
    have hN' : (N : ℝ) ≠ 0 := by positivity
    push_cast at hu
    rw [show ((N : ℝ) - 1 + 1) * (j * Real.pi / N) = j * Real.pi by field_simp; ring,
      Real.sin_nat_mul_pi] at hu
    have hz : (U ℝ ((N : ℤ) - 1)).eval (node N j) = 0 := by
      rcases mul_eq_zero.1 hu with h | h
      · exact h
      · exact absurd h hs
    rw [hz, halved, if_neg (by tauto)]
    ring

theorem nodalWeight_eq {N : ℕ} (hN : 0 < N) {j : ℕ} (hj : j ≤ N) :
    Lagrange.nodalWeight (range (N + 1)) (node N) j
      = (2 ^ (N - 1) / N) * ((-1) ^ j * halved N j) := by
  have hp : ((2 : ℝ) ^ (N - 1)) ≠ 0 := by positivity
  have hN' : (N : ℝ) ≠ 0 := by positivity
  have hh : halved N j ≠ 0 := by unfold halved; split_ifs <;> norm_num
  rw [Lagrange.nodalWeight_eq_eval_derivative_nodal (by rw [mem_range]; omega), nodal_eq hN,
    derivative_C_mul, eval_mul, eval_C]
  have h := nodePoly_deriv hN hj
  have hsq : ((-1 : ℝ) ^ j) ^ 2 = 1 := by rw [← pow_mul, mul_comm, pow_mul]; norm_num
  have hd : (derivative (nodePoly N)).eval (node N j) = N * (-1) ^ j / halved N j := by
    rw [eq_div_iff hh, mul_comm, h]
  have hj0 : ((-1 : ℝ) ^ j) ≠ 0 := pow_ne_zero _ (by norm_num)
  rw [hd]
  field_simp
  rw [hsq]

/-- The barycentric formula with these weights gives the value of the polynomial. -/
theorem barycentric {N : ℕ} (hN : 0 < N) {p : ℝ[X]} (hp : p.degree < ((N + 1 : ℕ) : WithBot ℕ))
    {t : ℝ} (ht : ∀ j, j ≤ N → t ≠ node N j) :
    ∑ j ∈ range (N + 1), (-1) ^ j * halved N j / (t - node N j) ≠ 0 ∧
    (∑ j ∈ range (N + 1), (-1) ^ j * halved N j / (t - node N j) * p.eval (node N j)) /
      (∑ j ∈ range (N + 1), (-1) ^ j * halved N j / (t - node N j)) = p.eval t := by
  have hN' : (N : ℝ) ≠ 0 := by positivity
  have hk : ((2 : ℝ) ^ (N - 1) / N) ≠ 0 := by positivity
  have hx : ∀ i ∈ range (N + 1), t ≠ node N i := fun i hi => ht i (by rw [mem_range] at hi; omega)
  have hne : (range (N + 1)).Nonempty := ⟨0, by simp⟩
  have h1 := Lagrange.sum_nodalWeight_mul_inv_sub_ne_zero (node_injOn N) hx hne
  have h2 := Lagrange.eval_interpolate_not_at_node' (fun i => p.eval (node N i)) (node_injOn N) hne hx
  have hp' : p = Lagrange.interpolate (range (N + 1)) (node N) (fun i => p.eval (node N i)) :=
    Lagrange.eq_interpolate (node_injOn N) (by rwa [card_range])
  have e1 : ∑ i ∈ range (N + 1), Lagrange.nodalWeight (range (N + 1)) (node N) i * (t - node N i)⁻¹
      = (2 ^ (N - 1) / N) * ∑ j ∈ range (N + 1), (-1) ^ j * halved N j / (t - node N j) := by
    rw [mul_sum]
    apply sum_congr rfl
    intro i hi
    rw [mem_range] at hi
    rw [nodalWeight_eq hN (by omega)]
    ring
  have e2 : ∑ i ∈ range (N + 1), Lagrange.nodalWeight (range (N + 1)) (node N) i * (t - node N i)⁻¹ *
        p.eval (node N i)
      = (2 ^ (N - 1) / N) * ∑ j ∈ range (N + 1), (-1) ^ j * halved N j / (t - node N j) *
        p.eval (node N j) := by
    rw [mul_sum]
    apply sum_congr rfl
    intro i hi
    rw [mem_range] at hi
    rw [nodalWeight_eq hN (by omega)]
    ring
  rw [e1] at h1
  rw [e1, e2, mul_div_mul_left _ _ hk, ← hp'] at h2
  exact ⟨right_ne_zero_of_mul h1, h2.symm⟩

/-! ## The loop of `evaluate` -/

theorem evalLoop_eq {N : ℕ} {x : ℝ} (X F : ℕ → ℝ) (n : ℕ) : ∀ (j : ℕ) (nu de : ℝ),
    (∀ i, i < n → X (j + i) ≠ x) →
    evalLoop N x j (-(-1) ^ j) nu de ((List.range n).map (fun i => (X (j + i), F (j + i))))
      = if de + ∑ i ∈ range n, (-1) ^ (j + i) * halved N (j + i) / (x - X (j + i)) = 0 then none
        else some ((nu + ∑ i ∈ range n, (-1) ^ (j + i) * halved N (j + i) / (x - X (j + i)) *
          F (j + i)) / (de + ∑ i ∈ range n, (-1) ^ (j + i) * halved N (j + i) / (x - X (j + i)))) := by
  induction n with
  | zero => intro j nu de _; simp [evalLoop]
  | succ n ih =>
    intro j nu de h
    rw [List.range_succ_eq_map, List.map_cons, evalLoop, if_neg (by simpa using h 0 (by omega)),
      List.map_map]
    have e : ((fun i => (X (j + i), F (j + i))) ∘ Nat.succ)
        = fun i => (X (j + 1 + i), F (j + 1 + i)) := by
      funext i
      simp only [Function.comp, Nat.succ_eq_add_one]
      rw [show j + (i + 1) = j + 1 + i by omega]
    have hw : -(-(-1 : ℝ) ^ j) = -(-1) ^ (j + 1) := by rw [pow_succ]; ring
    have ht : (if j = 0 ∨ j = N then -(-(-1 : ℝ) ^ j) / (x - X (j + 0)) / 2
        else -(-(-1 : ℝ) ^ j) / (x - X (j + 0)))
        = (-1) ^ (j + 0) * halved N (j + 0) / (x - X (j + 0)) := by
      rw [Nat.add_zero, halved]
      split_ifs <;> ring
    rw [e]
    dsimp only
    rw [ht, hw, ih (j + 1) _ _ (fun i hi => by
      have := h (i + 1) (by omega); rwa [show j + (i + 1) = j + 1 + i by omega] at this)]
    rw [sum_range_succ' (fun i => (-1 : ℝ) ^ (j + i) * halved N (j + i) / (x - X (j + i))),
      sum_range_succ' (fun i => (-1 : ℝ) ^ (j + i) * halved N (j + i) / (x - X (j + i)) * F (j + i))]
    have s : ∀ i, j + (i + 1) = j + 1 + i := fun i => by omega
    have s1 : ∑ i ∈ range n, (-1 : ℝ) ^ (j + (i + 1)) * halved N (j + (i + 1)) / (x - X (j + (i + 1)))
        = ∑ i ∈ range n, (-1) ^ (j + 1 + i) * halved N (j + 1 + i) / (x - X (j + 1 + i)) :=
      sum_congr rfl (fun i _ => by rw [s i])
    have s2 : ∑ i ∈ range n, (-1 : ℝ) ^ (j + (i + 1)) * halved N (j + (i + 1)) /
          (x - X (j + (i + 1))) * F (j + (i + 1))
        = ∑ i ∈ range n, (-1) ^ (j + 1 + i) * halved N (j + 1 + i) / (x - X (j + 1 + i)) *
          F (j + 1 + i) := sum_congr rfl (fun i _ => by rw [s i])
    rw [s1, s2]
    congr 1
    · rw [add_assoc, add_comm ((-1 : ℝ) ^ (j + 0) * _ / _)]
    · rw [add_assoc, add_assoc, add_comm ((-1 : ℝ) ^ (j + 0) * halved N (j + 0) / (x - X (j + 0)) *
        F (j + 0)), add_comm ((-1 : ℝ) ^ (j + 0) * halved N (j + 0) / (x - X (j + 0)))]

theorem evalLoop_hit {N : ℕ} {x y : ℝ} (X F : ℕ → ℝ) (n : ℕ) : ∀ (j : ℕ) (w nu de : ℝ),
    (∃ i, i < n ∧ X (j + i) = x) → (∀ i, i < n → X (j + i) = x → F (j + i) = y) →
    evalLoop N x j w nu de ((List.range n).map (fun i => (X (j + i), F (j + i)))) = some y := by
  induction n with
  | zero => rintro j w nu de ⟨i, hi, _⟩; omega
  | succ n ih =>
    rintro j w nu de ⟨i, hi, hx⟩ h
    rw [List.range_succ_eq_map, List.map_cons, evalLoop, List.map_map]
    by_cases h0 : X (j + 0) = x
    · rw [if_pos h0, h 0 (by omega) h0]
    · rw [if_neg h0]
      have e : ((fun i => (X (j + i), F (j + i))) ∘ Nat.succ)
          = fun i => (X (j + 1 + i), F (j + 1 + i)) := by
        funext i
        simp only [Function.comp, Nat.succ_eq_add_one]
        rw [show j + (i + 1) = j + 1 + i by omega]
      rw [e]
      apply ih
      · obtain ⟨m, rfl⟩ : ∃ m, i = m + 1 := ⟨i - 1, by
          rcases Nat.eq_zero_or_pos i with h | h
          · subst h; exact absurd hx h0
          · omega⟩
        exact ⟨m, by omega, by rwa [show j + 1 + m = j + (m + 1) by omega]⟩
      · intro m hm hx'
        have := h (m + 1) (by omega) (by rwa [show j + (m + 1) = j + 1 + m by omega])
        rwa [show j + (m + 1) = j + 1 + m by omega] at this

/-- the point of `[-1, 1]` that corresponds to `x` -/
noncomputable def unit (lo hi x : ℝ) : ℝ := (2 * x - (hi + lo)) / (hi - lo)

theorem unit_point {lo hi : ℝ} (h : lo < hi) (N j : ℕ) : unit lo hi (point lo hi N j) = node N j := by
  have : hi - lo ≠ 0 := by linarith
  rw [unit, point, node, mul_comm Real.pi]
  field_simp
  ring

/-- Interpolation through the values of a polynomial gives that polynomial. -/
theorem evaluate_eq {c : Interp} (hN : 0 < c.N) (h : c.lo < c.hi) {p : ℝ[X]}
    (hp : p.degree < ((c.N + 1 : ℕ) : WithBot ℕ)) (hx : c.xs = points c.lo c.hi c.N)
    (hf : c.fs = (List.range (c.N + 1)).map (fun j => p.eval (node c.N j))) (x : ℝ) :
    c.evaluate x = some (p.eval (unit c.lo c.hi x)) := by
  have hd : c.hi - c.lo ≠ 0 := by linarith
  have hz : c.xs.zip c.fs = (List.range (c.N + 1)).map (fun i =>
      (point c.lo c.hi c.N (0 + i), p.eval (node c.N (0 + i)))) := by
    rw [hx, hf, points, List.zip_map']
    apply List.map_congr_left
    intro i _
    rw [Nat.zero_add]
  unfold Interp.evaluate
  rw [hz]
  by_cases hex : ∃ i, i < c.N + 1 ∧ point c.lo c.hi c.N (0 + i) = x
  · refine evalLoop_hit (fun i => point c.lo c.hi c.N i) (fun i => p.eval (node c.N i)) (c.N + 1) 0 _ _ _ hex ?_
    intro i _ hi
    rw [← hi, unit_point h]
  · have hne : ∀ i, i < c.N + 1 → point c.lo c.hi c.N (0 + i) ≠ x := fun i hi he => hex ⟨i, hi, he⟩
    have := evalLoop_eq (N := c.N) (fun i => point c.lo c.hi c.N i)
      (fun i => p.eval (node c.N i)) (c.N + 1) 0 0 0 hne
    rw [pow_zero] at this
    rw [this]
    set t := unit c.lo c.hi x with htd
    have hnode : ∀ j, x - point c.lo c.hi c.N j = (c.hi - c.lo) / 2 * (t - node c.N j) := by
      intro j
      rw [← unit_point h c.N j, htd, unit, unit]
      field_simp
      ring
    have ht : ∀ j, j ≤ c.N → t ≠ node c.N j := by
      intro j hj he
      apply hne j (by omega)
      have := hnode j
      rw [he, sub_self, mul_zero, sub_eq_zero] at this
      rw [Nat.zero_add, this]
    obtain ⟨b1, b2⟩ := barycentric hN hp ht
    have e1 : 0 + ∑ i ∈ range (c.N + 1), (-1) ^ (0 + i) * halved c.N (0 + i) /
        (x - point c.lo c.hi c.N (0 + i))
        = ((c.hi - c.lo) / 2)⁻¹ * ∑ j ∈ range (c.N + 1), (-1) ^ j * halved c.N j / (t - node c.N j) := by
      rw [zero_add, mul_sum]
      apply sum_congr rfl
      intro i _
      rw [Nat.zero_add, hnode, div_mul_eq_div_div_swap]
      ring
    have e2 : 0 + ∑ i ∈ range (c.N + 1), (-1) ^ (0 + i) * halved c.N (0 + i) /
        (x - point c.lo c.hi c.N (0 + i)) * p.eval (node c.N (0 + i))
        = ((c.hi - c.lo) / 2)⁻¹ * ∑ j ∈ range (c.N + 1), (-1) ^ j * halved c.N j / (t - node c.N j) *
          p.eval (node c.N j) := by
      rw [zero_add, mul_sum]
      apply sum_congr rfl
      intro i _
      rw [Nat.zero_add, hnode, div_mul_eq_div_div_swap]
      ring
    have hk : ((c.hi - c.lo) / 2)⁻¹ ≠ 0 := inv_ne_zero (div_ne_zero hd (by norm_num))
    rw [e1, e2, if_neg (mul_ne_zero hk b1), mul_div_mul_left _ _ hk, b2]

/-! ## The integral -/

/-- the coefficients of `cdf` as a function, before they are scaled -/
noncomputable def anti (N : ℕ) (a : ℕ → ℝ) (k : ℕ) : ℝ :=
  if k = 0 then a 0 - a 1 / 2 + ∑ i ∈ range (N - 1), 2 * a (i + 2) * (-1) ^ (i + 3) / (((i : ℝ) + 2) ^ 2 - 1)
  else if k < N then (a (k - 1) - a (k + 1)) / (2 * k)
  else if k = N then a (N - 1) / (2 * N)
  else a N / (2 * ((N : ℝ) + 1))

theorem two_T (n : ℤ) : 2 * T ℝ n = U ℝ n - U ℝ (n - 2) := by
  have h := Polynomial.Chebyshev.two_mul_T_eq_U_sub_U ℝ (n - 2)
  rwa [sub_add_cancel] at h

theorem sum_anti_U (a : ℕ → ℝ) (n : ℕ) :
    ∑ k ∈ range n, C ((a k - a (k + 2)) / 2) * U ℝ (k : ℤ) =
      ∑ k ∈ range n, C (a k) * T ℝ (k : ℤ) - C (a 0 / 2) - C (a n / 2) * U ℝ ((n : ℤ) - 2)
        - C (a (n + 1) / 2) * U ℝ ((n : ℤ) - 1) := by
  induction n with
  | zero =>
    simp only [range_zero, sum_empty, Nat.cast_zero, zero_sub, Polynomial.Chebyshev.U_neg_two,
      Polynomial.Chebyshev.U_neg_one]
    ring
  | succ n ih =>
    rw [sum_range_succ, ih, sum_range_succ]
    have hT := two_T (n : ℤ)
    have hT' : C (a n) * T ℝ (n : ℤ) = C (a n / 2) * (U ℝ (n : ℤ) - U ℝ ((n : ℤ) - 2)) := by
      rw [← hT, ← mul_assoc, show (2 : ℝ[X]) = C 2 from (map_ofNat C 2).symm, ← C_mul]
      congr 2
      ring
    rw [hT']
    push_cast
    rw [show (n : ℤ) + 1 - 2 = n - 1 by ring, show (n : ℤ) + 1 - 1 = n by ring,
      show (a n - a (n + 2)) / 2 = a n / 2 - a (n + 2) / 2 by ring, C_sub]
    ring

theorem sum_anti_end (a : ℕ → ℝ) (n : ℕ) :
    ∑ k ∈ range n, (-1) ^ (k + 1) * ((a k - a (k + 2)) / (2 * ((k : ℝ) + 1))) + a 0 / 2 - a 1 / 4
      + ∑ i ∈ range n, a (i + 2) * (-1) ^ (i + 3) / (((i : ℝ) + 2) ^ 2 - 1)
      = (-1) ^ n * (a n / (2 * ((n : ℝ) + 1)) - a (n + 1) / (2 * ((n : ℝ) + 2))) := by
  induction n with
  | zero => norm_num
  | succ n ih =>
    rw [sum_range_succ, sum_range_succ]
    have h1 : ((n : ℝ) + 1) ≠ 0 := by positivity
    have h2 : ((n : ℝ) + 2) ≠ 0 := by positivity
    have h3 : ((n : ℝ) + 3) ≠ 0 := by positivity
    have h4 : ((n : ℝ) + 2) ^ 2 - 1 = ((n : ℝ) + 1) * (n + 3) := by ring
    rw [h4]
    have e : ∀ x y u v w : ℝ, x + u + y - v + (w + (a (n + 2) * (-1) ^ (n + 3) / (((n : ℝ) + 1) * (n + 3))))
        = (x + y - v + w) + u + a (n + 2) * (-1) ^ (n + 3) / (((n : ℝ) + 1) * (n + 3)) := by
      intros; ring
    rw [e, ih]
    push_cast
    rw [show (n : ℝ) + 1 + 1 = n + 2 by ring, show (n : ℝ) + 1 + 2 = n + 3 by ring, show n + 1 + 1 = n + 2 by omega]
    rw [pow_succ, show n + 3 = n + 2 + 1 by omega, pow_succ, pow_succ, pow_succ]
    field_simp
    ring

/-- The value at the lower end. -/
theorem poly_anti_end {N : ℕ} (hN : 0 < N) (a : ℕ → ℝ) :
    (poly (N + 1) (anti N a)).eval (-1) = (-1) ^ N * a N / (4 * ((N : ℝ) + 1)) := by
  obtain ⟨n, rfl⟩ : ∃ n, N = n + 1 := ⟨N - 1, by omega⟩
  have hN' : ((n : ℝ) + 1) ≠ 0 := by positivity
  have hN2 : ((n : ℝ) + 2) ≠ 0 := by positivity
  have hT : ∀ k : ℕ, (T ℝ (k : ℤ)).eval (-1) = (-1) ^ k := by
    intro k
    rw [Polynomial.Chebyshev.T_eval_neg_one, Int.coe_negOnePow_natCast]
    norm_num
  rw [poly, eval_finsetSum]
  simp only [eval_mul, eval_C, hT]
  rw [sum_range_succ, sum_range_succ, sum_range_succ']
  have h1 : ∀ k ∈ range n, halved (n + 1 + 1) (k + 1) * anti (n + 1) a (k + 1) * (-1) ^ (k + 1)
      = (-1) ^ (k + 1) * ((a k - a (k + 2)) / (2 * ((k : ℝ) + 1))) := by
    intro k hk
    rw [mem_range] at hk
    rw [halved, if_neg (by omega), anti, if_neg (by omega), if_pos (by omega)]
    push_cast
    ring
  have h0 : halved (n + 1 + 1) 0 * anti (n + 1) a 0 * (-1) ^ 0
      = a 0 / 2 - a 1 / 4 + ∑ i ∈ range n, a (i + 2) * (-1) ^ (i + 3) / (((i : ℝ) + 2) ^ 2 - 1) := by
    rw [halved, if_pos (by simp), anti, if_pos rfl, Nat.add_sub_cancel]
    rw [show ∑ i ∈ range n, a (i + 2) * (-1) ^ (i + 3) / (((i : ℝ) + 2) ^ 2 - 1)
      = 1 / 2 * ∑ i ∈ range n, 2 * a (i + 2) * (-1) ^ (i + 3) / (((i : ℝ) + 2) ^ 2 - 1) by
        rw [mul_sum]; apply sum_congr rfl; intro i _; ring]
    ring
  have hN1 : halved (n + 1 + 1) (n + 1) * anti (n + 1) a (n + 1) = a n / (2 * ((n : ℝ) + 1)) := by
    rw [halved, if_neg (by omega), anti, if_neg (by omega), if_neg (by omega), if_pos rfl]
    push_cast
    ring
  have hN3 : halved (n + 1 + 1) (n + 1 + 1) * anti (n + 1) a (n + 1 + 1) = a (n + 1) / (4 * ((n : ℝ) + 2)) := by
    rw [halved, if_pos (by simp), anti, if_neg (by omega), if_neg (by omega), if_neg (by omega)]
    push_cast
    field_simp
    ring
  rw [sum_congr rfl h1, h0, hN1, hN3]
  have h := sum_anti_end a n
  push_cast
  have e : ∑ k ∈ range n, (-1) ^ (k + 1) * ((a k - a (k + 2)) / (2 * ((k : ℝ) + 1))) +
      (a 0 / 2 - a 1 / 4 + ∑ i ∈ range n, a (i + 2) * (-1) ^ (i + 3) / (((i : ℝ) + 2) ^ 2 - 1))
      = (-1) ^ n * (a n / (2 * ((n : ℝ) + 1)) - a (n + 1) / (2 * ((n : ℝ) + 2))) := by
    rw [← h]; ring
  rw [e, pow_succ, pow_succ]
  field_simp
  ring

/-- The derivative. -/
theorem poly_anti_deriv {N : ℕ} (hN : 0 < N) (a : ℕ → ℝ) :
    derivative (poly (N + 1) (anti N a)) = poly N a - C (a N / 4) * U ℝ ((N : ℤ) - 2) := by
  obtain ⟨n, rfl⟩ : ∃ n, N = n + 1 := ⟨N - 1, by omega⟩
  have hN' : ((n : ℝ) + 1) ≠ 0 := by positivity
  have hN2 : ((n : ℝ) + 2) ≠ 0 := by positivity
  have hd : ∀ k : ℕ, ∀ c : ℝ, derivative (C c * T ℝ ((k + 1 : ℕ) : ℤ))
      = C (c * ((k : ℝ) + 1)) * U ℝ (k : ℤ) := by
    intro k c
    rw [derivative_C_mul, Polynomial.Chebyshev.T_derivative_eq_U]
    push_cast
    rw [show (k : ℤ) + 1 - 1 = k by ring, C_mul, C_add, C_1]
    rw [show (C (k : ℝ) : ℝ[X]) = (k : ℝ[X]) from by simp]
    ring
  have hz : derivative (C (halved (n + 1 + 1) 0 * anti (n + 1) a 0) * T ℝ ((0 : ℕ) : ℤ)) = 0 := by
    simp
  rw [poly, derivative_sum, sum_range_succ, sum_range_succ, sum_range_succ', hz]
  simp only [hd]
  have h1 : ∀ k ∈ range n, C (halved (n + 1 + 1) (k + 1) * anti (n + 1) a (k + 1) * ((k : ℝ) + 1)) * U ℝ (k : ℤ)
      = C ((a k - a (k + 2)) / 2) * U ℝ (k : ℤ) := by
    intro k hk
    rw [mem_range] at hk
    have hk' : ((k : ℝ) + 1) ≠ 0 := by positivity
    rw [halved, if_neg (by omega), anti, if_neg (by omega), if_pos (by omega)]
    push_cast
    congr 2
    field_simp
  have hN1 : halved (n + 1 + 1) (n + 1) * anti (n + 1) a (n + 1) * ((n : ℝ) + 1) = a n / 2 := by
    rw [halved, if_neg (by omega), anti, if_neg (by omega), if_neg (by omega), if_pos rfl]
    push_cast
    field_simp
  have hN3 : halved (n + 1 + 1) (n + 1 + 1) * anti (n + 1) a (n + 1 + 1) * (((n + 1 : ℕ) : ℝ) + 1)
      = a (n + 1) / 4 := by
    rw [halved, if_pos (by simp), anti, if_neg (by omega), if_neg (by omega), if_neg (by omega)]
    push_cast
    rw [show (n : ℝ) + 1 + 1 = n + 2 by ring]
    field_simp
    ring
  rw [sum_congr rfl h1, hN1, hN3, sum_anti_U]
  -- the right-hand side
  have hp : poly (n + 1) a = ∑ k ∈ range n, C (a k) * T ℝ (k : ℤ) - C (a 0 / 2)
      + C (a n) * T ℝ (n : ℤ) + C (a (n + 1) / 2) * T ℝ ((n + 1 : ℕ) : ℤ) := by
    have hs : ∑ k ∈ range (n + 1), C (halved (n + 1) k * a k) * T ℝ (k : ℤ)
        = ∑ k ∈ range (n + 1), C (a k) * T ℝ (k : ℤ) - C (a 0 / 2) := by
      rw [sum_range_succ', sum_range_succ' (fun k : ℕ => C (a k) * T ℝ (k : ℤ))]
      have : ∀ k ∈ range n, C (halved (n + 1) (k + 1) * a (k + 1)) * T ℝ ((k + 1 : ℕ) : ℤ)
          = C (a (k + 1)) * T ℝ ((k + 1 : ℕ) : ℤ) := by
        intro k hk
        rw [mem_range] at hk
        rw [halved, if_neg (by omega), one_mul]
      rw [sum_congr rfl this, halved, if_pos (by simp)]
      simp only [Nat.cast_zero, Polynomial.Chebyshev.T_zero, mul_one]
      rw [show a 0 / 2 = a 0 - 1 / 2 * a 0 by ring, C_sub]
      ring
    rw [poly, sum_range_succ, hs, halved, if_pos (by simp), sum_range_succ]
    rw [show 1 / 2 * a (n + 1) = a (n + 1) / 2 by ring]
    ring
  have t1 : C (a n) * T ℝ (n : ℤ) = C (a n / 2) * (U ℝ (n : ℤ) - U ℝ ((n : ℤ) - 2)) := by
    rw [← two_T (n : ℤ), ← mul_assoc,
      show (2 : ℝ[X]) = C 2 from (map_ofNat C 2).symm, ← C_mul]
    congr 2
    ring
  have t2 : C (a (n + 1) / 2) * T ℝ ((n + 1 : ℕ) : ℤ)
      = C (a (n + 1) / 4) * (U ℝ ((n + 1 : ℕ) : ℤ) - U ℝ ((n : ℤ) - 1)) := by
    have h := two_T ((n + 1 : ℕ) : ℤ)
    rw [show ((n + 1 : ℕ) : ℤ) - 2 = (n : ℤ) - 1 by push_cast; ring] at h
    rw [← h, ← mul_assoc, show (2 : ℝ[X]) = C 2 from (map_ofNat C 2).symm, ← C_mul]
    congr 2
    ring
  rw [hp, t1, t2, show ((n + 1 : ℕ) : ℤ) - 2 = (n : ℤ) - 1 by push_cast; ring,
    show a (n + 1) / 2 = a (n + 1) / 4 + a (n + 1) / 4 by ring, C_add]
  ring

theorem getD_map_mul (l : List ℝ) (s : ℝ) (k : ℕ) :
    (l.map (· * s)).getD k 0 = l.getD k 0 * s := by
  simp only [List.getD, List.getElem?_map]
  cases l[k]? <;> simp

/-- The coefficients of `cdf`. -/
theorem cdfCoeffs_eq {N : ℕ} (hN : 0 < N) (lo hi : ℝ) (a : List ℝ) :
    (cdfCoeffs N lo hi a).length = N + 1 + 1 ∧
    ∀ k, k ≤ N + 1 → (cdfCoeffs N lo hi a).getD k 0
      = anti N (fun k => a.getD k 0) k * ((hi - lo) / 2) := by
  obtain ⟨n, rfl⟩ : ∃ n, N = n + 1 := ⟨N - 1, by omega⟩
  constructor
  · simp [cdfCoeffs]
  · intro k hk
    rw [cdfCoeffs, getD_map_mul]
    congr 1
    rcases Nat.eq_zero_or_pos k with rfl | hp
    · rw [List.getD_cons_zero, anti, if_pos rfl, beta0, list_sum_range]
      congr 1
      · ring
      · apply sum_congr rfl
        intro i _
        push_cast
        rw [show i + 2 + 1 = i + 3 by omega]
        ring
    · obtain ⟨m, rfl⟩ : ∃ m, k = m + 1 := ⟨k - 1, by omega⟩
      rw [List.getD_cons_succ, anti, if_neg (by omega), Nat.add_sub_cancel]
      by_cases h1 : m < n
      · rw [List.getD_append _ _ _ _ (by simpa using h1), getD_map_range _ _ h1, if_pos (by omega)]
      · rw [List.getD_append_right _ _ _ _ (by simpa using h1), if_neg (by omega)]
        by_cases h2 : m = n
        · subst h2
          rw [if_pos rfl]
          simp
        · have : m = n + 1 := by omega
          subst this
          rw [if_neg (by omega)]
          simp

theorem sum_even (g : ℕ → ℝ) (h : ∀ k, Odd k → g k = 0) (N : ℕ) :
    ∑ k ∈ range (N + 1), g k = ∑ i ∈ range (N / 2 + 1), g (2 * i) := by
  induction N with
  | zero => simp
  | succ N ih =>
    rw [sum_range_succ, ih]
    rcases Nat.even_or_odd (N + 1) with he | ho
    · obtain ⟨m, hm⟩ := he
      rw [show (N + 1) / 2 + 1 = N / 2 + 1 + 1 by omega, sum_range_succ _ (N / 2 + 1)]
      rw [show 2 * (N / 2 + 1) = N + 1 by omega]
    · rw [h _ ho, add_zero]
      obtain ⟨m, hm⟩ := ho
      rw [show (N + 1) / 2 = N / 2 by omega]

/-- `compute_integral` gives the integral of the polynomial. -/
theorem computeIntegral_eq (N : ℕ) {lo hi : ℝ} (h : lo < hi) (a : List ℝ) :
    computeIntegral N lo hi a
      = ∫ x in lo..hi, (poly N (fun k => a.getD k 0)).eval (unit lo hi x) := by
  have hd : hi - lo ≠ 0 := by linarith
  have hu : ∀ x, unit lo hi x = (2 / (hi - lo)) * x - (hi + lo) / (hi - lo) := by
    intro x; rw [unit]; ring
  have hk : (2 / (hi - lo)) ≠ 0 := div_ne_zero (by norm_num) hd
  have e : ∫ x in lo..hi, (poly N (fun k => a.getD k 0)).eval (unit lo hi x)
      = (hi - lo) / 2 * ∫ x in (-1 : ℝ)..1, (poly N (fun k => a.getD k 0)).eval x := by
    simp only [hu]
    rw [intervalIntegral.integral_comp_mul_sub (fun x => (poly N (fun k => a.getD k 0)).eval x) hk]
    rw [show 2 / (hi - lo) * lo - (hi + lo) / (hi - lo) = -1 by field_simp; ring,
      show 2 / (hi - lo) * hi - (hi + lo) / (hi - lo) = 1 by field_simp; ring, inv_div, smul_eq_mul]
  rw [e, computeIntegral, list_sum_range, mul_comm]
  congr 1
  have hi' : ∫ x in (-1 : ℝ)..1, (poly N (fun k => a.getD k 0)).eval x
      = ∑ k ∈ range (N + 1), halved N k * a.getD k 0 * ∫ x in (-1 : ℝ)..1, (T ℝ (k : ℤ)).eval x := by
    simp only [poly, eval_finsetSum, eval_mul, eval_C]
    rw [intervalIntegral.integral_finsetSum]
    · apply sum_congr rfl
      intro k _
      rw [intervalIntegral.integral_const_mul]
    · intro k _
      exact (((T ℝ (k : ℤ)).continuous).const_mul _).intervalIntegrable _ _
  rw [hi', sum_even (fun k : ℕ => halved N k * a.getD k 0 *
    ∫ x in (-1 : ℝ)..1, (T ℝ (k : ℤ)).eval x) (fun k hk => by
      rw [Marley.Gen.integral_T_odd (by exact_mod_cast hk), mul_zero])]
  apply sum_congr rfl
  intro i _
  have := Marley.Gen.integral_T_even i
  push_cast at this ⊢
  rw [this, halved]
  split_ifs <;> ring

/-! ## The constructor -/

theorem sample_map {f : ℝ → Res ℝ} : ∀ {l ys : List ℝ}, sample f l = .ok ys →
    ys.length = l.length ∧ ∀ i, i < l.length → f (l.getD i 0) = .ok (ys.getD i 0) := by
  intro l
  induction l with
  | nil => intro ys h; simp [sample] at h; subst h; simp
  | cons x t ih =>
    intro ys h
    rw [sample] at h
    cases hf : f x with
    | error e => rw [hf] at h; simp at h
    | ok y =>
      rw [hf] at h
      dsimp only at h
      cases hs : sample f t with
      | error e => rw [hs] at h; simp at h
      | ok zs =>
        rw [hs] at h
        simp only [Except.ok.injEq] at h
        subst h
        obtain ⟨h1, h2⟩ := ih hs
        refine ⟨by simp [h1], ?_⟩
        intro i hi
        cases i with
        | zero => simpa using hf
        | succ i =>
          rw [List.getD_cons_succ, List.getD_cons_succ]
          exact h2 i (by simpa using hi)

theorem search_ok {f : ℝ → Res ℝ} {lo hi : ℝ} : ∀ {fuel : ℕ} {fixed : Bool} {N M : ℕ} {fs c : List ℝ},
    0 < N → search f lo hi fuel fixed N = .ok (M, fs, c) →
    0 < M ∧ sample f (points lo hi M) = .ok fs ∧ c = cost fs := by
  intro fuel
  induction fuel with
  | zero => intro fixed N M fs c _ h; simp [search] at h
  | succ n ih =>
    intro fixed N M fs c hN h
    rw [search] at h
    have hN2 : 0 < (if fixed then N else N * 2) := by split_ifs <;> omega
    generalize (if fixed then N else N * 2) = K at h hN2
    cases hs : sample f (points lo hi K) with
    | error e => rw [hs] at h; simp at h
    | ok ys =>
      rw [hs] at h
      dsimp only at h
      split_ifs at h with hc
      · simp only [Except.ok.injEq, Prod.mk.injEq] at h
        obtain ⟨rfl, rfl, rfl⟩ := h
        exact ⟨hN2, hs, rfl⟩
      · exact ih hN2 h

theorem points_getD (lo hi : ℝ) {N i : ℕ} (h : i ≤ N) : (points lo hi N).getD i 0 = point lo hi N i := by
  rw [points, getD_map_range _ _ (by omega)]

/-- What an object holds that was constructed or is the `cdf` of another. -/
structure Rep (lo hi : ℝ) (c : Interp) : Prop where
  pos : 0 < c.N
  lo_eq : c.lo = lo
  hi_eq : c.hi = hi
  xs_eq : c.xs = points lo hi c.N
  fs_eq : c.fs = (List.range (c.N + 1)).map (fun j =>
    (poly c.N (fun k => c.coeffs.getD k 0)).eval (node c.N j))
  integral_eq : c.integral = computeIntegral c.N lo hi c.coeffs

theorem make_rep {f : ℝ → Res ℝ} {lo hi : ℝ} {n : ℕ} {c : Interp} (h : make f lo hi n = .ok c) :
    Rep lo hi c ∧ ∀ i, i ≤ c.N → f (point lo hi c.N i) = .ok (c.fs.getD i 0) := by
  unfold make at h
  have hn : 0 < (if n ≠ 0 then n else 1) := by split_ifs <;> omega
  cases hs : search f lo hi 17 (n ≠ 0) (if n ≠ 0 then n else 1) with
  | error e => rw [hs] at h; simp at h
  | ok r =>
    obtain ⟨M, fs, d⟩ := r
    rw [hs] at h
    simp only [Except.ok.injEq] at h
    obtain ⟨hM, hsm, rfl⟩ := search_ok hn hs
    obtain ⟨hl, hv⟩ := sample_map hsm
    have hlen : fs.length = M + 1 := by rw [hl]; simp [points]
    subst h
    have hco : ∀ k, k ≤ M → ((cost fs).map (· / (M : ℝ))).getD k 0
        = 2 * (poly M (fun k => fs.getD k 0)).eval (node M k) / M := by
      intro k hk
      rw [cost_eq hM hlen, List.map_map, getD_map_range _ _ (by omega)]
      rfl
    refine ⟨⟨hM, rfl, rfl, rfl, ?_, rfl⟩, ?_⟩
    rotate_left
    · intro i hi'
      have hi2 : i ≤ M := hi'
      have := hv i (by simp [points]; omega)
      rwa [points_getD _ _ hi2] at this
    · dsimp only
      rw [poly_congr hco]
      apply List.ext_getElem
      · simp [hlen]
      · intro i h1 h2
        have hi2 : i ≤ M := by rw [hlen] at h1; omega
        rw [List.getElem_map, List.getElem_range, poly_transform hM (fun k => fs.getD k 0) hi2]
        simp [List.getD, h1]

theorem anti_congr {N : ℕ} {a : ℕ → ℝ} (s : ℝ) :
    poly (N + 1) (fun k => anti N a k * s) = C s * poly (N + 1) (anti N a) := by
  rw [poly, poly, mul_sum]
  apply sum_congr rfl
  intro k _
  rw [← mul_assoc (C s), ← C_mul]
  congr 2
  ring

theorem rep_evaluate {lo hi : ℝ} {c : Interp} (h : lo < hi) (hc : Rep lo hi c) (x : ℝ) :
    c.evaluate x = some ((poly c.N (fun k => c.coeffs.getD k 0)).eval (unit lo hi x)) := by
  have hlt : c.lo < c.hi := by rw [hc.lo_eq, hc.hi_eq]; exact h
  rw [evaluate_eq hc.pos hlt (poly_degree _ _) (by rw [hc.lo_eq, hc.hi_eq, hc.xs_eq]) hc.fs_eq,
    hc.lo_eq, hc.hi_eq]

theorem rep_cdf {lo hi : ℝ} {c : Interp} (hc : Rep lo hi c) : Rep lo hi c.cdf := by
  obtain ⟨h1, _⟩ := cdfCoeffs_eq hc.pos c.lo c.hi c.coeffs
  refine ⟨Nat.succ_pos _, hc.lo_eq, hc.hi_eq, ?_, ?_, ?_⟩
  · show points c.lo c.hi _ = points lo hi _
    rw [hc.lo_eq, hc.hi_eq]
    rfl
  · show (cost _).map _ = _
    rw [cost_eq (Nat.succ_pos _) h1, List.map_map]
    apply List.map_congr_left
    intro j _
    simp only [Function.comp]
    show _ = eval (node (c.N + 1) j) (poly (c.N + 1) (fun k => (cdfCoeffs c.N c.lo c.hi c.coeffs).getD k 0))
    norm_num
    ring
  · show computeIntegral (c.N + 1) c.lo c.hi _ = _
    rw [hc.lo_eq, hc.hi_eq]
    show _ = computeIntegral (c.N + 1) lo hi (cdfCoeffs c.N c.lo c.hi c.coeffs)
    rw [hc.lo_eq, hc.hi_eq]

theorem rep_cdf_poly {lo hi : ℝ} {c : Interp} (hc : Rep lo hi c) :
    poly c.cdf.N (fun k => c.cdf.coeffs.getD k 0)
      = C ((hi - lo) / 2) * poly (c.N + 1) (anti c.N (fun k => c.coeffs.getD k 0)) := by
  obtain ⟨_, h2⟩ := cdfCoeffs_eq hc.pos c.lo c.hi c.coeffs
  rw [← anti_congr]
  apply poly_congr
  intro k hk
  rw [← hc.lo_eq, ← hc.hi_eq]
  exact h2 k hk

theorem poly_coeff {N : ℕ} (a : ℕ → ℝ) : (poly N a).coeff N = a N * 2 ^ (N - 1) / 2 := by
  rw [poly, finsetSum_coeff, sum_range_succ]
  have h : ∀ k ∈ range N, (C (halved N k * a k) * T ℝ (k : ℤ)).coeff N = 0 := by
    intro k hk
    rw [mem_range] at hk
    rw [coeff_C_mul, coeff_eq_zero_of_natDegree_lt, mul_zero]
    rw [Polynomial.Chebyshev.natDegree_T]
    simpa using hk
  rw [sum_eq_zero h, coeff_C_mul, halved, if_pos (by simp)]
  have hl := Polynomial.Chebyshev.leadingCoeff_T ℝ (N : ℤ)
  rw [leadingCoeff, Polynomial.Chebyshev.natDegree_T] at hl
  simp only [Int.natAbs_natCast] at hl
  rw [hl]
  ring

end Marley.Cheb
