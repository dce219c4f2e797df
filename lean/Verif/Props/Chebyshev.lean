import Verif.Lemmas.Chebyshev
import Mathlib.Analysis.Calculus.Deriv.Polynomial

/-!
# C74: the cumulative function of a Chebyshev interpolating function

An object is constructed from a function, an interval and a size, and `cdf()` gives
another such object, of which `cdf()` can be taken again.
-/

set_option autoImplicit false

namespace Marley.Props

open Marley.Cheb Polynomial
open Polynomial.Chebyshev (T U)
open scoped Interval

/-- The objects that a program can hold for an interval. -/
inductive Obtained (lo hi : ℝ) : Interp → Prop
  | made {f : ℝ → Res ℝ} {n : ℕ} {c : Interp} (h : make f lo hi n = .ok c) : Obtained lo hi c
  | cdf {c : Interp} (h : Obtained lo hi c) : Obtained lo hi c.cdf

theorem Obtained.rep {lo hi : ℝ} {c : Interp} (h : Obtained lo hi c) : Rep lo hi c := by
  induction h with
  | made h => exact (make_rep h).1
  | cdf _ ih => exact rep_cdf ih

/-- `integral()` is the integral of the represented function. -/
theorem C74_integral {lo hi : ℝ} (hlt : lo < hi) {c : Interp} (hc : Obtained lo hi c) :
    ∃ p : ℝ → ℝ, (∀ x, c.evaluate x = some (p x)) ∧ c.integral = ∫ x in lo..hi, p x :=
  ⟨_, rep_evaluate hlt hc.rep, by rw [hc.rep.integral_eq, computeIntegral_eq _ hlt]⟩

/-- How far the cumulative function is from the property, for any object: both errors
are proportional to the last coefficient. -/
theorem C74_error {lo hi : ℝ} (hlt : lo < hi) {c : Interp} (hc : Obtained lo hi c) :
    ∃ p P : ℝ → ℝ, (∀ x, c.evaluate x = some (p x)) ∧ (∀ x, c.cdf.evaluate x = some (P x)) ∧
      P lo = (-1) ^ c.N * ((hi - lo) / 8) * c.coeffs.getD c.N 0 / ((c.N : ℝ) + 1) ∧
      ∀ x, HasDerivAt P (p x - c.coeffs.getD c.N 0 / 4 *
        (U ℝ ((c.N : ℤ) - 2)).eval ((2 * x - (hi + lo)) / (hi - lo))) x := by
  have hr := hc.rep
  have hd : hi - lo ≠ 0 := by linarith
  have hN : ((c.N : ℝ) + 1) ≠ 0 := by positivity
  refine ⟨_, _, rep_evaluate hlt hr, rep_evaluate hlt (rep_cdf hr), ?_, ?_⟩
  · rw [rep_cdf_poly hr, eval_mul, eval_C, unit,
      show (2 * lo - (hi + lo)) / (hi - lo) = -1 by field_simp; ring, poly_anti_end hr.pos]
    field_simp
    ring
  · intro x
    rw [rep_cdf_poly hr]
    have hu : HasDerivAt (unit lo hi) (2 / (hi - lo)) x := by
      have : HasDerivAt (fun x : ℝ => (2 * x - (hi + lo)) / (hi - lo)) (2 * 1 / (hi - lo)) x :=
        (((hasDerivAt_id x).const_mul 2).sub_const _).div_const _
      rwa [mul_one] at this
    have := ((C ((hi - lo) / 2) * poly (c.N + 1) (anti c.N (fun k => c.coeffs.getD k 0))).hasDerivAt
      (unit lo hi x)).comp x hu
    rw [derivative_C_mul, poly_anti_deriv hr.pos] at this
    refine this.congr_deriv ?_
    rw [eval_mul, eval_C, eval_sub, eval_mul, eval_C]
    rw [show (2 * x - (hi + lo)) / (hi - lo) = unit lo hi x from rfl]
    field_simp

/-- C74 whenever the last coefficient vanishes: the cumulative function is zero at the
lower end, its derivative is the represented function everywhere, and at the upper end
it is the integral.  Missing: a last coefficient that is not zero, see `C74_error` and
`C74_violated`; the rounding of doubles. -/
theorem C74_partial {lo hi : ℝ} (hlt : lo < hi) {c : Interp} (hc : Obtained lo hi c)
    (hlast : c.coeffs.getD c.N 0 = 0) :
    ∃ p P : ℝ → ℝ, (∀ x, c.evaluate x = some (p x)) ∧ (∀ x, c.cdf.evaluate x = some (P x)) ∧
      P lo = 0 ∧ (∀ x, HasDerivAt P (p x) x) ∧ P hi = c.integral ∧
      c.cdf.coeffs.getD c.cdf.N 0 = 0 := by
  obtain ⟨p, P, hp, hP, h0, hder⟩ := C74_error hlt hc
  obtain ⟨q, hq, hint⟩ := C74_integral hlt hc
  have hpq : p = q := by
    funext x
    have := hq x
    rw [hp x] at this
    exact Option.some.inj this
  subst hpq
  rw [hlast, mul_zero, zero_div] at h0
  have hder' : ∀ x, HasDerivAt P (p x) x := by
    intro x
    have := hder x
    rwa [hlast, zero_div, zero_mul, sub_zero] at this
  have hcont : Continuous p := by
    have h : p = fun x => (poly c.N (fun k => c.coeffs.getD k 0)).eval (unit lo hi x) := by
      funext x
      have := rep_evaluate hlt hc.rep x
      rw [hp x] at this
      exact Option.some.inj this
    rw [h]
    unfold unit
    fun_prop
  refine ⟨p, P, hp, hP, h0, hder', ?_, ?_⟩
  · rw [hint, intervalIntegral.integral_eq_sub_of_hasDerivAt (fun x _ => hder' x)
      (hcont.intervalIntegrable _ _), h0, sub_zero]
  · have hr := hc.rep
    have := (cdfCoeffs_eq hr.pos c.lo c.hi c.coeffs).2 (c.N + 1) le_rfl
    show (cdfCoeffs c.N c.lo c.hi c.coeffs).getD (c.N + 1) 0 = 0
    rw [this, anti, if_neg (by omega), if_neg (by omega), if_neg (by omega), hlast]
    simp

/-- The represented function goes through the values of the given function at the
points, `(hi - lo) cos(π j / N) / 2 + (hi + lo) / 2`. -/
theorem C74_interpolates {f : ℝ → Res ℝ} {lo hi : ℝ} (hlt : lo < hi) {n : ℕ} {c : Interp}
    (h : make f lo hi n = .ok c) {j : ℕ} (hj : j ≤ c.N) :
    ∃ y, f ((hi - lo) / 2 * Real.cos (Real.pi * j / c.N) + (hi + lo) / 2) = .ok y ∧
      c.evaluate ((hi - lo) / 2 * Real.cos (Real.pi * j / c.N) + (hi + lo) / 2) = some y := by
  obtain ⟨hr, hv⟩ := make_rep h
  have e : (hi - lo) / 2 * Real.cos (Real.pi * j / c.N) + (hi + lo) / 2 = point lo hi c.N j := by
    rw [point]; ring
  rw [e]
  refine ⟨_, hv j hj, ?_⟩
  rw [rep_evaluate hlt hr, unit_point hlt, hr.fs_eq, getD_map_range _ _ (by omega)]

theorem sample_total {g : ℝ → ℝ} (l : List ℝ) : sample (fun x => .ok (g x)) l = .ok (l.map g) := by
  induction l with
  | nil => rfl
  | cons x t ih => rw [sample, ih]; rfl

/-- Construction succeeds for a function that has a value everywhere; the given size is
kept, and without one the size is a power of two from 2 to 65536. -/
theorem C74_constructed (g : ℝ → ℝ) (lo hi : ℝ) (n : ℕ) :
    ∃ c, make (fun x => .ok (g x)) lo hi n = .ok c ∧ (n ≠ 0 → c.N = n) ∧
      (n = 0 → ∃ k, 1 ≤ k ∧ k ≤ 16 ∧ c.N = 2 ^ k) := by
  have key : ∀ j m, m + j = 15 → ∃ k fs, m < k ∧ k ≤ 16 ∧
      search (fun x => .ok (g x)) lo hi (j + 2) false (2 ^ m) = .ok (2 ^ k, fs) := by
    intro j
    induction j with
    | zero =>
      intro m hm
      have : m = 15 := by omega
      subst this
      refine ⟨16, ((points lo hi (2 ^ 16)).map g, cost ((points lo hi (2 ^ 16)).map g)), by omega,
        le_rfl, ?_⟩
      rw [search]
      simp only [sample_total, Bool.false_eq_true, if_false, ← pow_succ]
      rw [if_pos]
      rw [Bool.or_eq_true]
      exact Or.inr (by decide)
    | succ j ih =>
      intro m hm
      rw [search]
      simp only [sample_total, Bool.false_eq_true, if_false, ← pow_succ]
      by_cases hc : (false || accurate (cost ((points lo hi (2 ^ (m + 1))).map g)) ||
          decide (65536 ≤ 2 ^ (m + 1))) = true
      · rw [if_pos hc]
        exact ⟨m + 1, _, by omega, by omega, rfl⟩
      · rw [if_neg hc]
        obtain ⟨k, fs, h1, h2, h3⟩ := ih (m + 1) (by omega)
        exact ⟨k, fs, by omega, h2, h3⟩
  by_cases hn : n = 0
  · subst hn
    obtain ⟨k, fs, h1, h2, h3⟩ := key 15 0 (by omega)
    rw [pow_zero] at h3
    have hm : make (fun x => .ok (g x)) lo hi 0 = .ok ⟨2 ^ k, lo, hi, computeIntegral (2 ^ k) lo hi
        (fs.2.map (· / ((2 ^ k : ℕ) : ℝ))), points lo hi (2 ^ k), fs.1, fs.2.map (· / ((2 ^ k : ℕ) : ℝ))⟩ := by
      unfold make
      simp only [ne_eq, not_true_eq_false, decide_false, if_false, h3]
    exact ⟨_, hm, fun h => absurd rfl h, fun _ => ⟨k, h1, h2, rfl⟩⟩
  · have hs : search (fun x => .ok (g x)) lo hi 17 true n
        = .ok (n, (points lo hi n).map g, cost ((points lo hi n).map g)) := by
      rw [search]
      simp only [sample_total, if_true, Bool.true_or]
    have hm : make (fun x => .ok (g x)) lo hi n = .ok ⟨n, lo, hi, computeIntegral n lo hi
        ((cost ((points lo hi n).map g)).map (· / (n : ℝ))), points lo hi n, (points lo hi n).map g,
        (cost ((points lo hi n).map g)).map (· / (n : ℝ))⟩ := by
      unfold make
      simp only [ne_eq, hn, not_false_eq_true, decide_true, if_true, hs]
    exact ⟨_, hm, fun _ => rfl, fun h => absurd h hn⟩

/-- A polynomial of degree below the size is represented exactly, and its cumulative
function is its integral from the lower end. -/
theorem C74_exact (q : ℝ[X]) {lo hi : ℝ} (hlt : lo < hi) {n : ℕ} {c : Interp}
    (h : make (fun x => .ok (q.eval x)) lo hi n = .ok c) (hq : q.natDegree < c.N) (x : ℝ) :
    c.evaluate x = some (q.eval x) ∧ c.cdf.evaluate x = some (∫ t in lo..x, q.eval t) := by
  obtain ⟨hr, hv⟩ := make_rep h
  have hd : hi - lo ≠ 0 := by linarith
  -- the polynomial in the variable of `[-1, 1]`
  set L : ℝ[X] := C ((hi - lo) / 2) * X + C ((hi + lo) / 2) with hL
  have hL1 : L.natDegree ≤ 1 := natDegree_linear_le
  have hdeg : (q.comp L).natDegree ≤ q.natDegree := by
    refine le_trans natDegree_comp_le ?_
    nlinarith
  have hLu : ∀ x, L.eval (unit lo hi x) = x := by
    intro x
    rw [hL, unit]
    simp only [eval_add, eval_mul, eval_C, eval_X]
    field_simp
    ring
  have hlt' : (q.comp L).degree < ((c.N + 1 : ℕ) : WithBot ℕ) :=
    lt_of_le_of_lt degree_le_natDegree (by exact_mod_cast (by omega : (q.comp L).natDegree < c.N + 1))
  have heq : poly c.N (fun k => c.coeffs.getD k 0) = q.comp L := by
    apply Polynomial.eq_of_degrees_lt_of_eval_index_eq (Finset.range (c.N + 1)) (node_injOn c.N)
    · rw [Finset.card_range]; exact poly_degree _ _
    · rw [Finset.card_range]; exact hlt'
    · intro j hj
      rw [Finset.mem_range] at hj
      have h1 := hv j (by omega)
      rw [hr.fs_eq, getD_map_range _ _ hj] at h1
      rw [← Except.ok.inj h1, eval_comp, ← unit_point hlt, hLu]
  have hlast : c.coeffs.getD c.N 0 = 0 := by
    have h1 := poly_coeff (N := c.N) (fun k => c.coeffs.getD k 0)
    rw [heq, coeff_eq_zero_of_natDegree_lt (lt_of_le_of_lt hdeg hq)] at h1
    have : (2 : ℝ) ^ (c.N - 1) ≠ 0 := by positivity
    have h2 : c.coeffs.getD c.N 0 * 2 ^ (c.N - 1) = 0 := by linarith
    exact (mul_eq_zero.1 h2).resolve_right this
  obtain ⟨p, P, hp, hP, h0, hder, _, _⟩ := C74_partial hlt (.made h) hlast
  have hpx : ∀ x, p x = q.eval x := by
    intro x
    have := rep_evaluate hlt hr x
    rw [hp x, heq, eval_comp, hLu] at this
    exact Option.some.inj this
  refine ⟨by rw [hp, hpx], ?_⟩
  rw [hP]
  congr 1
  rw [intervalIntegral.integral_eq_sub_of_hasDerivAt (f := P)
    (fun t _ => by rw [← hpx]; exact hder t) (q.continuous.intervalIntegrable _ _), h0, sub_zero]

/-- The property fails for `x² ` on `[-1, 1]` with two intervals: the cumulative function
is 1/12 at the lower end although the represented function is `x²` itself. -/
theorem C74_violated : ∃ c, make (fun x => .ok (x ^ 2)) (-1) 1 2 = .ok c ∧
    (∀ x, c.evaluate x = some (x ^ 2)) ∧ c.cdf.evaluate (-1) = some (1 / 12) := by
  obtain ⟨c, hc, hN, _⟩ := C74_constructed (fun x => x ^ 2) (-1) 1 2
  have hN := hN (by norm_num)
  have hlt : (-1 : ℝ) < 1 := by norm_num
  obtain ⟨hr, hv⟩ := make_rep hc
  have hpt : ∀ j, point (-1) 1 2 j = Real.cos (Real.pi * j / 2) := by
    intro j; rw [point]; push_cast; ring
  have h2 : poly c.N (fun k => c.coeffs.getD k 0) = X ^ 2 := by
    apply Polynomial.eq_of_degrees_lt_of_eval_index_eq (Finset.range (c.N + 1)) (node_injOn c.N)
    · rw [Finset.card_range]; exact poly_degree _ _
    · rw [Finset.card_range, hN, degree_X_pow]; norm_num
    · intro j hj
      rw [Finset.mem_range] at hj
      have h1 := hv j (by omega)
      rw [hr.fs_eq, getD_map_range _ _ hj] at h1
      rw [← Except.ok.inj h1, eval_pow, eval_X, ← unit_point hlt]
      congr 1
      rw [unit]
      ring
  have ha : c.coeffs.getD 2 0 = 1 := by
    have h1 := poly_coeff (N := c.N) (fun k => c.coeffs.getD k 0)
    rw [h2, hN] at h1
    simp only [coeff_X_pow, if_true] at h1
    linarith
  refine ⟨c, hc, ?_, ?_⟩
  · intro x
    rw [rep_evaluate hlt hr, h2, eval_pow, eval_X, unit]
    congr 2
    ring
  · obtain ⟨p, P, _, hP, h0, _⟩ := C74_error hlt (.made hc)
    rw [hP, h0, hN, ha]
    norm_num

/-- Non-vacuity: `3 x²` on `[0, 2]` with 64 intervals, as for the energies of decay
products; the cumulative function is `x³`. -/
example : ∃ c, make (fun x => .ok ((C 3 * X ^ 2 : ℝ[X]).eval x)) 0 2 64 = .ok c ∧
    ∀ x, c.evaluate x = some (3 * x ^ 2) ∧ c.cdf.evaluate x = some (x ^ 3) := by
  obtain ⟨c, hc, hN, _⟩ := C74_constructed (fun x => (C 3 * X ^ 2 : ℝ[X]).eval x) 0 2 64
  refine ⟨c, hc, fun x => ?_⟩
  obtain ⟨h1, h2⟩ := C74_exact (C 3 * X ^ 2) (by norm_num) hc
    (lt_of_le_of_lt (natDegree_C_mul_X_pow_le 3 2) (by rw [hN (by norm_num)]; norm_num)) x
  constructor
  · rw [h1]; simp
  · rw [h2]
    simp only [eval_mul, eval_C, eval_pow, eval_X]
    rw [intervalIntegral.integral_const_mul, integral_pow]
    congr 1
    norm_num
    ring

end Marley.Props
