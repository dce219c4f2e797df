import Verif.Lemmas.Quadrature
import Mathlib.MeasureTheory.Integral.IntervalIntegral.Basic

/-!
# C80: numerical integration

`marley_utils::num_integrate(f, a, b)` agrees with the integral of `f` over `[a, b]`
for every polynomial of degree at most 101, preserves order, and therefore differs from
the integral by at most `2 (b - a) ε` for every `f` that some such polynomial
approximates to within `ε`.
-/

set_option autoImplicit false

namespace Marley.Props

open Marley.Gen Polynomial
open scoped Interval

variable {σ : Type}

/-- C80: the rule with 50 (`N = 50`, 101 abscissas) integrates polynomials up to degree
101 exactly, over any interval in either orientation, calling the integrand only for its
values. -/
theorem C80_exact (p : ℝ[X]) (hp : p.natDegree ≤ 101) (a b : ℝ) (s : σ) :
    numIntegrate (fun x s => .ok (p.eval x, s)) a b s = .ok (∫ x in a..b, p.eval x, s) := by
  unfold numIntegrate
  rw [weightedSum_pure (fun x => p.eval x), zero_add]
  have := quad_exact (N := 50) (by norm_num) a b p hp
  unfold quad at this
  rw [this]

/-- C80 for an `Integrator` of any order `N > 0` (src/Integrator.cc:22-65): exact up to
degree `2 N + 1`. -/
theorem C80_order {N : ℕ} (hN : 0 < N) (p : ℝ[X]) (hp : p.natDegree ≤ 2 * N + 1) (a b : ℝ) (s : σ) :
    weightedSum (fun x s => .ok (p.eval x, s)) (nodes N a b) 0 s
      = .ok (∫ x in a..b, p.eval x, s) := by
  rw [weightedSum_pure (fun x => p.eval x), zero_add]
  have := quad_exact hN a b p hp
  unfold quad at this
  rw [this]

/-- C80: a larger integrand never gives a smaller result; in particular a nonnegative
integrand gives a nonnegative result. -/
theorem C80_order_preserving (f g : ℝ → ℝ) {a b : ℝ} (h : a ≤ b)
    (hfg : ∀ x, a ≤ x → x ≤ b → f x ≤ g x) (s : σ) :
    ∃ v w, numIntegrate (fun x s => .ok (f x, s)) a b s = .ok (v, s)
      ∧ numIntegrate (fun x s => .ok (g x, s)) a b s = .ok (w, s) ∧ v ≤ w := by
  refine ⟨_, _, weightedSum_pure f _ _ _, weightedSum_pure g _ _ _, ?_⟩
  have := quad_mono (N := 50) (by norm_num) h f g hfg
  unfold quad at this
  linarith

/-- C80: every abscissa at which the integrand is evaluated lies in the interval. -/
theorem C80_inside (f : ℝ → σ → Res (ℝ × σ)) (g : ℝ → σ → Res (ℝ × σ)) {a b : ℝ} (h : a ≤ b)
    (hfg : ∀ x, a ≤ x → x ≤ b → f x = g x) (s : σ) :
    numIntegrate f a b s = numIntegrate g a b s := by
  have key : ∀ l : List (ℝ × ℝ), (∀ p ∈ l, a ≤ p.2 ∧ p.2 ≤ b) → ∀ acc s,
      weightedSum f l acc s = weightedSum g l acc s := by
    intro l
    induction l with
    | nil => intro _ acc s; rfl
    | cons p l ih =>
      intro hl acc s
      obtain ⟨w, x⟩ := p
      have hx := hl (w, x) (by simp)
      simp only [weightedSum, hfg x hx.1 hx.2]
      cases g x s with
      | error e => rfl
      | ok r => exact ih (fun p hp => hl p (by simp [hp])) _ _
  exact key _ (fun p hp => (nodes_ok (by norm_num) h hp).2) _ _

/-- C80: distance from the integral, for any integrable function within `ε` of a
polynomial of degree at most 101. -/
theorem C80_error (f : ℝ → ℝ) {a b : ℝ} (h : a ≤ b) (hf : IntervalIntegrable f MeasureTheory.volume a b)
    (p : ℝ[X]) (hp : p.natDegree ≤ 101) {ε : ℝ}
    (hε : ∀ x, a ≤ x → x ≤ b → |f x - p.eval x| ≤ ε) (s : σ) :
    ∃ v, numIntegrate (fun x s => .ok (f x, s)) a b s = .ok (v, s)
      ∧ |v - ∫ x in a..b, f x| ≤ 2 * (b - a) * ε := by
  refine ⟨quad 50 a b f, ?_, ?_⟩
  · unfold numIntegrate quad
    rw [weightedSum_pure f, zero_add]
  · have hN : 0 < 50 := by norm_num
    have ex := quad_exact hN a b p hp
    have up : quad 50 a b f ≤ quad 50 a b (fun x => p.eval x) + ε * (b - a) := by
      rw [← quad_const hN a b ε, ← quad_add]
      exact quad_mono hN h _ _ (fun x h1 h2 => by have := abs_le.1 (hε x h1 h2); linarith)
    have lo : quad 50 a b (fun x => p.eval x) ≤ quad 50 a b f + ε * (b - a) := by
      rw [← quad_const hN a b ε, ← quad_add]
      exact quad_mono hN h _ _ (fun x h1 h2 => by have := abs_le.1 (hε x h1 h2); linarith)
    have pi : IntervalIntegrable (fun x => p.eval x) MeasureTheory.volume a b :=
      (Polynomial.continuous _).intervalIntegrable _ _
    have d : |∫ x in a..b, (f x - p.eval x)| ≤ ε * |b - a| := by
      rw [← Real.norm_eq_abs]
      apply intervalIntegral.norm_integral_le_of_norm_le_const
      intro x hx
      rw [Set.uIoc_of_le h] at hx
      exact hε x hx.1.le hx.2
    rw [intervalIntegral.integral_sub hf pi, abs_of_nonneg (by linarith : 0 ≤ b - a)] at d
    have d' := abs_le.1 d
    rw [ex] at up lo
    rw [abs_le]
    constructor <;> nlinarith

/-- Non-vacuity: `x³ - 2x` over `[1, 3]`: the integral is 12. -/
example (s : σ) : numIntegrate (fun x s => .ok ((X ^ 3 - C 2 * X : ℝ[X]).eval x, s)) 1 3 s
    = .ok (12, s) := by
  rw [C80_exact _ (le_trans (by compute_degree) (by norm_num : (3 : ℕ) ≤ 101))]
  congr 2
  simp only [eval_sub, eval_pow, eval_X, eval_mul, eval_C]
  rw [intervalIntegral.integral_sub ((continuous_pow 3).intervalIntegrable _ _)
    ((continuous_const_mul 2).intervalIntegrable _ _), integral_pow,
    intervalIntegral.integral_const_mul, integral_id]
  norm_num

/-- Non-vacuity of the error bound: a function that is not a polynomial, `|x|` over
`[-1, 1]`, within 1/2 of the constant 1/2. -/
example (s : σ) : ∃ v, numIntegrate (fun x s => .ok (|x|, s)) (-1) 1 s = .ok (v, s)
    ∧ |v - ∫ x in (-1 : ℝ)..1, (|x| : ℝ)| ≤ 2 * (1 - -1) * (1 / 2) :=
  C80_error (fun x => |x|) (by norm_num) (continuous_abs.intervalIntegrable _ _) (C (1 / 2))
    (by simp) (fun x h1 h2 => by
      rw [eval_C, abs_le]
      have : |x| ≤ 1 := abs_le.2 ⟨h1, h2⟩
      constructor <;> linarith [abs_nonneg x]) s

end Marley.Props
