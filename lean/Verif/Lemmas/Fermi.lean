import Verif.Model.Fermi
import Mathlib.Tactic.FieldSimp
import Mathlib.Tactic.Linarith

/-!
# The numerator of the series of Lanczos has no zeros in the right half-plane

Its coefficients are those of `p0` and `ps`; that they satisfy the criterion of Routh is evaluated with exact rational
numbers.
-/

set_option autoImplicit false

namespace Marley.Fermi
open Marley Marley.Xs

/-! ## Polynomials without zeros in the right half-plane -/

/-- The value of a polynomial, coefficients in ascending order. -/
noncomputable def ev (u : ℂ) : List ℚ → ℂ
  | [] => 0
  | a :: l => a + u * ev u l

/-- `A - c B`. -/
def sub : List ℚ → ℚ → List ℚ → List ℚ
  | A, _, [] => A
  | [], c, b :: B => (-(c * b)) :: sub [] c B
  | a :: A, c, b :: B => (a - c * b) :: sub A c B

theorem ev_sub (u : ℂ) (c : ℚ) : ∀ A B : List ℚ, ev u (sub A c B) = ev u A - c * ev u B := by
  intro A B
  induction B generalizing A with
  | nil => cases A <;> simp [sub, ev]
  | cons b B ih =>
    cases A with
    | nil => simp only [sub, ev, ih]; push_cast; ring
    | cons a A => simp only [sub, ev, ih]; push_cast; ring

/-- The criterion of Routh for `A(w²) + w B(w²)`. -/
def routh : Nat → List ℚ → List ℚ → Bool
  | 0, _, _ => false
  | _ + 1, [a], [] => decide (0 < a)
  | n + 1, a :: A, b :: B => decide (0 < a) && decide (0 < b) && routh n (b :: B) (sub A (a / b) B)
  | _, _, _ => false

theorem routh_spec {w : ℂ} (hw : 0 < w.re) : ∀ (n : Nat) (A B : List ℚ), routh n A B = true →
    0 ≤ (ev (w * w) A * (starRingEnd ℂ) (w * ev (w * w) B)).re ∧ ev (w * w) A ≠ 0 := by
  intro n
  induction n with
  | zero => intro A B h; cases h
  | succ n ih =>
    intro A B h
    match A, B, h with
    | [a], [], h =>
      have ha : 0 < a := by simpa [routh] using h
      simp only [ev]
      refine ⟨by simp, ?_⟩
      simp only [mul_zero, add_zero]
      exact_mod_cast ha.ne'
    | a :: A, b :: B, h =>
      simp only [routh, Bool.and_eq_true, decide_eq_true_eq] at h
      obtain ⟨⟨ha, hb⟩, hr⟩ := h
      obtain ⟨i1, i2⟩ := ih _ _ hr
      have hc : (0 : ℝ) < ((a / b : ℚ) : ℝ) := by exact_mod_cast div_pos ha hb
      have key : ev (w * w) (a :: A) = ((a / b : ℚ) : ℂ) * ev (w * w) (b :: B) +
          w * w * ev (w * w) (sub A (a / b) B) := by
        rw [ev_sub]
        simp only [ev]
        have hb' : (b : ℂ) ≠ 0 := by exact_mod_cast hb.ne'
        push_cast
        field_simp
        ring
      generalize ev (w * w) (sub A (a / b) B) = R at *
      generalize ev (w * w) (b :: B) = O at *
      generalize a / b = c at *
      have hO : 0 < Complex.normSq O := Complex.normSq_pos.2 i2
      have hpos : 0 < (ev (w * w) (a :: A) * (starRingEnd ℂ) (w * O)).re := by
        have e : ev (w * w) (a :: A) * (starRingEnd ℂ) (w * O) =
            ((c : ℝ) : ℂ) * (Complex.normSq O : ℂ) * (starRingEnd ℂ) w +
              (Complex.normSq w : ℂ) * (starRingEnd ℂ) (O * (starRingEnd ℂ) (w * R)) := by
          rw [key, ← Complex.mul_conj, ← Complex.mul_conj]
          simp only [map_mul, Complex.conj_conj]
          push_cast
          ring
        rw [e, Complex.add_re]
        have e1 : (((c : ℝ) : ℂ) * (Complex.normSq O : ℂ) * (starRingEnd ℂ) w).re =
            (c : ℝ) * Complex.normSq O * w.re := by
          rw [← Complex.ofReal_mul, Complex.re_ofReal_mul, Complex.conj_re]
        have e2 : ((Complex.normSq w : ℂ) * (starRingEnd ℂ) (O * (starRingEnd ℂ) (w * R))).re =
            Complex.normSq w * (O * (starRingEnd ℂ) (w * R)).re := by
          rw [Complex.re_ofReal_mul, Complex.conj_re]
        rw [e1, e2]
        have := mul_pos (mul_pos hc hO) hw
        have := mul_nonneg (Complex.normSq_nonneg w) i1
        linarith
      refine ⟨hpos.le, fun h0 => ?_⟩
      rw [h0] at hpos
      simp at hpos

theorem routh_ne_zero {w : ℂ} (hw : 0 < w.re) {n : Nat} {a b : ℚ} {A B : List ℚ} (h : routh n (a :: A) (b :: B) = true) :
    ev (w * w) (a :: A) + w * ev (w * w) (b :: B) ≠ 0 := by
  match n, h with
  | n + 1, h =>
    have hr : routh n (b :: B) (sub A (a / b) B) = true := by
      simp only [routh, Bool.and_eq_true] at h
      exact h.2
    have i1 := (routh_spec hw _ _ _ h).1
    have i2 := (routh_spec hw _ _ _ hr).2
    intro h0
    rw [eq_neg_of_add_eq_zero_left h0, neg_mul, Complex.mul_conj, Complex.neg_re, Complex.ofReal_re] at i1
    have : 0 < Complex.normSq (w * ev (w * w) (b :: B)) := by
      apply Complex.normSq_pos.2
      refine mul_ne_zero (fun h => ?_) i2
      rw [h] at hw
      simp at hw
    linarith

/-! ## The series of Lanczos -/

/-- The even coefficients of the numerator of the series. -/
def evenPart : ℚ → List ℚ → List ℚ
  | a0, [a1, a2, a3, a4, a5, a6, a7, a8] =>
    [5040 * a1,
      13068 * a0 + 13132 * a1 + 8028 * a2 + 5274 * a3 + 3796 * a4 + 2952 * a5 + 2412 * a6 + 2038 * a7 + 1764 * a8,
      6769 * a0 + 1960 * a1 + 1665 * a2 + 1420 * a3 + 1219 * a4 + 1056 * a5 + 925 * a6 + 820 * a7 + 735 * a8,
      322 * a0 + 28 * a1 + 27 * a2 + 26 * a3 + 25 * a4 + 24 * a5 + 23 * a6 + 22 * a7 + 21 * a8,
      a0]
  | _, _ => []

/-- The odd coefficients of the numerator of the series. -/
def oddPart : ℚ → List ℚ → List ℚ
  | a0, [a1, a2, a3, a4, a5, a6, a7, a8] =>
    [5040 * a0 + 13068 * a1 + 5040 * a2 + 2520 * a3 + 1680 * a4 + 1260 * a5 + 1008 * a6 + 840 * a7 + 720 * a8,
      13132 * a0 + 6769 * a1 + 5104 * a2 + 3929 * a3 + 3112 * a4 + 2545 * a5 + 2144 * a6 + 1849 * a7 + 1624 * a8,
      1960 * a0 + 322 * a1 + 295 * a2 + 270 * a3 + 247 * a4 + 226 * a5 + 207 * a6 + 190 * a7 + 175 * a8,
      28 * a0 + 1 * a1 + 1 * a2 + 1 * a3 + 1 * a4 + 1 * a5 + 1 * a6 + 1 * a7 + 1 * a8]
  | _, _ => []

theorem numerator (w a0 a1 a2 a3 a4 a5 a6 a7 a8 : ℂ) (h0 : w ≠ 0) (h1 : w + 1 ≠ 0) (h2 : w + 2 ≠ 0) (h3 : w + 3 ≠ 0)
    (h4 : w + 4 ≠ 0) (h5 : w + 5 ≠ 0) (h6 : w + 6 ≠ 0) (h7 : w + 7 ≠ 0) :
    (a0 + a1 / w + a2 / (w + 1) + a3 / (w + 2) + a4 / (w + 3) + a5 / (w + 4) + a6 / (w + 5) + a7 / (w + 6) +
      a8 / (w + 7)) * (w * (w + 1) * (w + 2) * (w + 3) * (w + 4) * (w + 5) * (w + 6) * (w + 7)) =
    (5040 * a1) * w ^ 0 +
      (5040 * a0 + 13068 * a1 + 5040 * a2 + 2520 * a3 + 1680 * a4 + 1260 * a5 + 1008 * a6 + 840 * a7 + 720 * a8) * w ^ 1 +
      (13068 * a0 + 13132 * a1 + 8028 * a2 + 5274 * a3 + 3796 * a4 + 2952 * a5 + 2412 * a6 + 2038 * a7 + 1764 * a8) * w ^ 2 +
      (13132 * a0 + 6769 * a1 + 5104 * a2 + 3929 * a3 + 3112 * a4 + 2545 * a5 + 2144 * a6 + 1849 * a7 + 1624 * a8) * w ^ 3 +
      (6769 * a0 + 1960 * a1 + 1665 * a2 + 1420 * a3 + 1219 * a4 + 1056 * a5 + 925 * a6 + 820 * a7 + 735 * a8) * w ^ 4 +
      (1960 * a0 + 322 * a1 + 295 * a2 + 270 * a3 + 247 * a4 + 226 * a5 + 207 * a6 + 190 * a7 + 175 * a8) * w ^ 5 +
      (322 * a0 + 28 * a1 + 27 * a2 + 26 * a3 + 25 * a4 + 24 * a5 + 23 * a6 + 22 * a7 + 21 * a8) * w ^ 6 +
      (28 * a0 + 1 * a1 + 1 * a2 + 1 * a3 + 1 * a4 + 1 * a5 + 1 * a6 + 1 * a7 + 1 * a8) * w ^ 7 +
      (a0) * w ^ 8 := by
  field_simp
  ring

theorem coefficients : evenPart p0 ps ≠ [] ∧ oddPart p0 ps ≠ [] ∧ routh 12 (evenPart p0 ps) (oddPart p0 ps) = true := by
  decide +kernel

end Marley.Fermi
