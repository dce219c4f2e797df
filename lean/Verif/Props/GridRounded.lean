import Verif.Model.GridRounded
import Verif.Props.Grid
import Verif.Props.PickRounded

/-!
# C13 with rounding: linear interpolation

`ε` is the relative error of the rounding `rd` (`RoundsWithin`).
-/

set_option autoImplicit false

namespace Marley.Props
open Marley Marley.Grid Marley.Sampling

variable {ε : ℝ} {rd : ℝ → ℝ}

theorem RoundsWithin.rel (h : RoundsWithin ε rd) (h0 : 0 ≤ ε) (x : ℝ) :
    ∃ d, |d| ≤ ε ∧ rd x = x * (1 + d) := by
  by_cases hx : x = 0
  · exact ⟨0, by simpa using h0, by rw [hx, h.zero]; ring⟩
  · refine ⟨(rd x - x) / x, ?_, ?_⟩
    · rw [abs_div, div_le_iff₀ (abs_pos.2 hx)]
      exact h.error x
    · field_simp
      ring

/-- The product of the relative errors of two differences, a quotient and a product. -/
theorem rel_factor (h0 : 0 ≤ ε) (h1 : ε ≤ 1 / 20) {a b c d e : ℝ} (ha : |a| ≤ ε) (hb : |b| ≤ ε)
    (hc : |c| ≤ ε) (hd : |d| ≤ ε) (he : |e| ≤ ε) :
    |(1 + a) / (1 + b) * (1 + c) * (1 + d) * (1 + e) - 1| ≤ 6 * ε := by
  have bound : ∀ {y : ℝ}, |y| ≤ ε → 1 - ε ≤ 1 + y ∧ 1 + y ≤ 1 + ε := by
    intro y hy
    have := abs_le.1 hy
    constructor <;> linarith [this.1, this.2]
  obtain ⟨a1, a2⟩ := bound ha
  obtain ⟨b1, b2⟩ := bound hb
  obtain ⟨c1, c2⟩ := bound hc
  obtain ⟨d1, d2⟩ := bound hd
  obtain ⟨e1, e2⟩ := bound he
  have hm : (0 : ℝ) < 1 - ε := by linarith
  have hb0 : 0 < 1 + b := by linarith
  have up : (1 + a) * (1 + c) * (1 + d) * (1 + e) ≤ (1 + ε) ^ 4 := by
    have q1 : (1 + a) * (1 + c) ≤ (1 + ε) * (1 + ε) := mul_le_mul a2 c2 (by linarith) (by linarith)
    have q2 : (1 + a) * (1 + c) * (1 + d) ≤ (1 + ε) * (1 + ε) * (1 + ε) :=
      mul_le_mul q1 d2 (by linarith) (by positivity)
    have q3 : (1 + a) * (1 + c) * (1 + d) * (1 + e) ≤ (1 + ε) * (1 + ε) * (1 + ε) * (1 + ε) :=
      mul_le_mul q2 e2 (by linarith) (by positivity)
    calc _ ≤ _ := q3
      _ = _ := by ring
  have low : (1 - ε) ^ 4 ≤ (1 + a) * (1 + c) * (1 + d) * (1 + e) := by
    have q1 : (1 - ε) * (1 - ε) ≤ (1 + a) * (1 + c) := mul_le_mul a1 c1 hm.le (by linarith)
    have q0 : 0 ≤ (1 + a) * (1 + c) := mul_nonneg (by linarith) (by linarith)
    have q2 : (1 - ε) * (1 - ε) * (1 - ε) ≤ (1 + a) * (1 + c) * (1 + d) := mul_le_mul q1 d1 hm.le q0
    have q3 : (1 - ε) * (1 - ε) * (1 - ε) * (1 - ε) ≤ (1 + a) * (1 + c) * (1 + d) * (1 + e) :=
      mul_le_mul q2 e1 hm.le (mul_nonneg q0 (by linarith))
    calc _ = (1 - ε) * (1 - ε) * (1 - ε) * (1 - ε) := by ring
      _ ≤ _ := q3
  have eq : (1 + a) / (1 + b) * (1 + c) * (1 + d) * (1 + e) =
      (1 + a) * (1 + c) * (1 + d) * (1 + e) / (1 + b) := by ring
  rw [eq, abs_le]
  have p1 : (1 + ε) ^ 4 ≤ (1 + 6 * ε) * (1 - ε) := by
    have : 0 ≤ ε * (1 - 12 * ε - 4 * ε ^ 2 - ε ^ 3) := by
      refine mul_nonneg h0 ?_
      have s2 : ε ^ 2 ≤ (1 / 20) ^ 2 := pow_le_pow_left₀ h0 h1 2
      have s3 : ε ^ 3 ≤ (1 / 20) ^ 3 := pow_le_pow_left₀ h0 h1 3
      norm_num at s2 s3
      linarith
    nlinarith
  have p2 : (1 - 6 * ε) * (1 + ε) ≤ (1 - ε) ^ 4 := by
    have := one_add_mul_le_pow (show (-2 : ℝ) ≤ -ε by linarith) 4
    rw [show 1 + -ε = 1 - ε by ring] at this
    push_cast at this
    nlinarith
  constructor
  · have : 1 - 6 * ε ≤ (1 + a) * (1 + c) * (1 + d) * (1 + e) / (1 + b) := by
      rw [le_div_iff₀ hb0]
      have : (1 - 6 * ε) * (1 + b) ≤ (1 - 6 * ε) * (1 + ε) :=
        mul_le_mul_of_nonneg_left b2 (by linarith)
      linarith
    linarith
  · have : (1 + a) * (1 + c) * (1 + d) * (1 + e) / (1 + b) ≤ 1 + 6 * ε := by
      rw [div_le_iff₀ hb0]
      have : (1 + 6 * ε) * (1 - ε) ≤ (1 + 6 * ε) * (1 + b) :=
        mul_le_mul_of_nonneg_left b1 (by linarith)
      linarith
    linarith

/-- One bin: how far the ordinate is from the line through the points. -/
theorem linearRounded_error (h : RoundsWithin ε rd) (h0 : 0 ≤ ε) (h1 : ε ≤ 1 / 20) {p1 p2 : ℝ × ℝ}
    (hlt : p1.1 < p2.1) {x : ℝ} (hx1 : p1.1 ≤ x) (hx2 : x ≤ p2.1) :
    |linearRounded rd p1 p2 x - (p1.2 + (p2.2 - p1.2) / (p2.1 - p1.1) * (x - p1.1))| ≤
      ε * max |p1.2| |p2.2| + 7 * ε * |p2.2 - p1.2| := by
  have hd : 0 < p2.1 - p1.1 := by linarith
  obtain ⟨a, ha, ea⟩ := h.rel h0 (p2.2 - p1.2)
  obtain ⟨b, hb, eb⟩ := h.rel h0 (p2.1 - p1.1)
  obtain ⟨c, hc, ec⟩ := h.rel h0 (rd (p2.2 - p1.2) / rd (p2.1 - p1.1))
  obtain ⟨d, hd', ed⟩ := h.rel h0 (x - p1.1)
  obtain ⟨e, he, ee⟩ := h.rel h0 (rd (rd (p2.2 - p1.2) / rd (p2.1 - p1.1)) * rd (x - p1.1))
  obtain ⟨f, hf, ef⟩ := h.rel h0
    (p1.2 + rd (rd (rd (p2.2 - p1.2) / rd (p2.1 - p1.1)) * rd (x - p1.1)))
  have hb0 : 1 + b ≠ 0 := by
    have := (abs_le.1 hb).1
    intro hz; linarith
  have key := rel_factor h0 h1 ha hb hc hd' he
  rw [linearRounded, ef, ee, ec, ed, ea, eb]
  set t := (p2.2 - p1.2) / (p2.1 - p1.1) * (x - p1.1) with ht
  set r := (1 + a) / (1 + b) * (1 + c) * (1 + d) * (1 + e) with hr
  have e1 : (p2.2 - p1.2) * (1 + a) / ((p2.1 - p1.1) * (1 + b)) * (1 + c) * ((x - p1.1) * (1 + d)) *
      (1 + e) = t * r := by
    rw [ht, hr, mul_div_mul_comm]
    ring
  rw [e1]
  have hfrac : 0 ≤ (x - p1.1) / (p2.1 - p1.1) ∧ (x - p1.1) / (p2.1 - p1.1) ≤ 1 :=
    ⟨div_nonneg (by linarith) hd.le, by rw [div_le_one hd]; linarith⟩
  have ht' : t = (p2.2 - p1.2) * ((x - p1.1) / (p2.1 - p1.1)) := by rw [ht]; ring
  have htabs : |t| ≤ |p2.2 - p1.2| := by
    rw [ht', abs_mul, abs_of_nonneg hfrac.1]
    exact mul_le_of_le_one_right (abs_nonneg _) hfrac.2
  have hmid : |p1.2 + t| ≤ max |p1.2| |p2.2| := by
    have : p1.2 + t = (1 - (x - p1.1) / (p2.1 - p1.1)) * p1.2 +
        (x - p1.1) / (p2.1 - p1.1) * p2.2 := by rw [ht']; ring
    rw [this]
    refine (abs_add_le _ _).trans ?_
    rw [abs_mul, abs_mul, abs_of_nonneg hfrac.1, abs_of_nonneg (by linarith [hfrac.2])]
    have m1 := mul_le_mul_of_nonneg_left (le_max_left |p1.2| |p2.2|)
      (by linarith [hfrac.2] : 0 ≤ 1 - (x - p1.1) / (p2.1 - p1.1))
    have m2 := mul_le_mul_of_nonneg_left (le_max_right |p1.2| |p2.2|) hfrac.1
    linarith
  have e2 : (p1.2 + t * r) * (1 + f) - (p1.2 + t) = f * (p1.2 + t) + (1 + f) * ((r - 1) * t) := by ring
  rw [e2]
  refine (abs_add_le _ _).trans ?_
  rw [abs_mul f, abs_mul (1 + f), abs_mul (r - 1)]
  have hf1 : |1 + f| ≤ 1 + ε := by
    have := abs_add_le 1 f
    rw [abs_one] at this
    linarith
  have g1 : |f| * |p1.2 + t| ≤ ε * max |p1.2| |p2.2| := mul_le_mul hf hmid (abs_nonneg _) h0
  have g2 : |r - 1| * |t| ≤ 6 * ε * |p2.2 - p1.2| := mul_le_mul key htabs (abs_nonneg _) (by linarith)
  have g3 : |1 + f| * (|r - 1| * |t|) ≤ (1 + ε) * (6 * ε * |p2.2 - p1.2|) :=
    mul_le_mul hf1 g2 (by positivity) (by linarith)
  have g4 : (1 + ε) * (6 * ε * |p2.2 - p1.2|) ≤ 7 * ε * |p2.2 - p1.2| := by
    have : 0 ≤ ε * |p2.2 - p1.2| := mul_nonneg h0 (abs_nonneg _)
    nlinarith
  linarith

theorem interpolateRounded_inside (h : RoundsWithin ε rd) (h0 : 0 ≤ ε) (h1 : ε ≤ 1 / 20) {extrap : Extrap}
    {l : Points} {x : ℝ} {i : Nat} {p1 p2 : ℝ × ℝ} (hb : findBinLimits l x = .ok (false, i))
    (e1 : l[i]? = some p1) (e2 : l[i + 1]? = some p2) (hlt : p1.1 < p2.1) :
    interpolateRounded rd extrap l x = .ok (some (linearRounded rd p1 p2 x)) := by
  have hd : rd (p2.1 - p1.1) ≠ 0 := by
    have := (h.bounds (show 0 ≤ p2.1 - p1.1 by linarith)).1
    have hp : 0 < (1 - ε) * (p2.1 - p1.1) := mul_pos (by linarith) (by linarith)
    exact (lt_of_lt_of_le hp this).ne'
  simp [interpolateRounded, hb, e1, e2, hd]

/-- **C13** with rounding, linear-linear rule (partial: up to rounding errors).  Between two
neighbouring points of an increasing grid the value is that of the line through them, up to `ε` times
the larger ordinate and `7 ε` times the difference of the ordinates. -/
theorem C13_rounded_partial (h : RoundsWithin ε rd) (h0 : 0 ≤ ε) (he : ε ≤ 1 / 20) (extrap : Extrap)
    {l : Points} (hi : Increasing l) (i : Nat) (p1 p2 : ℝ × ℝ) (h1 : l[i]? = some p1)
    (h2 : l[i + 1]? = some p2) (x : ℝ) (hx1 : p1.1 < x ∨ i = 0 ∧ p1.1 = x) (hx2 : x ≤ p2.1) :
    ∃ v, interpolateRounded rd extrap l x = .ok (some v) ∧
      |v - (p1.2 + (p2.2 - p1.2) / (p2.1 - p1.1) * (x - p1.1))| ≤
        ε * max |p1.2| |p2.2| + 7 * ε * |p2.2 - p1.2| := by
  have hle : p1.1 ≤ x := by rcases hx1 with h | ⟨-, h⟩ <;> linarith
  have hlt := hi.lt h1 h2 (by omega)
  rcases bin_between hi h1 h2 hle hx2 with ⟨a, -⟩ | ⟨a, b, -⟩
  · exact ⟨_, interpolateRounded_inside h h0 he a h1 h2 hlt, linearRounded_error h h0 he hlt hle hx2⟩
  · rcases hx1 with h | ⟨h, -⟩
    · linarith
    · omega

/-- **C13** with rounding, grid points (partial: up to rounding errors).  At the first abscissa the
value is exact; at the others it differs from the ordinate by rounding errors of the size of the
ordinates of the point and of the one before. -/
theorem C13_rounded_points_partial (h : RoundsWithin ε rd) (h0 : 0 ≤ ε) (he : ε ≤ 1 / 20) (extrap : Extrap)
    {l : Points} (hi : Increasing l) (i : Nat) (p1 p2 : ℝ × ℝ) (h1 : l[i]? = some p1)
    (h2 : l[i + 1]? = some p2) :
    (i = 0 → rd p1.2 = p1.2 → interpolateRounded rd extrap l p1.1 = .ok (some p1.2)) ∧
    ∃ v, interpolateRounded rd extrap l p2.1 = .ok (some v) ∧
      |v - p2.2| ≤ ε * max |p1.2| |p2.2| + 7 * ε * |p2.2 - p1.2| := by
  have hlt := hi.lt h1 h2 (by omega)
  constructor
  · rintro rfl hr
    rcases bin_between hi h1 h2 (le_refl _) hlt.le with ⟨a, -⟩ | ⟨a, -, -⟩
    · rw [interpolateRounded_inside h h0 he a h1 h2 hlt, linearRounded, sub_self, h.zero, mul_zero,
        h.zero, add_zero, hr]
    · omega
  · obtain ⟨v, e, hv⟩ := C13_rounded_partial h h0 he extrap hi i p1 p2 h1 h2 p2.1 (Or.inl hlt) (le_refl _)
    refine ⟨v, e, ?_⟩
    have : p1.2 + (p2.2 - p1.2) / (p2.1 - p1.1) * (p2.1 - p1.1) = p2.2 := by
      rw [div_mul_cancel₀ _ (by linarith : p2.1 - p1.1 ≠ 0)]; ring
    rwa [this] at hv

/-- **C13** is violated in doubles: a density that falls from 7 at 0 to 0 at 25 is negative at 25,
although 25 is a point of the grid. -/
theorem C13_negative_violated (extrap : Extrap) : ∃ v,
    interpolateRounded round53 extrap [(0, 7), (25, 0)] 25 = .ok (some v) ∧ v < 0 := by
  have i7 : round53 7 = 7 := by
    rw [round53_eval 2 (7 * 2 ^ 50) (by norm_num) (by norm_num) (Or.inl (by norm_num))]; norm_num
  have i25 : round53 25 = 25 := by
    rw [round53_eval 4 (25 * 2 ^ 48) (by norm_num) (by norm_num) (Or.inl (by norm_num))]; norm_num
  have q : round53 (7 / 25) = 5044031582654956 / 2 ^ 54 := by
    rw [round53_eval (-2) 5044031582654956 (by norm_num) (by norm_num) (Or.inl (by norm_num [abs_lt]))]
    norm_num
  have p : round53 (5044031582654956 / 2 ^ 54 * 25) = 7881299347898369 / 2 ^ 50 := by
    rw [round53_eval 2 7881299347898369 (by norm_num) (by norm_num) (Or.inl (by norm_num [abs_lt]))]
    norm_num
  have r : round53 (1 / 2 ^ 50) = 1 / 2 ^ 50 := by
    rw [round53_eval (-50) (2 ^ 52) (by norm_num) (by norm_num) (Or.inl (by norm_num))]; norm_num
  have hi : Increasing [((0 : ℝ), (7 : ℝ)), (25, 0)] := by simp [Increasing]
  rcases bin_between (x := 25) hi (i := 0) (p1 := (0, 7)) (p2 := (25, 0)) rfl rfl (by norm_num) (by norm_num)
    with ⟨a, -⟩ | ⟨a, -, -⟩
  · refine ⟨_, interpolateRounded_inside round53_within (by positivity) (by norm_num) a rfl rfl
      (by norm_num), ?_⟩
    have n1 : round53 (-7) = -7 := by rw [round53_neg, i7]
    have n2 : round53 (-7 / 25) = -(5044031582654956 / 2 ^ 54) := by rw [neg_div, round53_neg, q]
    have n3 : round53 (-(5044031582654956 / 2 ^ 54) * 25) = -(7881299347898369 / 2 ^ 50) := by rw [neg_mul, round53_neg, p]
    have n4 : (7 : ℝ) + -(7881299347898369 / 2 ^ 50) = -(1 / 2 ^ 50) := by norm_num
    rw [linearRounded]
    dsimp only
    rw [sub_zero, i25, zero_sub, n1, n2, n3, n4, round53_neg, r]
    norm_num
  · omega

/-- Linear interpolation on a grid of three points in doubles. -/
example : ∃ v, interpolateRounded round53 .throw [(1, 5), (2, 7), (4, 3)] 3 = .ok (some v) ∧
    |v - 5| ≤ 35 * (2 : ℝ) ^ (-53 : ℤ) := by
  obtain ⟨v, e, hv⟩ := C13_rounded_partial round53_within (by positivity) (by norm_num) .throw
    (l := [(1, 5), (2, 7), (4, 3)]) (by simp [Increasing]; norm_num) 1 (2, 7) (4, 3) rfl rfl 3
    (Or.inl (by norm_num)) (by norm_num)
  refine ⟨v, e, ?_⟩
  norm_num at hv ⊢
  exact hv

end Marley.Props
