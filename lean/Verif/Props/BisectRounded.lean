import Verif.Model.BisectRounded
import Verif.Props.Sampling
import Verif.Props.ClosestRounded

/-!
# C22 with rounding

`RoundsWithin u rd`: the rounding `rd` keeps the order, rounds what is rounded already to
itself, is compatible with doubling, and has the relative error `u`.  That holds for doubles,
range of exponents apart, with `u = 2 ^ -53` (`round53_within`), and for exact arithmetic with
`u = 0`.
-/

set_option autoImplicit false

namespace Marley.Props
open Marley Marley.Sampling Marley.Scheme

variable {G : Type}

/-- What is used about the rounding of doubles. -/
structure RoundsWithin (u : ℝ) (rd : ℝ → ℝ) : Prop where
  mono : Monotone rd
  idem : ∀ x, rd (rd x) = rd x
  two : ∀ x, rd (2 * x) = 2 * rd x
  one : rd 1 = 1
  error : ∀ x, |rd x - x| ≤ u * |x|

theorem id_within : RoundsWithin 0 id :=
  ⟨monotone_id, fun _ => rfl, fun _ => rfl, rfl, fun _ => by simp⟩

theorem log_two_mul {x : ℝ} (h : 0 < x) : Int.log 2 (2 * x) = Int.log 2 x + 1 := by
  have h1 := Int.zpow_log_le_self (b := 2) (by norm_num) h
  have h2 := Int.lt_zpow_succ_log_self (b := 2) (by norm_num) x
  refine log_eq ?_ ?_
  · rw [zpow_add_one₀ (by norm_num)]
    push_cast at h1
    linarith
  · rw [zpow_add_one₀ (by norm_num)]
    push_cast at h2
    linarith

theorem round53_two (x : ℝ) : round53 (2 * x) = 2 * round53 x := by
  have pos : ∀ x : ℝ, 0 < x → round53 (2 * x) = 2 * round53 x := by
    intro x h
    have hu : ulp (2 * x) = 2 * ulp x := by
      unfold ulp
      rw [log_two_mul h, show Int.log 2 x + 1 - 52 = Int.log 2 x - 52 + 1 by ring,
        zpow_add_one₀ (by norm_num)]
      ring
    rw [round53, if_pos (by linarith), round53, if_pos h, hu, mul_div_mul_left _ _ (by norm_num)]
    ring
  rcases lt_trichotomy x 0 with h | h | h
  · have := pos (-x) (by linarith)
    rw [round53_neg, mul_neg, round53_neg] at this
    linarith
  · subst h; simp [round53_zero]
  · exact pos x h

theorem round53_idem (x : ℝ) : round53 (round53 x) = round53 x := by
  have pos : ∀ x : ℝ, 0 < x → round53 (round53 x) = round53 x := by
    intro x h
    obtain ⟨h1, h2⟩ := significand h
    have e : round53 x = roundEven (x / ulp x) * (2 : ℝ) ^ (Int.log 2 x - 52) := by
      rw [round53, if_pos h]; rfl
    rw [e]
    exact round53_rep _ _ h1 h2
  rcases lt_trichotomy x 0 with h | h | h
  · have := pos (-x) (by linarith)
    rw [round53_neg, round53_neg] at this
    linarith
  · subst h; simp [round53_zero]
  · exact pos x h

theorem round53_within : RoundsWithin ((2 : ℝ) ^ (-53 : ℤ)) round53 :=
  ⟨round53_mono, round53_idem, round53_two, round53_one, round53_error⟩

namespace RoundsWithin
variable {u : ℝ} {rd : ℝ → ℝ}

theorem half (h : RoundsWithin u rd) (x : ℝ) : rd (rd x / 2) = rd x / 2 := by
  have h1 := h.two (rd x / 2)
  rw [show 2 * (rd x / 2) = rd x by ring, h.idem] at h1
  linarith

theorem zero (h : RoundsWithin u rd) : rd 0 = 0 := by
  have := h.two 0
  rw [mul_zero] at this
  linarith

theorem mid_mem (h : RoundsWithin u rd) {a b : ℝ} (ha : rd a = a) (hb : rd b = b) (hab : a ≤ b) :
    a ≤ rd (rd (a + b) / 2) ∧ rd (rd (a + b) / 2) ≤ b := by
  rw [h.half]
  have h1 := h.mono (by linarith : 2 * a ≤ a + b)
  have h2 := h.mono (by linarith : a + b ≤ 2 * b)
  rw [h.two, ha] at h1
  rw [h.two, hb] at h2
  constructor <;> linarith

theorem mid_error (h : RoundsWithin u rd) (hu : 0 ≤ u) {a b M : ℝ} (ha : |a| ≤ M) (hb : |b| ≤ M) :
    |rd (rd (a + b) / 2) - (a + b) / 2| ≤ u * M := by
  rw [h.half, ← sub_div, abs_div, abs_two]
  have h1 := h.error (a + b)
  have h2 : u * |a + b| ≤ u * (2 * M) :=
    mul_le_mul_of_nonneg_left ((abs_add_le a b).trans (by linarith)) hu
  linarith

end RoundsWithin

theorem between_abs {a b m M : ℝ} (h1 : a ≤ m) (h2 : m ≤ b) (ha : |a| ≤ M) (hb : |b| ≤ M) : |m| ≤ M := by
  rw [abs_le] at *
  constructor <;> linarith

theorem bisectRounded_range {u : ℝ} {rd : ℝ → ℝ} (hr : RoundsWithin u rd) {cdf : ℝ → ℝ}
    {norm p tol : ℝ} (n : Nat) {a b x : ℝ} (h : a ≤ b) (ha : rd a = a) (hb : rd b = b)
    (e : bisectRounded rd cdf norm p tol n a b = some x) : a ≤ x ∧ x ≤ b := by
  induction n generalizing a b with
  | zero => simp [bisectRounded] at e
  | succ n ih =>
    rw [bisectRounded] at e
    dsimp only at e
    have hm := hr.mid_mem ha hb h
    split_ifs at e with h1 h2 h3
    · cases e; exact hm
    · have := ih hm.1 ha (hr.idem _) e; exact ⟨this.1, this.2.trans hm.2⟩
    · have := ih hm.2 (hr.idem _) hb e; exact ⟨hm.1.trans this.1, this.2⟩
    · cases e; exact hm

theorem bisectRounded_some {u : ℝ} {rd : ℝ → ℝ} (hr : RoundsWithin u rd) (hu : 0 ≤ u) (cdf : ℝ → ℝ)
    (norm p tol M : ℝ) (n : Nat) (a b : ℝ) (h : a ≤ b) (ha : rd a = a) (hb : rd b = b)
    (hM : |a| ≤ M) (hM' : |b| ≤ M) (hw : (1 + u) * ((b - a - 2 * u * M) / 2 ^ n + 2 * u * M) ≤ tol) :
    ∃ x, bisectRounded rd cdf norm p tol (n + 1) a b = some x := by
  induction n generalizing a b with
  | zero =>
    have : rd (b - a) ≤ tol := by
      have h1 := (abs_le.1 (hr.error (b - a))).2
      rw [abs_of_nonneg (by linarith : 0 ≤ b - a)] at h1
      simp only [pow_zero, div_one, sub_add_cancel] at hw
      linarith
    rw [bisectRounded, if_neg (not_lt.2 this)]
    exact ⟨_, rfl⟩
  | succ n ih =>
    rw [bisectRounded]
    dsimp only
    have hm := hr.mid_mem ha hb h
    have he := abs_le.1 (hr.mid_error hu hM hM')
    have hmM := between_abs hm.1 hm.2 hM hM'
    have step : ∀ w : ℝ, w ≤ (b - a) / 2 + u * M →
        (1 + u) * ((w - 2 * u * M) / 2 ^ n + 2 * u * M) ≤ tol := by
      intro w hw'
      refine le_trans (mul_le_mul_of_nonneg_left ?_ (by linarith)) hw
      rw [pow_succ, mul_comm ((2 : ℝ) ^ n) 2, ← div_div]
      have : (0 : ℝ) < 2 ^ n := by positivity
      have h1 : (w - 2 * u * M) / 2 ^ n ≤ ((b - a - 2 * u * M) / 2) / 2 ^ n :=
        div_le_div_of_nonneg_right (by linarith) this.le
      linarith
    split_ifs
    · exact ⟨_, rfl⟩
    · exact ih _ _ hm.1 ha (hr.idem _) hM hmM (step _ (by linarith))
    · exact ih _ _ hm.2 (hr.idem _) hb hmM hM' (step _ (by linarith))
    · exact ⟨_, rfl⟩

theorem bisectRounded_crosses {u : ℝ} {rd : ℝ → ℝ} (hr : RoundsWithin u rd) (hu : 0 ≤ u) (hu1 : u < 1)
    {cdf : ℝ → ℝ} {norm p tol lo hi M : ℝ} (htol : 0 ≤ tol)
    (hF : ∀ s t, lo ≤ s → s ≤ t → t ≤ hi → rd (cdf s / norm) ≤ rd (cdf t / norm)) (n : Nat) {a b x : ℝ}
    (hab : a ≤ b) (ha : rd a = a) (hb : rd b = b) (hM : |a| ≤ M) (hM' : |b| ≤ M)
    (hla : lo ≤ a) (hbh : b ≤ hi)
    (hl : ∀ t, lo ≤ t → t < a → rd (cdf t / norm) ≤ p)
    (hr' : ∀ t, b < t → t ≤ hi → p ≤ rd (cdf t / norm))
    (e : bisectRounded rd cdf norm p tol n a b = some x) :
    ∃ z, Crosses (fun t => rd (cdf t / norm)) lo hi p z ∧
      |x - z| ≤ tol / (1 - u) / 2 + u * M := by
  have hM0 : 0 ≤ M := (abs_nonneg a).trans hM
  have hbound : 0 ≤ tol / (1 - u) / 2 + u * M := by
    have : 0 ≤ tol / (1 - u) := div_nonneg htol (by linarith)
    have := mul_nonneg hu hM0
    linarith
  induction n generalizing a b with
  | zero => simp [bisectRounded] at e
  | succ n ih =>
    rw [bisectRounded] at e
    dsimp only at e
    have hm := hr.mid_mem ha hb hab
    have hmM := between_abs hm.1 hm.2 hM hM'
    have he := abs_le.1 (hr.mid_error hu hM hM')
    split_ifs at e with h1 h2 h3
    · cases e
      refine ⟨_, ⟨hla.trans hm.1, hm.2.trans hbh, ?_, ?_⟩, by simpa using hbound⟩
      · intro t ht htz
        rw [← h2]; exact hF t _ ht htz.le (hm.2.trans hbh)
      · intro t htz ht
        rw [← h2]; exact hF _ t (hla.trans hm.1) htz.le ht
    · refine ih hm.1 ha (hr.idem _) hM hmM hla (hm.2.trans hbh) hl ?_ e
      intro t ht hth
      exact h3.le.trans (hF _ t (hla.trans hm.1) ht.le hth)
    · refine ih hm.2 (hr.idem _) hb hmM hM' (hla.trans hm.1) hbh ?_ hr' e
      intro t ht hta
      exact (hF t _ ht hta.le (hm.2.trans hbh)).trans (not_lt.1 h3)
    · cases e
      obtain ⟨z, hz, h4, h5⟩ := exists_crossing (F := fun t => rd (cdf t / norm)) hab hla hbh hF hl hr'
      refine ⟨z, hz, ?_⟩
      have hw : b - a ≤ tol / (1 - u) := by
        rw [le_div_iff₀ (by linarith)]
        have h6 := (abs_le.1 (hr.error (b - a))).1
        rw [abs_of_nonneg (by linarith : 0 ≤ b - a)] at h6
        have := not_lt.1 h1
        linarith
      rw [abs_le]
      constructor <;> linarith

theorem bisectRounded_id (cdf : ℝ → ℝ) (norm p tol : ℝ) (n : Nat) (a b : ℝ) :
    bisectRounded id cdf norm p tol n a b = bisect cdf norm p tol n a b := by
  induction n generalizing a b with
  | zero => rfl
  | succ n ih =>
    rw [bisectRounded, bisect]
    simp only [id, ih]

/-- Without rounding it is the function of the theorems above. -/
theorem inverseTransformRounded_exact {E : Engine G} (fuel : Nat) (cdf : ℝ → ℝ)
    (xmin xmax tolerance : ℝ) (g : G) :
    inverseTransformRounded exact E fuel cdf xmin xmax tolerance g =
      inverseTransform exact E fuel cdf xmin xmax tolerance g := by
  rw [inverseTransformRounded, inverseTransform]
  simp only [show exact.rd = id from rfl, bisectRounded_id]

/-- **C22** with rounding, range: the point returned lies in [xmin, xmax]. -/
theorem C22_rounded_range {A : Arith} {u : ℝ} (hA : RoundsWithin u A.rd) {E : Engine G} (fuel : Nat)
    (cdf : ℝ → ℝ) {xmin xmax tolerance : ℝ} (h : xmin ≤ xmax) (hmin : A.rd xmin = xmin)
    (hmax : A.rd xmax = xmax) (g : G) {x : ℝ} {g' : G}
    (e : inverseTransformRounded A E fuel cdf xmin xmax tolerance g = some (x, g')) :
    xmin ≤ x ∧ x ≤ xmax := by
  unfold inverseTransformRounded at e
  dsimp only at e
  split_ifs at e with h1 h2
  · cases e; exact ⟨le_refl _, h⟩
  · cases e; exact ⟨h, le_refl _⟩
  · simp only [Option.map_eq_some_iff, Prod.mk.injEq] at e
    obtain ⟨y, hy, rfl, -⟩ := e
    exact bisectRounded_range hA fuel h hmin hmax hy

/-- **C22** with rounding, termination: the loop ends if the tolerance is larger than about four
rounding errors of the ends of the range. -/
theorem C22_rounded_terminates_partial {A : Arith} {u : ℝ} (hA : RoundsWithin u A.rd) (hu : 0 ≤ u)
    {E : Engine G} (cdf : ℝ → ℝ) {xmin xmax tolerance M : ℝ} (h : xmin ≤ xmax) (hmin : A.rd xmin = xmin)
    (hmax : A.rd xmax = xmax) (hM : |xmin| ≤ M) (hM' : |xmax| ≤ M) (n : Nat)
    (ht : (1 + u) * ((xmax - xmin) / 2 ^ n + 2 * u * M) ≤ tolerance) (g : G) :
    ∃ r, inverseTransformRounded A E (n + 1) cdf xmin xmax tolerance g = some r := by
  unfold inverseTransformRounded
  dsimp only
  split_ifs
  · exact ⟨_, rfl⟩
  · exact ⟨_, rfl⟩
  · have hM0 : 0 ≤ M := (abs_nonneg xmin).trans hM
    obtain ⟨x, hx⟩ := bisectRounded_some hA hu cdf (cdf xmax) (uniform A E 0 1 true g).1 tolerance M n
      xmin xmax h hmin hmax hM hM' (by
        refine le_trans (mul_le_mul_of_nonneg_left ?_ (by linarith)) ht
        have h1 : (xmax - xmin - 2 * u * M) / 2 ^ n ≤ (xmax - xmin) / 2 ^ n :=
          div_le_div_of_nonneg_right (by nlinarith) (by positivity)
        linarith)
    rw [hx]
    exact ⟨_, rfl⟩

/-- **C22** with rounding, accuracy: within half the tolerance and a rounding error, there is a
point where the normalised cumulative function, as computed, crosses the drawn probability. -/
theorem C22_rounded_crossing_partial {A : Arith} {u : ℝ} (hA : RoundsWithin u A.rd) (hu : 0 ≤ u)
    (hu1 : u < 1) {E : Engine G} (fuel : Nat) {cdf : ℝ → ℝ} {xmin xmax tolerance M : ℝ}
    (h : xmin ≤ xmax) (hmin : A.rd xmin = xmin) (hmax : A.rd xmax = xmax) (hM : |xmin| ≤ M)
    (hM' : |xmax| ≤ M) (ht : 0 ≤ tolerance)
    (hc : ∀ s t, xmin ≤ s → s ≤ t → t ≤ xmax → cdf s ≤ cdf t) (h0 : 0 ≤ cdf xmin)
    (h1 : 0 < cdf xmax) (g : G) {x : ℝ} {g' : G}
    (e : inverseTransformRounded A E fuel cdf xmin xmax tolerance g = some (x, g')) :
    ∃ z, Crosses (fun t => A.rd (cdf t / cdf xmax)) xmin xmax (uniform A E 0 1 true g).1 z ∧
      |x - z| ≤ tolerance / (1 - u) / 2 + u * M := by
  have hM0 : 0 ≤ M := (abs_nonneg xmin).trans hM
  have hbound : 0 ≤ tolerance / (1 - u) / 2 + u * M := by
    have : 0 ≤ tolerance / (1 - u) := div_nonneg ht (by linarith)
    have := mul_nonneg hu hM0
    linarith
  have hF : ∀ s t, xmin ≤ s → s ≤ t → t ≤ xmax → A.rd (cdf s / cdf xmax) ≤ A.rd (cdf t / cdf xmax) :=
    fun s t hs hst ht => hA.mono ((div_le_div_iff_of_pos_right h1).2 (hc s t hs hst ht))
  unfold inverseTransformRounded at e
  dsimp only at e
  split_ifs at e with hp hp'
  · cases e
    refine ⟨xmin, ⟨le_refl _, h, fun t ha hb => absurd ha (not_le.2 hb), ?_⟩, by simpa using hbound⟩
    intro t hxt htx
    rw [hp, ← hA.zero]
    exact hA.mono (div_nonneg (h0.trans (hc xmin t (le_refl _) hxt.le htx)) h1.le)
  · cases e
    refine ⟨xmax, ⟨h, le_refl _, ?_, fun t ha hb => absurd hb (not_le.2 ha)⟩, by simpa using hbound⟩
    intro t hxt htx
    rw [hp', ← hA.one]
    exact hA.mono ((div_le_one h1).2 (hc t xmax hxt htx.le (le_refl _)))
  · simp only [Option.map_eq_some_iff, Prod.mk.injEq] at e
    obtain ⟨y, hy, rfl, -⟩ := e
    exact bisectRounded_crosses hA hu hu1 ht hF fuel h hmin hmax hM hM' (le_refl _) (le_refl _)
      (fun t ha hb => absurd ha (not_le.2 hb)) (fun t ha hb => absurd hb (not_le.2 ha)) hy

/-- **C22** for doubles, exponents apart: between -4000 and 4000 (MeV), and with the tolerance of
`1e-12` that is the default, the loop ends after at most 60 rounds with a point of the range that
is within `1e-12` of a crossing. -/
theorem C22_doubles_partial {E : Engine G} {cdf : ℝ → ℝ} {xmin xmax : ℝ}
    (h : xmin ≤ xmax) (hmin : round53 xmin = xmin) (hmax : round53 xmax = xmax) (hM : |xmin| ≤ 4000)
    (hM' : |xmax| ≤ 4000) (hc : ∀ s t, xmin ≤ s → s ≤ t → t ≤ xmax → cdf s ≤ cdf t)
    (h0 : 0 ≤ cdf xmin) (h1 : 0 < cdf xmax) (g : G) :
    ∃ x g', inverseTransformRounded binary64 E 60 cdf xmin xmax (1 / 10 ^ 12) g = some (x, g') ∧
      xmin ≤ x ∧ x ≤ xmax ∧
      ∃ z, Crosses (fun t => round53 (cdf t / cdf xmax)) xmin xmax
        (uniform binary64 E 0 1 true g).1 z ∧ |x - z| ≤ 1 / 10 ^ 12 := by
  have hA : RoundsWithin ((2 : ℝ) ^ (-53 : ℤ)) binary64.rd := round53_within
  have hw : xmax - xmin ≤ 8000 := by
    have := abs_le.1 hM; have := abs_le.1 hM'; linarith
  obtain ⟨⟨x, g'⟩, e⟩ := C22_rounded_terminates_partial hA (by positivity) (E := E) cdf
    (tolerance := 1 / 10 ^ 12) h hmin hmax hM hM' 59 (by
      have : (xmax - xmin) / 2 ^ 59 ≤ 8000 / 2 ^ 59 :=
        div_le_div_of_nonneg_right hw (by positivity)
      norm_num at this ⊢
      linarith) g
  obtain ⟨hx1, hx2⟩ := C22_rounded_range hA 60 cdf h hmin hmax g e
  obtain ⟨z, hz, hxz⟩ := C22_rounded_crossing_partial hA (by positivity) (by norm_num) 60 h hmin hmax
    hM hM' (by positivity) hc h0 h1 g e
  refine ⟨x, g', e, hx1, hx2, z, hz, hxz.trans ?_⟩
  norm_num

/-- The cumulative function `x` on [0, 1]. -/
example (g : Unit) : ∃ x g', inverseTransformRounded binary64 half 60 (fun x => x) 0 1 (1 / 10 ^ 12) g =
      some (x, g') ∧ 0 ≤ x ∧ x ≤ 1 ∧
      ∃ z, Crosses (fun t => round53 (t / 1)) 0 1 (uniform binary64 half 0 1 true g).1 z ∧
        |x - z| ≤ 1 / 10 ^ 12 :=
  C22_doubles_partial (by norm_num) round53_zero round53_one (by norm_num) (by norm_num)
    (fun _ _ _ h _ => h) le_rfl (by norm_num) g

/-- A cumulative function that jumps behind 8192. -/
noncomputable def jumpAt8192 (x : ℝ) : ℝ := if x ≤ 8192 then 1 / 4 else 1

theorem jumpAt8192_mono : Monotone jumpAt8192 := by
  intro a b h
  unfold jumpAt8192
  split_ifs <;> linarith

theorem round53_quarter : round53 (1 / 4) = 1 / 4 := by
  have := round53_rep (2 ^ (52 : ℕ)) (-54) le_rfl (by norm_num)
  norm_num at this
  norm_num
  exact this

/-- From the interval [8192, 8192 + 2 ^ (13 - j)] the loop never gets away. -/
theorem bisect_stuck {p : ℝ} (hp : 1 / 4 < p) (hp1 : p < 1) (n : Nat) (j : Nat) (hj : j ≤ 52) :
    bisectRounded round53 jumpAt8192 1 p (1 / 10 ^ 12) n 8192 (8192 + 2 ^ (52 - j) * (2 : ℝ) ^ (-39 : ℤ)) =
      none := by
  induction n generalizing j with
  | zero => rfl
  | succ n ih =>
    rw [bisectRounded]
    dsimp only
    have hwid : round53 (8192 + 2 ^ (52 - j) * (2 : ℝ) ^ (-39 : ℤ) - 8192) =
        2 ^ (52 - j) * (2 : ℝ) ^ (-39 : ℤ) := by
      have := round53_rep (2 ^ (52 : ℕ)) (-39 - j) le_rfl (by norm_num)
      have e : ((2 : ℝ) ^ (52 : ℕ)) * 2 ^ (-39 - (j : ℤ)) = 2 ^ (52 - j) * (2 : ℝ) ^ (-39 : ℤ) := by
        rw [← zpow_natCast, ← zpow_natCast, ← zpow_add₀ (by norm_num), ← zpow_add₀ (by norm_num)]
        congr 1
        push_cast [hj]
        ring
      simp only [Int.cast_pow, Int.cast_ofNat] at this
      rw [e] at this
      rw [add_sub_cancel_left]
      exact this
    have hbig : (2 : ℝ) ^ (-39 : ℤ) ≤ 2 ^ (52 - j) * (2 : ℝ) ^ (-39 : ℤ) :=
      le_mul_of_one_le_left (by positivity) (one_le_pow₀ (by norm_num))
    rw [hwid, if_pos (lt_of_lt_of_le (by norm_num) hbig), div_one]
    rcases Nat.lt_or_ge j 52 with h | h
    · -- the midpoint is exact
      have hsum : round53 (8192 + (8192 + 2 ^ (52 - j) * (2 : ℝ) ^ (-39 : ℤ))) =
          2 * (8192 + 2 ^ (52 - (j + 1)) * (2 : ℝ) ^ (-39 : ℤ)) := by
        have hp52 : (2 : ℤ) ^ (52 - (j + 1)) ≤ 2 ^ 52 :=
          pow_le_pow_right₀ (by norm_num) (by omega)
        have h0 : (0 : ℤ) < 2 ^ (52 - (j + 1)) := by positivity
        have := round53_rep (2 ^ (52 : ℕ) + 2 ^ (52 - (j + 1))) (-38) (by linarith)
          (by norm_num at hp52 ⊢; linarith)
        have e : 8192 + (8192 + 2 ^ (52 - j) * (2 : ℝ) ^ (-39 : ℤ)) =
            ((2 ^ (52 : ℕ) + 2 ^ (52 - (j + 1)) : ℤ) : ℝ) * 2 ^ (-38 : ℤ) := by
          rw [show 52 - j = (52 - (j + 1)) + 1 by omega, pow_succ]
          push_cast
          norm_num
          ring
        rw [e, this]
        push_cast
        norm_num
        ring
      have hmid : round53 (round53 (8192 + (8192 + 2 ^ (52 - j) * (2 : ℝ) ^ (-39 : ℤ))) / 2) =
          8192 + 2 ^ (52 - (j + 1)) * (2 : ℝ) ^ (-39 : ℤ) := by
        rw [round53_within.half, hsum]; ring
      have hgt : (8192 : ℝ) < 8192 + 2 ^ (52 - (j + 1)) * (2 : ℝ) ^ (-39 : ℤ) := by
        have : (0 : ℝ) < 2 ^ (52 - (j + 1)) * (2 : ℝ) ^ (-39 : ℤ) := by positivity
        linarith
      rw [hmid]
      have hF : jumpAt8192 (8192 + 2 ^ (52 - (j + 1)) * (2 : ℝ) ^ (-39 : ℤ)) = 1 := by
        rw [jumpAt8192, if_neg (not_le.2 hgt)]
      rw [hF, round53_one, if_neg hp1.ne', if_pos hp1]
      exact ih (j + 1) (by omega)
    · -- the midpoint is rounded to the lower end
      obtain rfl : j = 52 := by omega
      have hsum : round53 (8192 + (8192 + 2 ^ (52 - 52) * (2 : ℝ) ^ (-39 : ℤ))) = 16384 := by
        have hpos : (0 : ℝ) < 8192 + (8192 + 2 ^ (52 - 52) * (2 : ℝ) ^ (-39 : ℤ)) := by norm_num
        have hlog : Int.log 2 ((8192 : ℝ) + (8192 + 2 ^ (52 - 52) * (2 : ℝ) ^ (-39 : ℤ))) = 14 :=
          log_eq (by norm_num) (by norm_num)
        have hu : ulp ((8192 : ℝ) + (8192 + 2 ^ (52 - 52) * (2 : ℝ) ^ (-39 : ℤ))) = (2 : ℝ) ^ (-38 : ℤ) := by
          unfold ulp; rw [hlog]; norm_num
        have hq : ((8192 : ℝ) + (8192 + 2 ^ (52 - 52) * (2 : ℝ) ^ (-39 : ℤ))) / (2 : ℝ) ^ (-38 : ℤ) =
            ((2 ^ 52 : ℤ) : ℝ) + 1 / 2 := by norm_num
        have hfl : ⌊((2 ^ 52 : ℤ) : ℝ) + 1 / 2⌋ = 2 ^ 52 := by
          rw [Int.floor_intCast_add]; norm_num
        have hfr : Int.fract (((2 ^ 52 : ℤ) : ℝ) + 1 / 2) = 1 / 2 := by
          rw [Int.fract, hfl]; push_cast; ring
        have hre : roundEven (((2 ^ 52 : ℤ) : ℝ) + 1 / 2) = 2 ^ 52 := by
          rw [roundEven, hfr, if_neg (lt_irrefl _), if_neg (lt_irrefl _), hfl, if_pos (by decide)]
        rw [round53, if_pos hpos, hu, hq, hre]
        norm_num
      have hmid : round53 (round53 (8192 + (8192 + 2 ^ (52 - 52) * (2 : ℝ) ^ (-39 : ℤ))) / 2) = 8192 := by
        rw [round53_within.half, hsum]; norm_num
      rw [hmid]
      have hF : jumpAt8192 8192 = 1 / 4 := by rw [jumpAt8192, if_pos le_rfl]
      rw [hF, round53_quarter, if_neg hp.ne, if_neg (not_lt.2 hp.le)]
      exact ih 52 le_rfl

/-- **C22** in full fails for doubles: on [0, 16384], with the tolerance that is the default and a
nondecreasing cumulative function, the loop goes on for ever. -/
theorem C22_endless_violated : Monotone jumpAt8192 ∧ 0 < jumpAt8192 0 ∧
    ∀ fuel, inverseTransformRounded binary64 half fuel jumpAt8192 0 16384 (1 / 10 ^ 12) () = none := by
  refine ⟨jumpAt8192_mono, by rw [jumpAt8192, if_pos (by norm_num)]; norm_num, fun fuel => ?_⟩
  have r1 : round53 (3 / 2) = 3 / 2 := by
    have := round53_rep (3 * 2 ^ (51 : ℕ)) (-52) (by norm_num) (by norm_num)
    norm_num at this
    exact this
  have r2 : round53 (3 / 4) = 3 / 4 := by
    have := round53_two (3 / 4)
    rw [show (2 : ℝ) * (3 / 4) = 3 / 2 by norm_num, r1] at this
    linarith
  have r3 : round53 (1 / 2) = 1 / 2 := by
    have := round53_two (1 / 2)
    rw [show (2 : ℝ) * (1 / 2) = 1 by norm_num, round53_one] at this
    linarith
  obtain ⟨h1, h2⟩ : 1 / 4 < (uniform binary64 half 0 1 true ()).1 ∧
      (uniform binary64 half 0 1 true ()).1 < 1 := by
    have e : (uniform binary64 half 0 1 true ()).1 =
        round53 (round53 (1 / 2 * round53 (binary64.next 1 - 0)) + 0) := rfl
    have hn : binary64.next 1 = 1 + (2 : ℝ) ^ (-52 : ℤ) := by
      have hl : Int.log 2 (1 : ℝ) = 0 := log_eq (by norm_num) (by norm_num)
      simp [binary64, ulp, hl]
    have b1 : 1 ≤ round53 (binary64.next 1 - 0) := by
      have := round53_mono (show (1 : ℝ) ≤ binary64.next 1 - 0 by rw [hn]; norm_num)
      rwa [round53_one] at this
    have b2 : round53 (binary64.next 1 - 0) ≤ 3 / 2 := by
      rw [← r1]
      exact round53_mono (by rw [hn]; norm_num)
    have c1 : 1 / 2 ≤ round53 (1 / 2 * round53 (binary64.next 1 - 0)) := by
      rw [← r3]
      exact round53_mono (by rw [r3]; linarith)
    have c2 : round53 (1 / 2 * round53 (binary64.next 1 - 0)) ≤ 3 / 4 := by
      rw [← r2]
      exact round53_mono (by linarith)
    rw [e, add_zero, round53_idem]
    constructor <;> linarith
  have hnorm : jumpAt8192 16384 = 1 := by rw [jumpAt8192, if_neg (by norm_num)]
  have hbis : bisectRounded binary64.rd jumpAt8192 1 (uniform binary64 half 0 1 true ()).1 (1 / 10 ^ 12)
      fuel 0 16384 = none := by
    cases fuel with
    | zero => rfl
    | succ fuel =>
      have hst := bisect_stuck h1 h2 fuel 0 (by norm_num)
      have r14 : round53 16384 = 16384 := by
        have := round53_rep (2 ^ (52 : ℕ)) (-38) le_rfl (by norm_num)
        norm_num at this
        exact this
      have hF : jumpAt8192 8192 = 1 / 4 := by rw [jumpAt8192, if_pos le_rfl]
      rw [bisectRounded]
      dsimp only
      rw [show binary64.rd = round53 from rfl, sub_zero, zero_add, r14, if_pos (by norm_num),
        show round53 (16384 / 2) = 8192 by
          have := round53_within.half 16384
          rw [r14] at this; rw [this]; norm_num, hF, div_one, round53_quarter, if_neg h1.ne,
        if_neg (not_lt.2 h1.le)]
      rw [show (16384 : ℝ) = 8192 + 2 ^ (52 - 0) * (2 : ℝ) ^ (-39 : ℤ) by norm_num]
      exact hst
  rw [inverseTransformRounded, hnorm, if_neg (by linarith), if_neg h2.ne, hbis]
  rfl

end Marley.Props
