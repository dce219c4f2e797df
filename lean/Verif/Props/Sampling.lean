import Verif.Lemmas.Sampling

/-!
# Properties C18, C22 and C75: sampling and minimisation

The random engine and the rounding of arithmetic are arbitrary (`Engine.Lawful`,
`Arith.Lawful`); both `exact` and `binary64` are lawful (`exact_lawful`,
`binary64_lawful`).  `logged f` is the function `f` remembering all abscissas.
-/

set_option autoImplicit false

namespace Marley.Props
open Marley Marley.Sampling

variable {G : Type}

/-! ## C18 -/

/-- **C18** (partial).  Whenever `rejection_sample` returns: the abscissa is at least
`xmin` and at most the double following `xmax` (see the two theorems below); the
function there is at least the trial ordinate, which is not negative; the running
maximum has not decreased and bounds the function at every abscissa tried,
including those of the search for the maximum.  Assumed: the function is
nonnegative, and the width of the sampling interval is a double (so that computing
it does not round). -/
theorem C18_rejection_partial {A : Arith} (hA : A.Lawful) {E : Engine G} (hE : E.Lawful)
    {f : ℝ → ℝ} (hf : ∀ x, 0 ≤ f x) {xmin xmax : ℝ} (h : xmin ≤ xmax)
    (hmin : A.rd xmin = xmin) (hmax : A.rd xmax = xmax)
    (hw : A.rd (A.next xmax - xmin) = A.next xmax - xmin)
    {fmax : Option ℝ} (hm : ∀ m ∈ fmax, 0 ≤ m) {safety tolerance : ℝ} (hs : 1 ≤ safety)
    (ht : 0 < tolerance) (fuel : Nat) (g : G) {r : Sampled G (List ℝ)}
    (e : rejectionSample A E fuel (logged f) xmin xmax fmax safety tolerance g [] = some (.ok r)) :
    xmin ≤ r.x ∧ r.x ≤ A.next xmax ∧ 0 ≤ r.y ∧ r.y ≤ f r.x ∧ (∀ m ∈ fmax, m ≤ r.fmax) ∧
      r.st.head? = some r.x ∧ ∀ z ∈ r.st, f z ≤ r.fmax := by
  have hx : ∀ g, xmin ≤ (uniform A E xmin xmax true g).1 ∧
      (uniform A E xmin xmax true g).1 ≤ A.next xmax := fun g =>
    ⟨uniform_ge hA hE true hmin h g, by
      have := uniform_le hA hE true hmax (by simpa using hw) h g
      simpa using this⟩
  have hy : ∀ m g, 0 ≤ m → 0 ≤ (uniform A E 0 m true g).1 := fun m g hm =>
    uniform_ge hA hE true hA.zero hm g
  unfold rejectionSample at e
  cases fmax with
  | some m =>
    have := rejectLoop_inv hf hs hx hy fuel m (hm m rfl) g [] (by simp) e
    refine ⟨this.1, this.2.1, this.2.2.1, this.2.2.2.1, ?_, this.2.2.2.2.2⟩
    intro m' hm'
    cases hm'
    exact this.2.2.2.2.1
  | none =>
    cases hb : maximize fuel (logged f) xmin xmax tolerance [] with
    | none => rw [hb] at e; simp at e
    | some v =>
      rw [hb] at e
      cases v with
      | error _ => simp at e
      | ok v =>
        obtain ⟨x, m, log⟩ := v
        simp only at e
        obtain ⟨-, -, h3, -, h5⟩ := maximize_inv h ht fuel hb
        have hm0 : 0 ≤ m := h3 ▸ hf x
        have hle : m ≤ m * safety := by nlinarith
        have := rejectLoop_inv hf hs hx hy fuel (m * safety) (hm0.trans hle) g log
          (fun z hz => (h5 z hz).2.2.trans hle) e
        exact ⟨this.1, this.2.1, this.2.2.1, this.2.2.2.1, by simp, this.2.2.2.2.2⟩

/-- **C18**, range, without rounding: the abscissa lies in [xmin, xmax]. -/
theorem C18_range_exact {E : Engine G} (hE : E.Lawful)
    {f : ℝ → ℝ} (hf : ∀ x, 0 ≤ f x) {xmin xmax : ℝ} (h : xmin ≤ xmax)
    {fmax : Option ℝ} (hm : ∀ m ∈ fmax, 0 ≤ m) {safety tolerance : ℝ} (hs : 1 ≤ safety)
    (ht : 0 < tolerance) (fuel : Nat) (g : G) {r : Sampled G (List ℝ)}
    (e : rejectionSample exact E fuel (logged f) xmin xmax fmax safety tolerance g []
      = some (.ok r)) :
    xmin ≤ r.x ∧ r.x ≤ xmax :=
  let t := C18_rejection_partial exact_lawful hE hf h rfl rfl rfl hm hs ht fuel g e
  ⟨t.1, t.2.1⟩

/-- A run that meets the hypotheses: the density `x` on [0, 2], with the maximum 2
given. -/
example : half.Lawful ∧
    rejectionSample exact half 1 (logged (fun x => |x|)) 0 2 (some 2) 1.01 1e-8 () []
      = some (.ok ⟨1, 1, 2, (), [1]⟩) := by
  refine ⟨half_lawful, ?_⟩
  simp [rejectionSample, rejectLoop, uniform, exact, half, logged]

/-- **C18** is not true of the range: with doubles the abscissa can be the double
after `xmax`.  Here `xmin = xmax = 1`. -/
theorem C18_range_violated :
    ∃ g r, (∀ u ∈ g, (0 : ℝ) ≤ u ∧ u < 1) ∧
      rejectionSample binary64 replay 1 (logged (fun _ => 1)) 1 1 (some 1) 1.01 1e-8 g []
        = some (.ok r) ∧ 1 < r.x := by
  have hl1 : Int.log 2 (1 : ℝ) = 0 := log_eq (by norm_num) (by norm_num)
  have hu1 : ulp 1 = 2 ^ (-52 : ℤ) := by unfold ulp; rw [hl1]; norm_num
  have hnext : binary64.next 1 = 1 + 2 ^ (-52 : ℤ) := by simp [binary64, hu1]
  have hr1 : round53 ((2 : ℝ) ^ (-52 : ℤ)) = 2 ^ (-52 : ℤ) := by
    have := round53_rep (2 ^ (52 : ℕ)) (-104) (le_refl _) (by norm_num)
    have e : (((2 : Int) ^ (52 : ℕ) : Int) : ℝ) * 2 ^ (-104 : ℤ) = 2 ^ (-52 : ℤ) := by
      norm_num
    rwa [e] at this
  have hr2 : round53 (3 / 4 * (2 : ℝ) ^ (-52 : ℤ)) = 3 / 4 * 2 ^ (-52 : ℤ) := by
    have := round53_rep (3 * 2 ^ (51 : ℕ)) (-105) (by norm_num) (by norm_num)
    have e : ((3 * (2 : Int) ^ (51 : ℕ) : Int) : ℝ) * 2 ^ (-105 : ℤ) = 3 / 4 * 2 ^ (-52 : ℤ) := by
      norm_num
    rwa [e] at this
  have hr3 : round53 (3 / 4 * (2 : ℝ) ^ (-52 : ℤ) + 1) = 1 + 2 ^ (-52 : ℤ) := by
    have hpos : (0 : ℝ) < 3 / 4 * (2 : ℝ) ^ (-52 : ℤ) + 1 := by positivity
    have hlog : Int.log 2 (3 / 4 * (2 : ℝ) ^ (-52 : ℤ) + 1) = 0 :=
      log_eq (by norm_num) (by norm_num)
    have hu : ulp (3 / 4 * (2 : ℝ) ^ (-52 : ℤ) + 1) = 2 ^ (-52 : ℤ) := by
      unfold ulp; rw [hlog]; norm_num
    rw [round53, if_pos hpos, hu]
    have hq : (3 / 4 * (2 : ℝ) ^ (-52 : ℤ) + 1) / 2 ^ (-52 : ℤ)
        = ((4503599627370496 : Int) : ℝ) + 3 / 4 := by norm_num
    have hround : roundEven (((4503599627370496 : Int) : ℝ) + 3 / 4) = 4503599627370497 := by
      have hfl : ⌊((4503599627370496 : Int) : ℝ) + 3 / 4⌋ = 4503599627370496 := by
        rw [Int.floor_eq_iff]; constructor <;> norm_num
      have hfr : Int.fract (((4503599627370496 : Int) : ℝ) + 3 / 4) = 3 / 4 := by
        unfold Int.fract; rw [hfl]; ring
      unfold roundEven
      rw [hfr, hfl, if_neg (by norm_num), if_pos (by norm_num)]
      norm_num
    rw [hq, hround]
    norm_num
  have hz : ∀ x, round53 (0 * x) = 0 := fun x => by rw [zero_mul, round53_zero]
  have hx : (uniform binary64 replay 1 1 true [3 / 4, 0]) = (1 + 2 ^ (-52 : ℤ), [0]) := by
    unfold uniform
    rw [if_pos rfl, hnext]
    simp only [replay, List.headD_cons, List.tail_cons, binary64, add_sub_cancel_left, hr1, hr2, hr3]
  have hy : (uniform binary64 replay 0 1 true [0]) = (0, []) := by
    unfold uniform
    simp only [replay, List.headD_cons, List.tail_cons, binary64, hz, add_zero, round53_zero]
  refine ⟨[3 / 4, 0], ⟨1 + 2 ^ (-52 : ℤ), 0, 1, [], [1 + 2 ^ (-52 : ℤ)]⟩, ?_, ?_, ?_⟩
  · intro u hu
    simp only [List.mem_cons, List.not_mem_nil, or_false] at hu
    rcases hu with rfl | rfl <;> constructor <;> norm_num
  · simp only [rejectionSample, rejectLoop, hx, hy, logged]
    simp
  · simp

/-- **C18** is not true of strict positivity: the ordinate 0 can be drawn, and a
point where the function vanishes is then returned. -/
theorem C18_positive_violated :
    ∃ g r, (∀ u ∈ g, (0 : ℝ) ≤ u ∧ u < 1) ∧
      rejectionSample exact replay 1 (logged (fun x => if x < 1 then 0 else 1)) 0 2 (some 1) 1.01
        1e-8 g [] = some (.ok r) ∧ (fun x : ℝ => if x < 1 then (0 : ℝ) else 1) r.x = 0 := by
  refine ⟨[1 / 4, 0], ⟨1 / 2, 0, 1, [], [1 / 2]⟩, ?_, ?_, ?_⟩
  · intro u hu
    simp only [List.mem_cons, List.not_mem_nil, or_false] at hu
    rcases hu with rfl | rfl <;> constructor <;> norm_num
  · simp only [rejectionSample, rejectLoop, uniform, exact, replay, logged]
    norm_num
  · norm_num

/-! ## C22 -/

/-- **C22**, range: the point returned lies in [xmin, xmax]. -/
theorem C22_range {A : Arith} {E : Engine G} (fuel : Nat) (cdf : ℝ → ℝ)
    {xmin xmax tolerance : ℝ} (h : xmin ≤ xmax) (g : G) {x : ℝ} {g' : G}
    (e : inverseTransform A E fuel cdf xmin xmax tolerance g = some (x, g')) :
    xmin ≤ x ∧ x ≤ xmax := by
  unfold inverseTransform at e
  dsimp only at e
  split_ifs at e with h1 h2
  · cases e; exact ⟨le_refl _, h⟩
  · cases e; exact ⟨h, le_refl _⟩
  · simp only [Option.map_eq_some_iff, Prod.mk.injEq] at e
    obtain ⟨y, hy, rfl, -⟩ := e
    exact bisect_range fuel h hy

/-- **C22**, termination: the number of bisections needed is at most the binary
logarithm of width over tolerance, rounded up. -/
theorem C22_terminates {A : Arith} {E : Engine G} (cdf : ℝ → ℝ)
    {xmin xmax tolerance : ℝ} (n : Nat) (h : xmax - xmin ≤ tolerance * 2 ^ n) (g : G) :
    ∃ r, inverseTransform A E (n + 1) cdf xmin xmax tolerance g = some r := by
  unfold inverseTransform
  dsimp only
  split_ifs
  · exact ⟨_, rfl⟩
  · exact ⟨_, rfl⟩
  · obtain ⟨x, hx⟩ := bisect_some cdf (cdf xmax) (uniform A E 0 1 true g).1 tolerance n xmin xmax h
    rw [hx]
    exact ⟨_, rfl⟩

/-- For every positive tolerance such a number exists. -/
theorem C22_bound_exists (xmin xmax : ℝ) {tolerance : ℝ} (ht : 0 < tolerance) :
    ∃ n : Nat, xmax - xmin ≤ tolerance * 2 ^ n := by
  obtain ⟨n, hn⟩ := pow_unbounded_of_one_lt ((xmax - xmin) / tolerance) (by norm_num : (1 : ℝ) < 2)
  refine ⟨n, ?_⟩
  rw [div_lt_iff₀ ht] at hn
  linarith

/-- **C22**, accuracy: for a nondecreasing cumulative function that is nonnegative
at `xmin` and positive at `xmax`, the point is within half the tolerance of a point
where the normalised cumulative function crosses the drawn probability. -/
theorem C22_crossing {A : Arith} {E : Engine G} (fuel : Nat) {cdf : ℝ → ℝ}
    {xmin xmax tolerance : ℝ} (h : xmin ≤ xmax) (ht : 0 ≤ tolerance)
    (hc : ∀ s t, xmin ≤ s → s ≤ t → t ≤ xmax → cdf s ≤ cdf t) (h0 : 0 ≤ cdf xmin)
    (h1 : 0 < cdf xmax) (g : G) {x : ℝ} {g' : G}
    (e : inverseTransform A E fuel cdf xmin xmax tolerance g = some (x, g')) :
    ∃ z, Crosses (fun t => cdf t / cdf xmax) xmin xmax (uniform A E 0 1 true g).1 z ∧
      |x - z| ≤ tolerance / 2 := by
  have hF : ∀ s t, xmin ≤ s → s ≤ t → t ≤ xmax → cdf s / cdf xmax ≤ cdf t / cdf xmax :=
    fun s t hs hst ht => (div_le_div_iff_of_pos_right h1).2 (hc s t hs hst ht)
  unfold inverseTransform at e
  dsimp only at e
  split_ifs at e with hp hp'
  · cases e
    refine ⟨xmin, ⟨le_refl _, h, fun t ha hb => absurd ha (not_le.2 hb), ?_⟩, by
      simp only [sub_self, abs_zero]; linarith⟩
    intro t hxt htx
    rw [hp]
    exact div_nonneg (h0.trans (hc xmin t (le_refl _) hxt.le htx)) h1.le
  · cases e
    refine ⟨xmax, ⟨h, le_refl _, ?_, fun t ha hb => absurd hb (not_le.2 ha)⟩, by
      simp only [sub_self, abs_zero]; linarith⟩
    intro t hxt htx
    rw [hp', div_le_one h1]
    exact hc t xmax hxt htx.le (le_refl _)
  · simp only [Option.map_eq_some_iff, Prod.mk.injEq] at e
    obtain ⟨y, hy, rfl, -⟩ := e
    exact bisect_crosses ht hF fuel h (le_refl _) (le_refl _)
      (fun t ha hb => absurd ha (not_le.2 hb)) (fun t ha hb => absurd hb (not_le.2 ha)) hy

/-- A run of two bisections: the cumulative function `x²` on [0, 1] with the drawn
probability 1/2. -/
example : inverseTransform exact half 3 (fun x => x ^ 2) 0 1 (1 / 4) () = some (5 / 8, ()) := by
  simp only [inverseTransform, uniform, exact, half, bisect]
  norm_num

/-! ## C75 -/

/-- **C75**: the minimiser returns an abscissa in the interval and the value there,
which is no worse than that at any point evaluated; all of these lie in the
interval.  (The minimiser is called with a positive tolerance; that its loop ends is
`C75_ends` in `Verif/Props/SearchEnds.lean`.) -/
theorem C75_minimum (f : ℝ → ℝ) {left right epsilon : ℝ} (h : left ≤ right) (hε : 0 < epsilon)
    (fuel : Nat) {x y : ℝ} {log : List ℝ}
    (e : minimize fuel (logged f) left right epsilon [] = some (.ok (x, y, log))) :
    left ≤ x ∧ x ≤ right ∧ y = f x ∧ x ∈ log ∧
      ∀ z ∈ log, left ≤ z ∧ z ≤ right ∧ y ≤ f z :=
  minimize_inv h hε fuel (by simp) e

/-- **C75** for the maximiser. -/
theorem C75_maximum (f : ℝ → ℝ) {left right epsilon : ℝ} (h : left ≤ right) (hε : 0 < epsilon)
    (fuel : Nat) {x y : ℝ} {log : List ℝ}
    (e : maximize fuel (logged f) left right epsilon [] = some (.ok (x, y, log))) :
    left ≤ x ∧ x ≤ right ∧ y = f x ∧ x ∈ log ∧
      ∀ z ∈ log, left ≤ z ∧ z ≤ right ∧ f z ≤ y :=
  maximize_inv h hε fuel e

/-- A search that evaluates two points: `-x` on [0, 1] with tolerance 1/5. -/
example : ∃ x y log, minimize 2 (logged (fun x => -x)) 0 1 (1 / 5) [] = some (.ok (x, y, log)) ∧
    log.length = 2 := by
  obtain ⟨g0, g1⟩ := golden_bounds
  have h5 : Real.sqrt 5 ^ 2 = 5 := Real.sq_sqrt (by norm_num)
  have hs0 : (0 : ℝ) ≤ Real.sqrt 5 := Real.sqrt_nonneg _
  have hg : golden ^ 2 = 3 * golden - 1 := by unfold golden; nlinarith
  have hlo : (0.38 : ℝ) < golden := by
    have : Real.sqrt 5 < 2.24 := by rw [Real.sqrt_lt' (by norm_num)]; norm_num
    unfold golden; linarith
  have hhi : golden < (0.385 : ℝ) := by
    have : (2.23 : ℝ) < Real.sqrt 5 := by rw [Real.lt_sqrt (by norm_num)]; norm_num
    unfold golden; linarith
  have heps : sqrtEps = 2 ^ (-26 : ℤ) := by
    unfold sqrtEps
    rw [show ((2 : ℝ) ^ (-52 : ℤ)) = (2 ^ (-26 : ℤ)) ^ 2 by norm_num, Real.sqrt_sq (by positivity)]
  have he : (0 : ℝ) < 2 ^ (-26 : ℤ) ∧ (2 : ℝ) ^ (-26 : ℤ) < 0.000001 := by
    constructor <;> norm_num
  set s0 : Brent := ⟨0, 1, golden, golden, golden, 0, 0, -golden, -golden, -golden⟩ with hs
  have ht0 : s0.tol (1 / 5) = 2 ^ (-26 : ℤ) * golden + 1 / 5 := by
    simp [Brent.tol, hs, heps, abs_of_pos g0]
  have hc : s0.continues (1 / 5) := by
    unfold Brent.continues
    rw [ht0]
    refine lt_of_lt_of_le ?_ (abs_nonneg _)
    simp only [hs]; nlinarith
  have hstep : s0.step (1 / 5) = (golden * (1 - golden), 1 - golden) := by
    unfold Brent.step
    have : ¬ |s0.e| > s0.tol (1 / 5) := by
      rw [ht0]; simp only [hs, abs_zero]; nlinarith
    simp only [this, if_false]
    simp only [hs, abs_zero, mul_zero, zero_mul, lt_irrefl, false_and, if_false, zero_add]
    rw [if_pos (by linarith)]
  have hprobe : s0.probe (1 / 5) (golden * (1 - golden)) = 1 - golden := by
    unfold Brent.probe
    dsimp only
    have : |golden * (1 - golden)| ≥ s0.tol (1 / 5) := by
      rw [ht0, abs_of_nonneg (by nlinarith)]; nlinarith
    rw [if_pos this]
    simp only [hs]; nlinarith
  have hupd : s0.update (golden * (1 - golden)) (1 - golden) (1 - golden) (-(1 - golden))
      = ⟨golden, 1, 1 - golden, golden, golden, golden * (1 - golden), 1 - golden, -(1 - golden),
        -golden, -golden⟩ := by
    unfold Brent.update
    rw [if_pos (by simp only [hs]; linarith)]
    simp only [hs]
    rw [if_neg (by linarith), if_neg (by linarith)]
  have hstop : ¬ Brent.continues ⟨golden, 1, 1 - golden, golden, golden, golden * (1 - golden),
      1 - golden, -(1 - golden), -golden, -golden⟩ (1 / 5) := by
    unfold Brent.continues Brent.tol
    simp only [heps]
    rw [abs_of_neg (by linarith), abs_of_pos (by linarith)]
    nlinarith
  refine ⟨1 - golden, -(1 - golden), [1 - golden, golden], ?_, rfl⟩
  simp only [minimize, logged, zero_add, sub_zero, mul_one]
  rw [← hs, brentLoop, if_pos hc]
  simp only [logged, hstep, hprobe, hupd]
  rw [brentLoop, if_neg hstop]

end Marley.Props
