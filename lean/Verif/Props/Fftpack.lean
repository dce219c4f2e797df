import Verif.Model.ChebyshevFft
import Verif.Lemmas.FftCost
import Verif.Lemmas.Chebyshev

/-!
# The cosine transform of FFTPACK

C98: the transform stays inside the arrays it is given.
C99: the transform computes what it documents.
-/

set_option autoImplicit false

namespace Marley.Props
open Marley Marley.Fft
open Marley.Cheb (Interp)
open Finset

/-! ## The factors -/

/-- **C98** The search for factors comes to an end and finds numbers that are 2, 4 or odd and
whose product is the size of the transform. -/
theorem C98_factors (n : ℕ) (hn : 2 ≤ n) :
    ∃ fs, factors n = some fs ∧ fs.prod = n ∧ ∀ a ∈ fs, a = 2 ∨ a = 4 ∨ (a % 2 = 1 ∧ 3 ≤ a) := by
  obtain ⟨fs, h1, h2, h3⟩ := factors_spec n hn
  exact ⟨fs, h1, h2, h3.2⟩

example : factors 64 = some [4, 4, 4] ∧ factors 65 = some [5, 13] ∧ factors 6 = some [2, 3] := by
  decide +kernel

/-- The number of entries that the array for the factors must have. -/
lemma factors_room {n : ℕ} (hn : 4 ≤ n) (hs : ¬ (n - 1 = 3 ∨ n - 1 = 4 ∨ n - 1 = 6)) :
    ∀ fs, factors (n - 1) = some fs → fs.length + 2 ≤ n / 2 := by
  intro fs hfs
  have := factors_length (n - 1) (by omega) fs hfs
  rw [show (n - 1 + 1) / 2 = n / 2 by congr 1; omega] at this
  by_contra hc
  exact hs (this.1 (by omega))

/-! ## The transform -/

lemma dct_eq_cost (x : List ℝ) :
    (List.range x.length).map (dct (fun i => x.getD i 0) (x.length - 1)) = Cheb.cost x := by
  unfold Cheb.cost
  refine List.map_congr_left (fun i _ => ?_)
  unfold dct
  congr 1

/-- **C99** With an array for the factors that is long enough the transform of `x₀ … x_N` has the
entries `x₀ + (-1)^i x_N + Σ 2 x_k cos(k i π / N)`, whatever the size and whatever the work arrays
held before. -/
theorem C99_transform (cap n : ℕ) (wsave ch wa x : Buf) (hn : 2 ≤ n) (hcap : n ≤ cap) :
    ∃ b, Fft.cost cap n wsave ch wa x = .ok b ∧ ∀ i, i < n →
      b i = x 0 + (-1) ^ i * x (n - 1) + ∑ k ∈ range (n - 2),
        2 * x (k + 1) * Real.cos (((k + 1 : ℕ) : ℝ) * i * Real.pi / ((n - 1 : ℕ) : ℝ)) := by
  refine cost_spec cap n wsave ch wa x hn (fun h4 fs hfs => ?_)
  obtain ⟨fs', h1, h2, h3⟩ := factors_spec (n - 1) (by omega)
  rw [hfs] at h1
  cases h1
  have h := two_pow_length_le fs h3.two_le
  rw [h2] at h
  have : fs.length + 1 ≤ 2 ^ fs.length := Nat.lt_two_pow_self
  omega

/-- **C98, C99** As the interpolation calls it, the transform is defined and computes what it
documents, unless the vector has 4, 5 or 7 entries. -/
theorem C99_partial (x : List ℝ) (hx : 2 ≤ x.length)
    (hs : x.length ≠ 4 ∧ x.length ≠ 5 ∧ x.length ≠ 7) : costVec x = .ok (Cheb.cost x) := by
  obtain ⟨b, h1, h2⟩ := cost_spec (x.length / 2) x.length 0 0 0 (fun i => x.getD i 0) hx
    (fun h4 => factors_room h4 (by omega))
  unfold costVec
  rw [h1, ← dct_eq_cost x]
  exact congrArg Except.ok (List.map_congr_left (fun i hi => h2 i (List.mem_range.1 hi)))

/-- **C98** For vectors of these three sizes the array for the factors is too short: the library
writes after its end. -/
theorem C98_violated (x : List ℝ) (hs : x.length = 4 ∨ x.length = 5 ∨ x.length = 7) :
    costVec x = .error .ub := by
  obtain ⟨fs, h1, h2, h3⟩ := factors_spec (x.length - 1) (by omega)
  have := (factors_length (x.length - 1) (by omega) fs h1).2 (by omega)
  rw [show (x.length - 1 + 1) / 2 = x.length / 2 by congr 1; omega] at this
  unfold costVec Fft.cost
  rw [if_neg (by omega), if_neg (by omega), if_neg (by omega), h1]
  dsimp only
  rw [if_pos this]

/-- **C98** The transform stays inside its arrays for all other sizes. -/
theorem C98_partial (x : List ℝ) (hx : 2 ≤ x.length) :
    (∃ y, costVec x = .ok y ∧ y.length = x.length) ↔
      ¬ (x.length = 4 ∨ x.length = 5 ∨ x.length = 7) := by
  constructor
  · rintro ⟨y, h, _⟩ hs
    rw [C98_violated x hs] at h
    cases h
  · intro hs
    refine ⟨_, C99_partial x hx (by omega), ?_⟩
    unfold Cheb.cost
    simp

-- sizes that occur: 65 values, 66 coefficients of the cumulative function
example : costVec (List.replicate 65 1) = .ok (Cheb.cost (List.replicate 65 1)) :=
  C99_partial _ (by rw [List.length_replicate]; omega) (by rw [List.length_replicate]; omega)

example : costVec [1, 2, 3, 4, 5] = .error .ub := C98_violated _ (by simp)

/-- **C99** Two transforms give back the vector, `2 N` times. -/
theorem C99_twice (x : List ℝ) (hx : 2 ≤ x.length)
    (hs : x.length ≠ 4 ∧ x.length ≠ 5 ∧ x.length ≠ 7) :
    ∃ y, costVec x = .ok y ∧
      costVec y = .ok (x.map (fun v => 2 * ((x.length - 1 : ℕ) : ℝ) * v)) := by
  obtain ⟨N, hN⟩ : ∃ N, x.length = N + 1 := ⟨x.length - 1, by omega⟩
  have hN0 : 0 < N := by omega
  have hN' : (N : ℝ) ≠ 0 := by positivity
  have hl : (Cheb.cost x).length = N + 1 := by unfold Cheb.cost; simp [hN]
  refine ⟨_, C99_partial x hx hs, ?_⟩
  rw [C99_partial _ (by omega) (by omega), Cheb.cost_eq hN0 hl]
  refine congrArg Except.ok (List.ext_getElem (by simp [hN]) (fun j h1 h2 => ?_))
  have hj : j ≤ N := by simp at h1; omega
  have hxj : x[j]'(by omega) = x.getD j 0 := by simp [List.getD, show j < x.length by omega]
  simp only [List.getElem_map, List.getElem_range, hN, Nat.add_sub_cancel, hxj]
  have key := Cheb.poly_transform hN0 (fun k => x.getD k 0) hj
  have e : Cheb.poly N (fun k => (Cheb.cost x).getD k 0) =
      Polynomial.C (N : ℝ) * Cheb.poly N (fun k =>
        2 * (Cheb.poly N (fun k => x.getD k 0)).eval (Polynomial.Chebyshev.node N k) / N) := by
    rw [Cheb.poly, Cheb.poly, Finset.mul_sum]
    refine Finset.sum_congr rfl (fun k hk => ?_)
    have hk := Finset.mem_range.1 hk
    rw [Cheb.cost_eq hN0 hN, Cheb.getD_map_range _ _ hk]
    generalize (Cheb.poly N (fun k => x.getD k 0)).eval (Polynomial.Chebyshev.node N k) = v
    rw [← mul_assoc (Polynomial.C (N : ℝ)), ← Polynomial.C_mul]
    congr 2
    field_simp
  rw [e, Polynomial.eval_mul, Polynomial.eval_C, key]
  ring

/-! ## Interpolation -/

/-- The grid sizes for which the array for the factors is too short. -/
def ShortSize (N : ℕ) : Prop := N = 3 ∨ N = 4 ∨ N = 6

lemma costVec_grid {fs : List ℝ} {N : ℕ} (hl : fs.length = N + 1) (hN : 1 ≤ N)
    (hs : ¬ ShortSize N) : costVec fs = .ok (Cheb.cost fs) :=
  C99_partial fs (by omega) (by unfold ShortSize at hs; omega)

/-- One round with a fixed size. -/
lemma search_fixed (f : ℝ → Res ℝ) (lo hi : ℝ) (fuel N : ℕ) :
    Fft.search f lo hi (fuel + 1) true N =
      (match Cheb.sample f (Cheb.points lo hi N) with
      | .error e => .error e
      | .ok fs => match costVec fs with
        | .error e => .error e
        | .ok a => .ok (N, fs, a)) ∧
    Cheb.search f lo hi (fuel + 1) true N =
      (match Cheb.sample f (Cheb.points lo hi N) with
      | .error e => .error e
      | .ok fs => .ok (N, fs, Cheb.cost fs)) := by
  constructor
  · rw [Fft.search]
    rfl
  · rw [Cheb.search]
    rfl

/-- One round of the search. -/
lemma search_round (f : ℝ → Res ℝ) (lo hi : ℝ) (fuel N : ℕ) :
    Fft.search f lo hi (fuel + 1) false N =
      (match Cheb.sample f (Cheb.points lo hi (N * 2)) with
      | .error e => .error e
      | .ok fs => match costVec fs with
        | .error e => .error e
        | .ok a => if Cheb.accurate a || decide (65536 ≤ N * 2) then .ok (N * 2, fs, a)
          else Fft.search f lo hi fuel false (N * 2)) := by
  rw [Fft.search]
  rfl

/-- **C98** With a fixed grid size other than 3, 4 and 6 the constructor does what it does with the
documented transform; with one of these sizes it is undefined behaviour once all values of the
function are there. -/
theorem C98_fixed (f : ℝ → Res ℝ) (lo hi : ℝ) (N : ℕ) (hN : N ≠ 0) :
    (¬ ShortSize N → Fft.make f lo hi N = Cheb.make f lo hi N) ∧
    (ShortSize N → ∀ fs, Cheb.sample f (Cheb.points lo hi N) = .ok fs →
      Fft.make f lo hi N = .error .ub) := by
  have hlen : ∀ fs, Cheb.sample f (Cheb.points lo hi N) = .ok fs → fs.length = N + 1 := by
    intro fs h
    rw [(Cheb.sample_map h).1]
    simp [Cheb.points]
  refine ⟨fun hs => ?_, fun hs fs h => ?_⟩
  · unfold Fft.make Cheb.make
    rw [if_pos hN]
    have : Fft.search f lo hi 17 (N ≠ 0) N = Cheb.search f lo hi 17 (N ≠ 0) N := by
      rw [decide_eq_true hN]
      obtain ⟨e1, e2⟩ := search_fixed f lo hi 16 N
      rw [e1, e2]
      cases h : Cheb.sample f (Cheb.points lo hi N) with
      | error e => rfl
      | ok fs => dsimp only; rw [costVec_grid (hlen fs h) (by omega) hs]
    rw [this]
    rfl
  · unfold Fft.make
    rw [if_pos hN]
    have : costVec fs = .error .ub := C98_violated fs (by
      have := hlen fs h
      unfold ShortSize at hs
      omega)
    rw [decide_eq_true hN, (search_fixed f lo hi 16 N).1, h]
    dsimp only
    rw [this]

/-- **C98** `cdf` of an interpolant on a grid of 2, 3 or 5 steps is undefined behaviour, and of any
other what it is with the documented transform. -/
theorem C98_cdf (c : Interp) (hN : 1 ≤ c.N) :
    (¬ ShortSize (c.N + 1) → Fft.cdf c = .ok c.cdf) ∧
    (ShortSize (c.N + 1) → Fft.cdf c = .error .ub) := by
  have hl := (Cheb.cdfCoeffs_eq (N := c.N) (by omega) c.lo c.hi c.coeffs).1
  unfold Fft.cdf
  dsimp only
  refine ⟨fun hs => ?_, fun hs => ?_⟩
  · rw [costVec_grid hl (by omega) hs]
    rfl
  · rw [C98_violated (Cheb.cdfCoeffs c.N c.lo c.hi c.coeffs) (by unfold ShortSize at hs; omega)]

/-- **C98** The grid size that the generator uses, 64, is a good one: constructing the interpolant
of a function that has values and taking its cumulative function are defined. -/
theorem C98_default (g : ℝ → ℝ) (lo hi : ℝ) :
    ∃ c, Fft.make (fun x => .ok (g x)) lo hi 64 = .ok c ∧
      Cheb.make (fun x => .ok (g x)) lo hi 64 = .ok c ∧ Fft.cdf c = .ok c.cdf := by
  have hs : ¬ ShortSize 64 := by unfold ShortSize; omega
  have h1 := (C98_fixed (fun x => .ok (g x)) lo hi 64 (by omega)).1 hs
  have hsm : ∀ l : List ℝ, Cheb.sample (fun x => .ok (g x)) l = .ok (l.map g) := by
    intro l
    induction l with
    | nil => rfl
    | cons x t ih => rw [Cheb.sample, ih]; rfl
  have h2 : ∃ c, Cheb.make (fun x => .ok (g x)) lo hi 64 = .ok c ∧ c.N = 64 := by
    unfold Cheb.make
    rw [if_pos (by omega), decide_eq_true (by omega), (search_fixed _ lo hi 16 64).2, hsm]
    exact ⟨_, rfl, rfl⟩
  obtain ⟨c, hc, hcN⟩ := h2
  refine ⟨c, by rw [h1, hc], hc, (C98_cdf c (by omega)).1 ?_⟩
  rw [hcN]
  unfold ShortSize
  omega

/-- **C98** The search for a grid size is undefined behaviour for every function that has values
and that three points do not represent well enough: the next grid has 4 steps. -/
theorem C98_adaptive_violated (g : ℝ → ℝ) (lo hi : ℝ)
    (h : Cheb.accurate (Cheb.cost ((Cheb.points lo hi 2).map g)) = false) :
    Fft.make (fun x => .ok (g x)) lo hi 0 = .error .ub := by
  have hsm : ∀ l : List ℝ, Cheb.sample (fun x => .ok (g x)) l = .ok (l.map g) := by
    intro l
    induction l with
    | nil => rfl
    | cons x t ih => rw [Cheb.sample, ih]; rfl
  have hl : ∀ N, ((Cheb.points lo hi N).map g).length = N + 1 := by
    intro N
    unfold Cheb.points
    rw [List.length_map, List.length_map, List.length_range]
  have e2 : costVec ((Cheb.points lo hi 2).map g) =
      .ok (Cheb.cost ((Cheb.points lo hi 2).map g)) :=
    C99_partial _ (by rw [hl]; omega) (by rw [hl]; omega)
  have e4 : costVec ((Cheb.points lo hi 4).map g) = .error .ub :=
    C98_violated _ (by rw [hl]; omega)
  have e : Fft.search (fun x => .ok (g x)) lo hi 17 false 1 = .error .ub := by
    rw [search_round _ lo hi 16 1, hsm]
    dsimp only
    rw [Nat.one_mul, e2]
    dsimp only
    rw [h, Bool.false_or, if_neg (by decide), search_round _ lo hi 15 2, hsm]
    dsimp only
    rw [show 2 * 2 = 4 from rfl, e4]
  unfold Fft.make
  rw [if_neg (by omega), decide_eq_false (by omega), e]

/-- Two values at the ends of the range that differ are enough. -/
theorem C98_unequal_violated (g : ℝ → ℝ) (lo hi : ℝ)
    (h : 2 ^ 51 * |g hi - g lo| > 2 * (|g hi| + |g lo| + 2 * |g ((hi + lo) / 2)|)) :
    Fft.make (fun x => .ok (g x)) lo hi 0 = .error .ub := by
  refine C98_adaptive_violated g lo hi ?_
  have hp : (Cheb.points lo hi 2).map g = [g hi, g ((hi + lo) / 2), g lo] := by
    have p0 : Cheb.point lo hi 2 0 = hi := by simp [Cheb.point]
    have p1 : Cheb.point lo hi 2 1 = (hi + lo) / 2 := by simp [Cheb.point]
    have p2 : Cheb.point lo hi 2 2 = lo := by simp [Cheb.point]; ring
    simp [Cheb.points, List.range_succ, p0, p1, p2]
  rw [hp]
  generalize g hi = a at *
  generalize g lo = c at *
  generalize g ((hi + lo) / 2) = b at *
  have hc : Cheb.cost [a, b, c] = [a + c + 2 * b, a - c, a + c - 2 * b] := by
    simp [Cheb.cost, List.range_succ]
    constructor <;> ring
  rw [hc]
  unfold Cheb.accurate
  simp only [List.map_cons, List.map_nil, List.foldl_cons, List.foldl_nil, List.length_cons,
    List.length_nil, List.getD_cons_succ, List.getD_cons_zero]
  rw [Bool.and_eq_false_iff]
  refine Or.inr ?_
  rw [decide_eq_false_iff_not, not_lt]
  have b1 : max (max (max 0 |a + c + 2 * b|) |a - c|) |a + c - 2 * b| ≤ |a| + |c| + 2 * |b| := by
    have hb : |2 * b| = 2 * |b| := by rw [abs_mul]; norm_num
    refine max_le (max_le (max_le (by positivity) ?_) ?_) ?_
    · calc |a + c + 2 * b| ≤ |a + c| + |2 * b| := abs_add_le _ _
        _ ≤ |a| + |c| + 2 * |b| := by rw [hb]; linarith [abs_add_le a c]
    · calc |a - c| ≤ |a| + |c| := abs_sub _ _
        _ ≤ |a| + |c| + 2 * |b| := by linarith [abs_nonneg b]
    · calc |a + c - 2 * b| ≤ |a + c| + |2 * b| := abs_sub _ _
        _ ≤ |a| + |c| + 2 * |b| := by rw [hb]; linarith [abs_add_le a c]
  have e : (2 : ℝ) ^ (-52 : ℤ) = 1 / (2 * 2 ^ 51) := by
    rw [zpow_neg]; norm_num
  rw [e]
  rw [mul_one_div, div_le_iff₀ (by positivity)]
  have h0 : 0 ≤ |a| + |c| + 2 * |b| := by positivity
  linarith

-- the identity
example : Fft.make (fun x => .ok x) (-1) 1 0 = .error .ub :=
  C98_unequal_violated id (-1) 1 (by norm_num)

end Marley.Props
