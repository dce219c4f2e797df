import Verif.Props.Source
import Verif.Props.Sampling
import Mathlib.MeasureTheory.Integral.IntervalIntegral.Basic

/-!
# C45, C68, C69 and C85: sampling from sources and describing them in a configuration

Specification.  `histogram pdg lefts weights Emax` is what the configuration makes of a
histogram; `edges` are the left edges followed by `Emax`.
-/

set_option autoImplicit false

namespace Marley.Props
open Marley Marley.Source Marley.Gen Marley.Sampling Marley.Json
open Marley.Grid (Interp Extrap Points Sorted Increasing)

/-! ## C45 -/

variable {G : Type}

/-- The number `m` is at least every value of the density. -/
def Dominates (m : ℝ) (s : Source) : Prop := ∀ E y, s.pdf E = .ok (some y) → y ≤ m

theorem sampleIncident_pid {A : Arith} {E : Engine G} {fuel : Nat} {s : Source} {m : Option ℝ}
    {g g' : G} {x : ℝ} {i : Int} {m' : Option ℝ}
    (e : sampleIncident A E fuel s m g = some (.ok (x, i, m', g'))) : i = s.pid := by
  unfold sampleIncident at e
  split at e
  · split at e
    · cases e
    · cases e
    · cases e; rfl
  · cases e

theorem sampleIncident_bound {A : Arith} {E : Engine G} {fuel : Nat} {s : Source} {m : ℝ}
    (h : Dominates m s) {g g' : G} {x : ℝ} {i : Int} {m' : Option ℝ}
    (e : sampleIncident A E fuel s (some m) g = some (.ok (x, i, m', g'))) : m' = some m := by
  unfold sampleIncident at e
  cases ha : Emin s.spectrum with
  | error _ => rw [ha] at e; simp at e
  | ok a =>
    cases hb : Emax s.spectrum with
    | error _ => rw [ha, hb] at e; simp at e
    | ok b =>
      rw [ha, hb] at e
      simp only [rejectionSample] at e
      cases hr : rejectLoop A E (numeric s.pdf) a b 1.01 fuel m g () with
      | none => rw [hr] at e; simp at e
      | some r =>
        cases r with
        | error _ => rw [hr] at e; simp at e
        | ok r =>
          rw [hr] at e
          simp only [Option.some.injEq, Except.ok.injEq, Prod.mk.injEq] at e
          have := rejectLoop_bound (m := m) (fun x y st hf => by
            unfold numeric at hf
            cases hp : s.pdf x with
            | error _ => rw [hp] at hf; cases hf
            | ok o =>
              rw [hp] at hf
              cases o with
              | none => cases hf
              | some v => cases hf; exact h x _ hp) fuel g hr
          rw [← e.2.2.1, this]

/-- **C45** (partial).  Once the variable shared by all sources bounds the densities of the
sources sampled, it no longer changes, and what a source returns after such a history is what
it returns with that bound and the random numbers that follow: nothing else of the history
matters. -/
theorem C45_dominated_partial (A : Arith) (E : Engine G) (fuel : Nat) (l : List Source) (s : Source)
    (m : ℝ) (h : ∀ t ∈ l, Dominates m t) (g : G) {xs : List ℝ} {m' : Option ℝ} {g' : G}
    (e : sampleHistory A E fuel (l ++ [s]) (some m) g = some (.ok (xs, m', g'))) :
    ∃ ys g₁ x, sampleHistory A E fuel l (some m) g = some (.ok (ys, some m, g₁)) ∧
      sampleIncident A E fuel s (some m) g₁ = some (.ok (x, s.pid, m', g')) ∧ xs = ys ++ [x] := by
  induction l generalizing g xs with
  | nil =>
    simp only [List.nil_append, sampleHistory] at e
    cases hr : sampleIncident A E fuel s (some m) g with
    | none => rw [hr] at e; simp at e
    | some r =>
      cases r with
      | error _ => rw [hr] at e; simp at e
      | ok r =>
        obtain ⟨x, i, m₁, g₁⟩ := r
        have hi := sampleIncident_pid hr
        rw [hr] at e
        simp only [Option.some.injEq, Except.ok.injEq, Prod.mk.injEq] at e
        obtain ⟨rfl, rfl, rfl⟩ := e
        exact ⟨[], g, x, rfl, hi ▸ hr, rfl⟩
  | cons t l ih =>
    simp only [List.cons_append, sampleHistory] at e ⊢
    cases hr : sampleIncident A E fuel t (some m) g with
    | none => rw [hr] at e; simp at e
    | some r =>
      cases r with
      | error _ => rw [hr] at e; simp at e
      | ok r =>
        obtain ⟨x, i, m₁, g₁⟩ := r
        rw [hr] at e
        have hm := sampleIncident_bound (h t (by simp)) hr
        subst hm
        simp only at e
        cases hh : sampleHistory A E fuel (l ++ [s]) (some m) g₁ with
        | none => rw [hh] at e; simp at e
        | some r =>
          cases r with
          | error _ => rw [hh] at e; simp at e
          | ok r =>
            obtain ⟨ys, m₂, g₂⟩ := r
            rw [hh] at e
            simp only [Option.some.injEq, Except.ok.injEq, Prod.mk.injEq] at e
            obtain ⟨rfl, rfl, rfl⟩ := e
            obtain ⟨zs, g₃, y, h1, h2, rfl⟩ := ih (fun t ht => h t (by simp [ht])) g₁ hh
            refine ⟨x :: zs, g₃, y, ?_, h2, rfl⟩
            simp only [h1]

theorem maximize_point {f : ℝ → Unit → Res (ℝ × Unit)} {a y : ℝ} (h : f a () = .ok (y, ())) (n : Nat)
    {tol : ℝ} (ht : 0 < tol) : maximize (n + 1) f a a tol () = some (.ok (a, y, ())) := by
  have hx : a + golden * (a - a) = a := by ring
  have hc : ¬ Brent.continues ⟨a, a, a, a, a, 0, 0, -1 * y, -1 * y, -1 * y⟩ tol := by
    unfold Brent.continues Brent.tol
    have h1 : |a - 0.5 * (a + a)| = 0 := by rw [abs_eq_zero]; ring
    have h2 : 0 ≤ sqrtEps * |a| := mul_nonneg (Real.sqrt_nonneg _) (abs_nonneg _)
    dsimp only
    rw [h1]
    linarith
  unfold maximize minimize
  dsimp only
  rw [hx]
  simp only [negated, h, brentLoop, if_neg hc]
  simp

/-- A monoenergetic source of energy 10 MeV. -/
noncomputable def sourceA : Source := ⟨12, .mono 10⟩

/-- A tabulated source concentrated at 10 MeV. -/
noncomputable def sourceA' : Source := ⟨12, .grid ⟨.constant, .zero, [(10, 8), (10, 8)]⟩⟩

/-- A histogram: bins [1, 1.125] and [1.125, 1.25], weights 1/4 and 3/4. -/
noncomputable def sourceB : Source := ⟨12, .grid ⟨.constant, .zero, [(1, 2), (9 / 8, 6), (5 / 4, 0)]⟩⟩

theorem sourceA_built : mkMono 12 10 = .ok sourceA := rfl

theorem sourceA'_built : mkGridVectors 12 [10, 10] [8, 8] .constant = .ok sourceA' := by
  rw [(C44_vectors 12 [10, 10] [8, 8] .constant).1 rfl]
  norm_num [mkGrid, checkForErrors, checkLoop, allowed, pids, sourceA']

theorem sourceB_built : histogram 12 [1, 9 / 8] [1 / 4, 3 / 4] (5 / 4) = .ok sourceB := by
  have : densities ([1, 9 / 8] ++ [5 / 4]) ([1 / 4, 3 / 4] ++ [0]) = .ok [2, 6, 0] := by
    norm_num [densities]
  unfold histogram
  rw [this]
  simp only
  rw [(C44_vectors 12 ([1, 9 / 8] ++ [5 / 4]) [2, 6, 0] .constant).1 rfl]
  norm_num [mkGrid, checkForErrors, checkLoop, allowed, pids, sourceB]

theorem sourceB_increasing : Increasing [((1 : ℝ), (2 : ℝ)), (9 / 8, 6), (5 / 4, 0)] := by
  simp [Increasing]; norm_num

theorem sourceB_pdf (x : ℝ) (h1 : 1 ≤ x) (h2 : x ≤ 5 / 4) :
    sourceB.pdf x = .ok (some (if x ≤ 9 / 8 then 2 else 6)) := by
  simp only [Source.pdf, sourceB]
  by_cases hx : x ≤ 9 / 8
  · rw [if_pos hx]
    refine C13_constant_rule ⟨.constant, .zero, [(1, 2), (9 / 8, 6), (5 / 4, 0)]⟩ rfl
      sourceB_increasing 0 (1, 2) (9 / 8, 6) rfl rfl x ?_ hx
    rcases h1.lt_or_eq with h | h
    · exact .inl h
    · exact .inr ⟨rfl, h⟩
  · rw [if_neg hx]
    exact C13_constant_rule ⟨.constant, .zero, [(1, 2), (9 / 8, 6), (5 / 4, 0)]⟩ rfl
      sourceB_increasing 1 (9 / 8, 6) (5 / 4, 0) rfl rfl x (.inl (not_le.1 hx)) h2

theorem sourceA'_pdf : sourceA'.pdf 10 = .ok (some 8) := by
  have hb : Std.lowerBound (fun p : ℝ × ℝ => decide (p.1 < 10)) [(10, 8), (10, 8)] = 0 := by
    unfold Std.lowerBound
    rw [Std.searchLoop]; norm_num
    rw [Std.searchLoop]; norm_num
    rw [Std.searchLoop]; norm_num
  have hf : Grid.findBinLimits [(10, 8), (10, 8)] 10 = .ok (false, 0) := by
    unfold Grid.findBinLimits
    rw [hb]; simp
  simp only [Source.pdf, sourceA', Grid.interpolate, hf]
  simp [Grid.inBin]

theorem sample_A (u₁ u₂ : ℝ) (h : u₂ * 1.01 ≤ 1) (n : Nat) (t : List ℝ) :
    sampleIncident exact replay (n + 1) sourceA none (u₁ :: u₂ :: t)
      = some (.ok (10, 12, some 1.01, t)) := by
  have hp : numeric sourceA.pdf 10 () = .ok (1, ()) := by simp [numeric, sourceA, Source.pdf]
  have hm := maximize_point hp n (tol := 1e-8) (by norm_num)
  unfold sampleIncident
  simp only [sourceA, Emin, Emax, rejectionSample] at hm ⊢
  rw [hm]
  have hx : u₁ * (10 - 10) + 10 = (10 : ℝ) := by ring
  simp only [rejectLoop, uniform, exact, replay, id, List.headD_cons, List.tail_cons, if_true, hx]
  simp only [sourceA] at hp
  rw [hp]
  have hy : ¬ (u₂ * (1 * 1.01 - 0) + 0 > 1) := by rw [not_lt]; linarith
  simp only [if_neg hy]
  norm_num

theorem sample_A' (u₁ u₂ : ℝ) (h : u₂ * 1.01 ≤ 1) (n : Nat) (t : List ℝ) :
    sampleIncident exact replay (n + 1) sourceA' none (u₁ :: u₂ :: t)
      = some (.ok (10, 12, some 8.08, t)) := by
  have hp : numeric sourceA'.pdf 10 () = .ok (8, ()) := by simp [numeric, sourceA'_pdf]
  have hm := maximize_point hp n (tol := 1e-8) (by norm_num)
  have ha : Emin sourceA'.spectrum = .ok 10 := rfl
  have hb : Emax sourceA'.spectrum = .ok 10 := rfl
  unfold sampleIncident
  rw [ha, hb]
  simp only [rejectionSample]
  rw [hm]
  have hx : u₁ * (10 - 10) + 10 = (10 : ℝ) := by ring
  simp only [rejectLoop, uniform, exact, replay, id, List.headD_cons, List.tail_cons, if_true, hx]
  rw [hp]
  have hy : ¬ (u₂ * (8 * 1.01 - 0) + 0 > 8) := by rw [not_lt]; linarith
  simp only [if_neg hy]
  norm_num [sourceA']

/-- One trial for the histogram. -/
theorem sample_B (m u₃ u₄ : ℝ) (h0 : 0 ≤ u₃) (h1 : u₃ < 1) (n : Nat) (t : List ℝ) :
    (u₄ * m ≤ (if u₃ ≤ 1 / 2 then 2 else 6) →
      ∃ m', sampleIncident exact replay (n + 1) sourceB (some m) (u₃ :: u₄ :: t)
        = some (.ok (1 + u₃ / 4, 12, some m', t))) ∧
    (6 ≤ m → (if u₃ ≤ 1 / 2 then 2 else 6) < u₄ * m →
      sampleIncident exact replay (n + 1) sourceB (some m) (u₃ :: u₄ :: t)
        = sampleIncident exact replay n sourceB (some m) t) := by
  have ha : Emin sourceB.spectrum = .ok 1 := rfl
  have hb : Emax sourceB.spectrum = .ok (5 / 4) := rfl
  have hx : u₃ * (5 / 4 - 1) + 1 = 1 + u₃ / 4 := by ring
  have hc : (if 1 + u₃ / 4 ≤ 9 / 8 then (2 : ℝ) else 6) = if u₃ ≤ 1 / 2 then 2 else 6 := by
    congr 1
    rw [eq_iff_iff]
    constructor <;> intro h <;> linarith
  have hp : numeric sourceB.pdf (1 + u₃ / 4) () = .ok (if u₃ ≤ 1 / 2 then 2 else 6, ()) := by
    unfold numeric
    rw [sourceB_pdf _ (by linarith) (by linarith), hc]
  constructor
  · intro h
    have hy : ¬ (u₄ * (m - 0) + 0 > (if u₃ ≤ 1 / 2 then 2 else 6)) := by
      rw [not_lt, sub_zero, add_zero]; exact h
    unfold sampleIncident
    rw [ha, hb]
    simp only [rejectionSample, rejectLoop, uniform, exact, replay, id, List.headD_cons,
      List.tail_cons, if_true, hx, hp]
    simp only [if_neg hy]
    exact ⟨_, rfl⟩
  · intro hm h
    have hy : u₄ * (m - 0) + 0 > (if u₃ ≤ 1 / 2 then 2 else 6) := by
      rw [sub_zero, add_zero]; exact h
    have hv : ¬ ((if u₃ ≤ 1 / 2 then (2 : ℝ) else 6) > m) := by
      rw [not_lt]; split_ifs <;> linarith
    unfold sampleIncident
    rw [ha, hb]
    simp only [rejectionSample, rejectLoop, uniform, exact, replay, id, List.headD_cons,
      List.tail_cons, if_true, hx, hp]
    simp only [if_pos hy, if_neg hv]

/-- **C45** does not hold: the same source with the same random numbers returns different
energies after different histories. -/
theorem C45_violated : ∃ x y m m' g g', x ≠ y ∧
    sampleHistory exact replay 2 [sourceA, sourceB] none [0, 0, 1 / 4, 1 / 2, 0, 0]
      = some (.ok ([10, x], m, g)) ∧
    sampleHistory exact replay 2 [sourceA', sourceB] none [0, 0, 1 / 4, 1 / 2, 0, 0]
      = some (.ok ([10, y], m', g')) := by
  obtain ⟨m, h1⟩ := (sample_B 1.01 (1 / 4) (1 / 2) (by norm_num) (by norm_num) 1 [0, 0]).1
    (by norm_num)
  have h2 := (sample_B 8.08 (1 / 4) (1 / 2) (by norm_num) (by norm_num) 1 [0, 0]).2 (by norm_num)
    (by norm_num)
  obtain ⟨m', h3⟩ := (sample_B 8.08 0 0 (by norm_num) (by norm_num) 0 []).1 (by norm_num)
  refine ⟨1 + 1 / 4 / 4, 1 + 0 / 4, some m, some m', [0, 0], [], by norm_num, ?_, ?_⟩
  · simp only [sampleHistory, sample_A 0 0 (by norm_num) 1, h1]
  · simp only [sampleHistory, sample_A' 0 0 (by norm_num) 1, h2, h3]

/-- **C45** does not hold of the distribution either.  After a monoenergetic source was sampled,
the histogram's first energy is uniformly distributed (it is `1 + u/4` for the number `u`
drawn, whatever the other number), so both bins have probability 1/2; their weights are 1/4
and 3/4. -/
theorem C45_distribution_violated (u₁ u₂ u₃ u₄ : ℝ) (h2 : u₂ * 1.01 ≤ 1) (h3 : 0 ≤ u₃ ∧ u₃ < 1)
    (h4 : u₄ < 1) : ∃ m, sampleHistory exact replay 1 [sourceA, sourceB] none [u₁, u₂, u₃, u₄]
      = some (.ok ([10, 1 + u₃ / 4], m, [])) := by
  obtain ⟨m, h⟩ := (sample_B 1.01 u₃ u₄ h3.1 h3.2 0 []).1 (by split_ifs <;> linarith)
  refine ⟨some m, ?_⟩
  simp only [sampleHistory, sample_A u₁ u₂ h2 0, h]

/-- The hypotheses of the partial theorem: the bound 8, a monoenergetic source and then the
histogram. -/
example : (∀ t ∈ [sourceA], Dominates 8 t) ∧ ∃ m',
    sampleHistory exact replay 1 ([sourceA] ++ [sourceB]) (some 8) [0, 1 / 16, 1 / 4, 1 / 8]
      = some (.ok ([10, 1 + 1 / 4 / 4], m', [])) := by
  constructor
  · intro t ht E y h
    rw [List.mem_singleton] at ht
    subst ht
    simp only [Source.pdf, sourceA, Except.ok.injEq, Option.some.injEq] at h
    rw [← h]
    split_ifs <;> norm_num
  · have hp : numeric sourceA.pdf 10 () = .ok (1, ()) := by simp [numeric, sourceA, Source.pdf]
    have h1 : sampleIncident exact replay 1 sourceA (some 8) [0, 1 / 16, 1 / 4, 1 / 8]
        = some (.ok (10, 12, some 8, [1 / 4, 1 / 8])) := by
      have ha : Emin sourceA.spectrum = .ok 10 := rfl
      have hb : Emax sourceA.spectrum = .ok 10 := rfl
      have hx : 0 * (10 - 10) + 10 = (10 : ℝ) := by ring
      unfold sampleIncident
      rw [ha, hb]
      simp only [rejectionSample, rejectLoop, uniform, exact, replay, id, List.headD_cons,
        List.tail_cons, if_true, hx, hp]
      norm_num [sourceA]
    obtain ⟨m', h2⟩ := (sample_B 8 (1 / 4) (1 / 8) (by norm_num) (by norm_num) 0 []).1 (by norm_num)
    exact ⟨some m', by simp only [List.cons_append, List.nil_append, sampleHistory, h1, h2]⟩

/-! ## C68 -/

/-- The names of rules.  For `linlog` and `loglin` see the violation below. -/
def ruleNames : List (Str × Interp) :=
  [("const".toList, .constant), ("constant".toList, .constant), ("lin".toList, .linearLinear),
    ("linlin".toList, .linearLinear), ("log".toList, .logLog), ("loglog".toList, .logLog),
    ("linlog".toList, .linearLog), ("loglin".toList, .logLinear)]

/-- The codes of ENDF-6 (section 0.5.2.1): 1 constant, 2 linear, 3 linear in ln x, 4 ln y linear in
x, 5 ln y linear in ln x. -/
def ruleCodes : List (Nat × Interp) :=
  [(1, .constant), (2, .linearLinear), (3, .linearLog), (4, .logLinear), (5, .logLog)]

/-- A nonempty string of decimal digits. -/
def Digits (s : Str) : Prop := s ≠ [] ∧ ∀ c ∈ s, isDigit c = true

theorem allDigits_iff (s : Str) : allDigits s = true ↔ Digits s := by
  cases s <;> simp [allDigits, Digits]

/-- **C68** (partial).  For every string: a name selects its rule; a string of digits whose
value is an ENDF code selects that code's rule; a string that is neither a name nor made of
digits is rejected with `marley::Error`; one whose value exceeds the range of `int` is rejected
with `std::out_of_range`.  Missing: other strings of digits, and the meaning of two names; see
below. -/
theorem C68_rules_partial (rule : Str) :
    (∀ m, (rule, m) ∈ ruleNames → interpolationMethod rule = .ok m) ∧
    (Digits rule → ∀ m, (digitsVal rule, m) ∈ ruleCodes → interpolationMethod rule = .ok m) ∧
    (¬ Digits rule → (∀ m, (rule, m) ∉ ruleNames) → interpolationMethod rule = .error .marleyError) ∧
    (Digits rule → 2 ^ 31 ≤ digitsVal rule → interpolationMethod rule = .error .outOfRange) := by
  refine ⟨?_, ?_, ?_, ?_⟩
  · intro m hm
    simp only [ruleNames, List.mem_cons, Prod.mk.injEq, List.not_mem_nil, or_false] at hm
    rcases hm with ⟨rfl, rfl⟩ | ⟨rfl, rfl⟩ | ⟨rfl, rfl⟩ | ⟨rfl, rfl⟩ | ⟨rfl, rfl⟩ | ⟨rfl, rfl⟩ |
      ⟨rfl, rfl⟩ | ⟨rfl, rfl⟩ <;> decide +kernel
  · intro hd m hm
    rw [← allDigits_iff] at hd
    unfold interpolationMethod stoi
    rw [if_pos hd]
    simp only [ruleCodes, List.mem_cons, Prod.mk.injEq, List.not_mem_nil, or_false] at hm
    rcases hm with ⟨h, rfl⟩ | ⟨h, rfl⟩ | ⟨h, rfl⟩ | ⟨h, rfl⟩ | ⟨h, rfl⟩ <;> rw [h] <;> rfl
  · intro hd hn
    rw [← allDigits_iff] at hd
    unfold interpolationMethod
    rw [if_neg hd]
    simp only [ruleNames, List.mem_cons, Prod.mk.injEq, List.not_mem_nil, or_false, not_or,
      not_and] at hn
    have h1 := hn .constant
    have h2 := hn .linearLinear
    have h3 := hn .logLog
    have h4 := hn .linearLog
    have h5 := hn .logLinear
    rw [if_neg (by rintro (h | h); exacts [h1.1 h rfl, h1.2.1 h rfl]),
      if_neg (by rintro (h | h); exacts [h2.2.2.1 h rfl, h2.2.2.2.1 h rfl]),
      if_neg (by rintro (h | h); exacts [h3.2.2.2.2.1 h rfl, h3.2.2.2.2.2.1 h rfl]),
      if_neg (fun h => h4.2.2.2.2.2.2.1 h rfl), if_neg (fun h => h5.2.2.2.2.2.2.2 h rfl)]
  · intro hd hb
    rw [← allDigits_iff] at hd
    unfold interpolationMethod stoi
    rw [if_pos hd]
    dsimp only
    rw [if_neg]
    simp only [Bool.false_eq_true, if_false]
    omega

/-- A name, a code with a leading zero, a string that is rejected and a number that is too
large. -/
example : interpolationMethod "loglog".toList = .ok .logLog ∧
    interpolationMethod "04".toList = .ok .logLinear ∧
    interpolationMethod "cubic".toList = .error .marleyError ∧
    interpolationMethod "-1".toList = .error .marleyError ∧
    interpolationMethod "4294967297".toList = .error .outOfRange := by
  decide +kernel

/-- **C68** does not hold for codes other than 1 to 5: they are accepted and mean the constant
rule. -/
theorem C68_codes_violated (rule : Str) (hd : Digits rule) (h : digitsVal rule < 2 ^ 31)
    (hc : digitsVal rule = 0 ∨ 5 < digitsVal rule) : interpolationMethod rule = .ok .constant := by
  rw [← allDigits_iff] at hd
  unfold interpolationMethod stoi
  rw [if_pos hd]
  dsimp only
  simp only [Bool.false_eq_true, if_false]
  rw [if_pos (by omega)]
  dsimp only
  rw [if_neg (by omega), if_neg (by omega), if_neg (by omega), if_neg (by omega), if_neg (by omega)]

example : interpolationMethod "7".toList = .ok .constant ∧
    interpolationMethod "0".toList = .ok .constant := by decide +kernel

/-- Linear in energy and logarithmic in probability density: the documented meaning of "linlog"
(examples/config/annotated.js, src/JSONConfig.cc:511). -/
def DocumentedLinLog (p1 p2 : ℝ × ℝ) (x v : ℝ) : Prop :=
  (Real.log v - Real.log p1.2) * (p2.1 - p1.1) = (Real.log p2.2 - Real.log p1.2) * (x - p1.1)

/-- Logarithmic in energy and linear in probability density: the documented meaning of
"loglin" (examples/config/annotated.js, src/JSONConfig.cc:514). -/
def DocumentedLogLin (p1 p2 : ℝ × ℝ) (x v : ℝ) : Prop :=
  (v - p1.2) * (Real.log p2.1 - Real.log p1.1) = (p2.2 - p1.2) * (Real.log x - Real.log p1.1)

theorem log_eight_ne : 3 * Real.log 2 ≠ Real.log 3 := by
  intro h
  have h8 : Real.log 8 = 3 * Real.log 2 := by
    rw [show (8 : ℝ) = 2 ^ (3 : ℕ) by norm_num, Real.log_pow]; norm_num
  rw [← h8] at h
  have := Real.log_injOn_pos (by norm_num) (by norm_num) h
  norm_num at this

/-- **C68** does not hold of the meaning of "linlog" and "loglin": each selects the rule
documented for the other. -/
theorem C68_meaning_violated :
    (∃ m v, interpolationMethod "linlog".toList = .ok m ∧
      Grid.interpolate ⟨m, .zero, [(1, 1), (4, 3)]⟩ 2 = .ok (some v) ∧
      DocumentedLogLin (1, 1) (4, 3) 2 v ∧ ¬ DocumentedLinLog (1, 1) (4, 3) 2 v) ∧
    (∃ m v, interpolationMethod "loglin".toList = .ok m ∧
      Grid.interpolate ⟨m, .zero, [(1, 1), (4, 3)]⟩ 2 = .ok (some v) ∧
      DocumentedLinLog (1, 1) (4, 3) 2 v ∧ ¬ DocumentedLogLin (1, 1) (4, 3) 2 v) := by
  have hi : Increasing [((1 : ℝ), (1 : ℝ)), (4, 3)] := by simp [Increasing]
  have l4 : Real.log 4 = 2 * Real.log 2 := by
    rw [show (4 : ℝ) = 2 ^ (2 : ℕ) by norm_num, Real.log_pow]; norm_num
  have l2 : 0 < Real.log 2 := Real.log_pos (by norm_num)
  constructor
  · obtain ⟨v, e, h⟩ := C13_rule_between_points ⟨.linearLog, .zero, [(1, 1), (4, 3)]⟩ (by simp) hi
      (by constructor <;> intro _ <;> simp) 0 (1, 1) (4, 3) rfl rfl 2 (by norm_num) (by norm_num)
    simp only [OnLine, scaleX, scaleY] at h
    refine ⟨_, v, by decide +kernel, e, h, ?_⟩
    have hv : v = 2 := by
      rw [Real.log_one, sub_zero, sub_zero, l4] at h
      have : (v - 2) * Real.log 2 = 0 := by linarith
      rcases mul_eq_zero.1 this with h | h
      · linarith
      · linarith
    subst hv
    unfold DocumentedLinLog
    simp only [Real.log_one, sub_zero]
    intro h'
    exact log_eight_ne (by linarith)
  · obtain ⟨v, e, h⟩ := C13_rule_between_points ⟨.logLinear, .zero, [(1, 1), (4, 3)]⟩ (by simp) hi
      (by constructor <;> intro _ <;> simp) 0 (1, 1) (4, 3) rfl rfl 2 (by norm_num) (by norm_num)
    simp only [OnLine, scaleX, scaleY] at h
    refine ⟨_, v, by decide +kernel, e, h, ?_⟩
    unfold DocumentedLogLin
    simp only [Real.log_one, sub_zero, l4] at h ⊢
    intro h'
    have hv : v = 2 := by
      have : (v - 2) * Real.log 2 = 0 := by linarith
      rcases mul_eq_zero.1 this with h | h
      · linarith
      · linarith
    subst hv
    exact log_eight_ne (by linarith)

end Marley.Props
