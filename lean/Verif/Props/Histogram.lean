import Verif.Props.Counts
import Mathlib.Data.Nat.Choose.Multinomial
import Mathlib.Data.List.FinRange
import Mathlib.Algebra.BigOperators.Fin

/-!
# C136: histograms of runs, and how long a run has to be until an event with a property comes
-/

set_option autoImplicit false

namespace Marley.Props
open Marley Marley.Gen Marley.Sampling Marley.Rot MeasureTheory
open scoped Nat

/-! ### Words -/

/-- All words of `n` letters in which the letter `i` comes up `k i` times. -/
def words {r : Nat} : Nat → (Fin r → Nat) → List (List (Fin r))
  | 0, k => if ∀ i, k i = 0 then [[]] else []
  | n + 1, k => (List.finRange r).flatMap fun i =>
      if k i = 0 then [] else (words n (Function.update k i (k i - 1))).map (i :: ·)

theorem words_mem {r : Nat} : ∀ {n : Nat} {k : Fin r → Nat} {w : List (Fin r)},
    w ∈ words n k ↔ w.length = n ∧ ∀ i, w.count i = k i
  | 0, k, w => by
    unfold words
    split_ifs with h
    · simp only [List.mem_singleton, List.length_eq_zero_iff]
      exact ⟨by rintro rfl; simpa using fun i => (h i).symm, fun h => h.1⟩
    · simp only [List.not_mem_nil, List.length_eq_zero_iff, false_iff]
      rintro ⟨rfl, h'⟩
      exact h fun i => by simpa using (h' i).symm
  | n + 1, k, w => by
    unfold words
    simp only [List.mem_flatMap, List.mem_finRange, true_and]
    constructor
    · rintro ⟨i, hi⟩
      split_ifs at hi with h
      · simp at hi
      · simp only [List.mem_map] at hi
        obtain ⟨v, hv, rfl⟩ := hi
        obtain ⟨h1, h2⟩ := words_mem.1 hv
        refine ⟨by simp [h1], fun j => ?_⟩
        by_cases hj : j = i
        · subst hj
          have := h2 j
          rw [Function.update_self] at this
          rw [List.count_cons_self]
          omega
        · rw [List.count_cons_of_ne (Ne.symm hj), h2 j, Function.update_of_ne hj]
    · rintro ⟨h1, h2⟩
      cases w with
      | nil => simp at h1
      | cons i v =>
        refine ⟨i, ?_⟩
        have hi := h2 i
        rw [List.count_cons_self] at hi
        rw [if_neg (by omega), List.mem_map]
        refine ⟨v, words_mem.2 ⟨by simpa using h1, fun j => ?_⟩, rfl⟩
        by_cases hj : j = i
        · subst hj
          rw [Function.update_self]; omega
        · rw [Function.update_of_ne hj, ← h2 j, List.count_cons_of_ne (Ne.symm hj)]

theorem words_nodup {r : Nat} : ∀ (n : Nat) (k : Fin r → Nat), (words n k).Nodup
  | 0, k => by unfold words; split_ifs <;> simp
  | n + 1, k => by
    unfold words
    rw [List.nodup_flatMap]
    constructor
    · intro i _
      split_ifs
      · simp
      · exact (words_nodup n _).map fun _ _ h => by simpa using h
    · refine (List.nodup_finRange r).imp ?_
      intro i j hij w h1 h2
      dsimp only at h1 h2
      split_ifs at h1 h2
      all_goals simp only [List.not_mem_nil, List.mem_map] at h1 h2
      obtain ⟨_, _, rfl⟩ := h1
      obtain ⟨_, _, h⟩ := h2
      exact hij (by simpa using congrArg List.head? h.symm)

/-- How many such words there are: the multinomial coefficient. -/
theorem words_length {r : Nat} : ∀ (n : Nat) (k : Fin r → Nat), ∑ i, k i = n →
    (words n k).length * ∏ i, (k i)! = n !
  | 0, k, h => by
    have h0 : ∀ i, k i = 0 := by simpa using h
    simp [words, h0]
  | n + 1, k, h => by
    unfold words
    rw [List.length_flatMap, ← Fin.sum_univ_def, Finset.sum_mul,
      Finset.sum_congr rfl (g := fun i => k i * n !), ← Finset.sum_mul, h, Nat.factorial_succ]
    intro i _
    split_ifs with hi
    · simp [hi]
    · have hs : ∑ j, Function.update k i (k i - 1) j = n := by
        rw [Finset.sum_update_of_mem (Finset.mem_univ i)]
        rw [← Finset.add_sum_erase _ _ (Finset.mem_univ i)] at h
        rw [Finset.sdiff_singleton_eq_erase]
        omega
      have := words_length n _ hs
      rw [List.length_map, ← this, mul_left_comm]
      congr 1
      rw [← Finset.mul_prod_erase _ _ (Finset.mem_univ i),
        ← Finset.mul_prod_erase _ (fun j => (Function.update k i (k i - 1) j)!) (Finset.mem_univ i),
        Function.update_self, ← mul_assoc, Nat.mul_factorial_pred hi]
      congr 1
      refine Finset.prod_congr rfl fun j hj => ?_
      rw [Function.update_of_ne (Finset.ne_of_mem_erase hj)]

theorem words_multinomial {r : Nat} (k : Fin r → Nat) :
    (words (∑ i, k i) k).length = Nat.multinomial Finset.univ k := by
  have h1 := words_length _ k rfl
  have h2 := Nat.multinomial_spec Finset.univ k
  have h3 : 0 < ∏ i, (k i)! := Finset.prod_pos fun i _ => Nat.factorial_pos _
  rw [← h2, mul_comm] at h1
  exact Nat.eq_of_mul_eq_mul_left h3 h1

/-- What a word asks of the events: which bin each of them falls into. -/
def binned {r : Nat} (bin : Event ℝ → Fin r) (w : List (Fin r)) : List (Set (Event ℝ)) :=
  w.map fun i => {ev | bin ev = i}

theorem binned_iff {r : Nat} {bin : Event ℝ → Fin r} : ∀ {evs : List (Event ℝ)} {w : List (Fin r)},
    List.Forall₂ (· ∈ ·) evs (binned bin w) ↔ w = evs.map bin
  | [], [] => by simp [binned]
  | [], b :: p => by simp [binned]
  | ev :: evs, [] => by simp [binned]
  | ev :: evs, b :: p => by
    have := binned_iff (bin := bin) (evs := evs) (w := p)
    simp only [binned, List.map_cons, List.forall₂_cons, List.cons.injEq] at this ⊢
    rw [this]
    exact and_congr eq_comm Iff.rfl

theorem binned_tally {r : Nat} (bin : Event ℝ → Fin r) (i : Fin r) (evs : List (Event ℝ)) :
    (evs.map bin).count i = tally {ev | bin ev = i} evs := by
  classical
  unfold tally
  induction evs with
  | nil => rfl
  | cons ev evs ih =>
    by_cases h : bin ev = i
    · simp [h, ih]
    · simp [h, ih]

theorem binned_prod {r : Nat} (f : Fin r → ENNReal) (w : List (Fin r)) :
    (w.map f).prod = ∏ i, f i ^ w.count i := by
  classical
  rw [Finset.prod_list_map_count]
  refine Finset.prod_subset (Finset.subset_univ _) fun i _ hi => ?_
  rw [List.count_eq_zero_of_not_mem (by simpa using hi), pow_zero]

section
variable {Ω : Type} [MeasurableSpace Ω] {μ : Measure Ω} {W : World Ω} {g : Gen Ω}
  {s : Nat → ℝ → ℝ} {m : ℝ} {T : Set (Event ℝ)}

/-! ### Theorems -/

/-- **C136**: the numbers of events in the bins of a histogram have a multinomial law. -/
theorem C136_multinomial (hI : Ideal W.engine μ) (h : Usable W g s m) (hd : Consistent g.rotator)
    (hu : Renews W g μ Set.univ) {r : Nat} {bin : Event ℝ → Fin r} (hb : ∀ i, Renews W g μ {ev | bin ev = i})
    (k : Fin r → Nat) :
    μ (runs W g (∑ i, k i) fun evs => ∀ i, tally {ev | bin ev = i} evs = k i)
      = Nat.multinomial Finset.univ k * ∏ i, μ (events W g ({ev | bin ev = i} ×ˢ Set.univ)) ^ k i := by
  classical
  have hseq : ∀ w, NullMeasurableSet (starts W g (binned bin w)) μ ∧ μ (starts W g (binned bin w)) = _ := fun w =>
    C132_sequence hI h hd hu (Ts := binned bin w) (by
      intro S hS
      simp only [binned, List.mem_map] at hS
      obtain ⟨i, -, rfl⟩ := hS
      exact hb i)
  have hruns : runs W g (∑ i, k i) (fun evs => ∀ i, tally {ev | bin ev = i} evs = k i)
      = ⋃ w ∈ (words (∑ i, k i) k).toFinset, starts W g (binned bin w) := by
    ext ω
    simp only [Set.mem_iUnion, List.mem_toFinset, exists_prop]
    constructor
    · rintro ⟨evs, g', h, hk⟩
      have hl := createEvents_length h
      refine ⟨evs.map bin, words_mem.2 ⟨by simpa using hl, fun i => by rw [binned_tally, hk]⟩,
        evs, g', ?_, binned_iff.2 rfl⟩
      rw [show (binned bin (evs.map bin)).length = ∑ i, k i by simp [binned, hl]]
      exact h
    · rintro ⟨w, hw, evs, g', h, hf⟩
      obtain ⟨hl, hc⟩ := words_mem.1 hw
      have := binned_iff.1 hf
      refine ⟨evs, g', ?_, fun i => by rw [← binned_tally, ← this, hc]⟩
      rw [← hl]
      simpa [binned] using h
  rw [hruns, measure_biUnion_finset₀ ?_ fun w _ => (hseq w).1]
  · rw [Finset.sum_congr rfl (g := fun _ => ∏ i, μ (events W g ({ev | bin ev = i} ×ˢ Set.univ)) ^ k i)]
    · rw [Finset.sum_const, List.toFinset_card_of_nodup (words_nodup _ k), words_multinomial, nsmul_eq_mul]
    · intro w hw
      obtain ⟨hl, hc⟩ := words_mem.1 (List.mem_toFinset.1 hw)
      rw [(hseq w).2, binned, List.map_map,
        show ((fun T => μ (events W g (T ×ˢ Set.univ))) ∘ fun i => {ev | bin ev = i})
          = fun i => μ (events W g ({ev | bin ev = i} ×ˢ Set.univ)) from rfl, binned_prod]
      simp only [hc]
  · intro p hp q hq hpq
    refine Disjoint.aedisjoint (Set.disjoint_left.2 ?_)
    rintro ω ⟨evs, g', h1, h2⟩ ⟨evs', g'', h3, h4⟩
    have hp := (words_mem.1 (List.mem_toFinset.1 hp)).1
    have hq := (words_mem.1 (List.mem_toFinset.1 hq)).1
    simp only [binned, List.length_map] at h1 h3
    rw [hp] at h1
    rw [hq, h1] at h3
    simp only [Option.some.injEq, Except.ok.injEq, Prod.mk.injEq] at h3
    rw [binned_iff] at h2 h4
    rw [← h3.1] at h4
    exact hpq (h2.trans h4.symm)

/-- **C136**: of the completed runs of `n` events, those with `k i` events in bin `i`, for all bins, have the share
`n! / (k 0! k 1! …) p 0 ^ k 0 p 1 ^ k 1 …`, where `p i` is the share of the events of bin `i` among all events. -/
theorem C136_histogram (hI : Ideal W.engine μ) (h : Usable W g s m) (hd : Consistent g.rotator)
    (hu : Renews W g μ Set.univ) {r : Nat} {bin : Event ℝ → Fin r} (hb : ∀ i, Renews W g μ {ev | bin ev = i})
    {n : Nat} {k : Fin r → Nat} (hk : ∑ i, k i = n) :
    μ (runs W g n fun evs => ∀ i, tally {ev | bin ev = i} evs = k i) = μ (events W g Set.univ) ^ n
      * ENNReal.ofReal (n ! / (∏ i, (k i)! : Nat) * ∏ i, portion W g μ {ev | bin ev = i} ^ k i) := by
  subst hk
  have hp := fun i => portion_spec hI h (hb i)
  rw [C136_multinomial hI h hd hu hb, Finset.prod_congr rfl (fun i _ => by rw [(hp i).2.2.1, mul_pow]),
    Finset.prod_mul_distrib, Finset.prod_pow_eq_pow_sum, mul_left_comm]
  congr 1
  have hne : ((∏ i, (k i)! : Nat) : ℝ) ≠ 0 := by
    exact_mod_cast (Finset.prod_pos fun i _ => Nat.factorial_pos (k i)).ne'
  rw [← Nat.multinomial_spec Finset.univ k, Nat.cast_mul, mul_div_cancel_left₀ _ hne,
    ENNReal.ofReal_mul (by positivity), ENNReal.ofReal_natCast,
    ENNReal.ofReal_prod_of_nonneg fun i _ => pow_nonneg (hp i).1 _]
  simp only [fun i => ENNReal.ofReal_pow (hp i).1 (k i)]

/-- **C136**: of the completed runs of `k + 1` events, those in which the last event is the first in `T` have the
share `(1 - p)^k p`: the number of events until one in `T` comes has a geometric law. -/
theorem C136_waiting (hI : Ideal W.engine μ) (h : Usable W g s m) (hd : Consistent g.rotator)
    (hu : Renews W g μ Set.univ) (hT : Renews W g μ T) (hT' : Renews W g μ Tᶜ) (k : Nat) :
    μ (runs W g (k + 1) fun evs => ∃ front last, evs = front ++ [last] ∧ (∀ ev ∈ front, ev ∉ T) ∧ last ∈ T)
      = μ (events W g Set.univ) ^ (k + 1)
        * ENNReal.ofReal ((1 - portion W g μ T) ^ k * portion W g μ T) := by
  obtain ⟨p0, p1, ha, hb⟩ := portion_spec hI h hT
  have hs := (C132_sequence hI h hd hu (Ts := List.replicate k Tᶜ ++ [T]) (by
    intro S hS
    rcases List.mem_append.1 hS with hS | hS
    · rw [List.eq_of_mem_replicate hS]; exact hT'
    · rw [List.mem_singleton.1 hS]; exact hT)).2
  rw [List.map_append, List.prod_append, List.map_replicate, List.prod_replicate, List.map_singleton,
    List.prod_singleton, ha, hb] at hs
  have hset : runs W g (k + 1) (fun evs => ∃ front last, evs = front ++ [last] ∧ (∀ ev ∈ front, ev ∉ T) ∧ last ∈ T)
      = starts W g (List.replicate k Tᶜ ++ [T]) := by
    ext ω
    have hlen : (List.replicate k Tᶜ ++ [T]).length = k + 1 := by simp
    constructor
    · rintro ⟨evs, g', h1, front, last, rfl, h2, h3⟩
      have hl := createEvents_length h1
      refine ⟨_, g', by rw [hlen]; exact h1, List.rel_append ?_ (.cons h3 .nil)⟩
      have hl : front.length = k := by simpa using hl
      subst hl
      clear h1 hs hlen
      induction front with
      | nil => exact .nil
      | cons ev evs ih =>
        exact .cons (h2 ev (by simp)) (ih (fun e he => h2 e (by simp [he])) (by simp))
    · rintro ⟨evs, g', h1, h2⟩
      rw [hlen] at h1
      refine ⟨evs, g', h1, ?_⟩
      clear h1 hs hlen
      induction k generalizing evs with
      | zero =>
        cases h2 with
        | cons h3 h4 =>
          cases h4
          exact ⟨[], _, rfl, by simp, h3⟩
      | succ k ih =>
        rw [List.replicate_succ, List.cons_append] at h2
        cases h2 with
        | cons h3 h4 =>
          obtain ⟨front, last, rfl, h5, h6⟩ := ih _ h4
          refine ⟨_ :: front, last, rfl, ?_, h6⟩
          intro e he
          rcases List.mem_cons.1 he with rfl | he
          · exact h3
          · exact h5 e he
  rw [hset, hs, ENNReal.ofReal_mul (pow_nonneg (by linarith) _), ENNReal.ofReal_pow (by linarith)]
  ring

/-- A weight of the counts, averaged over the completed runs. -/
theorem counts_average (hI : Ideal W.engine μ) (h : Usable W g s m) (hd : Consistent g.rotator)
    (hu : Renews W g μ Set.univ) (hT : Renews W g μ T) (hT' : Renews W g μ Tᶜ) (n : Nat) {f : Nat → ℝ}
    (hf : ∀ k, 0 ≤ f k) :
    ∑ k ∈ Finset.range (n + 1), ENNReal.ofReal (f k) * μ (runs W g n fun evs => tally T evs = k)
      = μ (events W g Set.univ) ^ n * ENNReal.ofReal (∑ k ∈ Finset.range (n + 1),
          f k * (n.choose k * portion W g μ T ^ k * (1 - portion W g μ T) ^ (n - k))) := by
  obtain ⟨p0, p1, -, -⟩ := portion_spec hI h hT
  have hq : 0 ≤ 1 - portion W g μ T := by linarith
  rw [ENNReal.ofReal_sum_of_nonneg fun k _ => mul_nonneg (hf k) (by positivity), Finset.mul_sum]
  refine Finset.sum_congr rfl fun k _ => ?_
  rw [C136_counts hI h hd hu hT hT', ENNReal.ofReal_mul (hf k)]
  ring

/-- **C136**: on average `n p` of the `n` events of a completed run are in `T`. -/
theorem C136_mean (hI : Ideal W.engine μ) (h : Usable W g s m) (hd : Consistent g.rotator)
    (hu : Renews W g μ Set.univ) (hT : Renews W g μ T) (hT' : Renews W g μ Tᶜ) (n : Nat) :
    ∑ k ∈ Finset.range (n + 1), ENNReal.ofReal k * μ (runs W g n fun evs => tally T evs = k)
      = μ (events W g Set.univ) ^ n * ENNReal.ofReal (n * portion W g μ T) := by
  rw [counts_average hI h hd hu hT hT' n (f := fun k => (k : ℝ)) fun k => Nat.cast_nonneg k]
  have := congrArg (Polynomial.eval (portion W g μ T)) (bernsteinPolynomial.sum_smul ℝ n)
  simp only [Polynomial.eval_finsetSum, bernsteinPolynomial, Polynomial.eval_mul,
    Polynomial.eval_natCast, Polynomial.eval_pow, Polynomial.eval_X, Polynomial.eval_sub, Polynomial.eval_one,
    nsmul_eq_mul] at this
  rw [this]

/-- **C136**: and the mean square of the deviation from `n p` is `n p (1 - p)`, which is what statistical errors of
counts are computed from. -/
theorem C136_variance (hI : Ideal W.engine μ) (h : Usable W g s m) (hd : Consistent g.rotator)
    (hu : Renews W g μ Set.univ) (hT : Renews W g μ T) (hT' : Renews W g μ Tᶜ) (n : Nat) :
    ∑ k ∈ Finset.range (n + 1), ENNReal.ofReal ((k - n * portion W g μ T) ^ 2)
        * μ (runs W g n fun evs => tally T evs = k)
      = μ (events W g Set.univ) ^ n * ENNReal.ofReal (n * portion W g μ T * (1 - portion W g μ T)) := by
  rw [counts_average hI h hd hu hT hT' n (f := fun k => (k - n * portion W g μ T) ^ 2) fun k => sq_nonneg _]
  have := congrArg (Polynomial.eval (portion W g μ T)) (bernsteinPolynomial.variance ℝ n)
  simp only [Polynomial.eval_finsetSum, bernsteinPolynomial, Polynomial.eval_mul,
    Polynomial.eval_natCast, Polynomial.eval_pow, Polynomial.eval_X, Polynomial.eval_sub, Polynomial.eval_one,
    nsmul_eq_mul] at this
  rw [← this]
  congr 2
  refine Finset.sum_congr rfl fun k _ => ?_
  ring

end

/-! ### Examples -/

open Classical in
/-- A histogram with two bins, for runs of a generator that meets the hypotheses. -/
example (k : Fin 2 → Nat) :
    coins (runs (demoWorld reader) coinGen (∑ i, k i) fun evs =>
        ∀ i, tally {ev | (if ev ∈ small then (0 : Fin 2) else 1) = i} evs = k i)
      = Nat.multinomial Finset.univ k * ∏ i : Fin 2,
        coins (events (demoWorld reader) coinGen
          ({ev | (if ev ∈ small then (0 : Fin 2) else 1) = i} ×ˢ Set.univ)) ^ k i := by
  refine C136_multinomial coin_ideal coin_usable (Or.inl rfl) (coin_fresh (by simp)) (fun i => coin_fresh ?_) k
  exact measurableSet_eq_fun (Measurable.ite small_measurable measurable_const measurable_const) measurable_const

example (k : Nat) :
    coins (runs (demoWorld reader) coinGen (k + 1) fun evs =>
        ∃ front last, evs = front ++ [last] ∧ (∀ ev ∈ front, ev ∉ small) ∧ last ∈ small)
      = coins (events (demoWorld reader) coinGen Set.univ) ^ (k + 1)
        * ENNReal.ofReal ((1 - portion (demoWorld reader) coinGen coins small) ^ k
          * portion (demoWorld reader) coinGen coins small) :=
  C136_waiting coin_ideal coin_usable (Or.inl rfl) (coin_fresh (by simp)) (coin_fresh small_measurable)
    (coin_fresh small_measurable.compl) k

/-- Mean and variance for a generator that meets the hypotheses. -/
example (n : Nat) :
    ∑ k ∈ Finset.range (n + 1), ENNReal.ofReal k
        * coins (runs (demoWorld reader) coinGen n fun evs => tally small evs = k)
      = coins (events (demoWorld reader) coinGen Set.univ) ^ n
        * ENNReal.ofReal (n * portion (demoWorld reader) coinGen coins small) :=
  C136_mean coin_ideal coin_usable (Or.inl rfl) (coin_fresh (by simp)) (coin_fresh small_measurable)
    (coin_fresh small_measurable.compl) n

end Marley.Props
