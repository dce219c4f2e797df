import Verif.Props.EventLaw
import Mathlib.Analysis.SpecialFunctions.Bernstein

/-!
# C136: how many events of a run have a property
-/

set_option autoImplicit false

namespace Marley.Props
open Marley Marley.Gen Marley.Sampling Marley.Rot MeasureTheory

/-! ### Specification -/

open Classical in
/-- How many of some events belong to `T`. -/
noncomputable def tally (T : Set (Event ℝ)) (evs : List (Event ℝ)) : Nat :=
  (evs.filter fun ev => decide (ev ∈ T)).length

/-- The engines for which a run of `n` events gives events with `Q`. -/
def runs {Ω : Type} (W : World Ω) (g : Gen Ω) (n : Nat) (Q : List (Event ℝ) → Prop) : Set Ω :=
  {ω | ∃ evs g', ({ g with eng := ω } : Gen Ω).createEvents W n = some (.ok (evs, g')) ∧ Q evs}

/-- The share of the events in `T` among all events. -/
noncomputable def portion {Ω : Type} [MeasurableSpace Ω] (W : World Ω) (g : Gen Ω) (μ : Measure Ω)
    (T : Set (Event ℝ)) : ℝ :=
  (μ (events W g (T ×ˢ Set.univ)) / μ (events W g Set.univ)).toReal

/-! ### Patterns -/

/-- All ways to choose `k` of `n` places. -/
def patterns : Nat → Nat → List (List Bool)
  | 0, 0 => [[]]
  | 0, _ + 1 => []
  | n + 1, 0 => (patterns n 0).map (false :: ·)
  | n + 1, k + 1 => (patterns n k).map (true :: ·) ++ (patterns n (k + 1)).map (false :: ·)

theorem patterns_length : ∀ n k, (patterns n k).length = n.choose k
  | 0, 0 => rfl
  | 0, _ + 1 => rfl
  | n + 1, 0 => by simp [patterns, patterns_length n 0]
  | n + 1, k + 1 => by simp [patterns, patterns_length n k, patterns_length n (k + 1), Nat.choose_succ_succ]

theorem patterns_mem : ∀ {n k : Nat} {p : List Bool}, p ∈ patterns n k ↔ p.length = n ∧ p.count true = k
  | 0, 0, p => by
    simp only [patterns, List.mem_singleton, List.length_eq_zero_iff]
    exact ⟨by rintro rfl; simp, fun h => h.1⟩
  | 0, k + 1, p => by
    simp only [patterns, List.not_mem_nil, List.length_eq_zero_iff, false_iff]
    rintro ⟨rfl, h⟩
    simp at h
  | n + 1, 0, p => by
    cases p with
    | nil => simp [patterns]
    | cons b p => cases b <;> simp [patterns, patterns_mem (n := n) (k := 0)]
  | n + 1, k + 1, p => by
    cases p with
    | nil => simp [patterns]
    | cons b p =>
      cases b <;> simp [patterns, patterns_mem (n := n) (k := k), patterns_mem (n := n) (k := k + 1)]

theorem patterns_nodup : ∀ n k, (patterns n k).Nodup
  | 0, 0 => by simp [patterns]
  | 0, _ + 1 => by simp [patterns]
  | n + 1, 0 => (patterns_nodup n 0).map fun _ _ h => by simpa using h
  | n + 1, k + 1 => by
    refine List.Nodup.append ((patterns_nodup n k).map fun _ _ h => by simpa using h)
      ((patterns_nodup n (k + 1)).map fun _ _ h => by simpa using h) ?_
    intro p h1 h2
    simp only [List.mem_map] at h1 h2
    obtain ⟨_, _, rfl⟩ := h1
    obtain ⟨_, _, h⟩ := h2
    simp at h

/-- What a pattern asks of the events. -/
def asked (T : Set (Event ℝ)) (p : List Bool) : List (Set (Event ℝ)) := p.map fun b => if b then T else Tᶜ

theorem asked_prod (T : Set (Event ℝ)) (f : Set (Event ℝ) → ENNReal) : ∀ p : List Bool,
    ((asked T p).map f).prod = f T ^ p.count true * f Tᶜ ^ (p.length - p.count true)
  | [] => by simp [asked]
  | true :: p => by
    have := asked_prod T f p
    simp only [asked, List.map_cons, List.prod_cons, if_true] at this ⊢
    rw [this, List.count_cons_self, List.length_cons, Nat.add_sub_add_right, pow_succ]
    ring
  | false :: p => by
    have := asked_prod T f p
    have hle := List.count_le_length (a := true) (l := p)
    simp only [asked, List.map_cons, List.prod_cons, Bool.false_eq_true, if_false] at this ⊢
    rw [this, List.count_cons_of_ne (by simp), List.length_cons, Nat.succ_sub hle, pow_succ]
    ring

theorem asked_iff {T : Set (Event ℝ)} : ∀ {evs : List (Event ℝ)} {p : List Bool},
    List.Forall₂ (· ∈ ·) evs (asked T p) ↔ open Classical in p = evs.map fun ev => decide (ev ∈ T)
  | [], [] => by simp [asked]
  | [], b :: p => by simp [asked]
  | ev :: evs, [] => by simp [asked]
  | ev :: evs, b :: p => by
    have := asked_iff (T := T) (evs := evs) (p := p)
    simp only [asked, List.map_cons, List.forall₂_cons, List.cons.injEq] at this ⊢
    rw [this]
    cases b <;> simp

theorem tally_count (T : Set (Event ℝ)) (evs : List (Event ℝ)) :
    open Classical in (evs.map fun ev => decide (ev ∈ T)).count true = tally T evs := by
  classical
  unfold tally
  induction evs with
  | nil => rfl
  | cons ev evs ih =>
    by_cases h : ev ∈ T
    · simp [h, ih]
    · simp [h, ih]

section
variable {Ω : Type} [MeasurableSpace Ω] {μ : Measure Ω} {W : World Ω} {g : Gen Ω}
  {s : Nat → ℝ → ℝ} {m : ℝ} {T : Set (Event ℝ)}

theorem createEvents_length {n : Nat} : ∀ {g g' : Gen Ω} {evs : List (Event ℝ)},
    g.createEvents W n = some (.ok (evs, g')) → evs.length = n := by
  induction n with
  | zero =>
    intro g g' evs h
    simp only [Gen.createEvents, Option.some.injEq, Except.ok.injEq, Prod.mk.injEq] at h
    rw [← h.1]; rfl
  | succ n ih =>
    intro g g' evs h
    unfold Gen.createEvents at h
    cases h1 : g.createEvent W with
    | none => rw [h1] at h; cases h
    | some v =>
      cases v with
      | error e => rw [h1] at h; cases h
      | ok v =>
        obtain ⟨ev, g1⟩ := v
        rw [h1] at h
        dsimp only at h
        cases h2 : g1.createEvents W n with
        | none => rw [h2] at h; cases h
        | some v =>
          cases v with
          | error e => rw [h2] at h; cases h
          | ok v =>
            rw [h2] at h
            cases h
            simp [ih h2]

theorem runs_patterns (n k : Nat) :
    runs W g n (fun evs => tally T evs = k) = ⋃ p ∈ (patterns n k).toFinset, starts W g (asked T p) := by
  classical
  ext ω
  simp only [Set.mem_iUnion, List.mem_toFinset, exists_prop]
  constructor
  · rintro ⟨evs, g', h, hk⟩
    have hl := createEvents_length h
    refine ⟨evs.map fun ev => decide (ev ∈ T), patterns_mem.2 ⟨by simpa using hl, by rw [tally_count, hk]⟩,
      evs, g', ?_, asked_iff.2 rfl⟩
    rw [show (asked T (evs.map fun ev => decide (ev ∈ T))).length = n by simp [asked, hl]]
    exact h
  · rintro ⟨p, hp, evs, g', h, hf⟩
    obtain ⟨hl, hc⟩ := patterns_mem.1 hp
    have := asked_iff.1 hf
    refine ⟨evs, g', ?_, show tally T evs = k by rw [← tally_count, ← this, hc]⟩
    rw [← hl]
    simpa [asked] using h

/-! ### Theorems -/

/-- **C136**: the number of events in `T` among the events of a run has a binomial law. -/
theorem C136_binomial (hI : Ideal W.engine μ) (h : Usable W g s m) (hd : Consistent g.rotator)
    (hu : Renews W g μ Set.univ) (hT : Renews W g μ T) (hT' : Renews W g μ Tᶜ) (n k : Nat) :
    μ (runs W g n fun evs => tally T evs = k)
      = n.choose k * μ (events W g (T ×ˢ Set.univ)) ^ k * μ (events W g (Tᶜ ×ˢ Set.univ)) ^ (n - k) := by
  classical
  have hseq : ∀ p, NullMeasurableSet (starts W g (asked T p)) μ ∧ μ (starts W g (asked T p)) = _ := fun p =>
    C132_sequence hI h hd hu (Ts := asked T p) (by
      intro S hS
      simp only [asked, List.mem_map] at hS
      obtain ⟨b, -, rfl⟩ := hS
      cases b
      · exact hT'
      · exact hT)
  rw [runs_patterns, measure_biUnion_finset₀ ?_ fun p _ => (hseq p).1]
  · rw [Finset.sum_congr rfl (g := fun _ => μ (events W g (T ×ˢ Set.univ)) ^ k
      * μ (events W g (Tᶜ ×ˢ Set.univ)) ^ (n - k))]
    · rw [Finset.sum_const, List.toFinset_card_of_nodup (patterns_nodup n k), patterns_length, nsmul_eq_mul, mul_assoc]
    · intro p hp
      obtain ⟨hl, hc⟩ := patterns_mem.1 (List.mem_toFinset.1 hp)
      rw [(hseq p).2, asked_prod T (fun T => μ (events W g (T ×ˢ Set.univ))) p, hl, hc]
  · intro p hp q hq hpq
    refine Disjoint.aedisjoint (Set.disjoint_left.2 ?_)
    rintro ω ⟨evs, g', h1, h2⟩ ⟨evs', g'', h3, h4⟩
    have hp := (patterns_mem.1 (List.mem_toFinset.1 hp)).1
    have hq := (patterns_mem.1 (List.mem_toFinset.1 hq)).1
    simp only [asked, List.length_map] at h1 h3
    rw [hp] at h1
    rw [hq, h1] at h3
    simp only [Option.some.injEq, Except.ok.injEq, Prod.mk.injEq] at h3
    rw [asked_iff] at h2 h4
    rw [← h3.1] at h4
    exact hpq (h2.trans h4.symm)

/-- Events in `T` and events not in `T` are all events. -/
theorem events_split (hI : Ideal W.engine μ) (h : Usable W g s m) (hT : Renews W g μ T) :
    μ (events W g Set.univ) = μ (events W g (T ×ˢ Set.univ)) + μ (events W g (Tᶜ ×ˢ Set.univ)) := by
  have hn := (C132_event hI h fun r hr => hT.measurable r hr _ MeasurableSet.univ).1
  rw [← measure_union₀' hn]
  · congr 1
    ext ω
    simp only [events, Set.mem_union, Set.mem_ofPred_eq, Set.mem_prod, Set.mem_univ, and_true, Set.mem_compl_iff]
    constructor
    · rintro ⟨ev, g', h⟩
      by_cases hev : ev ∈ T
      · exact Or.inl ⟨ev, g', h, hev⟩
      · exact Or.inr ⟨ev, g', h, hev⟩
    · rintro (⟨ev, g', h, -⟩ | ⟨ev, g', h, -⟩) <;> exact ⟨ev, g', h⟩
  · refine Disjoint.aedisjoint (Set.disjoint_left.2 ?_)
    rintro ω ⟨ev, g', h1, h2⟩ ⟨ev', g'', h3, h4⟩
    rw [h1] at h3
    simp only [Option.some.injEq, Except.ok.injEq, Prod.mk.injEq] at h3
    rw [← h3.1] at h4
    exact h4.1 h2.1

theorem portion_spec (hI : Ideal W.engine μ) (h : Usable W g s m) (hT : Renews W g μ T) :
    0 ≤ portion W g μ T ∧ portion W g μ T ≤ 1 ∧
    μ (events W g (T ×ˢ Set.univ)) = μ (events W g Set.univ) * ENNReal.ofReal (portion W g μ T) ∧
    μ (events W g (Tᶜ ×ˢ Set.univ)) = μ (events W g Set.univ) * ENNReal.ofReal (1 - portion W g μ T) := by
  have := hI.prob
  have hs := events_split hI h hT
  unfold portion
  generalize hc : μ (events W g Set.univ) = c at *
  generalize ha : μ (events W g (T ×ˢ Set.univ)) = a at *
  generalize hb : μ (events W g (Tᶜ ×ˢ Set.univ)) = b at *
  have hctop : c ≠ ⊤ := by rw [← hc]; exact measure_ne_top _ _
  have hac : a ≤ c := by rw [hs]; exact le_self_add
  by_cases h0 : c = 0
  · have ha0 : a = 0 := by rw [h0] at hac; simpa using hac
    have hb0 : b = 0 := by rw [h0, ha0, zero_add] at hs; exact hs.symm
    subst h0 ha0 hb0
    simp
  · have hle : a / c ≤ 1 := ENNReal.div_le_of_le_mul (by rwa [one_mul])
    have hne : a / c ≠ ⊤ := ne_top_of_le_ne_top ENNReal.one_ne_top hle
    have hA : c * (a / c) = a := ENNReal.mul_div_cancel h0 hctop
    refine ⟨ENNReal.toReal_nonneg, by simpa using ENNReal.toReal_mono ENNReal.one_ne_top hle, ?_, ?_⟩
    · rw [ENNReal.ofReal_toReal hne, hA]
    · rw [ENNReal.ofReal_sub _ ENNReal.toReal_nonneg, ENNReal.ofReal_toReal hne, ENNReal.ofReal_one,
        ENNReal.mul_sub fun _ _ => hctop, hA, mul_one]
      exact ENNReal.eq_sub_of_add_eq (ne_top_of_le_ne_top hctop hac) (by rw [hs, add_comm])

/-- **C136**: of the runs of `n` events that are completed, those with `k` events in `T` have the share
`C(n, k) p^k (1 - p)^(n - k)`, where `p` is the share of the events in `T` among all events. -/
theorem C136_counts (hI : Ideal W.engine μ) (h : Usable W g s m) (hd : Consistent g.rotator)
    (hu : Renews W g μ Set.univ) (hT : Renews W g μ T) (hT' : Renews W g μ Tᶜ) (n k : Nat) :
    μ (runs W g n fun evs => tally T evs = k) = μ (events W g Set.univ) ^ n
      * ENNReal.ofReal (n.choose k * portion W g μ T ^ k * (1 - portion W g μ T) ^ (n - k)) := by
  obtain ⟨p0, p1, ha, hb⟩ := portion_spec hI h hT
  rw [C136_binomial hI h hd hu hT hT', ha, hb]
  generalize portion W g μ T = p at *
  generalize μ (events W g Set.univ) = c at *
  rcases Nat.lt_or_ge n k with hk | hk
  · rw [Nat.choose_eq_zero_of_lt hk]
    simp
  · rw [ENNReal.ofReal_mul (by positivity), ENNReal.ofReal_mul (by positivity), ENNReal.ofReal_pow p0,
      ENNReal.ofReal_pow (by linarith), ENNReal.ofReal_natCast, mul_pow, mul_pow]
    conv_rhs => rw [← Nat.add_sub_cancel' hk, pow_add, Nat.add_sub_cancel' hk]
    ring

/-- **C136**: all `n` events are made with the probability `c^n`, where `c` is that for one event. -/
theorem C136_completed (hI : Ideal W.engine μ) (h : Usable W g s m) (hd : Consistent g.rotator)
    (hu : Renews W g μ Set.univ) (n : Nat) :
    μ (runs W g n fun _ => True) = μ (events W g Set.univ) ^ n := by
  have hs := (C132_sequence hI h hd hu (Ts := List.replicate n Set.univ) (by
    intro S hS
    rw [List.eq_of_mem_replicate hS]; exact hu)).2
  rw [List.map_replicate, List.prod_replicate, Set.univ_prod_univ] at hs
  rw [← hs]
  congr 1
  ext ω
  constructor
  · rintro ⟨evs, g', h1, -⟩
    refine ⟨evs, g', by rw [List.length_replicate]; exact h1, ?_⟩
    rw [← createEvents_length h1]
    clear h1
    induction evs with
    | nil => exact .nil
    | cons ev evs ih => exact .cons trivial ih
  · rintro ⟨evs, g', h1, -⟩
    rw [List.length_replicate] at h1
    exact ⟨evs, g', h1, trivial⟩

/-- **C136**: of the runs of `n` events that are completed, those in which the share of events in `T` differs from
`p` by `ε` or more have at most the share `p (1 - p) / (n ε^2)`; so in long runs the shares come close to the
probabilities. -/
theorem C136_frequency (hI : Ideal W.engine μ) (h : Usable W g s m) (hd : Consistent g.rotator)
    (hu : Renews W g μ Set.univ) (hT : Renews W g μ T) (hT' : Renews W g μ Tᶜ) {n : Nat} (hn : n ≠ 0)
    {ε : ℝ} (hε : 0 < ε) :
    μ (runs W g n fun evs => ε ≤ |(tally T evs : ℝ) / n - portion W g μ T|)
      ≤ μ (events W g Set.univ) ^ n
        * ENNReal.ofReal (portion W g μ T * (1 - portion W g μ T) / (n * ε ^ 2)) := by
  classical
  obtain ⟨p0, p1, -, -⟩ := portion_spec hI h hT
  have hcount := C136_counts hI h hd hu hT hT' n
  generalize portion W g μ T = p at *
  have hsub : runs W g n (fun evs => ε ≤ |(tally T evs : ℝ) / n - p|)
      ⊆ ⋃ k ∈ (Finset.univ : Finset (Fin (n + 1))).filter (fun k : Fin (n + 1) => ε ≤ |((k : ℕ) : ℝ) / n - p|),
        runs W g n fun evs => tally T evs = (k : ℕ) := by
    rintro ω ⟨evs, g', h1, h2⟩
    have hle : tally T evs ≤ n := by
      rw [← createEvents_length h1]
      exact List.length_filter_le _ _
    simp only [Set.mem_iUnion, Finset.mem_filter, Finset.mem_univ, true_and]
    exact ⟨⟨tally T evs, by omega⟩, h2, evs, g', h1, rfl⟩
  refine (measure_mono hsub).trans ((measure_biUnion_finset_le _ _).trans ?_)
  simp only [hcount]
  rw [← Finset.mul_sum, ← ENNReal.ofReal_sum_of_nonneg fun k _ => by
    have : 0 ≤ 1 - p := by linarith
    positivity]
  refine mul_le_mul_right (ENNReal.ofReal_le_ofReal ?_) _
  have hvar := bernstein.variance hn (⟨p, p0, p1⟩ : unitInterval)
  simp only [bernstein_apply, bernstein.z] at hvar
  rw [show p * (1 - p) / (n * ε ^ 2) = p * (1 - p) / n / ε ^ 2 by rw [div_div], ← hvar, Finset.sum_div]
  have hterm : ∀ k : Fin (n + 1), 0 ≤ (p - ((k : ℕ) : ℝ) / n) ^ 2
      * ((n.choose k : ℝ) * p ^ (k : ℕ) * (1 - p) ^ (n - (k : ℕ))) := by
    intro k
    have : 0 ≤ 1 - p := by linarith
    positivity
  refine (Finset.sum_le_sum fun k hk => ?_).trans
    (Finset.sum_le_sum_of_subset_of_nonneg (Finset.filter_subset _ _) fun k _ _ => div_nonneg (hterm k) (by positivity))
  have hk := (Finset.mem_filter.1 hk).2
  have h1p : 0 ≤ 1 - p := by linarith
  have hsq : ε ^ 2 ≤ (p - ((k : ℕ) : ℝ) / n) ^ 2 := by
    rw [← sq_abs (p - _), abs_sub_comm]
    exact pow_le_pow_left₀ hε.le hk 2
  rw [le_div_iff₀ (by positivity), mul_comm]
  exact mul_le_mul_of_nonneg_right hsq (by positivity)

/-- **C136**: and the share of the events in `T` is that of their rates: the rate of each reaction times the
probability that it makes an event in `T`, integrated over the energies and added up. -/
theorem C136_rates (hI : Ideal W.engine μ) (h : Usable W g s m) (hu : Renews W g μ Set.univ) (hT : Renews W g μ T)
    (hc : μ (events W g Set.univ) ≠ 0) :
    ENNReal.ofReal (portion W g μ T)
      = (∑ i : Fin g.reactions.length, ∫⁻ e in Set.Icc g.source.Emin g.source.Emax,
            ENNReal.ofReal (rate g s i e) * μ {ω | Leads W g g.reactions[i] (T ×ˢ Set.univ) e ω})
        / ∑ i : Fin g.reactions.length, ∫⁻ e in Set.Icc g.source.Emin g.source.Emax,
            ENNReal.ofReal (rate g s i e) * μ {ω | Leads W g g.reactions[i] Set.univ e ω} := by
  have := hI.prob
  have ha := (C132_event hI h fun r hr => hT.measurable r hr _ MeasurableSet.univ).2
  have hc' := (C132_event hI h fun r hr => hu.measurable r hr _ MeasurableSet.univ).2
  rw [Set.univ_prod_univ] at hc'
  rw [portion, ENNReal.ofReal_toReal (ENNReal.div_ne_top (measure_ne_top _ _) hc)]
  have he : ENNReal.ofReal (ends W g s m) ≠ 0 := by
    intro h0
    rw [h0, zero_mul] at hc'
    exact hc hc'
  have hR : ENNReal.ofReal (∫ e in Set.Icc g.source.Emin g.source.Emax, rates g s e) ≠ 0 := by
    simpa using h.possible
  have key : ∀ X Y e R : ENNReal, e ≠ 0 → e ≠ ⊤ → R ≠ 0 → R ≠ ⊤ → e * (X / R) / (e * (Y / R)) = X / Y := by
    intro X Y e R h1 h2 h3 h4
    rw [ENNReal.mul_div_mul_left _ _ h1 h2, ENNReal.div_eq_inv_mul (a := X), ENNReal.div_eq_inv_mul (a := Y)]
    exact ENNReal.mul_div_mul_left _ _ (ENNReal.inv_ne_zero.2 h4) (ENNReal.inv_ne_top.2 h3)
  rw [ha, hc']
  exact key _ _ _ _ he ENNReal.ofReal_ne_top hR ENNReal.ofReal_ne_top

end

/-! ### Example -/

/-- Counts of the events with a small number, in runs of a generator that meets the hypotheses. -/
example (n k : Nat) :
    coins (runs (demoWorld reader) coinGen n fun evs => tally small evs = k)
      = n.choose k * coins (events (demoWorld reader) coinGen (small ×ˢ Set.univ)) ^ k
        * coins (events (demoWorld reader) coinGen (smallᶜ ×ˢ Set.univ)) ^ (n - k) :=
  C136_binomial coin_ideal coin_usable (Or.inl rfl) (coin_fresh (by simp)) (coin_fresh small_measurable)
    (coin_fresh small_measurable.compl) n k

/-- Half of the runs of one thousand events at least come within 0.03 of the probability. -/
example : coins (runs (demoWorld reader) coinGen 1000 fun evs =>
      3 / 100 ≤ |(tally small evs : ℝ) / (1000 : ℕ) - portion (demoWorld reader) coinGen coins small|)
    ≤ coins (events (demoWorld reader) coinGen Set.univ) ^ 1000 * ENNReal.ofReal (1 / 2) := by
  obtain ⟨p0, p1, -, -⟩ := portion_spec coin_ideal coin_usable (coin_fresh small_measurable)
  refine (C136_frequency coin_ideal coin_usable (Or.inl rfl) (coin_fresh (by simp)) (coin_fresh small_measurable)
    (coin_fresh small_measurable.compl) (by norm_num) (by norm_num)).trans
    (mul_le_mul_right (ENNReal.ofReal_le_ofReal ?_) _)
  rw [div_le_iff₀ (by norm_num)]
  norm_num
  nlinarith [sq_nonneg (portion (demoWorld reader) coinGen coins small - 1 / 2)]

end Marley.Props
