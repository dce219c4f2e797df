import Verif.Lemmas.Ends

/-! Lemmas for C135: samplers with countably many results. -/

set_option autoImplicit false

namespace Marley.Sampling
open Marley MeasureTheory

variable {Ω : Type} [MeasurableSpace Ω] {μ : Measure Ω} {E : Engine Ω} {α β : Type}

/-- The states from which `f` gives `a` and leaves a state in `B`. -/
def hits (f : Ω → Option (Res (α × Ω))) (a : α) (B : Set Ω) : Set Ω :=
  {ω | ∃ ω' ∈ B, f ω = some (.ok (a, ω'))}

/-- `f` has countably many results, and they say nothing about the numbers that come later. -/
structure Renewing (μ : Measure Ω) (f : Ω → Option (Res (α × Ω))) : Prop where
  range : ∃ C : Set α, C.Countable ∧ ∀ ω a ω', f ω = some (.ok (a, ω')) → a ∈ C
  meas : ∀ a B, MeasurableSet B → MeasurableSet (hits f a B)
  indep : ∀ a B, MeasurableSet B → μ (hits f a B) = μ (hits f a Set.univ) * μ B

theorem Renewing.same {f f' : Ω → Option (Res (α × Ω))} (h : Renewing μ f) (e : ∀ ω, f' ω = f ω) :
    Renewing μ f' := by
  have : f' = f := funext e
  rw [this]; exact h

/-- Nothing is drawn. -/
theorem Renewing.pure (hp : IsProbabilityMeasure μ) (r : Option (Res α)) :
    Renewing μ fun ω => leaves r ω := by
  classical
  have key : ∀ a B, hits (fun ω : Ω => leaves r ω) a B = if r = some (.ok a) then B else ∅ := by
    intro a B
    ext ω
    match r with
    | none => simp [hits, leaves]
    | some (.error e) => simp [hits, leaves]
    | some (.ok b) =>
      by_cases h : b = a
      · subst h; simp [hits, leaves]
      · simp [hits, leaves, h]
  refine ⟨⟨{a | r = some (.ok a)}, ?_, ?_⟩, ?_, ?_⟩
  · refine Set.Subsingleton.countable fun a ha b hb => ?_
    have ha : r = some (.ok a) := ha
    have hb : r = some (.ok b) := hb
    rw [ha] at hb
    simpa using hb
  · intro ω a ω' h
    match r, h with
    | some (.ok b), h =>
      simp only [leaves, Option.some.injEq, Except.ok.injEq, Prod.mk.injEq] at h
      simp [h.1]
  · intro a B hB
    rw [key]
    split_ifs
    · exact hB
    · exact MeasurableSet.empty
  · intro a B hB
    rw [key, key]
    split_ifs <;> simp

/-- One number is drawn. -/
theorem Renewing.draw (hI : Ideal E μ) (r : ℝ → Option (Res α)) {C : Set α} (hC : C.Countable)
    (hr : ∀ u a, r u = some (.ok a) → a ∈ C) (hm : ∀ a, MeasurableSet {u | r u = some (.ok a)}) :
    Renewing μ fun ω => leaves (r (E.draw ω).1) (E.draw ω).2 := by
  have := hI.prob
  have key : ∀ a B, hits (fun ω => leaves (r (E.draw ω).1) (E.draw ω).2) a B
      = E.draw ⁻¹' ({u | r u = some (.ok a)} ×ˢ B) := by
    intro a B
    ext ω
    simp only [hits, Set.mem_preimage, Set.mem_prod, Set.mem_ofPred_eq]
    match h : r (E.draw ω).1 with
    | none => simp [leaves]
    | some (.error e) => simp [leaves]
    | some (.ok b) =>
      simp only [leaves, Option.some.injEq, Except.ok.injEq, Prod.mk.injEq]
      constructor
      · rintro ⟨ω', h1, h2, h3⟩
        exact ⟨h2, h3 ▸ h1⟩
      · rintro ⟨h1, h2⟩
        exact ⟨_, h2, h1, rfl⟩
  refine ⟨⟨C, hC, fun ω a ω' h => ?_⟩, fun a B hB => ?_, fun a B hB => ?_⟩
  · match hr' : r (E.draw ω).1, h with
    | some (.ok b), h =>
      simp only [leaves, Option.some.injEq, Except.ok.injEq, Prod.mk.injEq] at h
      rw [← h.1]
      exact hr _ _ hr'
  · rw [key]
    exact hI.draws.measurable ((hm a).prod hB)
  · rw [key, key, hI.draws.measure_preimage ((hm a).prod hB).nullMeasurableSet,
      hI.draws.measure_preimage ((hm a).prod MeasurableSet.univ).nullMeasurableSet,
      Measure.prod_prod, Measure.prod_prod, measure_univ, mul_one]

/-- One after the other. -/
theorem Renewing.bind {f : Ω → Option (Res (α × Ω))} {k : α → Ω → Option (Res (β × Ω))}
    (hp : IsProbabilityMeasure μ) (hf : Renewing μ f) (hk : ∀ a, Renewing μ (k a)) : Renewing μ fun ω => chain (f ω) k := by
  obtain ⟨C, hC, hCr⟩ := hf.range
  have key : ∀ b B, hits (fun ω => chain (f ω) k) b B = ⋃ a ∈ C, hits f a (hits (k a) b B) := by
    intro b B
    ext ω
    simp only [Set.mem_iUnion, exists_prop]
    match h : f ω with
    | none => simp [hits, h, chain]
    | some (.error e) => simp [hits, h, chain]
    | some (.ok (a, ω1)) =>
      have hac := hCr ω a ω1 h
      simp only [hits, Set.mem_ofPred_eq, h, chain, Option.some.injEq, Except.ok.injEq, Prod.mk.injEq]
      constructor
      · intro hx
        exact ⟨a, hac, ω1, hx, rfl, rfl⟩
      · rintro ⟨a', -, ω2, hx, rfl, rfl⟩
        exact hx
  have hdis : ∀ b B, C.PairwiseDisjoint fun a => hits f a (hits (k a) b B) := by
    intro b B a _ a' _ hne
    refine Set.disjoint_left.2 ?_
    rintro ω ⟨ω1, -, h1⟩ ⟨ω2, -, h2⟩
    rw [h1] at h2
    simp only [Option.some.injEq, Except.ok.injEq, Prod.mk.injEq] at h2
    exact hne h2.1
  have hmm : ∀ b B, MeasurableSet B → ∀ a, MeasurableSet (hits f a (hits (k a) b B)) :=
    fun b B hB a => hf.meas _ _ ((hk a).meas _ _ hB)
  have hmu : ∀ b B, MeasurableSet B → μ (hits (fun ω => chain (f ω) k) b B)
      = ∑' a : C, μ (hits f a Set.univ) * (μ (hits (k a) b Set.univ) * μ B) := by
    intro b B hB
    rw [key, measure_biUnion hC (hdis b B) fun a _ => hmm b B hB a]
    refine tsum_congr fun a => ?_
    rw [hf.indep _ _ ((hk a).meas _ _ hB), (hk a).indep _ _ hB]
  refine ⟨⟨⋃ a ∈ C, Classical.choose (hk a).range, ?_, ?_⟩, ?_, ?_⟩
  · exact hC.biUnion fun a _ => (Classical.choose_spec (hk a).range).1
  · intro ω b ω' h
    match hfw : f ω with
    | none => simp [hfw, chain] at h
    | some (.error e) => simp [hfw, chain] at h
    | some (.ok (a, ω1)) =>
      rw [hfw] at h
      simp only [Set.mem_iUnion, exists_prop]
      exact ⟨a, hCr _ _ _ hfw, (Classical.choose_spec (hk a).range).2 _ _ _ h⟩
  · intro b B hB
    rw [key]
    exact MeasurableSet.biUnion hC fun a _ => hmm b B hB a
  · intro b B hB
    rw [hmu b B hB, hmu b _ MeasurableSet.univ, measure_univ, ← ENNReal.tsum_mul_right]
    simp only [mul_one, mul_assoc]

/-! ### Choices -/

theorem searchLoop_measurable (l : List ℝ) (len : Nat) : ∀ (first i : Nat),
    MeasurableSet {u : ℝ | Std.searchLoop (fun a => decide (a < u)) l first len = i} := by
  induction len using Nat.strong_induction_on with
  | _ len ih =>
    intro first i
    by_cases h : len = 0
    · subst h
      have : {u : ℝ | Std.searchLoop (fun a => decide (a < u)) l first 0 = i}
          = if first = i then Set.univ else ∅ := by
        ext u
        rw [Set.mem_ofPred_eq, Std.searchLoop, if_pos rfl]
        split_ifs with h <;> simp [h]
      rw [this]
      split_ifs
      · exact MeasurableSet.univ
      · exact MeasurableSet.empty
    · have e : {u : ℝ | Std.searchLoop (fun a => decide (a < u)) l first len = i}
          = ({u | (l[first + len / 2]?).any (fun a => decide (a < u)) = true} ∩
              {u | Std.searchLoop (fun a => decide (a < u)) l (first + len / 2 + 1)
                (len - len / 2 - 1) = i}) ∪
            ({u | (l[first + len / 2]?).any (fun a => decide (a < u)) = true}ᶜ ∩
              {u | Std.searchLoop (fun a => decide (a < u)) l first (len / 2) = i}) := by
        ext u
        rw [Set.mem_ofPred_eq, Std.searchLoop, if_neg h]
        dsimp only
        by_cases hc : (l[first + len / 2]?).any (fun a => decide (a < u)) = true
        · rw [if_pos hc]; simp [hc]
        · rw [if_neg hc]; simp [hc]
      have hm : MeasurableSet {u : ℝ | (l[first + len / 2]?).any (fun a => decide (a < u)) = true} := by
        cases l[first + len / 2]? with
        | none => simp
        | some a =>
          have : {u : ℝ | (some a).any (fun a => decide (a < u)) = true} = Set.Ioi a := by
            ext u; simp
          rw [this]
          exact measurableSet_Ioi
      rw [e]
      exact (hm.inter (ih _ (by omega) _ _)).union (hm.compl.inter (ih _ (by omega) _ _))

theorem pick_measurable (w : List ℝ) (i : Nat) : MeasurableSet {u | pick w u = .ok i} := by
  unfold pick
  split_ifs
  · by_cases h : i = 0 <;> simp [h, eq_comm]
  · simp
  · simpa [Std.lowerBound] using searchLoop_measurable _ _ _ _

theorem pickFrom_renewing (hI : Ideal E μ) (w : List ℝ) :
    Renewing μ fun ω => some (pickFrom E w ω) := by
  by_cases h : w.length < 2
  · exact (Renewing.pure hI.prob (some (.ok 0))).same fun ω => by rw [pickFrom, if_pos h]; rfl
  · refine (Renewing.draw hI (fun u => some (pick w u)) (C := Set.univ) Set.countable_univ
      (fun _ _ _ => trivial) fun a => ?_).same fun ω => ?_
    · simpa using pick_measurable w a
    · rw [pickFrom, if_neg h]
      cases pick w (E.draw ω).1 <;> rfl

theorem bisect_countable (cdf : ℝ → ℝ) (norm tol : ℝ) (n : Nat) : ∀ a b : ℝ,
    ∃ C : Set ℝ, C.Countable ∧ ∀ p x, bisect cdf norm p tol n a b = some x → x ∈ C := by
  induction n with
  | zero => intro a b; exact ⟨∅, Set.countable_empty, fun p x h => by cases h⟩
  | succ n ih =>
    intro a b
    obtain ⟨C1, h1, k1⟩ := ih a ((a + b) / 2)
    obtain ⟨C2, h2, k2⟩ := ih ((a + b) / 2) b
    refine ⟨{(a + b) / 2} ∪ (C1 ∪ C2), (Set.countable_singleton _).union (h1.union h2), ?_⟩
    intro p x h
    rw [bisect] at h
    dsimp only at h
    split_ifs at h
    · left; simpa [eq_comm] using h
    · exact Or.inr (Or.inl (k1 p x h))
    · exact Or.inr (Or.inr (k2 p x h))
    · left; simpa [eq_comm] using h

theorem bisect_measurable (cdf : ℝ → ℝ) (norm tol x : ℝ) (n : Nat) : ∀ a b : ℝ,
    MeasurableSet {p | bisect cdf norm p tol n a b = some x} := by
  induction n with
  | zero => intro a b; simp [bisect]
  | succ n ih =>
    intro a b
    by_cases h : b - a > tol
    · have e : {p | bisect cdf norm p tol (n + 1) a b = some x}
          = ({p | cdf ((a + b) / 2) / norm = p} ∩ {_p | (a + b) / 2 = x}) ∪
            (({p | cdf ((a + b) / 2) / norm > p} ∩
                {p | bisect cdf norm p tol n a ((a + b) / 2) = some x}) ∪
              ({p | cdf ((a + b) / 2) / norm < p} ∩
                {p | bisect cdf norm p tol n ((a + b) / 2) b = some x})) := by
        ext p
        simp only [Set.mem_ofPred_eq, Set.mem_union, Set.mem_inter_iff]
        rw [bisect, if_pos h]
        dsimp only
        rcases lt_trichotomy (cdf ((a + b) / 2) / norm) p with hl | hl | hl
        · rw [if_neg hl.ne, if_neg (not_lt.2 hl.le)]
          simp [hl, hl.ne, not_lt.2 hl.le]
        · rw [if_pos hl]
          simp [hl]
        · rw [if_neg hl.ne', if_pos hl]
          simp [hl, hl.ne', not_lt.2 hl.le]
      rw [e]
      refine MeasurableSet.union ?_ (MeasurableSet.union ?_ ?_)
      · refine MeasurableSet.inter ?_ ?_
        · simp [eq_comm]
        · by_cases hx : (a + b) / 2 = x <;> simp [hx]
      · exact measurableSet_Iio.inter (ih _ _)
      · exact measurableSet_Ioi.inter (ih _ _)
    · have e : {p | bisect cdf norm p tol (n + 1) a b = some x} = {_p | (a + b) / 2 = x} := by
        ext p
        simp only [Set.mem_ofPred_eq]
        rw [bisect, if_neg h]
        simp
      rw [e]
      by_cases hx : (a + b) / 2 = x <;> simp [hx]

theorem inverse_renewing (hI : Ideal E μ) (fuel : Nat) (cdf : ℝ → ℝ) (a b t : ℝ) :
    Renewing μ fun ω => (inverseTransform exact E fuel cdf a b t ω).map .ok := by
  obtain ⟨C, hC, hr⟩ := bisect_countable cdf (cdf b) t fuel a b
  let r : ℝ → Option ℝ := fun p => if p = 0 then some a else if p = 1 then some b
    else bisect cdf (cdf b) p t fuel a b
  refine (Renewing.draw hI (fun u => (r u).map .ok) (C := {a, b} ∪ C)
    (((Set.countable_singleton _).insert _).union hC) (fun u x h => ?_) fun x => ?_).same fun ω => ?_
  · simp only [r] at h
    split_ifs at h
    · left; left; simpa [eq_comm] using h
    · left; right; simpa [eq_comm] using h
    · right
      simp only [Option.map_eq_some_iff] at h
      obtain ⟨y, h1, h2⟩ := h
      cases h2
      exact hr _ _ h1
  · have e : {u | (r u).map Except.ok = some (Except.ok x : Res ℝ)}
        = ({0} ∩ {_u | a = x}) ∪ (({1} ∩ {_u | b = x}) ∪
          (({0} ∪ {1})ᶜ ∩ {u | bisect cdf (cdf b) u t fuel a b = some x})) := by
      ext u
      simp only [r, Set.mem_ofPred_eq, Set.mem_union, Set.mem_inter_iff, Set.mem_singleton_iff,
        Set.mem_compl_iff]
      by_cases h0 : u = 0
      · subst h0; simp
      · by_cases h1 : u = 1
        · subst h1; simp
        · simp [h0, h1]
    rw [e]
    refine MeasurableSet.union ?_ (MeasurableSet.union ?_ ?_)
    · exact (measurableSet_singleton _).inter (by by_cases hx : a = x <;> simp [hx])
    · exact (measurableSet_singleton _).inter (by by_cases hx : b = x <;> simp [hx])
    · exact ((measurableSet_singleton _).union (measurableSet_singleton _)).compl.inter
        (bisect_measurable _ _ _ _ _ _ _)
  · unfold inverseTransform
    rw [uniform_exact]
    simp only [sub_zero, mul_one, add_zero, r]
    split_ifs
    · rfl
    · rfl
    · cases bisect cdf (cdf b) (E.draw ω).1 t fuel a b <;> rfl

end Marley.Sampling
