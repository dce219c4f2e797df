import Verif.Props.FinitelyMany

/-!
# C132: reactions say nothing about later numbers

Independence of the events of a run (`C132_independent`, `C132_sequence`) was proved for reactions
that renew the engine (`Renews`).  Here this is derived from C133: whatever is determined by
finitely many numbers, and uses up just these, renews an ideal engine.
-/

set_option autoImplicit false

namespace Marley.Props
open Marley Marley.Sampling Marley.Gen MeasureTheory

/-! ### Specification -/

/-- The numbers `v`, and no others, are used to make something in `T`: of the numbers of `v`
followed by a 0, the 0 is left. -/
def Settles {α : Type} (f : Sampler α) (T : Set α) (n : Nat) (v : Fin n → ℝ) : Prop :=
  ∃ a ∈ T, f (List ℝ) replay (List.ofFn v ++ [0]) = some (.ok (a, [0]))

/-- What a reaction of a plan makes at an energy, de-excited and rotated, with any engine. -/
noncomputable def outcome (P : Plan) (r : RxPlan) (e : ℝ) : Sampler (Event ℝ) := fun _ E g =>
  (follow (P.world E) (P.gen E g) (r.rx E) e g).map (Except.map fun x => (x.1, x.2.2))

/-! ### Lemmas -/

/-- The next `n` numbers of an engine. -/
def numbers {G : Type} (E : Engine G) : (n : Nat) → G → Fin n → ℝ
  | 0, _ => Fin.elim0
  | n + 1, g => Fin.cons (E.draw g).1 (numbers E n (E.draw g).2)

theorem ofFn_numbers {G : Type} (E : Engine G) (n : Nat) (g : G) :
    List.ofFn (numbers E n g) = drawn E n g := by
  induction n generalizing g with
  | zero => rfl
  | succ n ih =>
    rw [List.ofFn_succ]
    simp only [numbers, Fin.cons_zero, Fin.cons_succ, drawn]
    rw [ih]

theorem after_replay_length (n : Nat) (l : List ℝ) : (after replay n l).length = l.length - n := by
  induction n generalizing l with
  | zero => rfl
  | succ n ih =>
    have : (replay.draw l).2 = l.tail := rfl
    rw [after, ih, this, List.length_tail]
    omega

section
variable {α : Type} {f : Sampler α} {T : Set α}

theorem settles_fixed (hf : Determined f) {n : Nat} {v : Fin n → ℝ} (h : Settles f T n v) :
    ∃ a ∈ T, ∀ (H : Type) (F : Engine H) (x : H), drawn F n x = List.ofFn v →
      f H F x = some (.ok (a, after F n x)) := by
  obtain ⟨a, ha, h⟩ := h
  refine ⟨a, ha, fun H F x hx => ?_⟩
  obtain ⟨k, r, hk⟩ := hf (List ℝ) replay (List.ofFn v ++ [0])
  have h0 := hk _ replay _ rfl
  rw [h] at h0
  match r, h0, hk with
  | none, h0, _ => simp [leaves] at h0
  | some (.error _), h0, _ => simp [leaves] at h0
  | some (.ok b), h0, hk =>
    simp only [leaves, Option.some.injEq, Except.ok.injEq, Prod.mk.injEq] at h0
    obtain ⟨rfl, h0⟩ := h0
    have hl := congrArg List.length h0
    rw [after_replay_length] at hl
    simp only [List.length_cons, List.length_nil, List.length_append, List.length_ofFn] at hl
    have hkn : k = n := by omega
    subst hkn
    refine hk H F x (hx.trans ?_)
    have := replay_drawn (List.ofFn v) [0]
    rw [List.length_ofFn] at this
    exact this.symm

theorem settles_iff (hf : Determined f) {G : Type} (E : Engine G) (g : G) (B : Set G) :
    (∃ a g', f G E g = some (.ok (a, g')) ∧ a ∈ T ∧ g' ∈ B)
      ↔ ∃ n, Settles f T n (numbers E n g) ∧ after E n g ∈ B := by
  constructor
  · rintro ⟨a, g', h, ha, hg⟩
    obtain ⟨n, r, hn⟩ := hf G E g
    have h0 := hn G E g rfl
    rw [h] at h0
    match r, h0, hn with
    | none, h0, _ => simp [leaves] at h0
    | some (.error _), h0, _ => simp [leaves] at h0
    | some (.ok b), h0, hn =>
      simp only [leaves, Option.some.injEq, Except.ok.injEq, Prod.mk.injEq] at h0
      obtain ⟨rfl, rfl⟩ := h0
      refine ⟨n, ⟨a, ha, ?_⟩, hg⟩
      rw [ofFn_numbers]
      have h1 := replay_drawn (drawn E n g) [0]
      have h2 := replay_after (drawn E n g) [0]
      rw [drawn_length] at h1 h2
      rw [hn _ replay _ h1, h2]
      rfl
  · rintro ⟨n, h, hB⟩
    obtain ⟨a, ha, hfix⟩ := settles_fixed hf h
    exact ⟨a, _, hfix G E g (ofFn_numbers E n g).symm, ha, hB⟩

theorem settles_once (hf : Determined f) {G : Type} (E : Engine G) (g : G) {n m : Nat}
    (hn : Settles f T n (numbers E n g)) (hm : Settles f T m (numbers E m g)) : n = m := by
  have key : ∀ {n m : Nat}, n ≤ m → Settles f T n (numbers E n g) → Settles f T m (numbers E m g) →
      n = m := by
    intro n m hnm hn hm
    obtain ⟨a, _, hfix⟩ := settles_fixed hf hn
    obtain ⟨b, _, hm⟩ := hm
    rw [ofFn_numbers] at hm hfix
    have hd : drawn replay n (drawn E m g ++ [0]) = drawn E n g := by
      obtain ⟨k, rfl⟩ := Nat.exists_eq_add_of_le hnm
      rw [drawn_add, List.append_assoc]
      have := replay_drawn (drawn E n g) (drawn E k (after E n g) ++ [0])
      rwa [drawn_length] at this
    have h1 := hfix _ replay _ hd
    rw [hm] at h1
    simp only [Option.some.injEq, Except.ok.injEq, Prod.mk.injEq] at h1
    have hl := congrArg List.length h1.2
    rw [after_replay_length] at hl
    simp only [List.length_cons, List.length_nil, List.length_append, drawn_length] at hl
    omega
  rcases le_total n m with h | h
  · exact key h hn hm
  · exact (key h hm hn).symm

end

section
variable {Ω : Type} [MeasurableSpace Ω] {μ : Measure Ω} {E : Engine Ω}

theorem numbers_measurable (hI : Ideal E μ) (n : Nat) :
    Measurable (numbers E n) ∧ Measurable (after E n) := by
  have hd := hI.draws.measurable
  induction n with
  | zero => exact ⟨measurable_pi_iff.2 fun i => i.elim0, measurable_id⟩
  | succ n ih =>
    refine ⟨measurable_pi_iff.2 fun i => ?_, ih.2.comp (measurable_snd.comp hd)⟩
    refine Fin.cases ?_ (fun i => ?_) i
    · simp only [numbers, Fin.cons_zero]
      exact measurable_fst.comp hd
    · simp only [numbers, Fin.cons_succ]
      exact (measurable_pi_apply i).comp (ih.1.comp (measurable_snd.comp hd))

/-- The state after `n` numbers has nothing to do with them. -/
theorem numbers_independent (hI : Ideal E μ) {n : Nat} {D : Set (Fin n → ℝ)} (hD : MeasurableSet D)
    {B : Set Ω} (hB : MeasurableSet B) :
    μ {ω | numbers E n ω ∈ D ∧ after E n ω ∈ B} = μ {ω | numbers E n ω ∈ D} * μ B := by
  have := hI.prob
  induction n with
  | zero =>
    by_cases h : (Fin.elim0 : Fin 0 → ℝ) ∈ D
    · simp [numbers, after, h]
    · simp [numbers, h]
  | succ n ih =>
    have hc : Measurable fun q : ℝ × Ω => (Fin.cons q.1 (numbers E n q.2) : Fin (n + 1) → ℝ) := by
      refine measurable_pi_iff.2 fun i => ?_
      refine Fin.cases ?_ (fun i => ?_) i
      · simp only [Fin.cons_zero]; exact measurable_fst
      · simp only [Fin.cons_succ]
        exact (measurable_pi_apply i).comp ((numbers_measurable hI n).1.comp measurable_snd)
    have hu : ∀ u : ℝ, MeasurableSet {v : Fin n → ℝ | (Fin.cons u v : Fin (n + 1) → ℝ) ∈ D} := by
      intro u
      have : Measurable fun v : Fin n → ℝ => (Fin.cons u v : Fin (n + 1) → ℝ) := by
        refine measurable_pi_iff.2 fun i => ?_
        refine Fin.cases ?_ (fun i => ?_) i
        · simp only [Fin.cons_zero]; exact measurable_const
        · simp only [Fin.cons_succ]; exact measurable_pi_apply i
      exact this hD
    have hm1 : MeasurableSet {q : ℝ × Ω | (Fin.cons q.1 (numbers E n q.2) : Fin (n + 1) → ℝ) ∈ D ∧
        after E n q.2 ∈ B} :=
      (hc hD).inter (((numbers_measurable hI n).2.comp measurable_snd) hB)
    have hm2 : MeasurableSet {q : ℝ × Ω | (Fin.cons q.1 (numbers E n q.2) : Fin (n + 1) → ℝ) ∈ D} :=
      hc hD
    have e1 := hI.draws.measure_preimage hm1.nullMeasurableSet
    have e2 := hI.draws.measure_preimage hm2.nullMeasurableSet
    have s1 : {ω | numbers E (n + 1) ω ∈ D ∧ after E (n + 1) ω ∈ B} = E.draw ⁻¹' {q : ℝ × Ω |
        (Fin.cons q.1 (numbers E n q.2) : Fin (n + 1) → ℝ) ∈ D ∧ after E n q.2 ∈ B} := rfl
    have s2 : {ω | numbers E (n + 1) ω ∈ D} = E.draw ⁻¹' {q : ℝ × Ω |
        (Fin.cons q.1 (numbers E n q.2) : Fin (n + 1) → ℝ) ∈ D} := rfl
    rw [s1, s2, e1, e2, Measure.prod_apply hm1, Measure.prod_apply hm2,
      ← lintegral_mul_const _ (measurable_measure_prodMk_left hm2)]
    exact lintegral_congr fun u => ih (hu u)

/-- Whatever is determined by finitely many numbers renews an ideal engine. -/
theorem settles_independent (hI : Ideal E μ) {α : Type} {f : Sampler α} {T : Set α}
    (hf : Determined f) (hm : ∀ n, MeasurableSet {v | Settles f T n v}) {B : Set Ω}
    (hB : MeasurableSet B) :
    μ {ω | ∃ a ω', f Ω E ω = some (.ok (a, ω')) ∧ a ∈ T ∧ ω' ∈ B}
      = μ {ω | ∃ a ω', f Ω E ω = some (.ok (a, ω')) ∧ a ∈ T ∧ ω' ∈ Set.univ} * μ B := by
  have key : ∀ {B : Set Ω}, MeasurableSet B →
      μ {ω | ∃ a ω', f Ω E ω = some (.ok (a, ω')) ∧ a ∈ T ∧ ω' ∈ B}
        = ∑' n, μ {ω | numbers E n ω ∈ {v | Settles f T n v}} * μ B := by
    intro B hB
    have : {ω | ∃ a ω', f Ω E ω = some (.ok (a, ω')) ∧ a ∈ T ∧ ω' ∈ B}
        = ⋃ n, {ω | numbers E n ω ∈ {v | Settles f T n v} ∧ after E n ω ∈ B} := by
      ext ω
      rw [Set.mem_iUnion]
      exact settles_iff hf E ω B
    rw [this, measure_iUnion]
    · exact tsum_congr fun n => numbers_independent hI (hm n) hB
    · intro n m hnm
      refine Set.disjoint_left.2 fun ω h1 h2 => hnm (settles_once hf E ω h1.1 h2.1)
    · intro n
      exact ((numbers_measurable hI n).1 (hm n)).inter ((numbers_measurable hI n).2 hB)
  have := hI.prob
  rw [key hB, key MeasurableSet.univ, measure_univ]
  simp only [mul_one]
  rw [ENNReal.tsum_mul_right]

theorem outcome_determined {P : Plan} (hP : P.Finite) {r : RxPlan} (hr : r ∈ P.reactions) (e : ℝ) :
    Determined (outcome P r e) := by
  refine (hP.1 r hr P.source.pid e).then (k := fun ev G E g =>
    chain ((finish (P.world E) P.deexcite P.rotator ev g).map (Except.map fun x =>
        ((x.1, x.2.1), x.2.2))) fun y g => some (.ok (y.1, g)))
    (fun ev => (finish_determined P hP.2 P.deexcite P.rotator ev).bind fun y => .ok _) fun G E g => ?_
  unfold outcome follow
  simp only [Plan.gen, RxPlan.rx]
  cases r.create P.source.pid e G E g with
  | none => rfl
  | some v =>
    cases v with
    | error e => rfl
    | ok v =>
      obtain ⟨ev, g⟩ := v
      simp only [chain]
      cases finish (P.world E) P.deexcite P.rotator ev g with
      | none => rfl
      | some v => cases v <;> rfl

theorem leads_outcome {P : Plan} {g : Ω} {r : RxPlan} {T : Set (Event ℝ)} {B : Set Ω} {e : ℝ} {ω : Ω} :
    Leads (P.world E) (P.gen E g) (r.rx E) (T ×ˢ B) e ω
      ↔ ∃ a ω', outcome P r e Ω E ω = some (.ok (a, ω')) ∧ a ∈ T ∧ ω' ∈ B := by
  have : outcome P r e Ω E ω = (follow (P.world E) (P.gen E g) (r.rx E) e ω).map
      (Except.map fun x => (x.1, x.2.2)) := rfl
  rw [this]
  unfold Leads
  cases follow (P.world E) (P.gen E g) (r.rx E) e ω with
  | none => simp
  | some v =>
    cases v with
    | error x => simp [Except.map]
    | ok v =>
      obtain ⟨ev, rot, ω'⟩ := v
      simp [Except.map]

/-! ### Theorem -/

/-- **C132**, what reactions make says nothing about later numbers: if reactions and de-excitation
are determined by finitely many numbers (C133), and for each `n` it can be measured which `n`
numbers and energies lead to an event in `T`, then events in `T` say nothing about the
numbers that an ideal engine will give afterwards. -/
theorem C132_renews {P : Plan} (hr : ∀ r ∈ P.reactions, ∀ pdg e, Determined (r.create pdg e))
    (hd : ∀ ev, Determined (P.decay ev)) (hI : Ideal E μ) {T : Set (Event ℝ)}
    (hm : ∀ r ∈ P.reactions, ∀ n,
      MeasurableSet {p : ℝ × (Fin n → ℝ) | Settles (outcome P r p.1) T n p.2}) (g : Ω) :
    Renews (P.world E) (P.gen E g) μ T := by
  have hP : P.Finite := ⟨hr, hd⟩
  have hmem : ∀ r ∈ (P.gen E g).reactions, ∃ q ∈ P.reactions, r = q.rx E := by
    intro r hr
    obtain ⟨q, hq, rfl⟩ := List.mem_map.1 hr
    exact ⟨q, hq, rfl⟩
  refine ⟨fun r hr B hB => ?_, fun r hr B hB e => ?_⟩
  · obtain ⟨q, hq, rfl⟩ := hmem r hr
    have : {p : ℝ × Ω | Leads (P.world E) (P.gen E g) (q.rx E) (T ×ˢ B) p.1 p.2}
        = ⋃ n, {p : ℝ × Ω | (p.1, numbers E n p.2) ∈
            {p : ℝ × (Fin n → ℝ) | Settles (outcome P q p.1) T n p.2} ∧ after E n p.2 ∈ B} := by
      ext p
      rw [Set.mem_iUnion]
      exact leads_outcome.trans (settles_iff (outcome_determined hP hq p.1) E p.2 B)
    rw [this]
    refine MeasurableSet.iUnion fun n => ?_
    have h1 : Measurable fun p : ℝ × Ω => (p.1, numbers E n p.2) :=
      measurable_fst.prodMk ((numbers_measurable hI n).1.comp measurable_snd)
    exact (h1 (hm q hq n)).inter (((numbers_measurable hI n).2.comp measurable_snd) hB)
  · obtain ⟨q, hq, rfl⟩ := hmem r hr
    have hs : ∀ n, MeasurableSet {v | Settles (outcome P q e) T n v} := fun n =>
      (measurable_const.prodMk measurable_id : Measurable fun v : Fin n → ℝ => (e, v)) (hm q hq n)
    have := settles_independent hI (outcome_determined hP hq e) hs hB
    have conv : ∀ B : Set Ω, {ω | Leads (P.world E) (P.gen E g) (q.rx E) (T ×ˢ B) e ω}
        = {ω | ∃ a ω', outcome P q e Ω E ω = some (.ok (a, ω')) ∧ a ∈ T ∧ ω' ∈ B} := fun B =>
      Set.ext fun ω => leads_outcome
    rw [conv, conv]
    exact this

/-- **C132**, a sequence of events of a generator whose reactions and de-excitation are determined
by finitely many numbers: successive events are independent and all have the same law. -/
theorem C132_run {P : Plan} {g : Ω} {s : Nat → ℝ → ℝ} {m : ℝ}
    (hr : ∀ r ∈ P.reactions, ∀ pdg e, Determined (r.create pdg e))
    (hd : ∀ ev, Determined (P.decay ev)) (hI : Ideal E μ)
    (h : Usable (P.world E) (P.gen E g) s m) (hc : Consistent P.rotator)
    {Ts : List (Set (Event ℝ))}
    (hm : ∀ T ∈ Set.univ :: Ts, ∀ r ∈ P.reactions, ∀ n,
      MeasurableSet {p : ℝ × (Fin n → ℝ) | Settles (outcome P r p.1) T n p.2}) :
    NullMeasurableSet (starts (P.world E) (P.gen E g) Ts) μ ∧
    μ (starts (P.world E) (P.gen E g) Ts)
      = (Ts.map fun T => μ (events (P.world E) (P.gen E g) (T ×ˢ Set.univ))).prod :=
  C132_sequence hI h hc (C132_renews hr hd hI (hm _ (by simp)) g)
    fun T hT => C132_renews hr hd hI (hm T (by simp [hT])) g

end

/-! ### Example -/

theorem coinPlan_settles {T : Set (Event ℝ)} {n : Nat} (e : ℝ) (v : Fin n → ℝ) :
    Settles (outcome (demoPlan 2 [0]) coinPlan e) T n v
      ↔ ∃ h : n = 1, demoEvent (v ⟨0, by omega⟩) ∈ T := by
  have hm : ∀ x, Kin.momentum (demoProjectile x) = 0 := by simp [Kin.momentum, demoProjectile]
  have ho : ∀ l : List ℝ, outcome (demoPlan 2 [0]) coinPlan e (List ℝ) replay l
      = some (.ok (demoEvent (replay.draw l).1, (replay.draw l).2)) := by
    intro l
    simp [outcome, follow, Plan.gen, Plan.world, demoPlan, coinPlan, RxPlan.rx, finish, direction,
      demoEvent, hm, Rot.Rotator.process, Except.map]
  unfold Settles
  simp only [ho]
  match n, v with
  | 0, v => simp [replay]
  | 1, v => simp [replay]
  | n + 2, v => simp [replay]

theorem coinPlan_measurable {T : Set (Event ℝ)} (hT : MeasurableSet {x | demoEvent x ∈ T}) (r : RxPlan)
    (hr : r ∈ (demoPlan 2 [0]).reactions) (n : Nat) :
    MeasurableSet {p : ℝ × (Fin n → ℝ) | Settles (outcome (demoPlan 2 [0]) r p.1) T n p.2} := by
  have : r = coinPlan := by simpa [demoPlan] using hr
  subst this
  simp only [coinPlan_settles]
  by_cases h : n = 1
  · subst h
    have hm : Measurable fun p : ℝ × (Fin 1 → ℝ) => p.2 0 :=
      (measurable_pi_apply (0 : Fin 1)).comp measurable_snd
    simpa using hm hT
  · simp [h]

theorem coinPlan_rates (g : ℕ → ℝ) (e : ℝ) :
    rates ((demoPlan 2 [0]).gen reader g) (fun _ _ => 1) e = 1 := by
  simp [rates, rate, Plan.gen, demoPlan, demoSource]

theorem coinPlan_usable (g : ℕ → ℝ) :
    Usable ((demoPlan 2 [0]).world reader) ((demoPlan 2 [0]).gen reader g) (fun _ _ => 1) 2 where
  arith := rfl
  cached := rfl
  sections := by
    have hshare : ∀ a, ((demoPlan 2 [0]).gen reader g).share a = 1 := fun _ => rfl
    refine ⟨fun E _ j r hj => ?_, fun _ _ => zero_le_one, fun _ => measurable_const⟩
    match j, hj with
    | 0, hj => cases hj; exact ⟨1, rfl, by rw [hshare]; simp⟩
    | _ + 1, hj => simp [Plan.gen, demoPlan] at hj
  range := by norm_num [Plan.gen, demoPlan, demoSource]
  measurable := measurable_const
  nonneg _ := by norm_num [Plan.gen, demoPlan, demoSource]
  norm := by norm_num [Plan.gen, demoPlan]
  bound := rfl
  positive := by norm_num
  bounded e _ := by rw [coinPlan_rates]; norm_num [Plan.gen, demoPlan]
  possible := by
    simp only [coinPlan_rates]
    norm_num [Plan.gen, demoPlan, demoSource]

/-- Two events of a generator that meets the hypotheses, by `C132_run`. -/
example (g : ℕ → ℝ) : coins (starts ((demoPlan 2 [0]).world reader) ((demoPlan 2 [0]).gen reader g)
    [small, small])
      = coins (events ((demoPlan 2 [0]).world reader) ((demoPlan 2 [0]).gen reader g)
        (small ×ˢ Set.univ)) ^ 2 := by
  have h := (C132_run (μ := coins) (P := demoPlan 2 [0]) (E := reader) (g := g) (Ts := [small, small])
    (fun r hr pdg e => by
      have : r = coinPlan := by simpa [demoPlan] using hr
      rw [this]
      exact Determined.then .draw (fun u => .ok (demoEvent u)) fun G E g => rfl)
    (fun ev => .ok ev) reader_ideal (coinPlan_usable g) (Or.inl rfl) (fun T hT => by
      have hT' : MeasurableSet {x | demoEvent x ∈ T} := by
        simp only [List.mem_cons, List.not_mem_nil, or_false, or_self] at hT
        rcases hT with rfl | rfl
        · simp
        · exact small_measurable
      exact coinPlan_measurable hT')).2
  rw [h]
  simp [pow_two]

end Marley.Props
