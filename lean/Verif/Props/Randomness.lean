import Verif.Props.Generator
import Verif.Model.CrossSection

/-!
# C82: random numbers are used once

The engine is replaced by an endless tape of random numbers and the position of the
next one.  Whatever a call returns then depends only on the numbers between the
position before and the position after the call: no later number matters, and a
number consumed by one event (or by one stage of an event) plays no part in the
following ones.
-/

set_option autoImplicit false
set_option linter.dupNamespace false

namespace Marley.Props
open Marley Marley.Sampling Marley.Gen
open Marley.Rot (V3 Rotator)

/-- The numbers an engine will produce and how many have been taken. -/
abbrev Tape := (ℕ → ℝ) × ℕ

/-- Taking the next number of a tape. -/
def tape : Engine Tape := ⟨fun g => (g.1 g.2, (g.1, g.2 + 1))⟩

/-- Two tapes hold the same numbers at positions `p ≤ i < q`. -/
def Agree (s t : ℕ → ℝ) (p q : ℕ) : Prop := ∀ i, p ≤ i → i < q → t i = s i

/-- A computation that takes the numbers `p ≤ i < q` of the tape and whose outcome
depends on no others. -/
def Local {α : Type} (m : Tape → Option (Res (α × Tape))) : Prop :=
  ∀ s p a g, m (s, p) = some (.ok (a, g)) →
    ∃ q, p ≤ q ∧ g = (s, q) ∧ ∀ t, Agree s t p q → m (t, p) = some (.ok (a, (t, q)))

theorem Agree.mono {s t : ℕ → ℝ} {p q p' q' : ℕ} (h : Agree s t p q) (hp : p ≤ p') (hq : q' ≤ q) :
    Agree s t p' q' := fun i h1 h2 => h i (by omega) (by omega)

theorem uniform_tape (A : Arith) (a b : ℝ) (c : Bool) (s : ℕ → ℝ) (p : ℕ) :
    (uniform A tape a b c (s, p)).2 = (s, p + 1) := rfl

theorem uniform_agree (A : Arith) (a b : ℝ) (c : Bool) {s t : ℕ → ℝ} {p : ℕ} (h : t p = s p) :
    (uniform A tape a b c (t, p)).1 = (uniform A tape a b c (s, p)).1 := by
  unfold uniform tape
  dsimp only
  rw [h]

theorem rejectLoop_local {σ : Type} (A : Arith) (f : ℝ → σ → Res (ℝ × σ)) (a b sf : ℝ) (n : Nat) :
    ∀ (m : ℝ) (s : ℕ → ℝ) (p : ℕ) (st : σ) (r : Sampled Tape σ),
      rejectLoop A tape f a b sf n m (s, p) st = some (.ok r) →
      ∃ q, p + 2 ≤ q ∧ r.gen = (s, q) ∧ ∀ t, Agree s t p q →
        rejectLoop A tape f a b sf n m (t, p) st = some (.ok { r with gen := (t, q) }) := by
  induction n with
  | zero => intro m s p st r e; simp [rejectLoop] at e
  | succ n ih =>
    intro m s p st r e
    rw [rejectLoop] at e
    dsimp only at e
    rw [uniform_tape, uniform_tape] at e
    have step : ∀ t : ℕ → ℝ, t p = s p → t (p + 1) = s (p + 1) →
        rejectLoop A tape f a b sf (n + 1) m (t, p) st =
          (match f (uniform A tape a b true (s, p)).1 st with
          | .error e => some (.error e)
          | .ok (val, st) =>
            if (uniform A tape 0 m true (s, p + 1)).1 > val then
              rejectLoop A tape f a b sf n (if val > m then val * sf else m) (t, p + 2) st
            else some (.ok ⟨(uniform A tape a b true (s, p)).1, (uniform A tape 0 m true (s, p + 1)).1,
              (if val > m then val * sf else m), (t, p + 2), st⟩)) := by
      intro t h0 h1
      rw [rejectLoop]
      dsimp only
      rw [uniform_tape, uniform_tape, uniform_agree A a b true h0, uniform_agree A 0 m true h1]
      rfl
    cases hf : f (uniform A tape a b true (s, p)).1 st with
    | error _ => rw [hf] at e; simp at e
    | ok v =>
      obtain ⟨v, st'⟩ := v
      rw [hf] at e
      dsimp only at e
      by_cases hy : (uniform A tape 0 m true (s, p + 1)).1 > v
      · rw [if_pos hy] at e
        obtain ⟨q, hq, hg, ht⟩ := ih _ _ _ _ _ e
        refine ⟨q, by omega, hg, fun t h => ?_⟩
        rw [step t (h p (by omega) (by omega)) (h (p + 1) (by omega) (by omega)), hf]
        dsimp only
        rw [if_pos hy]
        exact ht t (h.mono (by omega) le_rfl)
      · rw [if_neg hy] at e
        cases e
        refine ⟨p + 2, le_rfl, rfl, fun t h => ?_⟩
        rw [step t (h p (by omega) (by omega)) (h (p + 1) (by omega) (by omega)), hf]
        dsimp only
        rw [if_neg hy]

theorem rejectionSample_local {σ : Type} (A : Arith) (fuel : Nat) (f : ℝ → σ → Res (ℝ × σ))
    (a b : ℝ) (fm : Option ℝ) (sf tol : ℝ) (st : σ) {s : ℕ → ℝ} {p : ℕ} {r : Sampled Tape σ}
    (e : rejectionSample A tape fuel f a b fm sf tol (s, p) st = some (.ok r)) :
    ∃ q, p + 2 ≤ q ∧ r.gen = (s, q) ∧ ∀ t, Agree s t p q →
      rejectionSample A tape fuel f a b fm sf tol (t, p) st
        = some (.ok { r with gen := (t, q) }) := by
  unfold rejectionSample at e ⊢
  cases fm with
  | some m => exact rejectLoop_local A f a b sf fuel _ _ _ _ _ e
  | none =>
    dsimp only at e ⊢
    cases hm : maximize fuel f a b tol st with
    | none => rw [hm] at e; simp at e
    | some w =>
      cases w with
      | error _ => rw [hm] at e; simp at e
      | ok w =>
        rw [hm] at e
        exact rejectLoop_local A f a b sf fuel _ _ _ _ _ e

theorem pickFrom_local {w : List ℝ} {s : ℕ → ℝ} {p i : ℕ} {g : Tape}
    (e : pickFrom tape w (s, p) = .ok (i, g)) :
    ∃ q, p ≤ q ∧ q ≤ p + 1 ∧ g = (s, q) ∧ ∀ t, Agree s t p q →
      pickFrom tape w (t, p) = .ok (i, (t, q)) := by
  unfold pickFrom at e ⊢
  by_cases h : w.length < 2
  · rw [if_pos h] at e
    cases e
    exact ⟨p, le_rfl, by omega, rfl, fun t _ => by rw [if_pos h]⟩
  · rw [if_neg h] at e
    cases hp : pick w (tape.draw (s, p)).1 with
    | error _ => rw [hp] at e; simp at e
    | ok j =>
      rw [hp] at e
      cases e
      refine ⟨p + 1, by omega, le_rfl, rfl, fun t h' => ?_⟩
      rw [if_neg h]
      have : (tape.draw (t, p)).1 = (tape.draw (s, p)).1 := h' p le_rfl (by omega)
      rw [this, hp]
      rfl

theorem ePdf_eng {G : Type} (g : Gen G) (x : G) : Gen.ePdf { g with eng := x } = g.ePdf :=
  ePdf_congr ⟨rfl, rfl, rfl, rfl, rfl, rfl, Or.inr rfl, rfl⟩ rfl

theorem sampleReaction_local {W : World Tape} (hW : W.engine = tape) {g g' : Gen Tape}
    {s : ℕ → ℝ} {p : ℕ} (hg : g.eng = (s, p)) {i : Nat} {E : ℝ}
    (e : g.sampleReaction W = some (.ok (i, E, g'))) :
    ∃ q, p + 2 ≤ q ∧ g'.eng = (s, q) ∧ ∀ t, Agree s t p q →
      Gen.sampleReaction W { g with eng := (t, p) }
        = some (.ok (i, E, { g' with eng := (t, q) })) := by
  unfold Gen.sampleReaction at e ⊢
  by_cases hr : g.reactions.isEmpty = true
  · rw [if_pos hr] at e; simp at e
  · rw [if_neg hr, hW, hg] at e
    cases hs : rejectionSample W.arith tape W.fuel g.ePdf g.source.Emin g.source.Emax g.pdfMax 1.01
        1e-8 (s, p) g.values with
    | none => rw [hs] at e; simp at e
    | some r =>
      cases r with
      | error _ => rw [hs] at e; simp at e
      | ok r =>
        rw [hs] at e
        dsimp only at e
        obtain ⟨q1, hq1, hgen, hl⟩ := rejectionSample_local _ _ _ _ _ _ _ _ _ hs
        rw [hgen] at e
        cases hp : pickFrom tape r.st (s, q1) with
        | error _ => rw [hp] at e; simp at e
        | ok k =>
          obtain ⟨j, eng⟩ := k
          rw [hp] at e
          dsimp only at e
          obtain ⟨q, hq, _, rfl, hl'⟩ := pickFrom_local hp
          by_cases hi : j < g.reactions.length
          · rw [if_pos hi] at e
            cases e
            refine ⟨q, by omega, rfl, fun t h => ?_⟩
            dsimp only
            rw [if_neg hr, hW, ePdf_eng, hl t (h.mono le_rfl hq)]
            dsimp only
            rw [hl' t (h.mono (by omega) le_rfl)]
            dsimp only
            rw [if_pos hi]
          · rw [if_neg hi] at e; simp at e

theorem direction_local {W : World Tape} (hW : W.engine = tape) (r : Rotator) (ev : Event ℝ)
    (s : ℕ → ℝ) (p : ℕ) :
    ∃ q, p ≤ q ∧ (direction W r ev (s, p)).2.2 = (s, q) ∧ ∀ t, Agree s t p q →
      direction W r ev (t, p)
        = ((direction W r ev (s, p)).1, (direction W r ev (s, p)).2.1, (t, q)) := by
  unfold direction
  cases ev.initial with
  | nil => exact ⟨p, le_rfl, rfl, fun t _ => rfl⟩
  | cons x l =>
    dsimp only
    by_cases h : Kin.momentum x ≤ 0 ∨ r.randomize = false
    · rw [if_pos h]
      exact ⟨p, le_rfl, rfl, fun t _ => by rw [if_pos h]⟩
    · rw [if_neg h, hW]
      refine ⟨p + 2, by omega, rfl, fun t ht => ?_⟩
      rw [if_neg h, uniform_tape, uniform_tape, uniform_tape,
        uniform_agree W.arith (-1) 1 true (ht p (by omega) (by omega)),
        uniform_agree W.arith 0 _ false (ht (p + 1) (by omega) (by omega))]

theorem finish_local {W : World Tape} (hW : W.engine = tape) (hd : ∀ ev, Local (W.decay ev))
    (b : Bool) (r : Rotator) (ev : Event ℝ) {s : ℕ → ℝ} {p : ℕ} {ev' : Event ℝ} {r' : Rotator}
    {g : Tape} (e : finish W b r ev (s, p) = some (.ok (ev', r', g))) :
    ∃ q, p ≤ q ∧ g = (s, q) ∧ ∀ t, Agree s t p q →
      finish W b r ev (t, p) = some (.ok (ev', r', (t, q))) := by
  have h0 : Local (fun eng => if b then W.decay ev eng else some (.ok (ev, eng))) := by
    cases b
    · intro s p a g e
      simp only [Bool.false_eq_true, if_false, Option.some.injEq, Except.ok.injEq,
        Prod.mk.injEq] at e
      obtain ⟨rfl, rfl⟩ := e
      exact ⟨p, le_rfl, rfl, fun t _ => rfl⟩
    · intro s p a g e
      exact hd ev s p a g e
  unfold finish at e ⊢
  cases hk : (if b then W.decay ev (s, p) else some (.ok (ev, (s, p))) :
      Option (Res (Event ℝ × Tape))) with
  | none => rw [hk] at e; simp at e
  | some k =>
    cases k with
    | error _ => rw [hk] at e; simp at e
    | ok k =>
      obtain ⟨ev1, g1⟩ := k
      rw [hk] at e
      obtain ⟨q1, hq1, rfl, hl⟩ := h0 s p _ _ hk
      dsimp only at e
      obtain ⟨q, hq, hdir, hl'⟩ := direction_local hW r ev1 s q1
      cases hp : r.process ev1 (direction W r ev1 (s, q1)).1 (direction W r ev1 (s, q1)).2.1 with
      | error _ => rw [hp] at e; simp at e
      | ok w =>
        obtain ⟨r2, ev2⟩ := w
        rw [hp] at e
        simp only [Option.some.injEq, Except.ok.injEq, Prod.mk.injEq] at e
        obtain ⟨rfl, rfl, rfl⟩ := e
        refine ⟨q, by omega, hdir, fun t h => ?_⟩
        have := hl t (h.mono le_rfl hq)
        dsimp only at this
        rw [this]
        dsimp only
        rw [hl' t (h.mono hq1 le_rfl)]
        dsimp only
        rw [hp]

/-- C82: an event produced by `create_event()` depends only on the configuration and on
the random numbers consumed while producing it, provided that the reactions and the
de-excitation have that property.  At least two numbers (those of the accepted energy)
are consumed, and the generator's engine stands behind the last one afterwards. -/
theorem C82_event_partial {W : World Tape} (hW : W.engine = tape) (hd : ∀ ev, Local (W.decay ev))
    {g g' : Gen Tape} (hr : ∀ r ∈ g.reactions, ∀ pdg E, Local (r.create pdg E))
    {s : ℕ → ℝ} {p : ℕ} (hg : g.eng = (s, p)) {ev : Event ℝ}
    (e : g.createEvent W = some (.ok (ev, g'))) :
    ∃ q, p + 2 ≤ q ∧ g'.eng = (s, q) ∧ ∀ t, Agree s t p q →
      Gen.createEvent W { g with eng := (t, p) } = some (.ok (ev, { g' with eng := (t, q) })) := by
  unfold Gen.createEvent at e ⊢
  cases hs : g.sampleReaction W with
  | none => rw [hs] at e; simp at e
  | some k =>
    cases k with
    | error _ => rw [hs] at e; simp at e
    | ok k =>
      obtain ⟨i, E, g1⟩ := k
      rw [hs] at e
      dsimp only at e
      obtain ⟨q1, hq1, hg1, hl1⟩ := sampleReaction_local hW hg hs
      have hrx : g1.reactions = g.reactions := by
        unfold Gen.sampleReaction at hs
        by_cases h0 : g.reactions.isEmpty = true
        · rw [if_pos h0] at hs; simp at hs
        · rw [if_neg h0] at hs
          split at hs
          · simp at hs
          · simp at hs
          · split at hs
            · simp at hs
            · split at hs
              · cases hs; rfl
              · simp at hs
      cases hi : g1.reactions[i]? with
      | none => rw [hi] at e; simp at e
      | some rx =>
        rw [hi] at e
        dsimp only at e
        rw [hg1] at e
        have hmem : rx ∈ g.reactions := by
          rw [← hrx]; exact List.mem_of_getElem? hi
        cases hc : rx.create g1.source.pid E (s, q1) with
        | none => rw [hc] at e; simp at e
        | some k =>
          cases k with
          | error _ => rw [hc] at e; simp at e
          | ok k =>
            obtain ⟨ev1, g2⟩ := k
            rw [hc] at e
            dsimp only at e
            obtain ⟨q2, hq2, rfl, hl2⟩ := hr rx hmem _ _ s q1 _ _ hc
            cases hf : finish W g1.deexcite g1.rotator ev1 (s, q2) with
            | none => rw [hf] at e; simp at e
            | some k =>
              cases k with
              | error _ => rw [hf] at e; simp at e
              | ok k =>
                obtain ⟨ev2, r2, g3⟩ := k
                rw [hf] at e
                obtain ⟨q, hq, rfl, hl3⟩ := finish_local hW hd _ _ _ hf
                cases e
                refine ⟨q, by omega, rfl, fun t h => ?_⟩
                rw [hl1 t (h.mono le_rfl (by omega))]
                dsimp only
                rw [hi]
                dsimp only
                rw [hl2 t (h.mono (by omega) (by omega))]
                dsimp only
                rw [hl3 t (h.mono (by omega) le_rfl)]

/-- C82 for the numbers that have gone by: events produced later do not depend on them.
After an event the generator may be given a tape with other numbers at the positions
already passed; the next event is the same. -/
theorem C82_forget {W : World Tape} (hW : W.engine = tape) (hd : ∀ ev, Local (W.decay ev))
    {g g' : Gen Tape} (hr : ∀ r ∈ g.reactions, ∀ pdg E, Local (r.create pdg E))
    {s t : ℕ → ℝ} {p : ℕ} (hg : g.eng = (s, p)) (h : ∀ i, p ≤ i → t i = s i) {ev : Event ℝ}
    (e : g.createEvent W = some (.ok (ev, g'))) :
    ∃ q, Gen.createEvent W { g with eng := (t, p) } = some (.ok (ev, { g' with eng := (t, q) })) := by
  obtain ⟨q, _, _, hl⟩ := C82_event_partial hW hd hr hg e
  exact ⟨q, hl t (fun i hi _ => h i hi)⟩

/-! ## Reactions -/

/-- One computation after another. -/
def andThen {α β : Type} (m : Tape → Option (Res (α × Tape)))
    (k : α → Tape → Option (Res (β × Tape))) (g : Tape) : Option (Res (β × Tape)) :=
  match m g with
  | none => none
  | some (.error e) => some (.error e)
  | some (.ok (a, g)) => k a g

theorem Local.andThen {α β : Type} {m : Tape → Option (Res (α × Tape))}
    {k : α → Tape → Option (Res (β × Tape))} (hm : Local m) (hk : ∀ a, Local (k a)) :
    Local (andThen m k) := by
  intro s p b g e
  unfold Props.andThen at e ⊢
  cases h : m (s, p) with
  | none => rw [h] at e; simp at e
  | some x =>
    cases x with
    | error _ => rw [h] at e; simp at e
    | ok x =>
      obtain ⟨a, g1⟩ := x
      rw [h] at e
      obtain ⟨q1, h1, rfl, hl⟩ := hm s p a g1 h
      obtain ⟨q, h2, rfl, hl'⟩ := hk a s q1 b g e
      refine ⟨q, by omega, rfl, fun t ht => ?_⟩
      rw [hl t (ht.mono le_rfl h2)]
      exact hl' t (ht.mono h1 le_rfl)

theorem Local.congr {α : Type} {m m' : Tape → Option (Res (α × Tape))} (h : ∀ g, m g = m' g)
    (hm : Local m') : Local m := by
  have : m = m' := funext h
  rw [this]; exact hm

theorem Local.ret {α : Type} (a : α) : Local (fun g => some (.ok (a, g))) := by
  intro s p b g e
  simp only [Option.some.injEq, Except.ok.injEq, Prod.mk.injEq] at e
  obtain ⟨rfl, rfl⟩ := e
  exact ⟨p, le_rfl, rfl, fun t _ => rfl⟩

theorem Local.fail {α : Type} (x : Exc) : Local (α := α) (fun _ => some (.error x)) := by
  intro s p b g e; simp at e

theorem Local.of {α : Type} (x : Res α) : Local (fun g => some (x.map (·, g))) := by
  cases x with
  | error x => exact Local.fail x
  | ok a => exact Local.ret a

theorem Local.uniform (A : Arith) (a b : ℝ) (c : Bool) :
    Local (fun g => some (.ok (Sampling.uniform A tape a b c g))) := by
  intro s p v g e
  simp only [Option.some.injEq, Except.ok.injEq] at e
  refine ⟨p + 1, by omega, by rw [← show _ = g from congrArg Prod.snd e]; rfl, fun t h => ?_⟩
  have h1 := uniform_agree A a b c (h p le_rfl (by omega))
  dsimp only
  rw [show Sampling.uniform A tape a b c (t, p) = ((Sampling.uniform A tape a b c (t, p)).1, (t, p + 1))
    from rfl, h1, show (Sampling.uniform A tape a b c (s, p)).1 = v from congrArg Prod.fst e]

theorem Local.pickFrom (w : List ℝ) : Local (fun g => some (Sampling.pickFrom tape w g)) := by
  intro s p i g e
  simp only [Option.some.injEq] at e
  obtain ⟨q, h1, _, h2, h3⟩ := pickFrom_local e
  exact ⟨q, h1, h2, fun t h => by dsimp only; rw [h3 t h]⟩

/-- The sample and the tape. -/
def sampledX {σ : Type} : Option (Res (Sampled Tape σ)) → Option (Res (ℝ × Tape))
  | none => none
  | some (.error e) => some (.error e)
  | some (.ok r) => some (.ok (r.x, r.gen))

theorem Local.rejectionSample {σ : Type} (A : Arith) (fuel : Nat) (f : ℝ → σ → Res (ℝ × σ))
    (a b : ℝ) (fm : Option ℝ) (sf tol : ℝ) (st : σ) :
    Local (fun g => sampledX (Sampling.rejectionSample A tape fuel f a b fm sf tol g st)) := by
  intro s p x g e
  dsimp only at e ⊢
  cases h : Sampling.rejectionSample A tape fuel f a b fm sf tol (s, p) st with
  | none => rw [h] at e; simp [sampledX] at e
  | some r =>
    cases r with
    | error _ => rw [h] at e; simp [sampledX] at e
    | ok r =>
      rw [h] at e
      simp only [sampledX, Option.some.injEq, Except.ok.injEq, Prod.mk.injEq] at e
      obtain ⟨rfl, rfl⟩ := e
      obtain ⟨q, h1, h2, h3⟩ := rejectionSample_local _ _ _ _ _ _ _ _ _ h
      exact ⟨q, by omega, h2, fun t ht => by rw [h3 t ht]; rfl⟩

open Marley.Xs Marley.Kin in
/-- C82: scattering on electrons. -/
theorem C82_electron {E : Env Tape} (hE : E.engine = tape) (r : Reaction.Electron) (pdg : Int)
    (KEa : ℝ) : Local (elCreate E r pdg KEa) := by
  by_cases h1 : pdg ≠ r.pdgA
  · have : elCreate E r pdg KEa = fun _ => some (.error .marleyError) := by
      funext g; unfold elCreate; rw [if_pos h1]
    rw [this]; exact Local.fail _
  by_cases h2 : KEa < threshold (elMasses r)
  · have : elCreate E r pdg KEa = fun _ => some (.error .marleyError) := by
      funext g; unfold elCreate; rw [if_neg h1, if_pos h2]
    rw [this]; exact Local.fail _
  have : elCreate E r pdg KEa = Props.andThen
      (fun g => sampledX (Sampling.rejectionSample E.arith tape E.fuel
          (fun c (_ : Unit) => .ok (elDiff r pdg KEa c, ())) (-1) 1
          (some (elBound r pdg KEa (twoTwoScatter (elMasses r) KEa).s)) 1.01 1e-8 g ()))
      (fun x => Props.andThen
        (fun g => some (.ok (Sampling.uniform E.arith tape 0 (2 * Real.pi) false g)))
        (fun phi g => some ((makeEvent (elMasses r) KEa (twoTwoScatter (elMasses r) KEa) x phi 0 1
          ⟨true⟩).map (·, g)))) := by
    funext g
    unfold elCreate Props.andThen
    rw [if_neg h1, if_neg h2, hE]
    dsimp only
    generalize Sampling.rejectionSample E.arith tape E.fuel _ (-1) 1 _ 1.01 1e-8 g () = y
    rcases y with _ | _ | y
    · rfl
    · rfl
    · dsimp only [sampledX]
      cases makeEvent (elMasses r) KEa (twoTwoScatter (elMasses r) KEa) y.x
        (Sampling.uniform E.arith tape 0 (2 * Real.pi) false y.gen).1 0 1 ⟨true⟩ <;> rfl
  rw [this]
  exact (Local.rejectionSample _ _ _ _ _ _ _ _ _).andThen
    (fun x => (Local.uniform _ _ _ _).andThen (fun phi => Local.of _))

open Marley.Xs in
theorem choose_local {E : Env Tape} (hE : E.engine = tape) (n : Nuc) (pdg : Int) (KEa : ℝ) :
    Local (fun g => some (n.choose E pdg KEa g)) := by
  intro s p m g e
  simp only [Option.some.injEq] at e
  unfold Nuc.choose at e ⊢
  by_cases h1 : pdg ≠ n.pdgA
  · rw [if_pos h1] at e; simp at e
  by_cases h2 : KEa < Kin.threshold (n.masses 0)
  · rw [if_neg h1, if_pos h2] at e; simp at e
  rw [if_neg h1, if_neg h2] at e
  cases h3 : summed E.fermi n pdg KEa none with
  | error _ => rw [h3] at e; simp at e
  | ok w =>
    obtain ⟨sum, weights⟩ := w
    rw [h3] at e
    dsimp only at e
    by_cases h4 : weights.isEmpty = true
    · rw [if_pos h4] at e; simp at e
    by_cases h5 : sum ≤ 0
    · rw [if_neg h4, if_pos h5] at e; simp at e
    rw [if_neg h4, if_neg h5, hE] at e
    cases h6 : Sampling.pickFrom tape weights (s, p) with
    | error _ => rw [h6] at e; simp at e
    | ok k =>
      obtain ⟨i, g1⟩ := k
      rw [h6] at e
      dsimp only at e
      obtain ⟨q, a1, _, rfl, a4⟩ := pickFrom_local h6
      cases h7 : n.elements[i]? with
      | none => rw [h7] at e; simp at e
      | some x =>
        rw [h7] at e
        cases e
        refine ⟨q, a1, rfl, fun t ht => ?_⟩
        dsimp only
        rw [if_neg h1, if_neg h2, hE, if_neg h4, if_neg h5, a4 t ht]
        dsimp only
        rw [h7]

open Marley.Xs in
theorem sampleCos_local {E : Env Tape} (hE : E.engine = tape) (m : Reaction.MatEl) (beta : ℝ) :
    Local (sampleCos E m beta) := by
  unfold sampleCos
  rw [hE]
  cases cosMax m beta with
  | error e => exact Local.fail e
  | ok max =>
    refine Local.congr (fun g => ?_) (Local.rejectionSample E.arith E.fuel
      (fun c (_ : Unit) => (cosDensity m c beta).map (·, ())) (-1) 1 (some max) 1.01 1e-8 ())
    dsimp only
    rcases Sampling.rejectionSample E.arith tape E.fuel
        (fun c (_ : Unit) => (cosDensity m c beta).map (·, ())) (-1) 1 (some max) 1.01 1e-8 g ()
      with _ | _ | r <;> rfl

open Marley.Xs in
theorem spinParity_local {E : Env Tape} (hE : E.engine = tape) (n : Nuc) (m : Reaction.MatEl)
    (twoJ : Int) (P : Parity) :
    Local (fun g => some ((spinParity E n m twoJ P g).map (fun x => ((x.1, x.2.1), x.2.2)))) := by
  unfold spinParity
  cases m.level with
  | some l => exact Local.ret (l.2.twoJ, l.2.parity)
  | none =>
    dsimp only
    by_cases h1 : m.type = 0
    · simp only [if_pos h1]; exact Local.ret (twoJ, P)
    by_cases h2 : m.type = 1
    · simp only [if_neg h1, if_pos h2]
      by_cases h3 : twoJ = 0
      · simp only [if_pos h3]; exact Local.ret (2, P)
      · simp only [if_neg h3]
        cases E.density n.pdgD with
        | error e => exact Local.fail _
        | ok rho =>
          dsimp only
          rw [hE]
          refine Local.congr (m' := Props.andThen
              (fun g => some (Sampling.pickFrom tape
                ((gtSpins twoJ).map (fun J => rho m.levelEnergy J P)) g))
              (fun i g => some ((match (gtSpins twoJ)[i]? with
                | none => .error .outOfRange
                | some J => .ok (J, P) : Res (Int × Parity)).map (·, g)))) (fun g => ?_)
            ((Local.pickFrom _).andThen (fun i => Local.of _))
          unfold Props.andThen
          dsimp only
          rcases Sampling.pickFrom tape ((gtSpins twoJ).map (fun J => rho m.levelEnergy J P)) g
            with _ | ⟨i, g1⟩
          · rfl
          · dsimp only
            cases (gtSpins twoJ)[i]? <;> rfl
    · simp only [if_neg h1, if_neg h2]; exact Local.fail _

open Marley.Xs Marley.Kin in
/-- C82: reactions on nuclei. -/
theorem C82_nuclear {E : Env Tape} (hE : E.engine = tape) (n : Nuc) (pdg : Int)
    (KEa : ℝ) : Local (n.createEvent E pdg KEa) := by
  have : n.createEvent E pdg KEa = Props.andThen (fun g => some (n.choose E pdg KEa g)) (fun m =>
      match Utils.fdiv (twoTwoScatter (n.masses m.levelEnergy) KEa).pc
          (twoTwoScatter (n.masses m.levelEnergy) KEa).Ec with
      | none => fun _ => some (.error .ub)
      | some beta => Props.andThen (sampleCos E m beta) (fun c => Props.andThen
        (fun g => some (.ok (Sampling.uniform E.arith tape 0 (2 * Real.pi) false g))) (fun phi =>
          match E.gs n.pdgB with
          | .error e => fun _ => some (.error e)
          | .ok (twoJgs, Pgs) => Props.andThen (fun g => some ((spinParity E n m twoJgs Pgs g).map
              (fun x => ((x.1, x.2.1), x.2.2)))) (fun JP g => some (
                (match makeEvent (n.masses m.levelEnergy) KEa
                  (twoTwoScatter (n.masses m.levelEnergy) KEa) c phi m.levelEnergy JP.1 JP.2 with
                | .error e => .error e
                | .ok ev => setCharges n ev : Res (Event ℝ)).map (·, g)))))) := by
    funext g
    unfold Nuc.createEvent Props.andThen
    dsimp only
    rcases n.choose E pdg KEa g with _ | ⟨m, g⟩
    · rfl
    dsimp only
    cases Utils.fdiv (twoTwoScatter (n.masses m.levelEnergy) KEa).pc
          (twoTwoScatter (n.masses m.levelEnergy) KEa).Ec with
    | none => rfl
    | some beta =>
      dsimp only
      rcases sampleCos E m beta g with _ | _ | ⟨c, g⟩
      · rfl
      · rfl
      dsimp only
      rw [hE]
      cases E.gs n.pdgB with
      | error _ => rfl
      | ok x =>
        obtain ⟨twoJgs, Pgs⟩ := x
        dsimp only
        rcases spinParity E n m twoJgs Pgs
          (Sampling.uniform E.arith tape 0 (2 * Real.pi) false g).2 with _ | ⟨J, P, g'⟩
        · rfl
        dsimp only [Except.map]
        cases makeEvent (n.masses m.levelEnergy) KEa (twoTwoScatter (n.masses m.levelEnergy) KEa) c
          (Sampling.uniform E.arith tape 0 (2 * Real.pi) false g).1 m.levelEnergy J P with
        | error _ => rfl
        | ok ev => dsimp only; cases setCharges n ev <;> rfl
  rw [this]
  refine (choose_local hE n pdg KEa).andThen (fun m => ?_)
  cases Utils.fdiv (twoTwoScatter (n.masses m.levelEnergy) KEa).pc
          (twoTwoScatter (n.masses m.levelEnergy) KEa).Ec with
  | none => exact Local.fail _
  | some beta =>
    refine (sampleCos_local hE m beta).andThen (fun c => (Local.uniform _ _ _ _).andThen (fun phi => ?_))
    cases E.gs n.pdgB with
    | error e => exact Local.fail e
    | ok x => exact (spinParity_local hE n m _ _).andThen (fun JP => Local.of _)

/-- Non-vacuity: a tape of halves; the event takes two numbers. -/
example : (demoGen ((fun _ => 1 / 2, 0) : Tape) 2 2 0).createEvent (demoWorld tape)
      = some (.ok (demoEvent (1 / 2), demoGen (fun _ => 1 / 2, 2) 2 2 1)) ∧
    (demoWorld tape).engine = tape ∧ (∀ ev, Local ((demoWorld tape).decay ev)) ∧
    ∀ r ∈ (demoGen ((fun _ => 1 / 2, 0) : Tape) 2 2 0).reactions, ∀ pdg E, Local (r.create pdg E) := by
  have hl : rejectLoop exact tape (demoGen ((fun _ => 1 / 2, 0) : Tape) 2 2 0).ePdf 0 1 1.01 2 2
      (fun _ => 1 / 2, 0) [0] = some (.ok ⟨1 / 2, 1, 2, (fun _ => 1 / 2, 2), [1]⟩) := by
    simp only [rejectLoop, demo_ePdf]
    norm_num [uniform, exact, tape]
  refine ⟨?_, rfl, ?_, ?_⟩
  · exact demo_event hl rfl
  · intro ev s p a g e
    simp only [demoWorld, Option.some.injEq, Except.ok.injEq, Prod.mk.injEq] at e
    obtain ⟨rfl, rfl⟩ := e
    exact ⟨p, le_rfl, rfl, fun t _ => rfl⟩
  · intro r hr pdg E s p a g e
    simp only [demoGen, List.mem_singleton] at hr
    subst hr
    simp only [demoRx, Option.some.injEq, Except.ok.injEq, Prod.mk.injEq] at e
    obtain ⟨rfl, rfl⟩ := e
    exact ⟨p, le_rfl, rfl, fun t _ => rfl⟩

end Marley.Props
