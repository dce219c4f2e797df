import Verif.Model.Source
import Verif.Lemmas.Determined
import Verif.Props.EventLaw

/-!
# C133: events are determined by finitely many random numbers

`Determined` is in `Verif/Spec/Determined.lean`.  The surroundings of a reaction (`Env.on`)
and a generator (`Plan`) without their engine are in `Verif/Lemmas/Determined.lean`.
-/

set_option autoImplicit false

namespace Marley.Props
open Marley Marley.Sampling Marley.Gen MeasureTheory

/-- **C133**, de-excitation: what `NucleusDecayer::process_event` makes of an event is determined
by finitely many numbers, and just these are used up. -/
theorem C133_decays (A : Arith) (fuel : Nat) (D : Decay.Data) (ev : Event ℝ) :
    Determined fun _ E g => Decay.decayer A E fuel D ev g :=
  Decay.decayer_determined A fuel D ev

/-- **C133**, nuclear reactions. -/
theorem C133_nuclear (B : Xs.Env Unit) (n : Xs.Nuc) (pdg : Int) (KEa : ℝ) :
    Determined fun _ E g => n.createEvent (B.on E) pdg KEa g :=
  Xs.nuclear_determined B n pdg KEa

/-- **C133**, scattering on electrons. -/
theorem C133_electron (B : Xs.Env Unit) (r : Reaction.Electron) (pdg : Int) (KEa : ℝ) :
    Determined fun _ E g => Xs.elCreate (B.on E) r pdg KEa g :=
  Xs.electron_determined B r pdg KEa

/-- **C133**, projectiles sampled from a source by itself. -/
theorem C133_source (A : Arith) (fuel : Nat) (s : Marley.Source.Source) (max : Option ℝ) :
    Determined fun _ E g => (Marley.Source.sampleIncident A E fuel s max g).map
      (Except.map fun x => ((x.1, x.2.1, x.2.2.1), x.2.2.2)) := by
  unfold Marley.Source.sampleIncident
  cases Marley.Source.Emin s.spectrum with
  | error e => exact .err _
  | ok a =>
    cases Marley.Source.Emax s.spectrum with
    | error e => exact .err _
    | ok b =>
      dsimp only
      refine Determined.then (rejectionSample_determined A fuel (Marley.Source.numeric s.pdf) a b max 1.01 1e-8 ())
        (fun r => .ok (r.1, s.pid, some r.2.2.1)) fun G E g => ?_
      generalize rejectionSample _ _ _ _ _ _ _ _ _ _ _ = x
      cases x with
      | none => rfl
      | some x => cases x <;> rfl

/-- A nuclear reaction of a plan. -/
noncomputable def nuclearPlan (B : Xs.Env Unit) (n : Xs.Nuc) : RxPlan :=
  ⟨n.pdgA, n.pdgB, n.totalXs B.fermi, fun pdg e _ E g => n.createEvent (B.on E) pdg e g⟩

/-- Scattering on electrons in a plan. -/
noncomputable def electronPlan (B : Xs.Env Unit) (r : Reaction.Electron) : RxPlan :=
  ⟨r.pdgA, r.atom, fun pdg e => .ok (Xs.elTotal r pdg e), fun pdg e _ E g => Xs.elCreate (B.on E) r pdg e g⟩

/-- They are the reactions of the generator. -/
example {G : Type} (B : Xs.Env Unit) (n : Xs.Nuc) (r : Reaction.Electron) (E : Engine G) :
    (nuclearPlan B n).rx E = n.rx (B.on E) ∧ (electronPlan B r).rx E = Xs.elRx (B.on E) r :=
  ⟨rfl, rfl⟩

/-- **C133**, runs: the events of a run of any length are determined by finitely many numbers,
and just these are used up, if this is true of each reaction and of the de-excitation. -/
theorem C133_run {P : Plan} (hr : ∀ r ∈ P.reactions, ∀ pdg e, Determined (r.create pdg e))
    (hd : ∀ ev, Determined (P.decay ev)) (n : Nat) :
    Determined fun _ E g => ((P.gen E g).createEvents (P.world E) n).map
      (Except.map fun x => (x.1, x.2.eng)) :=
  createEvents_plan ⟨hr, hd⟩ n

theorem replay_drawn (l rest : List ℝ) : drawn replay l.length (l ++ rest) = l := by
  induction l with
  | nil => rfl
  | cons x l ih => simp only [List.length_cons, drawn, replay, List.cons_append]; exact congrArg _ ih

theorem replay_after (l rest : List ℝ) : after replay l.length (l ++ rest) = rest := by
  induction l with
  | nil => rfl
  | cons x l ih => simp only [List.length_cons, after, replay, List.cons_append]; exact ih

/-- **C133**, the reactions and the decayer of MARLEY: they meet the hypotheses of `C133_run`. -/
theorem C133_marley {P : Plan} {B : Xs.Env Unit} {A : Arith} {fuel : Nat} {D : Decay.Data}
    (hr : ∀ r ∈ P.reactions, (∃ n, r = nuclearPlan B n) ∨ ∃ x, r = electronPlan B x)
    (hd : P.decay = fun ev _ E g => Decay.decayer A E fuel D ev g) (n : Nat) :
    Determined fun _ E g => ((P.gen E g).createEvents (P.world E) n).map
      (Except.map fun x => (x.1, x.2.eng)) :=
  C133_run (fun r hr' pdg e => by
    rcases hr r hr' with ⟨n, rfl⟩ | ⟨x, rfl⟩
    · exact C133_nuclear B n pdg e
    · exact C133_electron B x pdg e) (fun ev => by rw [hd]; exact C133_decays A fuel D ev) n

/-- **C133**, replaying: a generator made the events `evs` with an engine of any kind.  Then
there is a list of numbers, those that the engine gave, with which a generator of the same
configuration makes the same events; it uses all of them and no other. -/
theorem C133_replay {P : Plan} (hr : ∀ r ∈ P.reactions, ∀ pdg e, Determined (r.create pdg e))
    (hd : ∀ ev, Determined (P.decay ev))
    {G : Type} {E : Engine G} {g : G} {n : Nat} {evs : List (Event ℝ)} {g' : Gen G}
    (h : (P.gen E g).createEvents (P.world E) n = some (.ok (evs, g'))) :
    ∃ numbers : List ℝ, numbers = drawn E numbers.length g ∧ g'.eng = after E numbers.length g ∧
      ∀ rest, ∃ g'' : Gen (List ℝ),
        (P.gen replay (numbers ++ rest)).createEvents (P.world replay) n = some (.ok (evs, g'')) ∧
        g''.eng = rest := by
  have hdet := C133_run hr hd n
  obtain ⟨k, r, hk⟩ := hdet G E g
  have h0 := hk G E g rfl
  dsimp only at h0
  rw [h] at h0
  have hr0 : r = some (.ok evs) ∧ g'.eng = after E k g := by
    match r, h0 with
    | none, h0 => cases h0
    | some (.error _), h0 => cases h0
    | some (.ok a), h0 =>
      simp only [Option.map_some, Except.map, leaves, Option.some.injEq, Except.ok.injEq,
        Prod.mk.injEq] at h0
      exact ⟨by rw [h0.1], h0.2⟩
  have hlen : (drawn E k g).length = k := drawn_length E k g
  refine ⟨drawn E k g, by rw [hlen], by rw [hlen]; exact hr0.2, fun rest => ?_⟩
  have h1 := hk (List ℝ) replay (drawn E k g ++ rest)
    (by
      have := replay_drawn (drawn E k g) rest
      rwa [hlen] at this)
  have h2 : after replay k (drawn E k g ++ rest) = rest := by
    have := replay_after (drawn E k g) rest
    rwa [hlen] at this
  rw [h2, hr0.1] at h1
  dsimp only [leaves] at h1
  generalize Gen.createEvents (P.world replay) n (P.gen replay (drawn E k g ++ rest)) = y at h1 ⊢
  match y, h1 with
  | none, h1 => cases h1
  | some (.error _), h1 => cases h1
  | some (.ok (evs', g'')), h1 =>
    simp only [Option.map_some, Except.map, Option.some.injEq, Except.ok.injEq,
      Prod.mk.injEq] at h1
    exact ⟨g'', by rw [h1.1], h1.2⟩

/-! ### Examples -/

/-- A reaction that draws a number for its event, with any engine. -/
noncomputable def coinPlan : RxPlan :=
  ⟨12, 1000180400, fun _ _ => .ok 1, fun _ _ _ E g => some (.ok (demoEvent (E.draw g).1, (E.draw g).2))⟩

/-- A generator with it. -/
noncomputable def demoPlan (m : ℝ) (vals : List ℝ) : Plan where
  arith := exact
  fuel := 2
  decay := fun ev _ _ g => some (.ok (ev, g))
  seed := 0
  norm := 1
  source := demoSource
  target := none
  reactions := [coinPlan]
  values := vals
  weightFlux := true
  pdfMax := some m
  pdfMaxDefault := some m
  frozen := false
  rotator := Rot.Rotator.fresh ⟨0, 0, 1⟩
  deexcite := true

theorem demoPlan_event (v : ℝ) :
    ((demoPlan 2 [v]).gen half ()).createEvent ((demoPlan 2 [v]).world half)
      = some (.ok (demoEvent (1 / 2), (demoPlan 2 [1]).gen half ())) := by
  have hpdf : ∀ e v', ((demoPlan 2 [v]).gen half ()).ePdf e [v'] = .ok (1, [1]) := by
    intro e v'
    simp [Gen.ePdf, Gen.pdfLoop, Gen.weighted, demoPlan, Plan.gen, coinPlan, RxPlan.rx, demoSource]
  have hloop : rejectLoop exact half ((demoPlan 2 [v]).gen half ()).ePdf 0 1 1.01 2 2 () [v]
      = some (.ok ⟨1 / 2, 1, 2, (), [1]⟩) := by
    generalize ((demoPlan 2 [v]).gen half ()).ePdf = pdf at hpdf
    simp only [rejectLoop, hpdf, uniform, exact, half]
    norm_num
  have hs : ((demoPlan 2 [v]).gen half ()).sampleReaction ((demoPlan 2 [v]).world half)
      = some (.ok (0, 1 / 2, (demoPlan 2 [1]).gen half ())) := by
    rw [sampleReaction_eq _ (show Gen.Sized ((demoPlan 2 [v]).gen half ()) [v] from rfl)]
    have hb : ((demoPlan 2 [v]).gen half ()).bound ((demoPlan 2 [v]).world half) = some (.ok 2) := rfl
    rw [hb]
    dsimp only
    rw [show rejectLoop ((demoPlan 2 [v]).world half).arith ((demoPlan 2 [v]).world half).engine
      ((demoPlan 2 [v]).gen half ()).ePdf ((demoPlan 2 [v]).gen half ()).source.Emin
      ((demoPlan 2 [v]).gen half ()).source.Emax 1.01 ((demoPlan 2 [v]).world half).fuel 2
      ((demoPlan 2 [v]).gen half ()).eng ((demoPlan 2 [v]).gen half ()).values
      = some (.ok ⟨1 / 2, 1, 2, (), [1]⟩) from hloop]
    simp [Plan.gen, demoPlan, pickFrom]
  have hm : Kin.momentum (demoProjectile (1 / 2)) = 0 := by simp [Kin.momentum, demoProjectile]
  unfold Gen.createEvent
  rw [hs]
  have hm' : Kin.momentum (demoProjectile 2⁻¹) = 0 := by simp [Kin.momentum, demoProjectile]
  simp [Plan.gen, Plan.world, demoPlan, coinPlan, RxPlan.rx, finish, direction, demoEvent, half, hm',
    Rot.Rotator.process]

/-- Two events that meet the hypotheses of `C133_run` and `C133_replay`. -/
example : (∀ r ∈ (demoPlan 2 [0]).reactions, ∀ pdg e, Determined (r.create pdg e)) ∧
    (∀ ev, Determined ((demoPlan 2 [0]).decay ev)) ∧
    ((demoPlan 2 [0]).gen half ()).createEvents ((demoPlan 2 [0]).world half) 2
      = some (.ok ([demoEvent (1 / 2), demoEvent (1 / 2)], (demoPlan 2 [1]).gen half ())) := by
  refine ⟨fun r hr pdg e => ?_, fun ev => .ok ev, ?_⟩
  · have : r = coinPlan := by simpa [demoPlan] using hr
    rw [this]
    exact Determined.then .draw (fun u => .ok (demoEvent u)) fun G E g => rfl
  · simp only [Gen.createEvents]
    rw [demoPlan_event 0]
    dsimp only
    rw [show (demoPlan 2 [0]).world half = (demoPlan 2 [1]).world half from rfl, demoPlan_event 1]

/-- A generator that meets the hypotheses of `C133_marley`. -/
example (B : Xs.Env Unit) (n : Xs.Nuc) (x : Reaction.Electron) (D : Decay.Data) :
    let P := { demoPlan 2 [0, 0] with
      reactions := [nuclearPlan B n, electronPlan B x]
      decay := fun ev _ E g => Decay.decayer binary64 E 1000 D ev g }
    (∀ r ∈ P.reactions, (∃ n, r = nuclearPlan B n) ∨ ∃ x, r = electronPlan B x) ∧
      P.decay = fun ev _ E g => Decay.decayer binary64 E 1000 D ev g := by
  refine ⟨fun r hr => ?_, rfl⟩
  simp only [List.mem_cons, List.not_mem_nil, or_false] at hr
  rcases hr with rfl | rfl
  · exact Or.inl ⟨n, rfl⟩
  · exact Or.inr ⟨x, rfl⟩

/-- Looking at the next number without using it up is not allowed. -/
example : ¬ Determined fun _ E g => some (.ok ((E.draw g).1, g)) := by
  intro h
  obtain ⟨n, r, hn⟩ := h (ℕ → ℝ) reader fun k => k
  have h1 := hn _ reader (fun k => (k : ℝ)) rfl
  have hafter : ∀ n (x : ℕ → ℝ), after reader n x = fun k => x (k + n) := by
    intro n
    induction n with
    | zero => intro x; rfl
    | succ n ih =>
      intro x
      rw [after, ih]
      funext k
      simp only [reader]
      congr 1
  match r, h1 with
  | none, h1 => cases h1
  | some (.error _), h1 => cases h1
  | some (.ok a), h1 =>
    simp only [leaves, Option.some.injEq, Except.ok.injEq, Prod.mk.injEq] at h1
    have hn0 : n = 0 := by
      have := congrFun (h1.2.trans (hafter n _)) 0
      simpa using this.symm
    subst hn0
    have h2 := hn _ reader (fun _ => (1 : ℝ)) rfl
    simp only [leaves, Option.some.injEq, Except.ok.injEq, Prod.mk.injEq] at h2
    have e1 : (reader.draw fun k => (k : ℝ)).1 = 0 := by simp [reader]
    have e2 : (reader.draw fun _ => (1 : ℝ)).1 = 1 := rfl
    rw [e1] at h1
    rw [e2, ← h1.1] at h2
    exact one_ne_zero h2.1

end Marley.Props
