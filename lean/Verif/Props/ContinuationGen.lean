import Verif.Props.Continuation
import Verif.Props.Generator

/-!
# Productions in several runs with the generator of C16 (C107)
-/

set_option autoImplicit false
set_option linter.dupNamespace false

namespace Marley.Props
open Marley Marley.Json Marley.Out Marley.RootOut Marley.Sampling Marley.Gen

variable {K : Type}

/-- The particle with its numbers converted. -/
def storedParticle (r : ℝ → K) (p : Particle ℝ) : Particle K :=
  ⟨p.pdg, r p.E, r p.px, r p.py, r p.pz, r p.mass, p.charge⟩

/-- The event with its numbers converted. -/
def storedEvent (r : ℝ → K) (e : Event ℝ) : Event K :=
  ⟨e.initial.map (storedParticle r), e.final.map (storedParticle r), r e.Ex, e.twoJ, e.parity⟩

/-- The generator of `Verif/Model/Generator.lean` as the program uses it: `create` makes it from the
configuration, its state is that of the engine, `r` turns real numbers into the numbers that
are written (doubles). -/
noncomputable def genOf (W : World Mt) (create : JVal K → Res (Gen Mt)) (r : ℝ → K) : GenOps K (Gen Mt) where
  create := create
  setState g s := (Gen.restoreFrom Mt.restore g s).getD g
  state g := g.eng.save
  seed g := g.seed
  xsec g := r (g.fluxAveraged.getD 0)
  event g := (g.createEvent W).map (fun x => x.map (fun p => (storedEvent r p.1, p.2)))

/-- Generating events one after the other is `createEvents`. -/
theorem generates_createEvents {W : World Mt} {create : JVal K → Res (Gen Mt)} {r : ℝ → K} {g g' : Gen Mt}
    {es : List (Event K)} (h : Generates (genOf W create r) g es g') :
    ∃ evs, g.createEvents W es.length = some (.ok (evs, g')) ∧ es = evs.map (storedEvent r) := by
  induction h with
  | nil g => exact ⟨[], rfl, rfl⟩
  | cons g g1 g' e es he _ ih =>
    obtain ⟨evs, h1, h2⟩ := ih
    have he' : (g.createEvent W).map (fun x => x.map (fun p => (storedEvent r p.1, p.2))) =
      some (.ok (e, g1)) := he
    rcases hc : g.createEvent W with _ | ⟨x | ⟨ev, g2⟩⟩
    · rw [hc] at he'; cases he'
    · rw [hc] at he'; cases he'
    · rw [hc] at he'
      cases he'
      refine ⟨ev :: evs, ?_, by rw [h2]; rfl⟩
      rw [List.length_cons, Gen.createEvents, hc]
      dsimp only
      rw [h1]

/-- One more event. -/
theorem createEvents_snoc {W : World Mt} {g g1 g2 : Gen Mt} {n : Nat} {evs : List (Event ℝ)} {ev : Event ℝ}
    (h : g.createEvents W n = some (.ok (evs, g1))) (h' : g1.createEvent W = some (.ok (ev, g2))) :
    g.createEvents W (n + 1) = some (.ok (evs ++ [ev], g2)) := by
  induction n generalizing g evs with
  | zero =>
    cases h
    simp only [Gen.createEvents, h', List.nil_append]
  | succ n ih =>
    rw [Gen.createEvents] at h
    rcases hc : g.createEvent W with _ | ⟨x | ⟨e, g3⟩⟩
    · rw [hc] at h; cases h
    · rw [hc] at h; cases h
    · rw [hc] at h
      dsimp only at h
      rcases hm : g3.createEvents W n with _ | ⟨x | ⟨es, g4⟩⟩
      · rw [hm] at h; cases h
      · rw [hm] at h; cases h
      · rw [hm] at h
        cases h
        rw [Gen.createEvents, hc]
        dsimp only
        rw [ih hm]
        rfl

/-- **C107**, the generator.  If the density of energies does not exceed the bound that a new
generator uses, MARLEY's generator is `Restorable`: a generator made from the configuration
into which a saved state is put behaves as the one that was saved. -/
theorem C107_restorable_partial {W : World Mt} {create : JVal K → Res (Gen Mt)} {r : ℝ → K} {g0 : Gen Mt}
    {m : ℝ} (hg : g0.Ready) (hb : g0.bound W = some (.ok m))
    (hd : ∀ E vals d vals', vals.length = g0.reactions.length → g0.ePdf E vals = .ok (d, vals') → d ≤ m)
    (hv : ∀ n evs g', g0.createEvents W n = some (.ok (evs, g')) → g'.eng.Valid) :
    ∃ alike, Restorable (genOf W create r) g0 alike := by
  refine ⟨fun g h => Same W g h ∧ SameConfig g0 h ∧ h.norm = g0.norm ∧ h.bound W = some (.ok m) ∧
    ∃ n evs, g0.createEvents W n = some (.ok (evs, g)),
    ⟨⟨rfl, rfl, .refl _, hg, hg, rfl⟩, .refl _, rfl, hb, 0, [], rfl⟩, ?_, ?_⟩
  · rintro g h e h1 ⟨s, c, n, b, k, evs, v⟩ he
    have he' : (h.createEvent W).map (fun x => x.map (fun p => (storedEvent r p.1, p.2))) =
      some (.ok (e, h1)) := he
    rcases createEvent_same s with ⟨-, q⟩ | ⟨x, -, q⟩ | ⟨ev, g', h', q1, q2, s'⟩
    · rw [q] at he'; cases he'
    · rw [q] at he'; cases he'
    · rw [q2] at he'
      cases he'
      have hone : h.createEvents W 1 = some (.ok ([ev], h')) := by
        simp only [Gen.createEvents, q2]
      have hf := ePdf_congr c n.symm
      obtain ⟨c', n', -, b'⟩ := createEvents_keep s.right b (fun E vals d vals' hs he => hd E vals d vals'
        (by unfold Gen.Sized at hs; rw [c.reactions]; exact hs) (by rw [hf]; exact he)) 1 hone
      refine ⟨g', ?_, s', c.trans c', n'.trans n, b', _, _, createEvents_snoc v q1⟩
      show (g.createEvent W).map _ = _
      rw [q1]
      rfl
  · rintro g h ⟨s, c, n, b, k, evs, v⟩
    have hs : (genOf W create r).setState g0 ((genOf W create r).state h) = { g0 with eng := h.eng } := by
      show (Gen.restoreFrom Mt.restore g0 h.eng.save).getD g0 = _
      unfold Gen.restoreFrom
      rw [restore_save (s.eng ▸ hv _ _ _ v)]
      rfl
    rw [hs]
    have hr0 : Gen.Ready { g0 with eng := h.eng } := ⟨hg.sized, hg.rotator⟩
    have c0 : SameConfig g0 { g0 with eng := h.eng } := ⟨rfl, rfl, rfl, rfl, rfl, rfl, Or.inr rfl, rfl⟩
    have b0 : Gen.bound W { g0 with eng := h.eng } = some (.ok m) := by
      rw [← hb]; exact (bound_congr c0 rfl hg hr0 rfl).symm
    refine ⟨⟨s.eng, s.norm.trans n, (s.config.trans c.symm).trans c0, s.left, hr0, ?_⟩, c0, rfl, b0, _, _, v⟩
    rw [s.bound, b, b0]

/-- **C107** with MARLEY's generator.  A ROOT file that is written by any number of runs of the
program with one configuration contains exactly the events that one call after the other
of `create_event` gives for a new generator of that configuration.

Partial: as `C107_continuation_partial` and `C16_restored_partial`. -/
theorem C107_generator_partial [DivisionRing K] {W : World Mt} {create : JVal K → Res (Gen Mt)} {r : ℝ → K}
    (F : TextFmt K) {R : RootIO K} (hR : R.Lawful) (c : List (Str × JVal K))
    (hc : Holdable (FloatOk F.json) (.obj c)) (hk : PlainKeys (.obj c)) {g0 : Gen Mt}
    (hg0 : create (.obj c) = .ok g0) {m : ℝ} (hg : g0.Ready) (hb : g0.bound W = some (.ok m))
    (hd : ∀ E vals d vals', vals.length = g0.reactions.length → g0.ePdf E vals = .ok (d, vals') → d ≤ m)
    (hv : ∀ n evs g', g0.createEvents W n = some (.ok (evs, g')) → g'.eng.Valid)
    (text : Str) (hp : Production (genOf W create r) F R (.obj c) .root text) :
    ∃ n evs g data, g0.createEvents W n = some (.ok (evs, g)) ∧ R.decode text = some data ∧
      data.tree = some (evs.map (storedEvent r)) := by
  obtain ⟨alike, ha⟩ := C107_restorable_partial (create := create) (r := r) hg hb hd hv
  obtain ⟨es, g, h1, data, h2, h3⟩ := C107_continuation_partial (genOf W create r) F (fun _ => 0) hR .root
    (by simp) (by simp) (by simp) c hc hk g0 hg0 alike ha text hp
  obtain ⟨evs, h4, rfl⟩ := generates_createEvents h1
  exact ⟨_, evs, g, data, h4, h2, h3⟩

/-! ## A production -/

/-- A state of the engine. -/
def exMt : Mt := ⟨List.replicate 312 1, 312⟩

theorem exMt_valid : exMt.Valid :=
  ⟨List.length_replicate, fun w hw => by rw [List.eq_of_mem_replicate hw]; decide, by decide⟩

/-- Random numbers that are always one half. -/
noncomputable def still : Engine Mt := ⟨fun g => (1 / 2, g)⟩

theorem still_event (v : ℝ) : (demoGen exMt 2 2 v).createEvent (demoWorld still) =
    some (.ok (demoEvent (1 / 2), demoGen exMt 2 2 1)) := by
  have h : rejectLoop exact still (demoGen exMt 2 2 v).ePdf 0 1 1.01 2 2 exMt [v] =
      some (.ok ⟨1 / 2, 1, 2, exMt, [1]⟩) := by
    simp only [rejectLoop, demo_ePdf, uniform, exact, still]
    norm_num
  exact demo_event h rfl

theorem still_events (n : Nat) {g' : Gen Mt} {evs : List (Event ℝ)} (v : ℝ)
    (h : (demoGen exMt 2 2 v).createEvents (demoWorld still) n = some (.ok (evs, g'))) :
    g'.eng = exMt := by
  induction n generalizing v evs with
  | zero => cases h; rfl
  | succ n ih =>
    rw [Gen.createEvents, still_event] at h
    dsimp only at h
    rcases hm : (demoGen exMt 2 2 1).createEvents (demoWorld still) n with _ | ⟨x | ⟨es, g4⟩⟩
    · rw [hm] at h; cases h
    · rw [hm] at h; cases h
    · rw [hm] at h
      cases h
      exact ih 1 hm

/-- The program with this generator; its numbers are written as zero. -/
noncomputable def stillOps : GenOps ℚ (Gen Mt) :=
  genOf (demoWorld still) (fun _ => .ok (demoGen exMt 2 2 0)) (fun _ => 0)

attribute [local irreducible] dumpString load in
/-- A run of the program that meets the hypotheses of `C107_generator_partial`, and what follows. -/
example (saves : Bool) : ∃ text, Production stillOps exText (exRoot saves) (.obj []) .root text ∧
    ∃ n evs g data, (demoGen exMt 2 2 0).createEvents (demoWorld still) n = some (.ok (evs, g)) ∧
      (exRoot saves).decode text = some data ∧ data.tree = some (evs.map (storedEvent (fun _ => (0 : ℚ)))) := by
  have hev : ∀ v, stillOps.event (demoGen exMt 2 2 v) =
      some (.ok (storedEvent (fun _ => 0) (demoEvent (1 / 2)), demoGen exMt 2 2 1)) := by
    intro v
    show ((demoGen exMt 2 2 v).createEvent (demoWorld still)).map _ = _
    rw [still_event]
    rfl
  obtain ⟨fs', h⟩ : ∃ f', produceFiles (anyOps stillOps exText (exRoot saves)) stillOps (.obj []) 1
      (fun _ => false) [.root exNew] = some ([f'], .ok 1) := by
    have h1 : resumeFiles (anyOps stillOps exText (exRoot saves)) [.root exNew] none =
      ([.root exNew], .ok none) := rfl
    have h2 : startGen stillOps (.obj []) none = .ok (demoGen exMt 2 2 0, 0) := rfl
    unfold produceFiles
    rw [h1]
    dsimp only
    rw [h2]
    dsimp only
    have h3 : (1 - (0 : Int)).toNat = 1 := rfl
    rw [h3]
    simp only [loopFiles, hev]
    exact ⟨_, rfl⟩
  have hp : Production stillOps exText (exRoot saves) (.obj []) .root (AnyFile.content fs') := by
    refine .first 1 _ _ _ _ (.root exNew) _ (by decide) (exNew_any saves) h ?_ (by simp) trivial
    intro f hf
    rw [List.mem_singleton] at hf
    subst hf
    intro h
    have h' : Mode.overwrite = Mode.resume := h
    cases h'
  refine ⟨_, hp, ?_⟩
  refine C107_generator_partial exText (exRoot_lawful saves) [] empty_config (.obj [] (by simp) (by simp)) rfl
    (demo_ready _ _ _ _) (m := 2) rfl ?_ ?_ _ hp
  · intro E vals d vals' hl hE
    obtain ⟨v, rfl⟩ : ∃ v, vals = [v] := List.length_eq_one_iff.1 hl
    rw [demo_ePdf] at hE
    cases hE
    norm_num
  · intro n evs g' h
    rw [still_events n 0 h]
    exact exMt_valid

end Marley.Props
