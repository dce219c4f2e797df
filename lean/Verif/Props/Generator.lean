import Verif.Lemmas.Generator
import Verif.Props.Rotation

/-!
# Properties C16, C17, C19, C20, C21 and C79: the generator

Vocabulary in Verif/Spec/Generator.lean.
-/

set_option autoImplicit false
set_option linter.dupNamespace false

namespace Marley.Props
open Marley Marley.Sampling Marley.Gen
open Marley.Rot (V3 Rotator)

variable {G : Type}

/-! ## Configuration calls -/

theorem newNorm_sized {g : Gen G} (hs : g.Sized g.values) {n : ℝ} {vals : List ℝ}
    (e : g.newNorm = .ok (n, vals)) : g.Sized vals := by
  unfold Gen.newNorm at e
  split_ifs at e
  · exact (ePdf_cached { g with norm := 1 }).keep _ _ _ _ hs e
  · exact weightedSum_keep (ePdf_cached { g with norm := 1 }) _ _ hs e

theorem newNorm_congr {g h : Gen G} (c : SameConfig g h) (hg : g.Sized g.values)
    (hh : h.Sized h.values) : g.newNorm = h.newNorm := by
  have hc : SameConfig { g with norm := 1 } { h with norm := 1 } :=
    ⟨c.source, c.target, c.reactions, c.weightFlux, c.deexcite, c.default, c.dir, c.randomize⟩
  have hf : Gen.ePdf { g with norm := 1 } = Gen.ePdf { h with norm := 1 } := ePdf_congr hc rfl
  have hs : Gen.Sized { g with norm := 1 } h.values := by
    unfold Gen.Sized; dsimp only; rw [c.reactions]; exact hh
  unfold Gen.newNorm
  rw [← hf, ← c.source,
    (ePdf_cached { g with norm := 1 }).eq g.source.Emin h.values g.values hs hg,
    numIntegrate_cached (ePdf_cached { g with norm := 1 }) g.source.Emin g.source.Emax hs hg]

theorem newNorm_pdfMax (g : Gen G) (m : Option ℝ) :
    Gen.newNorm { g with pdfMax := m } = g.newNorm := by
  have hf : Gen.ePdf { { g with pdfMax := m } with norm := 1 } = Gen.ePdf { g with norm := 1 } :=
    ePdf_congr ⟨rfl, rfl, rfl, rfl, rfl, rfl, Or.inr rfl, rfl⟩ rfl
  unfold Gen.newNorm
  rw [hf]

/-- What `normalize_E_pdf` does when it does not throw. -/
theorem normalize_ok {g g' : Gen G} (hf : g.frozen = false) (e : g.normalize = (g', .ok ())) :
    ∃ n vals, g.newNorm = .ok (n, vals) ∧ 0 < n ∧
      g' = { g with pdfMax := g.pdfMaxDefault, norm := n, values := vals } := by
  unfold Gen.normalize at e
  rw [if_neg (by rw [hf]; simp)] at e
  dsimp only at e
  have hn : Gen.newNorm { g with pdfMax := g.pdfMaxDefault } = g.newNorm := newNorm_pdfMax _ _
  rw [hn] at e
  cases h : g.newNorm with
  | error _ => rw [h] at e; simp at e
  | ok p =>
    obtain ⟨n, vals⟩ := p
    rw [h] at e
    dsimp only at e
    by_cases hp : n ≤ 0
    · rw [if_pos hp] at e; simp at e
    · rw [if_neg hp] at e
      cases e
      exact ⟨n, vals, rfl, not_le.1 hp, rfl⟩

theorem normalize_keep {g : Gen G} (hs : g.Sized g.values) :
    g.normalize.1.reactions = g.reactions ∧ g.normalize.1.rotator = g.rotator ∧
      g.normalize.1.frozen = g.frozen ∧ g.normalize.1.Sized g.normalize.1.values := by
  unfold Gen.normalize
  split_ifs with h
  · exact ⟨rfl, rfl, rfl, hs⟩
  · dsimp only
    have hn : Gen.newNorm { g with pdfMax := g.pdfMaxDefault } = g.newNorm := newNorm_pdfMax _ _
    rw [hn]
    cases h : g.newNorm with
    | error _ => exact ⟨rfl, rfl, rfl, hs⟩
    | ok p => exact ⟨rfl, rfl, rfl, newNorm_sized hs h⟩

/-- Configuration calls, also failing ones, keep what the events rely on. -/
theorem call_ready {g : Gen G} (h : g.Ready) (o : Op G) :
    (g.call o).1.Ready ∧ (g.call o).1.frozen = g.frozen := by
  have norm : ∀ k : Gen G, k.Sized k.values → Consistent k.rotator →
      k.normalize.1.Ready ∧ k.normalize.1.frozen = k.frozen := by
    intro k hs hr
    obtain ⟨-, h2, h3, h4⟩ := normalize_keep hs
    exact ⟨⟨h4, by rw [h2]; exact hr⟩, h3⟩
  cases o with
  | setSource s =>
    simp only [Gen.call, Gen.setSource]
    split_ifs
    · exact ⟨⟨h.sized, h.rotator⟩, rfl⟩
    · exact norm _ h.sized h.rotator
  | setTarget t =>
    simp only [Gen.call, Gen.setTarget]
    split_ifs
    · exact ⟨⟨h.sized, h.rotator⟩, rfl⟩
    · exact norm _ h.sized h.rotator
  | addReaction r =>
    simp only [Gen.call, Gen.addReaction]
    exact norm _ (by simp [Gen.Sized, h.sized]) h.rotator
  | clearReactions => exact ⟨⟨rfl, h.rotator⟩, rfl⟩
  | setWeightFlux b => exact ⟨⟨h.sized, h.rotator⟩, rfl⟩
  | setDirection d =>
    simp only [Gen.call, Gen.setDirection]
    cases hd : g.rotator.setDirection d with
    | error _ => exact ⟨h, rfl⟩
    | ok r =>
      refine ⟨⟨h.sized, ?_⟩, rfl⟩
      unfold Rotator.setDirection at hd
      cases hn : Rot.normalize d with
      | error _ => rw [hn] at hd; cases hd
      | ok d' => rw [hn] at hd; cases hd; exact Or.inl rfl

theorem calls_ready {g : Gen G} (h : g.Ready) (os : List (Op G)) :
    (g.calls os).Ready ∧ (g.calls os).frozen = g.frozen := by
  induction os generalizing g with
  | nil => exact ⟨h, rfl⟩
  | cons o os ih =>
    obtain ⟨h1, h2⟩ := call_ready h o
    obtain ⟨h3, h4⟩ := ih h1
    exact ⟨h3, h4.trans h2⟩

theorem fresh_ready (init : List Nat → G) (seed : Nat) (s : Src) :
    (Gen.fresh init seed s).Ready ∧ (Gen.fresh init seed s).frozen = false :=
  ⟨⟨rfl, Or.inl rfl⟩, rfl⟩

/-- Every generator that was constructed and then configured in any way, failing
calls included, is ready. -/
theorem configured_ready (init : List Nat → G) (seed : Nat) (s : Src) (os : List (Op G)) :
    ((Gen.fresh init seed s).calls os).Ready ∧ ((Gen.fresh init seed s).calls os).frozen = false :=
  let h := fresh_ready init seed s
  let t := calls_ready h.1 os
  ⟨t.1, t.2.trans h.2⟩

/-! ## C17 -/

/-- **C17** (partial): seeds below 2^32. -/
theorem C17_seeds_partial {a b : Nat} (ha : a < 2 ^ 32) (hb : b < 2 ^ 32) (h : a ≠ b) :
    seedSeq a ≠ seedSeq b := by
  unfold seedSeq
  rw [Nat.mod_eq_of_lt ha, Nat.mod_eq_of_lt hb]
  simpa using h

example : (12345 : Nat) < 2 ^ 32 ∧ (54321 : Nat) < 2 ^ 32 ∧ (12345 : Nat) ≠ 54321 := by decide

/-- **C17** is not true of all 64-bit seeds: two seeds that differ by a multiple of
2^32 put the engine into the same state, whatever the seeding algorithm does. -/
theorem C17_violated (init : List Nat → G) (g : Gen G) {a b : Nat} (h : a % 2 ^ 32 = b % 2 ^ 32) :
    (g.reseed init a).eng = (g.reseed init b).eng := by
  simp only [Gen.reseed, seedSeq, h]

example : (0 : Nat) % 2 ^ 32 = (2 ^ 32 : Nat) % 2 ^ 32 ∧ (0 : Nat) ≠ 2 ^ 32 ∧ (2 ^ 32 : Nat) < 2 ^ 64 := by
  decide

/-! ## C16 -/

/-- **C16**, text: the state written by `get_state_string` is read back unchanged. -/
theorem C16_state_text {m : Mt} (h : m.Valid) : Mt.restore m.save = some m := restore_save h

/-- A valid state of the engine. -/
example : Mt.Valid ⟨List.replicate 312 (2 ^ 64 - 1), 312⟩ :=
  ⟨List.length_replicate, fun w hw => by rw [List.eq_of_mem_replicate hw]; decide, by decide⟩

/-- **C16**, seeds: two generators with the same configuration that were normalised
and then seeded with the same seed make the same events, whatever happened to them
before (other configurations, events, other seeds). -/
theorem C16_same_seed {W : World G} (init : List Nat → G) (seed : Nat) {g h g' h' : Gen G}
    (hg : g.Ready) (hh : h.Ready) (fg : g.frozen = false) (fh : h.frozen = false)
    (c : SameConfig g h) (eg : g.normalize = (g', .ok ())) (eh : h.normalize = (h', .ok ()))
    (k : Nat) : (g'.reseed init seed).run W k = (h'.reseed init seed).run W k := by
  obtain ⟨n, vals, h1, -, rfl⟩ := normalize_ok fg eg
  obtain ⟨n', vals', h2, -, rfl⟩ := normalize_ok fh eh
  have hn := newNorm_congr c hg.sized hh.sized
  rw [h1, h2] at hn
  cases hn
  have sz : g.Sized vals := newNorm_sized hg.sized h1
  have sz' : h.Sized vals := newNorm_sized hh.sized h2
  apply run_same
  have cc : SameConfig
      (Gen.reseed init { g with pdfMax := g.pdfMaxDefault, norm := n, values := vals } seed)
      (Gen.reseed init { h with pdfMax := h.pdfMaxDefault, norm := n, values := vals } seed) :=
    ⟨c.source, c.target, c.reactions, c.weightFlux, c.deexcite, c.default, c.dir, c.randomize⟩
  exact ⟨rfl, rfl, cc, ⟨sz, hg.rotator⟩, ⟨sz', hh.rotator⟩,
    bound_congr cc rfl ⟨sz, hg.rotator⟩ ⟨sz', hh.rotator⟩ c.default⟩

/-- **C16**, restoring (partial).  A generator `g` made `n` events and is now `g'`.
A second generator of the same configuration (any seed and engine) gets the state
text of `g'`.  If the density of energies never exceeds the bound used for rejection
sampling, both make the same events from then on. -/
theorem C16_restored_partial {W : World Mt} {g g' : Gen Mt} {m : ℝ} (hg : g.Ready)
    (hb : g.bound W = some (.ok m))
    (hd : ∀ E vals d vals', vals.length = g.reactions.length →
      g.ePdf E vals = .ok (d, vals') → d ≤ m)
    (n : Nat) {evs : List (Event ℝ)} (e : g.createEvents W n = some (.ok (evs, g')))
    (hv : g'.eng.Valid) (seed : Nat) (eng : Mt) :
    ∃ h, Gen.restoreFrom Mt.restore { g with seed := seed, eng := eng } g'.eng.save = some h ∧
      ∀ k, h.run W k = g'.run W k := by
  obtain ⟨c, hn, hr, hb'⟩ := createEvents_keep hg hb hd n e
  refine ⟨{ g with seed := seed, eng := g'.eng }, ?_, fun k => run_same ?_ k⟩
  · unfold Gen.restoreFrom; rw [restore_save hv]; rfl
  · have hr0 : Gen.Ready { g with seed := seed, eng := g'.eng } := ⟨hg.sized, hg.rotator⟩
    refine ⟨rfl, hn.symm, ⟨c.source, c.target, c.reactions, c.weightFlux, c.deexcite, c.default,
      c.dir, c.randomize⟩, hr0, hr, ?_⟩
    rw [hb', ← hb]
    exact bound_congr ⟨rfl, rfl, rfl, rfl, rfl, rfl, Or.inr rfl, rfl⟩ rfl hr0 hg rfl

/-- A projectile at rest that shows the energy. -/
noncomputable def demoProjectile (E : ℝ) : Particle ℝ := ⟨12, E, 0, 0, 0, 0, 0⟩

/-- An event that shows the energy of the projectile. -/
noncomputable def demoEvent (E : ℝ) : Event ℝ := ⟨[demoProjectile E], [], 0, 0, ⟨true⟩⟩

/-- A reaction with cross section `x` whose events show the energy. -/
noncomputable def demoRx (x : ℝ) : Rx G where
  pdgA := 12
  atom := 1000180400
  totalXs _ _ := .ok x
  create _ E g := some (.ok (demoEvent E, g))

/-- A flat source from 0 to 1. -/
noncomputable def demoSource : Src := ⟨12, 0, 1, fun _ => 1⟩

/-- A generator for one reaction and the flat source: state of the engine, bound,
bound set by the user, cached cross section. -/
noncomputable def demoGen (eng : G) (bound default v : ℝ) : Gen G where
  seed := 0
  eng := eng
  norm := 1
  source := demoSource
  target := none
  reactions := [demoRx 1]
  values := [v]
  weightFlux := true
  pdfMax := some bound
  pdfMaxDefault := some default
  frozen := false
  rotator := Rotator.fresh ⟨0, 0, 1⟩
  deexcite := false

/-- Arithmetic without rounding; two passes; no de-excitation. -/
noncomputable def demoWorld (E : Engine G) : World G := ⟨exact, E, 2, fun ev g => some (.ok (ev, g))⟩

theorem demo_ePdf (eng : G) (m d v E v' : ℝ) : (demoGen eng m d v).ePdf E [v'] = .ok (1, [1]) := by
  simp [Gen.ePdf, Gen.pdfLoop, Gen.weighted, demoGen, demoRx, demoSource]

theorem demo_ready (eng : G) (m d v : ℝ) : (demoGen eng m d v).Ready := ⟨rfl, Or.inl rfl⟩

theorem demo_sample {E : Engine G} {eng : G} {m d v : ℝ} {r : Sampled G (List ℝ)}
    (h : rejectLoop exact E (demoGen eng m d v).ePdf 0 1 1.01 2 m eng [v] = some (.ok r))
    (hv : r.st = [1]) :
    (demoGen eng m d v).sampleReaction (demoWorld E)
      = some (.ok (0, r.x, demoGen r.gen r.fmax d 1)) := by
  rw [sampleReaction_eq _ (demo_ready eng m d v).sized]
  have hb : (demoGen eng m d v).bound (demoWorld E) = some (.ok m) := rfl
  have hl : rejectLoop (demoWorld E).arith (demoWorld E).engine (demoGen eng m d v).ePdf
      (demoGen eng m d v).source.Emin (demoGen eng m d v).source.Emax 1.01 (demoWorld E).fuel m
      (demoGen eng m d v).eng (demoGen eng m d v).values = some (.ok r) := h
  rw [hb]
  dsimp only
  rw [hl]
  simp [demoGen, pickFrom, hv]

/-- One event of the demonstration generator: the energy is that of the accepted
trial. -/
theorem demo_event {E : Engine G} {eng : G} {m d v : ℝ} {r : Sampled G (List ℝ)}
    (h : rejectLoop exact E (demoGen eng m d v).ePdf 0 1 1.01 2 m eng [v] = some (.ok r))
    (hv : r.st = [1]) :
    (demoGen eng m d v).createEvent (demoWorld E)
      = some (.ok (demoEvent r.x, demoGen r.gen r.fmax d 1)) := by
  have hm : Kin.momentum (demoProjectile r.x) = 0 := by simp [Kin.momentum, demoProjectile]
  unfold Gen.createEvent
  rw [demo_sample h hv]
  simp [demoGen, demoRx, finish, direction, demoEvent, hm, Rotator.process]

theorem demo_loop (v : ℝ) : rejectLoop exact half (demoGen () 2 2 v).ePdf 0 1 1.01 2 2 () [v]
    = some (.ok ⟨1 / 2, 1, 2, (), [1]⟩) := by
  simp only [rejectLoop, demo_ePdf, uniform, exact, half]
  norm_num

/-- A run that meets the hypotheses of `C16_restored_partial` (with an engine that
always gives 1/2): two events, and the density 1 never exceeds the bound 2. -/
example : (demoGen () 2 2 0).Ready ∧ (demoGen () 2 2 0).bound (demoWorld half) = some (.ok 2) ∧
    (∀ E v, ∀ d vals', (demoGen () 2 2 0).ePdf E [v] = .ok (d, vals') → d ≤ 2) ∧
    (demoGen () 2 2 0).createEvents (demoWorld half) 2
      = some (.ok ([demoEvent (1 / 2), demoEvent (1 / 2)], demoGen () 2 2 1)) := by
  refine ⟨demo_ready _ _ _ _, rfl, ?_, ?_⟩
  · intro E v d vals' h
    rw [demo_ePdf] at h
    cases h
    norm_num
  · simp only [Gen.createEvents]
    rw [demo_event (demo_loop 0) rfl]
    dsimp only
    rw [demo_event (demo_loop 1) rfl]

/-- **C16** is not true in general.  A generator whose bound is too small (1/2 for the
density 1) raises it to 1.01 during the first event; a generator of the same
configuration into which the state of the engine is restored has the old bound
again, and the next event has another energy.  The draws are given by a list. -/
theorem C16_restored_violated : ∃ (draws : List ℝ) (evs : List (Event ℝ)) (g' : Gen (List ℝ)),
    (∀ u ∈ draws, 0 ≤ u ∧ u < 1) ∧
    (demoGen draws (1 / 2) (1 / 2) 0).createEvents (demoWorld replay) 1 = some (.ok (evs, g')) ∧
    g'.run (demoWorld replay) 1 ≠
      Gen.run (demoWorld replay) 1 { demoGen draws (1 / 2) (1 / 2) 0 with eng := g'.eng } := by
  have r1 : rejectLoop exact replay
      (demoGen [0, 0, 1 / 4, 999 / 1000, 3 / 4, 0] (1 / 2) (1 / 2) 0).ePdf 0 1 1.01 2 (1 / 2)
      [0, 0, 1 / 4, 999 / 1000, 3 / 4, 0] [0]
      = some (.ok ⟨0, 0, 1.01, [1 / 4, 999 / 1000, 3 / 4, 0], [1]⟩) := by
    simp only [rejectLoop, demo_ePdf, uniform, exact, replay]
    norm_num
  have r2 : rejectLoop exact replay (demoGen [1 / 4, 999 / 1000, 3 / 4, 0] 1.01 (1 / 2) 1).ePdf
      0 1 1.01 2 1.01 [1 / 4, 999 / 1000, 3 / 4, 0] [1]
      = some (.ok ⟨3 / 4, 0, 1.01, [], [1]⟩) := by
    simp only [rejectLoop, demo_ePdf, uniform, exact, replay]
    norm_num
  have r3 : rejectLoop exact replay (demoGen [1 / 4, 999 / 1000, 3 / 4, 0] (1 / 2) (1 / 2) 0).ePdf
      0 1 1.01 2 (1 / 2) [1 / 4, 999 / 1000, 3 / 4, 0] [0]
      = some (.ok ⟨1 / 4, 999 / 2000, 1.01, [3 / 4, 0], [1]⟩) := by
    simp only [rejectLoop, demo_ePdf, uniform, exact, replay]
    norm_num
  refine ⟨[0, 0, 1 / 4, 999 / 1000, 3 / 4, 0], [demoEvent 0],
    demoGen [1 / 4, 999 / 1000, 3 / 4, 0] 1.01 (1 / 2) 1, ?_, ?_, ?_⟩
  · intro u hu
    simp only [List.mem_cons, List.not_mem_nil, or_false] at hu
    rcases hu with rfl | rfl | rfl | rfl | rfl | rfl <;> norm_num
  · simp only [Gen.createEvents]
    rw [demo_event r1 rfl]
  · intro hc
    have e : ({ demoGen [0, 0, 1 / 4, 999 / 1000, 3 / 4, 0] (1 / 2) (1 / 2) 0 with
        eng := (demoGen [1 / 4, 999 / 1000, 3 / 4, 0] 1.01 (1 / 2) 1).eng } : Gen (List ℝ))
        = demoGen [1 / 4, 999 / 1000, 3 / 4, 0] (1 / 2) (1 / 2) 0 := rfl
    rw [e] at hc
    simp only [Gen.run, Gen.createEvents] at hc
    rw [demo_event r2 rfl, demo_event r3 rfl] at hc
    simp [Except.map, demoEvent, demoProjectile] at hc
    norm_num at hc

/-! ## C19 -/

/-- **C19**, weights: the reaction is chosen with the weights at the energy that is
returned, whatever was cached before; it is one of the configured reactions. -/
theorem C19_weights {W : World G} {g g' : Gen G} (hs : g.values.length = g.reactions.length)
    {i : Nat} {E : ℝ} (e : g.sampleReaction W = some (.ok (i, E, g'))) :
    i < g.reactions.length ∧ ∃ w eng, g.Weights g.source.pid E w ∧
      pickFrom W.engine w eng = .ok (i, g'.eng) := by
  obtain ⟨m, r, -, h2, rfl, h4, h5, h6⟩ := sampleReaction_keep hs e
  obtain ⟨v, hv, -⟩ := rejectLoop_last (ePdf_cached g) _ _ _ hs h2
  have hw := ePdf_weights hs hv
  refine ⟨h5, r.st, r.gen, ⟨weights_length hw, fun j rx hj => ?_⟩, h4⟩
  obtain ⟨x, hx, hx'⟩ := weights_get hw hj
  unfold Gen.weighted at hx
  unfold Gen.share
  cases ht : rx.totalXs g.source.pid r.x with
  | error _ => rw [ht] at hx; cases hx
  | ok y =>
    rw [ht] at hx
    dsimp only at hx
    refine ⟨y, rfl, ?_⟩
    rw [hx']
    cases hg : g.target with
    | none => rw [hg] at hx; cases hx; simp
    | some t => rw [hg] at hx; cases hx; simp

/-- **C19**, choice (partial): for nonnegative weights that do not all vanish, the
number `u` drawn selects the reaction whose share of [0, 1] contains `u`; a reaction
with weight zero is then chosen only if `u` is exactly 0 (see below).  With a single
reaction no number is drawn. -/
theorem C19_choice_partial {E : Engine G} (hE : E.Lawful) {w : List ℝ} (hw : ∀ x ∈ w, 0 ≤ x)
    (hp : 0 < w.sum) {i : Nat} {eng eng' : G} (e : pickFrom E w eng = .ok (i, eng')) :
    (w.length = 1 ∧ i = 0 ∧ eng' = eng) ∨ eng' = (E.draw eng).2 ∧ (E.draw eng).1 = 0 ∧ i = 0 ∨
    eng' = (E.draw eng).2 ∧ i < w.length ∧ (w.take i).sum < (E.draw eng).1 * w.sum ∧
      (E.draw eng).1 * w.sum ≤ (w.take (i + 1)).sum ∧ ∃ x, w[i]? = some x ∧ 0 < x := by
  unfold pickFrom at e
  by_cases hl : w.length < 2
  · rw [if_pos hl] at e
    cases e
    have hne : w ≠ [] := by rintro rfl; simp at hp
    have := List.length_pos_iff.2 hne
    exact Or.inl ⟨by omega, rfl, rfl⟩
  · right
    rw [if_neg hl] at e
    cases hk : pick w (E.draw eng).1 with
    | error _ => rw [hk] at e; cases e
    | ok k =>
      rw [hk] at e
      cases e
      rcases (hE eng).1.lt_or_eq with h0 | h0
      · right
        obtain ⟨h1, h2, h3⟩ := (pick_iff hw hp h0 (hE eng).2.le i).1 hk
        refine ⟨rfl, h1, h2, h3, w[i], by simp [h1], ?_⟩
        have : (w.take (i + 1)).sum = (w.take i).sum + w[i] := by
          rw [List.take_add_one, List.getElem?_eq_getElem h1, List.sum_append, Option.toList_some,
            List.sum_singleton]
        linarith
      · left
        rw [← h0, pick_zero hw hp] at hk
        cases hk
        exact ⟨rfl, h0.symm, rfl⟩

/-- **C19**, probability: the numbers that select reaction `i` form a set whose
length is its share of the total weight. -/
theorem C19_probability {w : List ℝ} (hw : ∀ x ∈ w, 0 ≤ x) (hp : 0 < w.sum) {i : Nat} {x : ℝ}
    (hi : w[i]? = some x) :
    MeasureTheory.volume {u : ℝ | 0 < u ∧ u < 1 ∧ pick w u = .ok i}
      = ENNReal.ofReal (x / w.sum) := pick_volume hw hp hi

/-- Two reactions, the second three times as likely. -/
example : (∀ x ∈ [(1 : ℝ), 3], 0 ≤ x) ∧ 0 < [(1 : ℝ), 3].sum ∧ [(1 : ℝ), 3][1]? = some 3 := by
  refine ⟨?_, by norm_num, rfl⟩
  intro x hx
  simp only [List.mem_cons, List.not_mem_nil, or_false] at hx
  rcases hx with rfl | rfl <;> norm_num

/-- The demonstration generator returns from `sample_reaction`. -/
example : (demoGen () 2 2 0).values.length = (demoGen () 2 2 0).reactions.length ∧
    (demoGen () 2 2 0).sampleReaction (demoWorld half)
      = some (.ok (0, 1 / 2, demoGen () 2 2 1)) :=
  ⟨rfl, demo_sample (demo_loop 0) rfl⟩

/-- **C19** is not true of draws that are exactly 0: the first reaction is then
chosen although its cross section vanishes at every energy. -/
theorem C19_zero_violated : ∃ (g g' : Gen (List ℝ)) (E : ℝ) (r : Rx (List ℝ)),
    (∀ u ∈ g.eng, 0 ≤ u ∧ u < 1) ∧ g.values.length = g.reactions.length ∧
    g.reactions.length = 2 ∧ g.sampleReaction (demoWorld replay) = some (.ok (0, E, g')) ∧
    g.reactions[0]? = some r ∧ ∀ pdg E, r.totalXs pdg E = .ok 0 := by
  have hp : pick [(0 : ℝ), 1] 0 = .ok 0 := pick_zero (by simp) (by norm_num)
  refine ⟨{ demoGen [1 / 2, 1 / 2, 0] 1 1 0 with reactions := [demoRx 0, demoRx 1], values := [0, 0] },
    { demoGen [] 1 1 0 with reactions := [demoRx 0, demoRx 1], values := [0, 1] }, 1 / 2, demoRx 0,
    ?_, rfl, rfl, ?_, rfl, fun _ _ => rfl⟩
  · intro u hu
    simp only [demoGen, List.mem_cons, List.not_mem_nil, or_false] at hu
    rcases hu with rfl | rfl | rfl <;> norm_num
  · simp only [Gen.sampleReaction, rejectionSample, demoWorld, demoGen, demoSource, rejectLoop,
      uniform, exact, replay, Gen.ePdf, Gen.pdfLoop, Gen.weighted, demoRx, pickFrom]
    norm_num [hp]

/-! ## C20 -/

/-- **C20**, density: with weighting, the density times its norm is the source
spectrum times the total cross section reported by `total_xs`; without, it is the
source spectrum where that total is positive and zero elsewhere.  This does not
depend on what was cached. -/
theorem C20_density {g : Gen G} {E d : ℝ} {vals vals' : List ℝ}
    (hs : vals.length = g.reactions.length) (e : g.ePdf E vals = .ok (d, vals')) :
    ∃ t, g.totalXs g.source.pid E = .ok t ∧
      (g.weightFlux = true → d * g.norm = g.source.pdf E * t) ∧
      (g.weightFlux = false → 0 < t → d * g.norm = g.source.pdf E) ∧
      (g.weightFlux = false → t ≤ 0 → d = 0) := by
  have hs' : g.Sized vals := hs
  rw [ePdf_eq g E hs'] at e
  unfold Gen.totalXs
  rw [totalLoop_eq]
  cases hw : g.weights g.source.pid E g.reactions with
  | error _ => rw [hw] at e; cases e
  | ok ws =>
    rw [hw] at e
    dsimp only at e ⊢
    refine ⟨0 + ws.sum, rfl, ?_⟩
    rw [zero_add]
    cases hf : g.weightFlux with
    | true =>
      rw [hf, if_pos rfl] at e
      by_cases hn : g.norm = 0
      · rw [if_pos hn] at e; cases e
      · rw [if_neg hn] at e
        cases e
        refine ⟨fun _ => ?_, by simp, by simp⟩
        rw [div_mul_cancel₀ _ hn, mul_comm]
    | false =>
      rw [hf, if_neg (by simp)] at e
      by_cases hz : ws.sum ≤ 0
      · rw [if_pos hz] at e
        cases e
        exact ⟨by simp, fun _ h => absurd h (not_lt.2 hz), fun _ _ => rfl⟩
      · rw [if_neg hz] at e
        by_cases hn : g.norm = 0
        · rw [if_pos hn] at e; cases e
        · rw [if_neg hn] at e
          cases e
          exact ⟨by simp, fun _ _ => div_mul_cancel₀ _ hn, fun _ h => absurd h hz⟩

/-- **C20**, total: `total_xs` is the sum over reactions of atom fraction times cross
section. -/
theorem C20_total {g : Gen G} {pdg : Int} {E t : ℝ} (e : g.totalXs pdg E = .ok t) :
    ∃ w, g.Weights pdg E w ∧ t = w.sum := by
  unfold Gen.totalXs at e
  rw [totalLoop_eq] at e
  cases hw : g.weights pdg E g.reactions with
  | error _ => rw [hw] at e; cases e
  | ok ws =>
    rw [hw] at e
    cases e
    refine ⟨ws, ⟨weights_length hw, fun j rx hj => ?_⟩, zero_add _⟩
    obtain ⟨x, hx, hx'⟩ := weights_get hw hj
    unfold Gen.weighted at hx
    unfold Gen.share
    cases ht : rx.totalXs pdg E with
    | error _ => rw [ht] at hx; cases hx
    | ok y =>
      rw [ht] at hx
      dsimp only at hx
      refine ⟨y, rfl, ?_⟩
      rw [hx']
      cases hg : g.target with
      | none => rw [hg] at hx; cases hx; simp
      | some t => rw [hg] at hx; cases hx; simp

/-- **C20**, sign: if cross sections, atom fractions and the source spectrum are not
negative and the norm is positive, the density is not negative; it vanishes where
every reaction has weight zero. -/
theorem C20_sign {g : Gen G} {E d : ℝ} {vals vals' : List ℝ}
    (hs : vals.length = g.reactions.length) (e : g.ePdf E vals = .ok (d, vals'))
    (hn : 0 < g.norm) (hsrc : 0 ≤ g.source.pdf E)
    (hx : ∀ r ∈ g.reactions, ∀ x, r.totalXs g.source.pid E = .ok x → 0 ≤ x)
    (ha : ∀ r ∈ g.reactions, 0 ≤ g.share r.atom) :
    0 ≤ d ∧ ((∀ r ∈ g.reactions, ∀ x, r.totalXs g.source.pid E = .ok x → x * g.share r.atom = 0) →
      d = 0) := by
  obtain ⟨t, h1, h2, h3, h4⟩ := C20_density hs e
  obtain ⟨w, ⟨hl, hw⟩, rfl⟩ := C20_total h1
  have each : ∀ y ∈ w, ∃ r ∈ g.reactions, ∃ x, r.totalXs g.source.pid E = .ok x ∧
      y = x * g.share r.atom := by
    intro y hy
    obtain ⟨j, hj, rfl⟩ := List.getElem_of_mem hy
    have hj' : j < g.reactions.length := by rw [← hl]; exact hj
    obtain ⟨x, hx1, hx2⟩ := hw j _ (List.getElem?_eq_getElem hj')
    rw [List.getElem?_eq_getElem hj] at hx2
    exact ⟨_, List.getElem_mem hj', x, hx1, Option.some.inj hx2⟩
  have ht : 0 ≤ w.sum := by
    apply List.sum_nonneg
    intro y hy
    obtain ⟨r, hr, x, hx1, rfl⟩ := each y hy
    exact mul_nonneg (hx r hr x hx1) (ha r hr)
  constructor
  · cases hf : g.weightFlux with
    | true =>
      have := h2 hf
      by_contra hc
      nlinarith [mul_nonneg hsrc ht]
    | false =>
      rcases le_or_gt w.sum 0 with hz | hz
      · exact (h4 hf hz).ge
      · have := h3 hf hz
        by_contra hc
        nlinarith
  · intro hz
    have ht0 : w.sum = 0 := by
      apply List.sum_eq_zero
      intro y hy
      obtain ⟨r, hr, x, hx1, rfl⟩ := each y hy
      exact hz r hr x hx1
    cases hf : g.weightFlux with
    | true =>
      have := h2 hf
      rw [ht0, mul_zero] at this
      exact (mul_eq_zero.1 this).resolve_right hn.ne'
    | false => exact h4 hf ht0.le

/-- The demonstration generator has a density everywhere. -/
example (E : ℝ) : (demoGen () 2 2 0).ePdf E [0] = .ok (1, [1]) ∧ 0 < (demoGen () 2 2 0).norm :=
  ⟨demo_ePdf _ _ _ _ _ _, by norm_num [demoGen]⟩

/-- After a successful normalisation the density is normalised. -/
theorem normalize_normalised {g g' : Gen G} (hs : g.values.length = g.reactions.length)
    (hf : g.frozen = false) (e : g.normalize = (g', .ok ())) : g'.Normalised := by
  obtain ⟨n, vals, h1, h2, rfl⟩ := normalize_ok hf e
  intro v hv
  have c1 := ePdf_cached { g with norm := 1 }
  have sv : Gen.Sized { g with norm := 1 } v := hv
  have sg : Gen.Sized { g with norm := 1 } g.values := hs
  have hk : Gen.ePdf { g with pdfMax := g.pdfMaxDefault, norm := n, values := vals }
      = Gen.ePdf { g with norm := n } :=
    ePdf_congr ⟨rfl, rfl, rfl, rfl, rfl, rfl, Or.inr rfl, rfl⟩ rfl
  have hn : n / n = 1 := div_self h2.ne'
  unfold Gen.newNorm at h1
  dsimp only
  rw [hk]
  split_ifs at h1 ⊢ with hm
  · rw [c1.eq _ _ v sg sv] at h1
    refine ⟨vals, ?_⟩
    have := ePdf_norm (g := g) h2.ne' hv h1
    rwa [hn] at this
  · rw [numIntegrate_cached c1 _ _ sg sv] at h1
    refine ⟨vals, ?_⟩
    have := weightedSum_div c1 n (k := Gen.ePdf { g with norm := n })
      (fun x s v t hs hv => ePdf_norm (g := g) h2.ne' hs hv) _ 0 sv h1
    rw [zero_div, hn] at this
    exact this

/-- **C20**, norm (partial).  A generator is constructed and then configured by any
sequence of calls, failing ones included.  If the last call succeeds and is not
`set_weight_flux`, and there are reactions, and the call changes source, target or
reactions, then the density is normalised. -/
theorem C20_normalised_partial (init : List Nat → G) (seed : Nat) (s : Src) (os : List (Op G))
    (o : Op G) {g' : Gen G}
    (ho : match o with
      | .setSource _ | .setTarget _ | .addReaction _ | .clearReactions => True
      | _ => False)
    (e : ((Gen.fresh init seed s).calls os).call o = (g', .ok ())) (hr : g'.reactions ≠ []) :
    g'.Normalised := by
  obtain ⟨h1, h2⟩ := configured_ready init seed s os
  revert h1 h2 e
  generalize (Gen.fresh init seed s).calls os = g
  intro e h1 h2
  cases o with
  | setSource s =>
    simp only [Gen.call, Gen.setSource] at e
    by_cases hz : g.reactions.isEmpty = true
    · rw [if_pos hz] at e; cases e
      exact absurd (List.isEmpty_iff.1 hz) hr
    · rw [if_neg hz] at e
      exact normalize_normalised (g := { g with source := s }) h1.sized h2 e
  | setTarget t =>
    simp only [Gen.call, Gen.setTarget] at e
    by_cases hz : g.reactions.isEmpty = true
    · rw [if_pos hz] at e; cases e
      exact absurd (List.isEmpty_iff.1 hz) hr
    · rw [if_neg hz] at e
      exact normalize_normalised (g := { g with target := some t }) h1.sized h2 e
  | addReaction r =>
    have hl : (g.values ++ [0]).length = (g.reactions ++ [r]).length := by
      have := h1.sized
      simp only [List.length_append, this]
      rfl
    exact normalize_normalised
      (g := { g with reactions := g.reactions ++ [r], values := g.values ++ [0] }) hl h2 e
  | clearReactions => cases e; exact absurd rfl hr
  | setWeightFlux b => exact ho.elim
  | setDirection d => exact ho.elim

/-- A monoenergetic source. -/
noncomputable def demoMono : Src := ⟨12, 5, 5, fun _ => 1⟩

theorem demo_add : ∃ g' : Gen Unit,
    (Gen.fresh (fun _ => ()) 0 demoMono).call (.addReaction (demoRx 2)) = (g', .ok ()) ∧
    g'.norm = 2 ∧ g'.reactions ≠ [] ∧ g'.weightFlux = true ∧ g'.target = none ∧
      g'.source = demoMono ∧ g'.reactions = [demoRx 2] ∧ g'.values = [2] := by
  obtain ⟨f, hf⟩ : ∃ f, f = (Gen.fresh (fun _ => ()) 0 demoMono : Gen Unit) := ⟨_, rfl⟩
  have f1 : f.source = demoMono := by rw [hf]; rfl
  have f2 : f.target = none := by rw [hf]; rfl
  have f3 : f.reactions = [] := by rw [hf]; rfl
  have f4 : f.values = [] := by rw [hf]; rfl
  have f5 : f.weightFlux = true := by rw [hf]; rfl
  have f6 : f.frozen = false := by rw [hf]; rfl
  rw [← hf]
  clear hf
  have hn : Gen.newNorm { f with reactions := [demoRx 2], values := [0] } = .ok (2, [2]) := by
    unfold Gen.newNorm
    dsimp only
    rw [if_pos (by rw [f1]; rfl)]
    simp [Gen.ePdf, Gen.pdfLoop, Gen.weighted, f1, f2, f5, demoMono, demoRx]
  have hp := newNorm_pdfMax { f with reactions := [demoRx 2], values := [0] } f.pdfMaxDefault
  rw [hn] at hp
  dsimp only at hp
  simp only [Gen.call, Gen.addReaction, Gen.normalize, f3, f4, f6, List.nil_append,
    Bool.false_eq_true, if_false]
  rw [f6] at hp
  rw [hp]
  dsimp only
  rw [if_neg (by norm_num)]
  exact ⟨_, rfl, rfl, by simp, f5, f2, f1, rfl, rfl⟩

/-- A call that meets the hypotheses of `C20_normalised_partial`. -/
example : ∃ g' : Gen Unit,
    ((Gen.fresh (fun _ => ()) 0 demoMono).calls []).call (.addReaction (demoRx 2)) = (g', .ok ()) ∧
    g'.reactions ≠ [] :=
  let ⟨g', h, _, h', _⟩ := demo_add
  ⟨g', h, h'⟩

/-- **C20** is not true after `set_weight_flux`: the norm is not computed anew.  For a
source of one energy and a reaction with cross section 2 the density is then 1/2. -/
theorem C20_weight_flux_violated :
    ¬ ((Gen.fresh (fun _ => ()) 0 demoMono : Gen Unit).calls
      [.addReaction (demoRx 2), .setWeightFlux false]).Normalised := by
  obtain ⟨g', h, h1, -, -, h4, h5, h6, h7⟩ := demo_add
  simp only [Gen.calls]
  rw [h]
  simp only [Gen.call, Gen.setWeightFlux]
  intro hc
  obtain ⟨v, hv⟩ := hc [0] (by rw [h6]; rfl)
  dsimp only at hv
  rw [if_pos (by rw [h5]; rfl)] at hv
  simp [Gen.ePdf, Gen.pdfLoop, Gen.weighted, demoMono, demoRx, h1, h4, h5, h6] at hv
  rw [if_neg (by norm_num)] at hv
  norm_num at hv

/-! ## C21 -/

/-- **C21**, rejection: `marley::Error` is thrown if no reaction is open for the
projectile, energy and atom. -/
theorem C21_rejected {W : World G} {g : Gen G} {pdg : Int} {KE : ℝ} {atom : Int}
    (hx : ∀ r ∈ g.reactions, ∃ x, r.totalXs pdg KE = .ok x)
    (h : ∀ r ∈ g.reactions, ¬ Open pdg KE atom r) (rot : Rotator) (dir : V3) :
    g.createFixed W rot pdg KE atom dir = some (.error .marleyError) := by
  obtain ⟨⟨sum, is, xs⟩, hp⟩ := openReactions_ok pdg KE atom 0 g.reactions
    (fun r hr _ _ => hx r hr)
  obtain ⟨h1, h2, h3, h4, h5⟩ := openReactions_spec pdg KE atom 0 g.reactions hp
  have hnil : xs = [] := by
    by_contra hne
    have : is ≠ [] := by
      rintro rfl
      exact hne (List.length_eq_zero_iff.1 h1.symm)
    obtain ⟨i, hi⟩ := List.exists_mem_of_ne_nil _ this
    obtain ⟨-, r, x, hr, ha, hpd, ht, h0⟩ := h4 i hi
    exact h r (List.mem_of_getElem? hr) ⟨ha, hpd, x, ht, h0⟩
  unfold Gen.createFixed Gen.choose
  rw [hp]
  simp [hnil]

/-- **C21**, choice: if there is an open reaction, one of the open reactions is used
to make the event. -/
theorem C21_chosen {W : World G} (hE : W.engine.Lawful) {g : Gen G} {pdg : Int} {KE : ℝ} {atom : Int}
    (hx : ∀ r ∈ g.reactions, ∃ x, r.totalXs pdg KE = .ok x)
    (h : ∃ r ∈ g.reactions, Open pdg KE atom r) :
    ∃ r eng, r ∈ g.reactions ∧ Open pdg KE atom r ∧ g.choose W pdg KE atom = .ok (r, eng) := by
  obtain ⟨⟨sum, is, xs⟩, hp⟩ := openReactions_ok pdg KE atom 0 g.reactions
    (fun r hr _ _ => hx r hr)
  obtain ⟨h1, h2, h3, h4, h5⟩ := openReactions_spec pdg KE atom 0 g.reactions hp
  have hne : xs ≠ [] := by
    intro hc
    obtain ⟨r, hr, ha, hpd, x, ht, h0⟩ := h
    obtain ⟨y, hy, hle⟩ := h5 hc r hr ha hpd
    rw [ht] at hy
    cases hy
    exact absurd h0 (not_lt.2 hle)
  have hsum : 0 < xs.sum := List.sum_pos xs h2 hne
  obtain ⟨k, eng, hk, hlt⟩ := pickFrom_pos hE h2 hne g.eng
  have hki : k < is.length := by rw [h1]; exact hlt
  obtain ⟨-, r, x, hr, ha, hpd, ht, h0⟩ := h4 is[k] (List.getElem_mem hki)
  rw [Nat.sub_zero] at hr
  refine ⟨r, eng, List.mem_of_getElem? hr, ⟨ha, hpd, x, ht, h0⟩, ?_⟩
  unfold Gen.choose
  rw [hp]
  dsimp only
  rw [if_neg (by rw [h3]; simp [hne, hsum]), hk]
  dsimp only
  rw [List.getElem?_eq_getElem hki]
  dsimp only
  rw [hr]

/-- **C21**: for reactions and a de-excitation that succeed when they are used for an
open reaction, and a nonzero direction, the call throws exactly when no reaction is
open; otherwise the event is made by an open reaction. -/
theorem C21_throws_iff {W : World G} (hE : W.engine.Lawful) {g : Gen G} {pdg : Int} {KE : ℝ}
    {atom : Int} (hx : ∀ r ∈ g.reactions, ∃ x, r.totalXs pdg KE = .ok x) (rot : Rotator)
    (hrot : rot.randomize = false) {dir : V3} (hd : dir.Nonzero)
    (hc : ∀ r ∈ g.reactions, Open pdg KE atom r → ∀ eng, ∃ ev eng',
      r.create pdg KE eng = some (.ok (ev, eng')) ∧ ev.initial ≠ [] ∧
      ∃ ev' eng'', W.decay ev eng' = some (.ok (ev', eng'')) ∧ ev'.initial ≠ []) :
    (g.createFixed W rot pdg KE atom dir = some (.error .marleyError) ↔
      ∀ r ∈ g.reactions, ¬ Open pdg KE atom r) ∧
    ∀ v, g.createFixed W rot pdg KE atom dir = some (.ok v) →
      ∃ r ∈ g.reactions, Open pdg KE atom r ∧ ∃ eng, g.choose W pdg KE atom = .ok (r, eng) ∧
        ∃ ev eng', r.create pdg KE eng = some (.ok (ev, eng')) := by
  by_cases h : ∃ r ∈ g.reactions, Open pdg KE atom r
  · obtain ⟨r, eng, hr, ho, hch⟩ := C21_chosen (W := W) hE hx h
    obtain ⟨ev, eng', h1, h2, ev', eng'', h3, h4⟩ := hc r hr ho eng
    have hok : ∃ v, g.createFixed W rot pdg KE atom dir = some (.ok v) := by
      unfold Gen.createFixed
      rw [hch]
      dsimp only
      rw [h1]
      dsimp only
      have hdec : ∃ ev2 eng2, (if g.deexcite then W.decay ev eng' else some (.ok (ev, eng')) :
          Option (Res (Event ℝ × G))) = some (.ok (ev2, eng2)) ∧ ev2.initial ≠ [] := by
        cases g.deexcite with
        | true => exact ⟨ev', eng'', h3, h4⟩
        | false => exact ⟨ev, eng', rfl, h2⟩
      obtain ⟨ev2, eng2, h5, h6⟩ := hdec
      rw [h5]
      dsimp only
      obtain ⟨q, hq⟩ := setDirection_ok (r := rot) hd
      rw [hq]
      dsimp only
      obtain ⟨hinv, hdir, hz⟩ := rotInv_setDirection hq
      have hz' : q.randomize = false := hz.trans hrot
      unfold finish
      simp only [Bool.false_eq_true, if_false]
      have hproc : ∃ w, q.process ev2 (direction W q ev2 eng2).1 (direction W q ev2 eng2).2.1 = .ok w := by
        unfold Rotator.process
        cases hi : ev2.initial with
        | nil => exact absurd hi h6
        | cons p l =>
          dsimp only
          split_ifs with hp hz2
          · exact ⟨_, rfl⟩
          · exact absurd hz' (by rw [hz2]; simp)
          · unfold Rotator.apply
            split_ifs with a1 a2
            · exact ⟨_, rfl⟩
            · have hpn : V3.Nonzero ⟨p.px / Kin.momentum p, p.py / Kin.momentum p,
                  p.pz / Kin.momentum p⟩ := by
                rintro ⟨e1, e2, e3⟩
                have hm : Kin.momentum p ≠ 0 := fun h0 => hp h0.le
                simp only [div_eq_zero_iff, hm, or_false] at e1 e2 e3
                apply hm
                simp [Kin.momentum, e1, e2, e3]
              have hqn : q.dir.Nonzero := by
                rintro ⟨e1, e2, e3⟩
                have := hinv.unit
                simp [Rot.dot, e1, e2, e3] at this
              obtain ⟨u1, k1, -⟩ := C48_direction_exists hpn
              obtain ⟨u2, k2, -⟩ := C48_direction_exists hqn
              obtain ⟨m, hm, -⟩ := C48_rotation k1 k2
              rw [hm]
              exact ⟨_, rfl⟩
            · exact ⟨_, rfl⟩
      obtain ⟨⟨q', ev3⟩, hw⟩ := hproc
      rw [hw]
      exact ⟨_, rfl⟩
    obtain ⟨v, hv⟩ := hok
    refine ⟨⟨fun hc' => ?_, fun hn => absurd h (by simpa using hn)⟩, fun w hw => ?_⟩
    · rw [hv] at hc'; cases hc'
    · exact ⟨r, hr, ho, eng, hch, ev, eng', h1⟩
  · have hn : ∀ r ∈ g.reactions, ¬ Open pdg KE atom r := fun r hr ho => h ⟨r, hr, ho⟩
    have hrej := C21_rejected (W := W) hx hn rot dir
    exact ⟨⟨fun _ => hn, fun _ => hrej⟩, fun v hv => by rw [hrej] at hv; cases hv⟩

/-- The demonstration generator has an open reaction for an electron neutrino on
argon, none for a muon neutrino, and its reaction succeeds. -/
example : (∃ r ∈ (demoGen () 2 2 0).reactions, Open 12 5 1000180400 r) ∧
    (∀ r ∈ (demoGen () 2 2 0).reactions, ¬ Open 14 5 1000180400 r) ∧
    (∀ r ∈ (demoGen () 2 2 0).reactions, ∃ x, r.totalXs 12 5 = .ok x) ∧
    half.Lawful ∧ (Rotator.fresh ⟨0, 0, 1⟩).randomize = false ∧ (⟨0, 0, 1⟩ : V3).Nonzero ∧
    ∀ r ∈ (demoGen () 2 2 0).reactions, ∀ eng, ∃ ev eng',
      r.create 12 5 eng = some (.ok (ev, eng')) ∧ ev.initial ≠ [] ∧
      ∃ ev' eng'', (demoWorld half).decay ev eng' = some (.ok (ev', eng'')) ∧ ev'.initial ≠ [] := by
  refine ⟨⟨demoRx 1, by simp [demoGen], rfl, rfl, 1, rfl, by norm_num⟩, ?_, ?_, half_lawful, rfl,
    by simp [V3.Nonzero], ?_⟩
  · intro r hr
    simp only [demoGen, List.mem_singleton] at hr
    subst hr
    rintro ⟨-, h, -⟩
    simp [demoRx] at h
  · intro r hr
    simp only [demoGen, List.mem_singleton] at hr
    subst hr
    exact ⟨1, rfl⟩
  · intro r hr eng
    simp only [demoGen, List.mem_singleton] at hr
    subst hr
    exact ⟨demoEvent 5, eng, rfl, by simp [demoEvent], demoEvent 5, eng, rfl, by simp [demoEvent]⟩

/-! ## C79 -/

theorem weightedSum_quadrature {f : ℝ → List ℝ → Res (ℝ × List ℝ)} {P : List ℝ → Prop} {k : ℝ → ℝ}
    (hc : Cached f P) (hf : ∀ x s v t, P s → f x s = .ok (v, t) → v = k x) (l : List (ℝ × ℝ))
    (acc : ℝ) {s t : List ℝ} {v : ℝ} (hs : P s) (e : weightedSum f l acc s = .ok (v, t)) :
    v = acc + (l.map (fun p => p.1 * k p.2)).sum := by
  induction l generalizing acc s with
  | nil => cases e; simp
  | cons p l ih =>
    obtain ⟨w, x⟩ := p
    rw [weightedSum] at e
    cases h : f x s with
    | error _ => rw [h] at e; cases e
    | ok q =>
      obtain ⟨y, s'⟩ := q
      rw [h] at e
      rw [ih _ (hc.keep _ _ _ _ hs h) e, hf _ _ _ _ hs h]
      simp [add_assoc]

theorem numIntegrate_pure (f : ℝ → ℝ) (a b : ℝ) :
    numIntegrate (fun x (_ : Unit) => .ok (f x, ())) a b () = .ok (quadrature f a b, ()) := by
  have : ∀ l acc, weightedSum (fun x (_ : Unit) => .ok (f x, ())) l acc ()
      = .ok (acc + (l.map (fun p : ℝ × ℝ => p.1 * f p.2)).sum, ()) := by
    intro l
    induction l with
    | nil => intro acc; simp [weightedSum]
    | cons p l ih => intro acc; obtain ⟨w, x⟩ := p; simp [weightedSum, ih, add_assoc]
  unfold numIntegrate quadrature
  rw [this, zero_add]

/-- **C79**: after a successful normalisation with weighting, the flux-averaged total
cross section is the cross section folded with the source spectrum, divided by the
integral of the spectrum (both with the integration rule of the code; for a source of
one energy it is the cross section at that energy). -/
theorem C79_flux_average {g g' : Gen G} (hs : g.values.length = g.reactions.length)
    (hf : g.frozen = false) (hw : g.weightFlux = true) (e : g.normalize = (g', .ok ()))
    {xs : ℝ → ℝ} (hx : ∀ E, g.totalXs g.source.pid E = .ok (xs E)) {a : ℝ}
    (ha : g'.fluxAveraged = some a) :
    if g.source.Emin = g.source.Emax then
      g.source.pdf g.source.Emin ≠ 0 ∧ a = xs g.source.Emin
    else
      quadrature g.source.pdf g.source.Emin g.source.Emax ≠ 0 ∧
      a = quadrature (fun E => xs E * g.source.pdf E) g.source.Emin g.source.Emax /
        quadrature g.source.pdf g.source.Emin g.source.Emax := by
  obtain ⟨n, vals, h1, h2, rfl⟩ := normalize_ok hf e
  have hdens : ∀ E s v t, Gen.Sized { g with norm := 1 } s →
      Gen.ePdf { g with norm := 1 } E s = .ok (v, t) → v = xs E * g.source.pdf E := by
    intro E s v t hs' hv
    obtain ⟨t', k1, k2, -⟩ := C20_density (g := { g with norm := 1 }) hs' hv
    have : Gen.totalXs { g with norm := 1 } g.source.pid E = g.totalXs g.source.pid E := by
      unfold Gen.totalXs
      rw [totalLoop_eq, totalLoop_eq]
      rw [weights_congr (g := { g with norm := 1 }) (h := g) rfl]
    have k1' : g.totalXs g.source.pid E = .ok t' := by rw [← this]; exact k1
    rw [hx E] at k1'
    cases k1'
    have := k2 hw
    simp only [mul_one] at this
    rw [this, mul_comm]
  unfold Gen.fluxAveraged at ha
  rw [if_neg (by simp [hw])] at ha
  unfold Gen.newNorm at h1
  dsimp only at ha
  split_ifs at h1 ha ⊢ with hm
  · have := hdens _ _ _ _ hs h1
    unfold Utils.fdiv at ha
    split_ifs at ha with hz
    cases ha
    refine ⟨hz, ?_⟩
    rw [this]
    field_simp
  · rw [numIntegrate_pure] at ha
    dsimp only at ha
    have := weightedSum_quadrature (ePdf_cached { g with norm := 1 }) hdens _ 0 hs h1
    unfold Utils.fdiv at ha
    split_ifs at ha with hz
    cases ha
    refine ⟨hz, ?_⟩
    rw [this, zero_add]
    rfl

/-- The generator that results from adding a reaction to a new one: its flux average
is the cross section at the energy of the source. -/
example : ∃ g g' : Gen Unit, g.values.length = g.reactions.length ∧ g.frozen = false ∧
    g.weightFlux = true ∧ g.normalize = (g', .ok ()) ∧
    (∀ E, g.totalXs g.source.pid E = .ok 2) ∧ g'.fluxAveraged = some 2 := by
  obtain ⟨g', h, h1, h2, h3, h4, h5, h6, h7⟩ := demo_add
  refine ⟨{ (Gen.fresh (fun _ => ()) 0 demoMono : Gen Unit) with
    reactions := [demoRx 2], values := [0] }, g', rfl, rfl, rfl, h, fun E => ?_, ?_⟩
  · simp [Gen.totalXs, Gen.totalLoop, Gen.weighted, Gen.fresh, demoRx]
  · unfold Gen.fluxAveraged
    rw [if_neg (by simp [h3]), if_pos (by rw [h5]; rfl), h1, h5]
    simp [Utils.fdiv, demoMono]

end Marley.Props
