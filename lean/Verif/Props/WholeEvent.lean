import Verif.Props.DecayerMotion
import Verif.Props.CrossSection
import Verif.Props.Electron
import Verif.Props.Rotation
import Verif.Props.Generator

/-!
# C88: whole events

Choosing a reaction, scattering, de-excitation and rotation together.
-/

set_option autoImplicit false

namespace Marley.Props
open Marley Marley.Kin Marley.Rot Marley.Gen Marley.Xs
open Marley.Sampling (Arith Engine exact)
open Marley.Decay (Data)

variable {G : Type}

/-- The reaction is one of those that the program has, with masses that make sense. -/
inductive Physical (E : Env G) : Rx G → Prop
  | nuclear (n : Nuc) : n.Good → Physical E (n.rx E)
  | electron (r : Reaction.Electron) : ElectronGood r → r.mc = r.ma → Physical E (elRx E r)

/-- The rotator was made by default construction followed by calls of its functions. -/
def Configured (r : Rotator) : Prop :=
  ∃ r0 ops, Rotator.make ⟨0, 0, 1⟩ = .ok r0 ∧ DrawsOk ops ∧ r = rotRun r0 ops

/-- An event that makes physical sense: energy and momentum are conserved, every particle is on its
mass shell, and a projectile `pid` hits a target at rest. -/
structure PhysicalEvent (pid : Int) (ev : Event ℝ) : Prop where
  totals : SameTotals ev.final ev.initial
  shells : ∀ p ∈ ev.initial ++ ev.final, OnShell p
  beam : ∃ pr tg, ev.initial = [pr, tg] ∧ pr.pdg = pid ∧ momentumOf tg = ⟨0, 0, 0⟩ ∧ 0 < tg.mass

theorem collision_sensible {r : Masses} {KE : ℝ} {ev : Event ℝ} (hb : 0 < r.mb) (h : Collision r KE ev) :
    PhysicalEvent r.pdgA ev := by
  obtain ⟨pr, tg, ej, re, h1, h2, ⟨a1, -, -, -, -, -, a2⟩, ⟨-, b1, b2, b3, b4, b5⟩, ⟨-, -, c⟩,
    ⟨-, -, d⟩, e1, e2, e3, e4⟩ := h
  refine ⟨⟨?_, ?_, ?_, ?_⟩, ?_, pr, tg, h1, a1, by simp [momentumOf, b3, b4, b5], by rw [b1]; exact hb⟩
  · simpa [h1, h2] using e1
  · simpa [h1, h2] using e2
  · simpa [h1, h2] using e3
  · simpa [h1, h2] using e4
  · have ht : OnShell tg := ⟨by rw [b1, b2, b3, b4, b5]; ring, by rw [b2]; exact hb.le, by rw [b1]; exact hb.le⟩
    intro p hp
    simp only [h1, h2, List.cons_append, List.nil_append, List.mem_cons, List.not_mem_nil, or_false] at hp
    rcases hp with rfl | rfl | rfl | rfl <;> assumption

theorem turned_shell {m : Mat} (hm : IsRotation m) {p p' : Particle ℝ} (h : TurnedBy m p p')
    (hp : OnShell p) : OnShell p' := by
  have h0 := hm.isometry (momentumOf p) (momentumOf p)
  obtain ⟨h1, h2, h3, -⟩ := h
  rw [← h1] at h0
  simp only [momentumOf, dot] at h0
  have := hp.shell
  exact ⟨by rw [h2, h3]; linarith, by rw [h2]; exact hp.energy, by rw [h3]; exact hp.mass⟩

/-- The total momentum of a list of particles. -/
def totalMomentum (l : List (Particle ℝ)) : V3 :=
  ⟨(l.map (·.px)).sum, (l.map (·.py)).sum, (l.map (·.pz)).sum⟩

theorem turned_totals {m : Mat} {l l' : List (Particle ℝ)} (h : List.Forall₂ (TurnedBy m) l l') :
    (l'.map (·.E)).sum = (l.map (·.E)).sum ∧ totalMomentum l' = rotate m (totalMomentum l) := by
  induction h with
  | nil => simp [totalMomentum, rotate, dot]
  | @cons p p' l l' h _ ih =>
    obtain ⟨h1, h2, -⟩ := h
    obtain ⟨i1, i2⟩ := ih
    simp only [momentumOf, rotate, dot, V3.mk.injEq, totalMomentum] at h1 i2
    obtain ⟨a1, a2, a3⟩ := h1
    obtain ⟨b1, b2, b3⟩ := i2
    refine ⟨by simp only [List.map_cons, List.sum_cons]; rw [h2, i1], ?_⟩
    simp only [totalMomentum, List.map_cons, List.sum_cons, rotate, dot, V3.mk.injEq]
    refine ⟨?_, ?_, ?_⟩
    · rw [a1, b1]; ring
    · rw [a2, b2]; ring
    · rw [a3, b3]; ring

theorem sameTotals_iff {l l' : List (Particle ℝ)} : SameTotals l l' ↔
    (l.map (·.E)).sum = (l'.map (·.E)).sum ∧ totalMomentum l = totalMomentum l' := by
  simp only [totalMomentum, V3.mk.injEq]
  exact ⟨fun h => ⟨h.energy, h.px, h.py, h.pz⟩, fun h => ⟨h.1, h.2.1, h.2.2.1, h.2.2.2⟩⟩

theorem forall2_mem {α : Type} {R : α → α → Prop} {l l' : List α} (h : List.Forall₂ R l l') :
    ∀ y ∈ l', ∃ x ∈ l, R x y := by
  induction h with
  | nil => simp
  | cons h _ ih =>
    intro y hy
    rcases List.mem_cons.1 hy with rfl | hy
    · exact ⟨_, by simp, h⟩
    · obtain ⟨x, hx, hr⟩ := ih y hy
      exact ⟨x, by simp [hx], hr⟩

theorem turned_sensible {pid : Int} {pdir dir : V3} {ev ev' : Event ℝ} (h : EventTurned pdir dir ev ev')
    (hs : PhysicalEvent pid ev) : PhysicalEvent pid ev' := by
  obtain ⟨m, hm, -, hi, hf, -⟩ := h
  obtain ⟨t, sh, pr, tg, b1, b2, b3, b4⟩ := hs
  refine ⟨?_, ?_, ?_⟩
  · obtain ⟨t1, t2⟩ := sameTotals_iff.1 t
    obtain ⟨i1, i2⟩ := turned_totals hi
    obtain ⟨f1, f2⟩ := turned_totals hf
    exact sameTotals_iff.2 ⟨by rw [f1, i1, t1], by rw [f2, i2, t2]⟩
  · intro p hp
    rcases List.mem_append.1 hp with hp | hp
    · obtain ⟨q, hq, hr⟩ := forall2_mem hi p hp
      exact turned_shell hm hr (sh q (by simp [hq]))
    · obtain ⟨q, hq, hr⟩ := forall2_mem hf p hp
      exact turned_shell hm hr (sh q (by simp [hq]))
  · rw [b1] at hi
    generalize ev'.initial = l at hi
    rcases hi with _ | ⟨h1, _ | ⟨h2, _ | _⟩⟩
    refine ⟨_, _, rfl, h1.2.2.2.1.trans b2, ?_, by rw [h2.2.2.1]; exact b4⟩
    rw [h2.1, b3]
    simp [rotate, dot]

theorem physical_sensible {E : Env G} (hA : E.arith = exact) (hE : E.engine.Lawful) {rx : Rx G}
    (h : Physical E rx) {pdg : Int} {KE : ℝ} {g g' : G} {ev : Event ℝ}
    (e : rx.create pdg KE g = some (.ok (ev, g'))) : PhysicalEvent pdg ev := by
  cases h with
  | nuclear n hn =>
    obtain ⟨rfl, h1, -⟩ := C84_nuclear hA hE hn e
    exact collision_sensible hn.b h1
  | electron r hr hm =>
    have hK : 0 ≤ KE := by
      by_contra hc
      have h0 : threshold (elMasses r) = 0 := by
        simp only [threshold, elMasses, hm, hr.d]; simp
      change elCreate E r pdg KE g = _ at e
      unfold elCreate at e
      by_cases h1 : pdg ≠ r.pdgA
      · rw [if_pos h1] at e; cases e
      · rw [if_neg h1, if_pos (by rw [h0]; exact not_le.1 hc)] at e; cases e
    obtain ⟨rfl, h1, -⟩ := C84_electron hA hE hr hK e
    exact collision_sensible hr.b h1

theorem decayed_sensible {E : Engine G} (hE : E.Lawful) {fuel : Nat} {D : Data} (hD : MassesNonneg D)
    {pid : Int} {ev ev' : Event ℝ} {g g' : G} (e : Decay.decayer exact E fuel D ev g = some (.ok (ev', g')))
    (hs : PhysicalEvent pid ev) (hm : ∀ p, ev'.final[1]? = some p → 0 < p.mass) : PhysicalEvent pid ev' := by
  unfold Decay.decayer at e
  rcases h : Decay.process exact E fuel D ev g with _ | ⟨ev1, r⟩
  · rw [h] at e; cases e
  · rw [h] at e
    rcases r with x | g1
    · cases e
    · simp only [Option.map_some, Except.map, Option.some.injEq, Except.ok.injEq, Prod.mk.injEq] at e
      obtain ⟨rfl, rfl⟩ := e
      obtain ⟨t, s⟩ := C87_conserves hE hD h (fun p hp => hs.shells p (by simp [hp])) hm
      have hi : ev1.initial = ev.initial := by
        rcases C50_kept h with h | ⟨_, _, _, _, _, _, h⟩ <;> rw [h]
      refine ⟨?_, ?_, by rw [hi]; exact hs.beam⟩
      · obtain ⟨t1, t2⟩ := sameTotals_iff.1 t
        obtain ⟨u1, u2⟩ := sameTotals_iff.1 hs.totals
        exact sameTotals_iff.2 ⟨by rw [hi, t1, u1], by rw [hi, t2, u2]⟩
      · intro p hp
        rw [hi] at hp
        rcases List.mem_append.1 hp with hp | hp
        · exact hs.shells p (by simp [hp])
        · exact s p hp

theorem configured_process {r r' : Rotator} (hr : Configured r) {ev ev' : Event ℝ} {c phi : ℝ}
    (hc : c ^ 2 ≤ 1) (h : r.process ev c phi = .ok (r', ev')) : Configured r' := by
  obtain ⟨r0, ops, h1, h2, h3⟩ := hr
  refine ⟨r0, ops ++ [.process ev c phi], h1, ?_, ?_⟩
  · intro ev2 c2 phi2 hm
    rcases List.mem_append.1 hm with hm | hm
    · exact h2 _ _ _ hm
    · simp only [List.mem_singleton, RotOp.process.injEq] at hm
      rw [hm.2.1]; exact hc
  · rw [show rotRun r0 (ops ++ [RotOp.process ev c phi]) = rotStep (rotRun r0 ops) (.process ev c phi) by
      simp [rotRun], ← h3]
    simp [rotStep, h]

theorem configured_inv {r : Rotator} (hr : Configured r) : RotInv r := by
  obtain ⟨r0, ops, h1, h2, rfl⟩ := hr
  exact rotInv_run (rotInv_default h1) ops h2

theorem direction_cos {W : World G} (hA : W.arith = exact) (hE : W.engine.Lawful) (r : Rotator)
    (ev : Event ℝ) (eng : G) : (direction W r ev eng).1 ^ 2 ≤ 1 := by
  unfold direction
  split
  · norm_num
  · split_ifs
    · norm_num
    · dsimp only
      rw [hA]
      have c1 := Sampling.uniform_ge Sampling.exact_lawful hE true (min := -1) (max := 1) rfl
        (by norm_num) eng
      have c2 : (Sampling.uniform exact W.engine (-1) 1 true eng).1 ≤ 1 := Sampling.uniform_le
        Sampling.exact_lawful hE true (min := -1) (max := 1) rfl rfl (by norm_num) eng
      nlinarith

/-- The projectile moves along the direction `d`, or not at all. -/
def Along (ev : Event ℝ) (d : V3) : Prop :=
  ∃ pr len, ev.initial[0]? = some pr ∧ 0 ≤ len ∧ momentumOf pr = ⟨len * d.x, len * d.y, len * d.z⟩

/-- What `process` makes of an event. -/
theorem process_sensible {r r' : Rotator} (hr : Configured r) {ev ev' : Event ℝ} {c phi : ℝ}
    (hc : c ^ 2 ≤ 1) (h : r.process ev c phi = .ok (r', ev')) {pid : Int} (hs : PhysicalEvent pid ev) :
    PhysicalEvent pid ev' ∧ Along ev' r'.dir ∧ (r.randomize = false → r'.dir = r.dir) ∧
      r'.randomize = r.randomize ∧ ev'.final.map (·.mass) = ev.final.map (·.mass) := by
  obtain ⟨pr, tg, h1, h2, h3, h4⟩ := hs.beam
  by_cases hm : (momentumOf pr).Nonzero
  · obtain ⟨u, -, hu⟩ := isDirection_normalize hm
    obtain ⟨r2, ev2, e1, -, e2, e3, e4⟩ := process_spec (configured_inv hr) h1 phi hc hu
    rw [h] at e1
    simp only [Except.ok.injEq, Prod.mk.injEq] at e1
    obtain ⟨rfl, rfl⟩ := e1
    obtain ⟨-, n, hn, hp⟩ := hu
    obtain ⟨p', ps', f1, f2, -⟩ := C49_projectile_direction h1 hp e4
    refine ⟨turned_sensible e4 hs, ⟨p', n, by rw [f1]; rfl, hn.le, by rw [f2, e2]⟩, ?_, e3, ?_⟩
    · intro hf; rw [e2, wanted, hf]; simp
    · obtain ⟨m, -, -, -, hf, -⟩ := e4
      clear e2 f1 h hs
      generalize ev.final = l at hf
      generalize ev'.final = l' at hf
      induction hf with
      | nil => rfl
      | cons a _ ih => simp only [List.map_cons, ih, a.2.2.1]
  · have := C49_at_rest r h1 hm c phi
    rw [h] at this
    simp only [Except.ok.injEq, Prod.mk.injEq] at this
    obtain ⟨rfl, rfl⟩ := this
    simp only [V3.Nonzero, not_not] at hm
    refine ⟨hs, ⟨pr, 0, by rw [h1]; rfl, le_rfl, ?_⟩, fun _ => rfl, rfl, rfl⟩
    ext <;> simp [hm.1, hm.2.1, hm.2.2]

theorem mass_of_map {l l' : List (Particle ℝ)} (h : l'.map (·.mass) = l.map (·.mass))
    (hm : ∀ p, l'[1]? = some p → 0 < p.mass) : ∀ p, l[1]? = some p → 0 < p.mass := by
  intro p hp
  have : (l'.map (·.mass))[1]? = some p.mass := by rw [h, List.getElem?_map, hp]; rfl
  rw [List.getElem?_map] at this
  rcases hq : l'[1]? with _ | q
  · rw [hq] at this; cases this
  · rw [hq] at this
    simp only [Option.map_some, Option.some.injEq] at this
    rw [← this]; exact hm q hq

/-- De-excitation and rotation of an event. -/
theorem finish_sensible {W : World G} (hA : W.arith = exact) (hE : W.engine.Lawful) {fuel : Nat} {D : Data}
    (hW : W.decay = Decay.decayer exact W.engine fuel D) (hD : MassesNonneg D) {dx : Bool} {r r' : Rotator}
    (hr : Configured r) {ev ev' : Event ℝ} {g g' : G} (e : Marley.Gen.finish W dx r ev g = some (.ok (ev', r', g')))
    {pid : Int} (hs : PhysicalEvent pid ev) (hm : ∀ p, ev'.final[1]? = some p → 0 < p.mass) :
    PhysicalEvent pid ev' ∧ Along ev' r'.dir ∧ (r.randomize = false → r'.dir = r.dir) ∧
      r'.randomize = r.randomize ∧ Configured r' := by
  unfold Marley.Gen.finish at e
  rcases hd : (if dx then W.decay ev g else some (.ok (ev, g)) : Option (Res (Event ℝ × G)))
    with _ | ⟨x | ⟨ev1, g1⟩⟩
  · rw [hd] at e; cases e
  · rw [hd] at e; cases e
  · rw [hd] at e
    dsimp only at e
    have hc := direction_cos hA hE r ev1 g1
    rcases hp : r.process ev1 (direction W r ev1 g1).1 (direction W r ev1 g1).2.1 with x | ⟨r2, ev2⟩
    · rw [hp] at e; cases e
    · rw [hp] at e
      cases e
      have hmass : ev'.final.map (·.mass) = ev1.final.map (·.mass) := by
        rcases hi : ev1.initial with _ | ⟨p, ps⟩
        · simp only [Rotator.process, hi] at hp; cases hp
        · by_cases hz : (momentumOf p).Nonzero
          · obtain ⟨u, -, hu⟩ := isDirection_normalize hz
            obtain ⟨r2, ev2, e1, -, -, -, m, -, -, -, hf, -⟩ :=
              process_spec (configured_inv hr) hi _ hc hu
            rw [hp] at e1
            simp only [Except.ok.injEq, Prod.mk.injEq] at e1
            obtain ⟨rfl, rfl⟩ := e1
            clear hp hs hm hd
            generalize ev1.final = l at hf
            generalize ev'.final = l' at hf
            induction hf with
            | nil => rfl
            | cons a _ ih => simp only [List.map_cons, ih, a.2.2.1]
          · have := C49_at_rest r hi hz (direction W r ev1 g1).1 (direction W r ev1 g1).2.1
            rw [hp] at this
            cases this; rfl
      have hs1 : PhysicalEvent pid ev1 := by
        cases dx with
        | false => simp only [Bool.false_eq_true, if_false] at hd; cases hd; exact hs
        | true =>
          simp only [if_true] at hd
          rw [hW] at hd
          exact decayed_sensible hE hD hd hs (mass_of_map hmass hm)
      obtain ⟨a, b, c, d, -⟩ := process_sensible hr hc hp hs1
      exact ⟨a, b, c, d, configured_process hr hc hp⟩

/-- C88: every event that the generator makes conserves energy and momentum between all the initial and
all the final particles, de-excitation products included; every particle is on its mass shell; the
projectile is the particle of the source and moves along the configured direction; the target is at
rest.  Reactions may be any mixture of those that the program has. -/
theorem C88_event {W : World G} (hA : W.arith = exact) (hE : W.engine.Lawful) {fuel : Nat} {D : Data}
    (hW : W.decay = Decay.decayer exact W.engine fuel D) (hD : MassesNonneg D) {E : Env G}
    (hEA : E.arith = exact) (hEE : E.engine = W.engine) {g g' : Gen G}
    (hx : ∀ r ∈ g.reactions, Physical E r) (hr : Configured g.rotator) {ev : Event ℝ}
    (e : g.createEvent W = some (.ok (ev, g'))) (hm : ∀ p, ev.final[1]? = some p → 0 < p.mass) :
    PhysicalEvent g.source.pid ev ∧ Along ev g'.rotator.dir ∧
      (g.rotator.randomize = false → g'.rotator.dir = g.rotator.dir) ∧
      g'.rotator.randomize = g.rotator.randomize ∧ Configured g'.rotator ∧
      g'.reactions = g.reactions ∧ g'.source = g.source := by
  unfold Gen.createEvent at e
  rcases hs : g.sampleReaction W with _ | ⟨x | ⟨i, KE, g1⟩⟩
  · rw [hs] at e; cases e
  · rw [hs] at e; cases e
  · rw [hs] at e
    dsimp only at e
    have hk : g1.reactions = g.reactions ∧ g1.source = g.source ∧ g1.rotator = g.rotator := by
      unfold Gen.sampleReaction at hs
      by_cases h0 : g.reactions.isEmpty
      · rw [if_pos h0] at hs; cases hs
      · rw [if_neg h0] at hs
        split at hs
        · cases hs
        · cases hs
        · split at hs
          · cases hs
          · split_ifs at hs
            · cases hs; exact ⟨rfl, rfl, rfl⟩
            · cases hs
    obtain ⟨k1, k2, k3⟩ := hk
    rcases hi : g1.reactions[i]? with _ | rx
    · rw [hi] at e; cases e
    rw [hi] at e
    dsimp only at e
    rcases hc : rx.create g1.source.pid KE g1.eng with _ | ⟨x | ⟨ev1, eng⟩⟩
    · rw [hc] at e; cases e
    · rw [hc] at e; cases e
    rw [hc] at e
    dsimp only at e
    rcases hf : Marley.Gen.finish W g1.deexcite g1.rotator ev1 eng with _ | ⟨x | ⟨ev2, r2, eng2⟩⟩
    · rw [hf] at e; cases e
    · rw [hf] at e; cases e
    rw [hf] at e
    cases e
    have hmem : rx ∈ g.reactions := by rw [← k1]; exact List.mem_of_getElem? hi
    have hs1 := physical_sensible hEA (by rw [hEE]; exact hE) (hx rx hmem) hc
    rw [k2] at hs1
    rw [k3] at hf
    obtain ⟨a, b, c, d, f⟩ := finish_sensible hA hE hW hD hr hf hs1 hm
    exact ⟨a, b, c, d, f, k1, k2⟩

/-- C88 for every event of a run of any length. -/
theorem C88_events {W : World G} (hA : W.arith = exact) (hE : W.engine.Lawful) {fuel : Nat} {D : Data}
    (hW : W.decay = Decay.decayer exact W.engine fuel D) (hD : MassesNonneg D) {E : Env G}
    (hEA : E.arith = exact) (hEE : E.engine = W.engine) (n : Nat) {g g' : Gen G}
    (hx : ∀ r ∈ g.reactions, Physical E r) (hr : Configured g.rotator) {evs : List (Event ℝ)}
    (e : g.createEvents W n = some (.ok (evs, g')))
    (hm : ∀ ev ∈ evs, ∀ p, ev.final[1]? = some p → 0 < p.mass) :
    evs.length = n ∧ ∀ ev ∈ evs, PhysicalEvent g.source.pid ev ∧
      (g.rotator.randomize = false → Along ev g.rotator.dir) := by
  induction n generalizing g evs with
  | zero =>
    simp only [Gen.createEvents, Option.some.injEq, Except.ok.injEq, Prod.mk.injEq] at e
    obtain ⟨rfl, -⟩ := e
    simp
  | succ n ih =>
    unfold Gen.createEvents at e
    rcases h1 : g.createEvent W with _ | ⟨x | ⟨ev, g1⟩⟩
    · rw [h1] at e; cases e
    · rw [h1] at e; cases e
    rw [h1] at e
    dsimp only at e
    rcases h2 : g1.createEvents W n with _ | ⟨x | ⟨evs1, g2⟩⟩
    · rw [h2] at e; cases e
    · rw [h2] at e; cases e
    rw [h2] at e
    cases e
    obtain ⟨a, b, c, d, f, k1, k2⟩ := C88_event hA hE hW hD hEA hEE hx hr h1 (hm ev (by simp))
    obtain ⟨i1, i2⟩ := ih (by rw [k1]; exact hx) f h2 (fun ev h => hm ev (by simp [h]))
    refine ⟨by simp [i1], fun ev' h => ?_⟩
    rcases List.mem_cons.1 h with rfl | h
    · exact ⟨a, fun hf => by rw [← c hf]; exact b⟩
    · obtain ⟨j1, j2⟩ := i2 ev' h
      rw [k2] at j1
      exact ⟨j1, fun hf => by rw [← c hf]; exact j2 (by rw [d]; exact hf)⟩

/-- C88 for events requested for a projectile, energy, atom and direction. -/
theorem C88_fixed {W : World G} (hA : W.arith = exact) (hE : W.engine.Lawful) {fuel : Nat} {D : Data}
    (hW : W.decay = Decay.decayer exact W.engine fuel D) (hD : MassesNonneg D) {E : Env G}
    (hEA : E.arith = exact) (hEE : E.engine = W.engine) {g : Gen G}
    (hx : ∀ r ∈ g.reactions, Physical E r) {rot rot' : Rotator} (hr : Configured rot)
    (hrand : rot.randomize = false) {pdg : Int} {KE : ℝ} {atom : Int} {dir : V3} {eng : G}
    {ev : Event ℝ} (e : g.createFixed W rot pdg KE atom dir = some (.ok (ev, rot', eng)))
    (hm : ∀ p, ev.final[1]? = some p → 0 < p.mass) :
    PhysicalEvent pdg ev ∧ ∃ u, IsDirection dir u ∧ Along ev u := by
  unfold Gen.createFixed at e
  rcases h1 : g.choose W pdg KE atom with x | ⟨rx, eng1⟩
  · rw [h1] at e; cases e
  rw [h1] at e
  dsimp only at e
  rcases hc : rx.create pdg KE eng1 with _ | ⟨x | ⟨ev1, eng2⟩⟩
  · rw [hc] at e; cases e
  · rw [hc] at e; cases e
  rw [hc] at e
  dsimp only at e
  rcases hd : (if g.deexcite then W.decay ev1 eng2 else some (.ok (ev1, eng2)) :
      Option (Res (Event ℝ × G))) with _ | ⟨x | ⟨ev2, eng3⟩⟩
  · rw [hd] at e; cases e
  · rw [hd] at e; cases e
  rw [hd] at e
  dsimp only at e
  rcases hdir : rot.setDirection dir with x | rot1
  · rw [hdir] at e; cases e
  rw [hdir] at e
  dsimp only at e
  have hconf : Configured rot1 := by
    obtain ⟨r0, ops, k1, k2, k3⟩ := hr
    refine ⟨r0, ops ++ [.setDirection dir], k1, ?_, ?_⟩
    · intro ev2 c2 phi2 hm
      rcases List.mem_append.1 hm with hm | hm
      · exact k2 _ _ _ hm
      · simp at hm
    · rw [show rotRun r0 (ops ++ [RotOp.setDirection dir]) = rotStep (rotRun r0 ops) (.setDirection dir) by
        simp [rotRun], ← k3]
      simp [rotStep, hdir]
  obtain ⟨-, hdu, hrr⟩ := rotInv_setDirection hdir
  have hmem : rx ∈ g.reactions := by
    unfold Gen.choose at h1
    split at h1
    · cases h1
    · split_ifs at h1
      · split at h1
        · cases h1
        · split at h1
          · cases h1
          · split at h1
            · cases h1
            · rename_i hj
              cases h1
              exact List.mem_of_getElem? hj
  have hs1 := physical_sensible hEA (by rw [hEE]; exact hE) (hx rx hmem) hc
  have hfin : Marley.Gen.finish W g.deexcite rot1 ev1 eng2 = some (.ok (ev, rot', eng)) := by
    rw [← e]
    unfold Marley.Gen.finish
    rw [hd]
    rfl
  obtain ⟨a, b, c, -, -⟩ := finish_sensible hA hE hW hD hconf hfin hs1 hm
  refine ⟨a, rot1.dir, hdu, ?_⟩
  rw [← c (by rw [hrr]; exact hrand)]
  exact b

/-! ## Reactions as they are constructed -/

theorem ejectile_elastic {a c : Int} (h : Reaction.ejectile a .nuElectronElastic = .ok c) : c = a := by
  unfold Reaction.ejectile at h
  simp only [Reaction.projectiles] at h
  split_ifs at h
  all_goals first
    | contradiction
    | (cases h; rfl)

/-- A reaction on electrons that the program constructs is of that kind, if the masses in the table
make sense. -/
theorem C88_electron_setup {t : Mass.Table} (ht : ∀ id m, Mass.particleMass t id = .ok m → 0 ≤ m)
    (he : ∀ m, Mass.particleMass t 11 = .ok m → 0 < m) {pdg atom : Int} {r : Reaction.Electron}
    (h : Reaction.makeElectron t pdg atom = .ok r) (E : Env G) : Physical E (elRx E r) := by
  unfold Reaction.makeElectron at h
  split at h
  · cases h
  split at h
  · cases h
  rename_i pdgC hc
  have hcc : pdgC = pdg := ejectile_elastic hc
  subst hcc
  split at h
  · cases h
  rename_i ma hma
  split at h
  · cases h
  rename_i me hme
  dsimp only at h
  split at h
  · cases h
  cases h
  exact .electron _ ⟨ht _ _ hma, he _ hme, ht _ _ hma, rfl⟩ rfl

/-! ## Charge -/

/-- The reaction was loaded from a reaction file, or is a reaction on electrons that was constructed by
the program. -/
inductive Loaded (E : Env G) : Rx G → Prop
  | nuclear {c : Reaction.Ctx} {file : Option Json.Str} {rs : List Reaction.Reaction}
      {r : Reaction.Nuclear} {mode : Utils.CoulombMode} {n : Nuc} : Reaction.load c file = .ok rs →
      Reaction.Reaction.nuclear r ∈ rs → Nuc.of r mode = some n → Loaded E (n.rx E)
  | electron {t : Mass.Table} {pdg atom : Int} {r : Reaction.Electron} :
      Reaction.makeElectron t pdg atom = .ok r → Loaded E (elRx E r)

/-- Initial and final particles have the same total charge. -/
def ChargeKept (ev : Event ℝ) : Prop :=
  (ev.final.map (·.charge)).sum = (ev.initial.map (·.charge)).sum

theorem makeEvent_allCharges {r : Masses} {KEa c phi Elevel : ℝ} {sc : Scatter} {twoJ : Int} {P : Parity}
    {ev : Event ℝ} (e : makeEvent r KEa sc c phi Elevel twoJ P = .ok ev) :
    ∃ pr tg ej re, ev.initial = [pr, tg] ∧ ev.final = [ej, re] ∧
      Pdg.charge r.pdgA = .ok pr.charge ∧ Pdg.charge r.pdgB = .ok tg.charge ∧
      Pdg.charge r.pdgC = .ok ej.charge ∧ Pdg.charge r.pdgD = .ok re.charge := by
  have key : ∀ {pdg : Int} {a b c d m : ℝ} {p : Particle ℝ}, Particle.mk6 pdg a b c d m = .ok p →
      Pdg.charge pdg = .ok p.charge := by
    intro pdg a b c d m p h
    unfold Particle.mk6 at h
    split at h
    · cases h; assumption
    · cases h
  unfold makeEvent at e
  simp only at e
  split at e
  · rename_i pr tg ej re h1 h2 h3 h4
    split at e
    · rename_i ej' re' h5 h6
      cases e
      exact ⟨pr, tg, ej', re', rfl, rfl, key h1, key h2, by rw [lorentzBoost_charge h5]; exact key h3,
        by rw [lorentzBoost_charge h6]; exact key h4⟩
    · cases e
    · cases e
  all_goals cases e

theorem loaded_charge {E : Env G} {rx : Rx G} (h : Loaded E rx) {pdg : Int} {KE : ℝ} {g g' : G}
    {ev : Event ℝ} (e : rx.create pdg KE g = some (.ok (ev, g'))) : ChargeKept ev := by
  cases h with
  | nuclear h1 h2 h3 =>
    obtain ⟨pr, tg, ej, re, k1, k2, -, -, -, -, k3⟩ := C84_charge h1 h2 h3 e
    simp only [ChargeKept, k1, k2, List.map_cons, List.map_nil, List.sum_cons, List.sum_nil]
    omega
  | electron hr =>
    rename_i t a atom r
    have hc : r.pdgC = r.pdgA := by
      unfold Reaction.makeElectron at hr
      split at hr
      · cases hr
      split at hr
      · cases hr
      rename_i pdgC hc
      have hcc : pdgC = a := ejectile_elastic hc
      repeat' split at hr
      all_goals first
        | (cases hr; done)
        | (cases hr; exact hcc)
    change elCreate E r pdg KE g = _ at e
    unfold elCreate at e
    by_cases h1 : pdg ≠ r.pdgA
    · rw [if_pos h1] at e; cases e
    rw [if_neg h1] at e
    by_cases h2 : KE < threshold (elMasses r)
    · rw [if_pos h2] at e; cases e
    rw [if_neg h2] at e
    simp only at e
    split at e
    · cases e
    · cases e
    · split at e
      · cases e
      · rename_i hme
        cases e
        obtain ⟨pr, tg, ej, re, k1, k2, k3, k4, k5, k6⟩ := makeEvent_allCharges hme
        simp only [elMasses, hc] at k3 k4 k5 k6
        rw [k3] at k5
        rw [k4] at k6
        simp only [Except.ok.injEq] at k5 k6
        simp only [ChargeKept, k1, k2, List.map_cons, List.map_nil, List.sum_cons, List.sum_nil, k5, k6]

theorem process_charges {r r' : Rotator} {ev ev' : Event ℝ} {c phi : ℝ}
    (h : r.process ev c phi = .ok (r', ev')) : ev'.initial.map (·.charge) = ev.initial.map (·.charge) ∧
      ev'.final.map (·.charge) = ev.final.map (·.charge) := by
  have key : ∀ (r r' : Rotator) (d : V3), r.apply d ev = .ok (r', ev') →
      ev'.initial.map (·.charge) = ev.initial.map (·.charge) ∧
      ev'.final.map (·.charge) = ev.final.map (·.charge) := by
    intro r r' d h
    unfold Rotator.apply at h
    split_ifs at h
    · cases h; exact ⟨rfl, rfl⟩
    · split at h
      · cases h
      · cases h
        constructor <;> simp [rotateEvent, rotateParticle, Function.comp_def]
    · cases h
      constructor <;> simp [rotateEvent, rotateParticle, Function.comp_def]
  unfold Rotator.process at h
  split at h
  · cases h
  · dsimp only at h
    split_ifs at h
    · cases h; exact ⟨rfl, rfl⟩
    · split at h
      · cases h
      · exact key _ _ _ h
    · exact key _ _ _ h

/-- C88: every event that the generator makes conserves electric charge between all the initial and
all the final particles, for reactions loaded from files in any mixture. -/
theorem C88_charge {W : World G} {A : Arith} {fuel : Nat} {D : Data}
    (hW : W.decay = Decay.decayer A W.engine fuel D) (hF : Decay.NuclearFragments D) {E : Env G} {g g' : Gen G}
    (hx : ∀ r ∈ g.reactions, Loaded E r) {ev : Event ℝ}
    (e : g.createEvent W = some (.ok (ev, g'))) : ChargeKept ev := by
  unfold Gen.createEvent at e
  rcases hs : g.sampleReaction W with _ | ⟨x | ⟨i, KE, g1⟩⟩
  · rw [hs] at e; cases e
  · rw [hs] at e; cases e
  rw [hs] at e
  dsimp only at e
  have k1 : g1.reactions = g.reactions := by
    unfold Gen.sampleReaction at hs
    by_cases h0 : g.reactions.isEmpty
    · rw [if_pos h0] at hs; cases hs
    · rw [if_neg h0] at hs
      split at hs
      · cases hs
      · cases hs
      · split at hs
        · cases hs
        · split_ifs at hs
          · cases hs; rfl
          · cases hs
  rcases hi : g1.reactions[i]? with _ | rx
  · rw [hi] at e; cases e
  rw [hi] at e
  dsimp only at e
  rcases hc : rx.create g1.source.pid KE g1.eng with _ | ⟨x | ⟨ev1, eng⟩⟩
  · rw [hc] at e; cases e
  · rw [hc] at e; cases e
  rw [hc] at e
  dsimp only at e
  rcases hf : Marley.Gen.finish W g1.deexcite g1.rotator ev1 eng with _ | ⟨x | ⟨ev2, r2, eng2⟩⟩
  · rw [hf] at e; cases e
  · rw [hf] at e; cases e
  rw [hf] at e
  cases e
  have hmem : rx ∈ g.reactions := by rw [← k1]; exact List.mem_of_getElem? hi
  have hq := loaded_charge (hx rx hmem) hc
  unfold Marley.Gen.finish at hf
  rcases hd : (if g1.deexcite then W.decay ev1 eng else some (.ok (ev1, eng)) : Option (Res (Event ℝ × G)))
    with _ | ⟨x | ⟨ev3, g3⟩⟩
  · rw [hd] at hf; cases hf
  · rw [hd] at hf; cases hf
  rw [hd] at hf
  dsimp only at hf
  have hq3 : ChargeKept ev3 := by
    cases hdx : g1.deexcite with
    | false => rw [hdx] at hd; simp only [Bool.false_eq_true, if_false] at hd; cases hd; exact hq
    | true =>
      rw [hdx] at hd
      simp only [if_true] at hd
      rw [hW] at hd
      unfold Decay.decayer at hd
      rcases h : Decay.process A W.engine fuel D ev1 eng with _ | ⟨ev4, r⟩
      · rw [h] at hd; cases hd
      · rw [h] at hd
        rcases r with x | g4
        · cases hd
        · simp only [Option.map_some, Except.map, Option.some.injEq, Except.ok.injEq, Prod.mk.injEq] at hd
          obtain ⟨rfl, rfl⟩ := hd
          have hi : ev4.initial = ev1.initial := by
            rcases C50_kept h with h | ⟨_, _, _, _, _, _, h⟩ <;> rw [h]
          unfold ChargeKept
          rw [C50_charge hF h, hi]
          exact hq
  split at hf
  · cases hf
  · rename_i hp
    cases hf
    obtain ⟨p1, p2⟩ := process_charges hp
    unfold ChargeKept
    rw [p1, p2]
    exact hq3

/-! ## An example -/

theorem ion_pos : (0 : ℝ) < 40 * Mass.microAmu := by norm_num [Mass.microAmu]

/-- Neutrinos that excite potassium-40 to its level at 10 keV. -/
noncomputable def ionNuc : Nuc :=
  { exNuc [⟨1 / 100, 1, 1, none⟩] with
    pdgB := 1000190400, pdgD := 1000190400, Zi := 19, Zf := 19, mb := 40 * Mass.microAmu,
    md := 40 * Mass.microAmu }

/-- Nuclear data for that. -/
noncomputable def ionEnv : Env Unit := { exEnv with gs := fun _ => .ok (0, ⟨true⟩) }

/-- The energy of the neutrino. -/
noncomputable def ionEnergy : ℝ := 3 / 2 * (40 * Mass.microAmu)

theorem ionNuc_good : ionNuc.Good where
  a := le_refl _
  b := ion_pos
  c := le_refl _
  d := ion_pos
  strength := by simp [ionNuc, exNuc]
  energy := by simp [ionNuc, exNuc, Reaction.MatEl.levelEnergy]
  type := by simp [ionNuc, exNuc]
  proc := Or.inr (Or.inr rfl)

theorem ionNuc_known : KnownCodes (ionNuc.masses 0) :=
  ⟨⟨0, by decide⟩, ⟨19, by decide⟩, ⟨0, by decide⟩, ⟨19, by decide⟩⟩

theorem ion_xs : ∃ x, 0 < x ∧ ionNuc.totalXs ionEnv.fermi 12 ionEnergy = .ok x ∧
    ionNuc.choose ionEnv 12 ionEnergy () = .ok (⟨1 / 100, 1, 1, none⟩, ()) := by
  have hM := ion_pos
  have h1 : (1 / 100 : ℝ) < 40 * Mass.microAmu := by norm_num [Mass.microAmu]
  have hK : 0 < ionEnergy := by unfold ionEnergy; linarith
  have hr : ionNuc.mc + (ionNuc.md + (1 / 100 : ℝ)) < Real.sqrt ((ionNuc.ma + ionNuc.mb) ^ 2 + 2 * ionNuc.mb * ionEnergy) := by
    refine Real.lt_sqrt_of_sq_lt ?_
    simp only [ionNuc, exNuc, ionEnergy]
    nlinarith
  have hb := base_pos ionNuc_good hK.le (show 0 < ionNuc.md + (1 / 100 : ℝ) by simp only [ionNuc]; linarith) hr
  have hmax : (ionNuc.maxLevel ionEnergy).lt
      (.num (Reaction.MatEl.levelEnergy ⟨1 / 100, 1, 1, none⟩)) = false :=
    (reaches_iff ionNuc_good hK.le ⟨1 / 100, 1, 1, none⟩).1 (by unfold Nuc.Reaches; exact hr.le)
  obtain ⟨x, b, hx, hx0⟩ : ∃ x b, levelXs ionEnv.fermi ionNuc ⟨1 / 100, 1, 1, none⟩ ionEnergy = .ok (.num x, b) ∧
      0 < x := by
    rw [levelXs_eq ionNuc_good hK.le]
    simp only [show ionNuc.proc = .nc from rfl, if_neg (show ¬ (1 : Int) = 0 by omega), mul_one,
      Reaction.MatEl.levelEnergy]
    exact ⟨_, _, rfl, hb.1⟩
  have hp : partials ionEnv.fermi ionNuc ionEnergy none ionNuc.elements = .ok [x] := by
    show partials ionEnv.fermi ionNuc ionEnergy none [⟨1 / 100, 1, 1, none⟩] = .ok [x]
    rw [partials, if_neg (Bool.eq_false_iff.1 hmax), if_neg (by norm_num), hx]
    simp only [counted, partials]
  have ht : ¬ ionEnergy < threshold (ionNuc.masses 0) := by
    have : threshold (ionNuc.masses 0) = 0 := by
      simp [threshold, Nuc.masses, ionNuc, exNuc]
    rw [this]; exact not_lt.2 hK.le
  refine ⟨x, hx0, ?_, ?_⟩
  · unfold Nuc.totalXs summed
    rw [if_neg (by simp [ionNuc, exNuc])]
    simp only [Bool.false_eq_true, if_false]
    rw [if_neg (not_le.2 hK), hp]
    simp [Except.map]
  · unfold Nuc.choose summed
    rw [if_neg (by simp [ionNuc, exNuc]), if_neg ht, if_neg (by simp [ionNuc, exNuc])]
    simp only [Bool.false_eq_true, if_false]
    rw [if_neg (not_le.2 hK), hp]
    simp only [List.isEmpty_cons, Bool.false_eq_true, if_false]
    rw [if_neg (by simp; linarith)]
    simp [Sampling.pickFrom, ionNuc, exNuc]

theorem ion_event : ∃ ev pr tg ej re, ionNuc.createEvent ionEnv 12 ionEnergy () = some (.ok (ev, ())) ∧
    ev.initial = [pr, tg] ∧ ev.final = [ej, re] ∧ ev.Ex = 1 / 100 ∧ re.pdg = 1000190400 ∧ OnShell re ∧
    re.mass = 40 * Mass.microAmu + 1 / 100 := by
  obtain ⟨x, -, -, hm⟩ := ion_xs
  have hM := ion_pos
  have h1 : (1 / 100 : ℝ) < 40 * Mass.microAmu := by norm_num [Mass.microAmu]
  have hK : 0 ≤ ionEnergy := by unfold ionEnergy; linarith
  have hR : Reachable (ionNuc.masses (1 / 100)) ionEnergy := by
    unfold Reachable
    simp only [Nuc.masses, ionNuc, exNuc, ionEnergy]
    nlinarith
  have hE : (0 : ℝ) ≤ 1 / 100 := by norm_num
  have hs : Real.sqrt (4 * (40 * Mass.microAmu) ^ 2) = 2 * (40 * Mass.microAmu) := by
    rw [show 4 * (40 * Mass.microAmu : ℝ) ^ 2 = (2 * (40 * Mass.microAmu)) ^ 2 by ring]
    exact Real.sqrt_sq (by linarith)
  have hEc : (twoTwoScatter (ionNuc.masses (1 / 100)) ionEnergy).Ec
      = (4 * (40 * Mass.microAmu) ^ 2 - (40 * Mass.microAmu + 1 / 100) ^ 2) / (4 * (40 * Mass.microAmu)) := by
    unfold twoTwoScatter
    simp only [Nuc.masses, ionNuc, exNuc, ionEnergy]
    rw [show ((0 : ℝ) * 0 + 40 * Mass.microAmu * (40 * Mass.microAmu)
      + 2 * (40 * Mass.microAmu) * (3 / 2 * (40 * Mass.microAmu) + 0))
      = 4 * (40 * Mass.microAmu) ^ 2 by ring, hs]
    ring
  have hEc0 : 0 < (twoTwoScatter (ionNuc.masses (1 / 100)) ionEnergy).Ec := by
    rw [hEc]
    refine div_pos ?_ (by linarith)
    nlinarith
  have hpc : (twoTwoScatter (ionNuc.masses (1 / 100)) ionEnergy).pc
      = (twoTwoScatter (ionNuc.masses (1 / 100)) ionEnergy).Ec := by
    have e : (twoTwoScatter (ionNuc.masses (1 / 100)) ionEnergy).pc
      = Utils.realSqrt ((twoTwoScatter (ionNuc.masses (1 / 100)) ionEnergy).Ec ^ 2 - 0 * 0) := rfl
    rw [e, mul_zero, sub_zero, Xs.realSqrt_eq (sq_nonneg _), Real.sqrt_sq hEc0.le]
  have hfd : Utils.fdiv (twoTwoScatter (ionNuc.masses (1 / 100)) ionEnergy).pc
      (twoTwoScatter (ionNuc.masses (1 / 100)) ionEnergy).Ec = some 1 := by
    rw [hpc]
    unfold Utils.fdiv
    rw [if_neg hEc0.ne', div_self hEc0.ne']
  have hsc : sampleCos ionEnv ⟨1 / 100, 1, 1, none⟩ 1 () = some (.ok (0, ())) := by
    unfold sampleCos cosMax
    have hd : ∀ c, cosDensity ⟨1 / 100, 1, 1, none⟩ c 1 = .ok ((3 - 1 * c) / 6) := by
      intro c
      unfold cosDensity
      rw [cosPdf_num (Or.inr rfl), if_neg (by decide)]
    rw [if_neg (by decide), if_pos rfl, hd]
    simp only [hd, Sampling.rejectionSample, ionEnv, exEnv, Sampling.rejectLoop, Sampling.uniform, exact,
      Sampling.half, Except.map]
    norm_num
  have hsp : spinParity ionEnv ionNuc ⟨1 / 100, 1, 1, none⟩ 0 ⟨true⟩ () = .ok (2, ⟨true⟩, ()) := by
    unfold spinParity
    simp only [ionEnv, exEnv]
    simp
  obtain ⟨pr, tg, ej, re, hev, -, -, -, ⟨q1, q2, q3⟩, -⟩ := C34_conserves (c := 0)
    (Sampling.uniform ionEnv.arith ionEnv.engine 0 (2 * Real.pi) false ()).1 (1 / 100) 2 ⟨true⟩
    (Nuc.Good.masses ionNuc_good hE)
    ⟨ionNuc_known.a, ionNuc_known.b, ionNuc_known.c, ionNuc_known.d⟩ hK hR (by norm_num)
  refine ⟨⟨[pr, { tg with charge := 0 }], [ej, { re with charge := 0 }], 1 / 100, 2, ⟨true⟩⟩, pr,
    { tg with charge := 0 }, ej, { re with charge := 0 }, ?_, rfl, rfl, rfl, q1, ?_, q2⟩
  · unfold Nuc.createEvent
    rw [hm]
    simp only [hfd, hsc, Reaction.MatEl.levelEnergy]
    simp only [show ionEnv.gs ionNuc.pdgB = .ok (0, ⟨true⟩) from rfl]
    rw [show (Sampling.uniform ionEnv.arith ionEnv.engine 0 (2 * Real.pi) false ()).2 = () from rfl, hsp]
    simp only [hev, setCharges, Event.setChargeAt, List.getElem?_cons_succ, List.getElem?_cons_zero]
    rfl
  · exact ⟨q3.shell, q3.energy, q3.mass⟩

/-- A generator with that reaction and a flat source. -/
noncomputable def ionGen (bound : ℝ) : Gen Unit where
  seed := 0
  eng := ()
  norm := 1
  source := ⟨12, 40 * Mass.microAmu, 2 * (40 * Mass.microAmu), fun _ => 1⟩
  target := none
  reactions := [ionNuc.rx ionEnv]
  values := [0]
  weightFlux := true
  pdfMax := some bound
  pdfMaxDefault := none
  frozen := false
  rotator := Rotator.fresh ⟨0, 0, 1⟩
  deexcite := true

/-- Everything around it. -/
noncomputable def ionWorld : World Unit :=
  ⟨exact, Sampling.half, 2, Decay.decayer exact Sampling.half 2 (gapData (1 / 100))⟩

theorem fresh_configured : Configured (Rotator.fresh ⟨0, 0, 1⟩) := by
  obtain ⟨u, h1, h2⟩ := isDirection_normalize (v := ⟨0, 0, 1⟩) (by simp [V3.Nonzero])
  have h3 : u = ⟨0, 0, 1⟩ :=
    isDirection_unique h2 ⟨by norm_num [dot], 1, by norm_num, by norm_num⟩
  subst h3
  refine ⟨Rotator.fresh ⟨0, 0, 1⟩, [], ?_, by intro ev c phi h; simp at h, rfl⟩
  rw [Rotator.make, if_neg (by norm_num), h1]
  rfl

theorem half_ok : (Sampling.half).Lawful := fun _ => by norm_num [Sampling.half]

theorem gap_masses (d : ℝ) : MassesNonneg (gapData d) := by
  have hu : (0 : ℝ) < Mass.microAmu := by norm_num [Mass.microAmu]
  intro id m h
  simp only [Mass.particleMass, gapData] at h
  split_ifs at h <;> simp at h <;> rw [← h] <;> positivity

/-- Non-vacuity: a neutrino excites a nucleus of potassium-40, which emits a gamma ray. -/
theorem ion_creates : (∀ r ∈ (ionGen 1).reactions, Physical ionEnv r) ∧ Configured (ionGen 1).rotator ∧
    MassesNonneg (gapData (1 / 100)) ∧
    ∃ bound ev g', (ionGen bound).createEvent ionWorld = some (.ok (ev, g')) ∧ ev.final.length = 3 ∧
      (∀ p, ev.final[1]? = some p → 0 < p.mass) ∧ PhysicalEvent 12 ev := by
  have hx : ∀ b, ∀ r ∈ (ionGen b).reactions, Physical ionEnv r := by
    intro b r hr
    simp only [ionGen, List.mem_singleton] at hr
    subst hr
    exact .nuclear ionNuc ionNuc_good
  refine ⟨hx 1, fresh_configured, gap_masses _, ?_⟩
  obtain ⟨x, hx0, ht, -⟩ := ion_xs
  obtain ⟨ev, pr, tg, ej, re, he, hi, hf, hEx, hp, hon, hmass⟩ := ion_event
  have hM := ion_pos
  obtain ⟨nuc, gam, k1, k2, k3, k4, k5⟩ := gap_emits (E := Sampling.half) (g := ())
    (by norm_num [Sampling.half]) (d := 1 / 100) (by norm_num) (by norm_num) hp hon
    (by rw [hmass]; norm_num) (by rw [hmass]; norm_num) hf hEx
  have hd : ionWorld.decay ev () = some (.ok ({ ev with final := ej :: nuc :: ([] ++ [gam]) }, ())) := by
    show Decay.decayer exact Sampling.half 2 (gapData (1 / 100)) ev () = _
    rw [Decay.decayer, k1]
    rfl
  generalize hev1 : ({ ev with final := ej :: nuc :: ([] ++ [gam]) } : Event ℝ) = ev1 at hd
  have hi1 : ev1.initial = pr :: [tg] := by rw [← hev1]; exact hi
  have hf1 : ev1.final.map (·.mass) = [ej.mass, nuc.mass, gam.mass] := by rw [← hev1]; rfl
  obtain ⟨r', ev2, hproc, hfm⟩ : ∃ r' ev2, (Rotator.fresh ⟨0, 0, 1⟩).process ev1
      (direction ionWorld (Rotator.fresh ⟨0, 0, 1⟩) ev1 ()).1
      (direction ionWorld (Rotator.fresh ⟨0, 0, 1⟩) ev1 ()).2.1 = .ok (r', ev2) ∧
      ev2.final.map (·.mass) = ev1.final.map (·.mass) := by
    have hc := direction_cos (W := ionWorld) rfl half_ok (Rotator.fresh ⟨0, 0, 1⟩) ev1 ()
    have hs := physical_sensible (E := ionEnv) rfl half_ok (.nuclear ionNuc ionNuc_good) he
    have hs1 := decayed_sensible (E := Sampling.half) half_ok (gap_masses (1 / 100)) hd hs (by
      intro p hp
      rw [← hev1] at hp
      simp only [List.getElem?_cons_succ, List.getElem?_cons_zero, Option.some.injEq] at hp
      rw [← hp, k5]; exact hM)
    by_cases hz : (momentumOf pr).Nonzero
    · obtain ⟨u, -, hu⟩ := isDirection_normalize hz
      obtain ⟨r2, ev2, e1, -⟩ := process_spec (configured_inv fresh_configured) hi1
        (direction ionWorld (Rotator.fresh ⟨0, 0, 1⟩) ev1 ()).2.1 hc hu
      exact ⟨r2, ev2, e1, (process_sensible fresh_configured hc e1 hs1).2.2.2.2⟩
    · exact ⟨_, _, C49_at_rest _ hi1 hz _ _, rfl⟩
  have hpdf : ∀ v, (ionGen x).ePdf ionEnergy [v] = .ok (x, [x]) := by
    intro v
    have ht' : (ionNuc.rx ionEnv).totalXs 12 ionEnergy = .ok x := ht
    simp [Gen.ePdf, Gen.pdfLoop, Gen.weighted, ionGen, ht']
  have hsamp : (ionGen x).sampleReaction ionWorld
      = some (.ok (0, ionEnergy, { ionGen x with values := [x] })) := by
    have hloop : Sampling.rejectionSample exact Sampling.half 2 (ionGen x).ePdf (40 * Mass.microAmu)
        (2 * (40 * Mass.microAmu)) (some x) 1.01 1e-8 () [0] = some (.ok ⟨ionEnergy, x / 2, x, (), [x]⟩) := by
      have hu : (Sampling.uniform exact Sampling.half (40 * Mass.microAmu) (2 * (40 * Mass.microAmu)) true ())
          = (ionEnergy, ()) := by
        simp only [Sampling.uniform, exact, Sampling.half, ionEnergy, if_true, id]
        congr 1; ring
      have hy : (Sampling.uniform exact Sampling.half 0 x true ()) = (x / 2, ()) := by
        simp only [Sampling.uniform, exact, Sampling.half, if_true, id]
        congr 1; ring
      simp only [Sampling.rejectionSample, Sampling.rejectLoop, hu, hy, hpdf]
      rw [if_neg (show ¬ x / 2 > x by linarith), if_neg (lt_irrefl x)]
    unfold Gen.sampleReaction
    rw [if_neg (by simp [ionGen])]
    have : Sampling.rejectionSample ionWorld.arith ionWorld.engine ionWorld.fuel (ionGen x).ePdf
      (ionGen x).source.Emin (ionGen x).source.Emax (ionGen x).pdfMax 1.01 1e-8 (ionGen x).eng (ionGen x).values
      = some (.ok ⟨ionEnergy, x / 2, x, (), [x]⟩) := hloop
    rw [this]
    simp [Sampling.pickFrom, ionGen]
  have hall : (ionGen x).createEvent ionWorld = some (.ok (ev2, { ionGen x with values := [x], rotator := r' })) := by
    unfold Gen.createEvent
    rw [hsamp]
    have he' : (ionNuc.rx ionEnv).create 12 ionEnergy () = some (.ok (ev, ())) := he
    simp only [ionGen, List.getElem?_cons_zero, he']
    unfold Marley.Gen.finish
    simp only [if_true, hd, hproc]
  have hpos : ∀ p, ev2.final[1]? = some p → 0 < p.mass := by
    refine mass_of_map (hfm.symm) (l' := ev1.final) ?_
    intro p hp
    rw [← hev1] at hp
    simp only [List.getElem?_cons_succ, List.getElem?_cons_zero, Option.some.injEq] at hp
    rw [← hp, k5]; exact hM
  refine ⟨x, ev2, _, hall, ?_, hpos, ?_⟩
  · have := congrArg List.length hfm
    rw [hf1] at this
    simpa using this
  · exact (C88_event (E := ionEnv) rfl half_ok rfl (gap_masses _) rfl rfl (hx x) fresh_configured hall hpos).1

/-- Masses of an electron neutrino and an electron, in units of the latter. -/
noncomputable def elTable : Mass.Table :=
  ⟨fun id => if id = 11 then some (1 / Mass.microAmu) else if id = 12 then some 0 else none, fun _ => none⟩

/-- Scattering of electron neutrinos on the electrons of argon. -/
noncomputable def elReaction : Reaction.Electron :=
  ⟨12, 12, 1000180400, 1 / 2 + Reaction.sin2thetaw, Reaction.sin2thetaw, 0, 1, 0, 1⟩

theorem elReaction_made : Reaction.makeElectron elTable 12 1000180400 = .ok elReaction := by
  have hu : Mass.microAmu ≠ 0 := by norm_num [Mass.microAmu]
  have h0 : Target.atom 1000180400 = .ok 1000180400 := by decide
  have h1 : Reaction.ejectile 12 .nuElectronElastic = .ok 12 := by decide
  have h2 : Mass.particleMass elTable 12 = .ok 0 := by simp [Mass.particleMass, elTable]
  have h3 : Mass.particleMass elTable Mass.ELECTRON = .ok 1 := by
    simp [Mass.particleMass, elTable, Mass.ELECTRON, hu]
  have h4 : Reaction.couplings 12 = .ok (1 / 2 + Reaction.sin2thetaw, Reaction.sin2thetaw) := by
    simp [Reaction.couplings]
  simp only [Reaction.makeElectron, h0, h1, h2, h3, h4, elReaction]

theorem elReaction_good : ElectronGood elReaction := by
  constructor <;> norm_num [elReaction]

theorem el_event : ∃ ev, elCreate exEnv elReaction 12 (3 / 2) () = some (.ok (ev, ())) := by
  have ht : threshold (elMasses elReaction) = 0 := by norm_num [threshold, elMasses, elReaction]
  have hs : elS elReaction (3 / 2) = 4 := by norm_num [elS, elReaction]
  obtain ⟨K, hK, hd⟩ : ∃ K, 0 ≤ K ∧ ∀ c, elDiff elReaction 12 (3 / 2) c
      = K * (elReaction.g1 ^ 2 + elReaction.g1 * elReaction.g2 * (1 / 4) * (c - 1)
        + (elReaction.g2 * (1 + 1 / 2 * (1 - 1 / 4) * (c - 1))) ^ 2) := by
    refine ⟨2 / Real.pi * (Xs.GF * elEc elReaction (3 / 2)) ^ 2 * 18, ?_, fun c => ?_⟩
    · have := Real.pi_pos
      positivity
    · unfold elDiff
      rw [if_neg (by decide), if_neg (by rw [ht]; norm_num), hs,
        show Pdg.getZ elReaction.atom = 18 by decide +kernel]
      simp only [show elReaction.md = 1 from rfl]
      push_cast
      ring
  have hmax : ∀ c, -1 ≤ c → c ≤ 1 → elDiff elReaction 12 (3 / 2) c ≤ 2 * elDiff elReaction 12 (3 / 2) 0 := by
    intro c h1 h2
    rw [hd, hd]
    rw [mul_left_comm]
    refine mul_le_mul_of_nonneg_left ?_ hK
    simp only [elReaction, Reaction.sin2thetaw]
    nlinarith
  have hpos : 0 ≤ elDiff elReaction 12 (3 / 2) 0 := by
    rw [hd]
    refine mul_nonneg hK ?_
    simp only [elReaction, Reaction.sin2thetaw]
    norm_num
  have hb : elBound elReaction 12 (3 / 2) (twoTwoScatter (elMasses elReaction) (3 / 2)).s
      ≤ 2 * elDiff elReaction 12 (3 / 2) 0 := by
    unfold elBound
    refine max_le (max_le (hmax _ le_rfl (by norm_num)) (hmax _ (by norm_num) le_rfl)) ?_
    have hlow : lowest ≤ 2 * elDiff elReaction 12 (3 / 2) 0 := by
      have : lowest ≤ 0 := by
        have h1 : (2 : ℝ) ^ (-52 : ℤ) ≤ 1 := by norm_num
        have h2 : (0 : ℝ) < 2 ^ (1023 : ℤ) := by positivity
        unfold lowest
        generalize (2 : ℝ) ^ (-52 : ℤ) = t at *
        generalize (2 : ℝ) ^ (1023 : ℤ) = X at *
        nlinarith
      linarith
    split
    · exact hlow
    · split_ifs with h
      · exact hmax _ h.1 h.2
      · exact hlow
  have hsample : Sampling.rejectionSample exact Sampling.half 1
      (fun c (_ : Unit) => .ok (elDiff elReaction 12 (3 / 2) c, ())) (-1) 1
      (some (elBound elReaction 12 (3 / 2) (twoTwoScatter (elMasses elReaction) (3 / 2)).s)) 1.01 1e-8 () ()
      = some (.ok ⟨0, elBound elReaction 12 (3 / 2) (twoTwoScatter (elMasses elReaction) (3 / 2)).s / 2,
        if elDiff elReaction 12 (3 / 2) 0 >
            elBound elReaction 12 (3 / 2) (twoTwoScatter (elMasses elReaction) (3 / 2)).s
          then elDiff elReaction 12 (3 / 2) 0 * 1.01
          else elBound elReaction 12 (3 / 2) (twoTwoScatter (elMasses elReaction) (3 / 2)).s, (), ()⟩) := by
    generalize elBound elReaction 12 (3 / 2) (twoTwoScatter (elMasses elReaction) (3 / 2)).s = b at *
    have hu : (Sampling.uniform exact Sampling.half (-1) 1 true ()) = (0, ()) := by
      simp only [Sampling.uniform, exact, Sampling.half, if_true, id]
      norm_num
    have hy : (Sampling.uniform exact Sampling.half 0 b true ()) = (b / 2, ()) := by
      simp only [Sampling.uniform, exact, Sampling.half, if_true, id]
      congr 1; ring
    simp only [Sampling.rejectionSample, Sampling.rejectLoop, hu, hy]
    rw [if_neg (show ¬ b / 2 > elDiff elReaction 12 (3 / 2) 0 by linarith)]
  obtain ⟨pr, tg, ej, re, hev, -⟩ := C34_conserves (c := 0)
    (Sampling.uniform exact Sampling.half 0 (2 * Real.pi) false ()).1 0 1 ⟨true⟩
    elReaction_good.masses ⟨⟨0, by decide⟩, ⟨-1, by decide⟩, ⟨0, by decide⟩, ⟨-1, by decide⟩⟩
    (show (0 : ℝ) ≤ 3 / 2 by norm_num) ((C35_threshold elReaction_good.masses (by norm_num)).1.1
      (by rw [ht]; norm_num)) (by norm_num)
  refine ⟨⟨[pr, tg], [ej, re], 0, 1, ⟨true⟩⟩, ?_⟩
  unfold elCreate
  rw [if_neg (show ¬ (12 : Int) ≠ elReaction.pdgA by decide),
    if_neg (show ¬ (3 / 2 : ℝ) < threshold (elMasses elReaction) by rw [ht]; norm_num)]
  simp only [exEnv, hsample, hev]

/-- A generator with that reaction and a flat source. -/
noncomputable def elGen (bound : ℝ) : Gen Unit :=
  { ionGen bound with source := ⟨12, 1, 2, fun _ => 1⟩, reactions := [elRx exEnv elReaction], deexcite := false }

/-- Non-vacuity of `C88_charge`: an electron neutrino is scattered on an electron. -/
example : Decay.NuclearFragments (gapData (1 / 100)) ∧ (∀ r ∈ (elGen 1).reactions, Loaded exEnv r) ∧
    (∀ r ∈ (elGen 1).reactions, Physical exEnv r) ∧
    ∃ bound ev g', (elGen bound).createEvent ionWorld = some (.ok (ev, g')) ∧ ChargeKept ev := by
  have hx : ∀ b, ∀ r ∈ (elGen b).reactions, Loaded exEnv r := by
    intro b r hr
    simp only [elGen, List.mem_singleton] at hr
    subst hr
    exact .electron elReaction_made
  have hF := (gap_sane (d := 1 / 100) (by norm_num)).2.2.2.2.1
  have ht : threshold (elMasses elReaction) = 0 := by norm_num [threshold, elMasses, elReaction]
  refine ⟨hF, hx 1, ?_, ?_⟩
  · intro r hr
    simp only [elGen, List.mem_singleton] at hr
    subst hr
    exact .electron _ elReaction_good rfl
  have hp : 0 < elTotal elReaction 12 (3 / 2) := C40_positive elReaction_good (by norm_num)
    (by rw [ht]; norm_num) (by rw [show Pdg.getZ elReaction.atom = 18 by decide +kernel]; norm_num)
    (Or.inl (by norm_num [elReaction, Reaction.sin2thetaw])) rfl
  obtain ⟨ev, hev⟩ := el_event
  generalize hxx : elTotal elReaction 12 (3 / 2) = x at hp
  have hpdf : ∀ v, (elGen x).ePdf (3 / 2) [v] = .ok (x, [x]) := by
    intro v
    simp [Gen.ePdf, Gen.pdfLoop, Gen.weighted, elGen, ionGen, elRx, hxx]
  have hsamp : (elGen x).sampleReaction ionWorld
      = some (.ok (0, 3 / 2, { elGen x with values := [x] })) := by
    have hloop : Sampling.rejectionSample exact Sampling.half 2 (elGen x).ePdf 1 2 (some x) 1.01 1e-8 () [0]
        = some (.ok ⟨3 / 2, x / 2, x, (), [x]⟩) := by
      have hu : (Sampling.uniform exact Sampling.half 1 2 true ()) = (3 / 2, ()) := by
        simp only [Sampling.uniform, exact, Sampling.half, if_true, id]
        norm_num
      have hy : (Sampling.uniform exact Sampling.half 0 x true ()) = (x / 2, ()) := by
        simp only [Sampling.uniform, exact, Sampling.half, if_true, id]
        congr 1; ring
      simp only [Sampling.rejectionSample, Sampling.rejectLoop, hu, hy, hpdf]
      rw [if_neg (show ¬ x / 2 > x by linarith), if_neg (lt_irrefl x)]
    unfold Gen.sampleReaction
    rw [if_neg (by simp [elGen])]
    have : Sampling.rejectionSample ionWorld.arith ionWorld.engine ionWorld.fuel (elGen x).ePdf
      (elGen x).source.Emin (elGen x).source.Emax (elGen x).pdfMax 1.01 1e-8 (elGen x).eng (elGen x).values
      = some (.ok ⟨3 / 2, x / 2, x, (), [x]⟩) := hloop
    rw [this]
    simp [Sampling.pickFrom, elGen, ionGen]
  obtain ⟨pr, tg, hi, -⟩ := (physical_sensible (E := exEnv) rfl half_ok
    (.electron _ elReaction_good rfl)
    (show (elRx exEnv elReaction).create 12 (3 / 2) () = _ from hev)).beam
  obtain ⟨r', ev2, hproc⟩ : ∃ r' ev2, (Rotator.fresh ⟨0, 0, 1⟩).process ev
      (direction ionWorld (Rotator.fresh ⟨0, 0, 1⟩) ev ()).1
      (direction ionWorld (Rotator.fresh ⟨0, 0, 1⟩) ev ()).2.1 = .ok (r', ev2) := by
    have hc := direction_cos (W := ionWorld) rfl half_ok (Rotator.fresh ⟨0, 0, 1⟩) ev ()
    by_cases hz : (momentumOf pr).Nonzero
    · obtain ⟨u, -, hu⟩ := isDirection_normalize hz
      obtain ⟨r2, ev2, e1, -⟩ := process_spec (configured_inv fresh_configured) hi
        (direction ionWorld (Rotator.fresh ⟨0, 0, 1⟩) ev ()).2.1 hc hu
      exact ⟨r2, ev2, e1⟩
    · exact ⟨_, _, C49_at_rest _ hi hz _ _⟩
  have hall : (elGen x).createEvent ionWorld = some (.ok (ev2, { elGen x with values := [x], rotator := r' })) := by
    unfold Gen.createEvent
    rw [hsamp]
    have he' : (elRx exEnv elReaction).create 12 (3 / 2) () = some (.ok (ev, ())) := hev
    simp only [elGen, ionGen, List.getElem?_cons_zero, he']
    unfold Marley.Gen.finish
    simp only [Bool.false_eq_true, if_false, hproc]
  exact ⟨x, ev2, _, hall, C88_charge rfl hF (hx x) hall⟩

end Marley.Props
