import Verif.Lemmas.Paths
import Verif.Props.Stages
import Verif.Props.WidthLaw

/-!
# C135: chains of decays are Markov chains

A compound nucleus decays again and again until it is no longer in the continuum.  The probability that it
passes through given states is the product of the probabilities of the single steps, and these depend on the nucleus
only through its energy, spin, parity and kind: not on its motion, and not on what happened before.
-/

set_option autoImplicit false

namespace Marley.Props
open Marley Marley.Sampling Marley.Decay Marley.Kin MeasureTheory

/-! ### Specification -/

/-- The probability of one step, for a nucleus at rest. -/
noncomputable def stepProb {Ω : Type} [MeasurableSpace Ω] (μ : Measure Ω) (E : Engine Ω) (fuel : Nat)
    (D : Data) (s t : Stage) : ENNReal :=
  μ {ω | ∃ q ω', hfDecay exact E fuel D s.rest s.Ex s.twoJ s.P ω = some (.ok (q, ω')) ∧ stage q = t}

/-- The product of the probabilities of the steps. -/
noncomputable def pathProb {Ω : Type} [MeasurableSpace Ω] (μ : Measure Ω) (E : Engine Ω) (fuel : Nat)
    (D : Data) : Stage → List Stage → ENNReal
  | _, [] => 1
  | s, t :: ts => stepProb μ E fuel D s t * pathProb μ E fuel D t ts

/-- A chain of decays from `s` on that is complete: only at its end the nucleus is below the continuum, or
its energy is below the cutoff. -/
def CompletePath : Stage → List Stage → Prop
  | s, [] => ¬ (s.continuum = true ∧ s.Ex > cutoff)
  | s, t :: ts => (s.continuum = true ∧ s.Ex > cutoff) ∧ CompletePath t ts

/-- The last stage. -/
def lastStage (s : Stage) (path : List Stage) : Stage := path.getLast?.getD s

/-! ### Lemmas -/

/-- The steps without the motion. -/
def Steps {G : Type} (E : Engine G) (fuel : Nat) (D : Data) : List Stage → Stage → G → Prop
  | [], _, _ => True
  | t :: ts, s, g => ∃ g', Steps E fuel D ts t g' ∧ moves E fuel D s g = some (.ok (t, g'))

theorem decay_steps {G : Type} {E : Engine G} {D : Data} {p : Particle ℝ} (hp : OnShell p) {s : Stage}
    (hs : s.Is p) (hM : 0 < s.mass) (fuel : Nat) (g g' : G) (t : Stage) :
    (∃ q, hfDecay exact E fuel D p s.Ex s.twoJ s.P g = some (.ok (q, g')) ∧ stage q = t)
      ↔ moves E fuel D s g = some (.ok (t, g')) := by
  rw [← decay_moves hp s hs hM fuel g]
  cases hfDecay exact E fuel D p s.Ex s.twoJ s.P g with
  | none => simp
  | some r =>
    cases r with
    | error e => simp [Except.map]
    | ok x =>
      simp only [Option.map_some, Except.map, Option.some.injEq, Except.ok.injEq, Prod.mk.injEq]
      constructor
      · rintro ⟨q, rfl, h⟩; exact ⟨h, rfl⟩
      · rintro ⟨h1, h2⟩; exact ⟨x.1, by rw [← h2], h1⟩

theorem stage_is (q : Product × Bool) : (stage q).Is q.1.nucleus := ⟨rfl, rfl, rfl⟩

theorem rest_shell (s : Stage) (hM : 0 < s.mass) : OnShell s.rest := by
  constructor <;> simp [Stage.rest, sq] <;> nlinarith

theorem passes_steps {G : Type} {E : Engine G} {D : Data}
    (hlight : ∀ id m, Mass.particleMass D.mass id = .ok m → 0 ≤ m) (fuel : Nat) (path : List Stage) :
    ∀ (s : Stage) (p : Particle ℝ) (g : G), OnShell p → s.Is p → 0 < s.mass → (∀ t ∈ path, 0 < t.mass) →
      Often E g → (Passes E fuel D path s p g ↔ Steps E fuel D path s g) := by
  induction path with
  | nil => intros; simp [Passes, Steps]
  | cons t ts ih =>
    intro s p g hp hs hM hts ho
    have ht : 0 < t.mass := hts t (by simp)
    have htl : ∀ u ∈ ts, 0 < u.mass := fun u hu => hts u (by simp [hu])
    have go : ∀ q g', hfDecay exact E fuel D p s.Ex s.twoJ s.P g = some (.ok (q, g')) → stage q = t →
        (Passes E fuel D ts t q.1.nucleus g' ↔ Steps E fuel D ts t g') := by
      intro q g' h1 h2
      have hm : q.1.nucleus.mass = t.mass := by rw [← h2]; rfl
      have := decay_shell hlight hp (hs.2.2 ▸ hM) ho h1 (by rw [hm]; exact ht.le)
      exact ih t _ _ this.1 (h2 ▸ stage_is q) ht htl this.2
    constructor
    · rintro ⟨q, g', h1, h2, h3⟩
      exact ⟨g', (go q g' h1 h2).1 h3, (decay_steps hp hs hM fuel g g' t).1 ⟨q, h1, h2⟩⟩
    · rintro ⟨g', h1, h2⟩
      obtain ⟨q, h3, h4⟩ := (decay_steps hp hs hM fuel g g' t).2 h2
      exact ⟨q, g', h3, h4, (go q g' h3 h4).2 h1⟩

section
variable {Ω : Type} [MeasurableSpace Ω] {μ : Measure Ω} {E : Engine Ω} {D : Data}

theorem steps_measurable (hI : Ideal E μ) (fuel : Nat) (path : List Stage) :
    ∀ s, MeasurableSet {ω | Steps E fuel D path s ω} := by
  induction path with
  | nil => intro s; simp [Steps]
  | cons t ts ih => intro s; exact (moves_renewing hI fuel s).meas t _ (ih t)

/-! ### Theorems -/

/-- **C135**, chains of decays: the probability that a nucleus in any motion passes through given states, one
decay after the other, is the product of the probabilities of the single decays, each of them for a nucleus at
rest and an engine that has not been used. -/
theorem C135_path (hI : Ideal E μ) (hlight : ∀ id m, Mass.particleMass D.mass id = .ok m → 0 ≤ m)
    (fuel : Nat) (path : List Stage) : ∀ (s : Stage) (nucleus : Particle ℝ), OnShell nucleus →
      s.Is nucleus → 0 < s.mass → (∀ t ∈ path, 0 < t.mass) →
      μ {ω | Passes E fuel D path s nucleus ω} = pathProb μ E fuel D s path := by
  have := hI.prob
  have key : ∀ s : Stage, 0 < s.mass → (∀ t ∈ path, 0 < t.mass) →
      μ {ω | Steps E fuel D path s ω} = pathProb μ E fuel D s path := by
    induction path with
    | nil => intro s _ _; simp [Steps, pathProb]
    | cons t ts ih =>
      intro s hM hts
      have h1 := (moves_renewing (D := D) hI fuel s).indep t _ (steps_measurable (D := D) hI fuel ts t)
      have h2 : stepProb μ E fuel D s t = μ (hits (fun ω => moves E fuel D s ω) t Set.univ) := by
        unfold stepProb hits
        congr 1
        ext ω
        simp only [Set.mem_ofPred_eq, Set.mem_univ, true_and]
        rw [exists_comm]
        exact exists_congr fun g' => decay_steps (rest_shell s hM) ⟨rfl, rfl, rfl⟩ hM fuel ω g' t
      rw [pathProb, h2, ← ih t (hts t (by simp)) fun u hu => hts u (by simp [hu]), ← h1]
      rfl
  intro s p hp hs hM hts
  rw [← key s hM hts]
  refine measure_congr ?_
  filter_upwards [often_ae hI] with ω ho
  exact propext (passes_steps hlight fuel path s p ω hp hs hM hts ho)

/-- **C135**, motion: the probability of a decay does not depend on how the nucleus moves. -/
theorem C135_motion (fuel : Nat) {s t : Stage} {p : Particle ℝ} (hp : OnShell p) (hs : s.Is p) (hM : 0 < s.mass) :
    μ {ω | ∃ q ω', hfDecay exact E fuel D p s.Ex s.twoJ s.P ω = some (.ok (q, ω')) ∧ stage q = t}
      = stepProb μ E fuel D s t := by
  unfold stepProb
  congr 1
  ext ω
  simp only [Set.mem_ofPred_eq]
  rw [exists_comm, exists_comm (α := Product × Bool)]
  exact exists_congr fun g' => (decay_steps hp hs hM fuel ω g' t).trans
    (decay_steps (rest_shell s hM) ⟨rfl, rfl, rfl⟩ hM fuel ω g' t).symm

theorem exit_ideal (hI : Ideal E μ) {ch : Channels} (h1 : 0 < ch.1) (q : Kind → Bool) (rest : List ℝ) :
    μ {ω | ∃ x ω', sampleExit E ch ω = .ok (x, ω') ∧ q x.kind = true}
      = unit {u | ∃ x g, sampleExit replay ch (u :: rest) = .ok (x, g) ∧ q x.kind = true} := by
  have := hI.prob
  by_cases h : (ch.2.map (·.width)).length < 2
  · have hp : IsProbabilityMeasure unit := by infer_instance
    have e : ∀ {G : Type} (F : Engine G) (g : G), (∃ x g', sampleExit F ch g = .ok (x, g') ∧ q x.kind = true)
        ↔ ∃ x, ch.2[0]? = some x ∧ q x.kind = true := by
      intro G F g
      simp only [sampleExit_iff h1, pickFrom, if_pos h, Except.ok.injEq, Prod.mk.injEq]
      constructor
      · rintro ⟨x, g', ⟨i, ⟨rfl, rfl⟩, h2⟩, h3⟩; exact ⟨x, h2, h3⟩
      · rintro ⟨x, h2, h3⟩; exact ⟨x, g, ⟨0, ⟨rfl, rfl⟩, h2⟩, h3⟩
    simp only [e]
    by_cases hx : ∃ x, ch.2[0]? = some x ∧ q x.kind = true
    · simp only [eq_true hx]
      simp
    · simp only [eq_false hx]
      simp
  · set B : Set ℝ := {u | ∃ i, pick (ch.2.map (·.width)) u = .ok i ∧ ∃ x, ch.2[i]? = some x ∧ q x.kind = true}
    have hB : MeasurableSet B := by
      have : B = ⋃ i ∈ {i | ∃ x, ch.2[i]? = some x ∧ q x.kind = true},
          {u | pick (ch.2.map (·.width)) u = .ok i} := by
        ext u
        simp only [B, Set.mem_ofPred_eq, Set.mem_iUnion, exists_prop]
        exact exists_congr fun i => and_comm
      rw [this]
      exact MeasurableSet.biUnion (Set.to_countable _) fun i _ => pick_measurable _ i
    have e : ∀ {G : Type} (F : Engine G) (g : G), (∃ x g', sampleExit F ch g = .ok (x, g') ∧ q x.kind = true)
        ↔ (F.draw g).1 ∈ B := by
      intro G F g
      simp only [sampleExit_iff h1, pickFrom, if_neg h, B, Set.mem_ofPred_eq]
      cases pick (ch.2.map (·.width)) (F.draw g).1 with
      | error e => simp
      | ok i =>
        simp only [Except.ok.injEq, Prod.mk.injEq]
        constructor
        · rintro ⟨x, g', ⟨j, ⟨rfl, rfl⟩, h2⟩, h3⟩; exact ⟨i, rfl, x, h2, h3⟩
        · rintro ⟨j, rfl, x, h2, h3⟩; exact ⟨x, _, ⟨i, ⟨rfl, rfl⟩, h2⟩, h3⟩
    simp only [e]
    have h2 := hI.draws.measure_preimage (hB.prod MeasurableSet.univ).nullMeasurableSet
    rw [Measure.prod_prod, measure_univ, mul_one] at h2
    have e3 : {ω | (E.draw ω).1 ∈ B} = E.draw ⁻¹' (B ×ˢ Set.univ) := by
      ext ω
      simp
    rw [e3, h2]
    rfl

/-- **C135**, steps to a level: the probability is the share of the widths of the channels that lead to this
level. -/
theorem C135_step (hI : Ideal E μ) (fuel : Nat) {s t : Stage} (hM : 0 < s.mass) (ht : t.continuum = false)
    {ch : Channels} (hb : build D s.rest s.Ex s.twoJ s.P = .ok ch) (hw : ∀ x ∈ ch.2, 0 ≤ x.width)
    (hs : 0 < (ch.2.map (·.width)).sum) (q : Kind → Bool)
    (hq : ∀ k, q k = true ↔ ∃ l, Reaches D s k l t) :
    stepProb μ E fuel D s t = ENNReal.ofReal (((ch.2.filter fun x => q x.kind).map (·.width)).sum /
        (ch.2.map (·.width)).sum) := by
  have h1 : 0 < ch.1 := by rw [(build_total hb).1]; exact hs
  rw [← C129_channel hb hw hs q [], ← exit_ideal hI h1 q []]
  unfold stepProb
  congr 1
  ext ω
  simp only [Set.mem_ofPred_eq]
  rw [exists_comm, exists_congr fun g' => decay_steps (rest_shell s hM) ⟨rfl, rfl, rfl⟩ hM fuel ω g' t]
  unfold moves
  rw [hb]
  dsimp only
  cases hx : sampleExit E ch ω with
  | error e => simp [chain]
  | ok v =>
    obtain ⟨x, g⟩ := v
    simp only [Except.ok.injEq, Prod.mk.injEq]
    have e1 : (∃ x' ω', (x = x' ∧ g = ω') ∧ q x'.kind = true) ↔ ∃ l, Reaches D s x.kind l t := by
      rw [← hq]
      constructor
      · rintro ⟨x', ω', ⟨rfl, rfl⟩, h⟩; exact h
      · intro h; exact ⟨x, g, ⟨rfl, rfl⟩, h⟩
    rw [e1]
    simp only [chain.eq_3]
    generalize x.kind = k
    have lev : ∀ (k : Kind) (l : Scheme.Level ℝ), k.continuum = false →
        (k = .gamLevel l ∨ k = .fragLevel k.emitted l) →
        Decay.inner E fuel D (parent D s.rest s.Ex s.twoJ s.P) k g
          = some (.ok ((l.energy, l.twoJ, l.parity), g)) →
        ((∃ g', (chain (Decay.inner E fuel D (parent D s.rest s.Ex s.twoJ s.P) k g) fun y g =>
        chain (some ((remains D (parent D s.rest s.Ex s.twoJ s.P) k s.mass y.1).map
            fun l => (l, (E.draw (E.draw g).2).2))) fun l g =>
          some (.ok ((⟨k.continuum, y.1, y.2.1, y.2.2, l.2.1, l.2.2.1, l.2.2.2, l.1⟩ : Stage), g)))
          = some (.ok (t, g'))) ↔ ∃ l, Reaches D s k l t) := by
      intro k l hc hk hi
      rw [hi]
      dsimp only [chain]
      constructor
      · rintro ⟨g', h⟩
        cases hr : remains D (parent D s.rest s.Ex s.twoJ s.P) k s.mass l.energy with
        | error e => rw [hr] at h; simp [Except.map, chain] at h
        | ok v =>
          rw [hr] at h
          simp only [Except.map, chain, Option.some.injEq, Except.ok.injEq, Prod.mk.injEq] at h
          obtain ⟨rfl, -⟩ := h
          unfold remains at hr
          split at hr
          · cases hr
          rename_i m hm
          split at hr
          · cases hr
          rename_i z hz
          split at hr
          · cases hr
          rename_i me hme
          split at hr
          · cases hr
          · cases hr
          rename_i mAtom hA
          split_ifs at hr with hlt
          simp only [Except.ok.injEq] at hr
          obtain rfl := hr
          exact ⟨l, hk, hc, rfl, rfl, rfl, rfl, rfl, rfl, ⟨z, hz⟩, m, me, mAtom, hm, hme, hA, rfl, not_lt.1 hlt⟩
      · rintro ⟨l', h⟩
        have hl : l' = l := by
          rcases h.channel with h1 | h1 <;> rcases hk with h2 | h2 <;> rw [h1] at h2 <;>
            simp [Kind.emitted] at h2
          · exact h2
          · exact h2
        subst hl
        obtain ⟨m, me, mAtom, h1, h2, h3, h4, h5⟩ := h.mass
        obtain ⟨z, hz⟩ := h.known
        have hr : remains D (parent D s.rest s.Ex s.twoJ s.P) k s.mass l'.energy
            = .ok (t.emitted, t.pdg, t.charge, t.mass) := by
          have e1 : k.final (parent D s.rest s.Ex s.twoJ s.P).pdg = t.pdg := h.nucleus.symm
          have e2 : (parent D s.rest s.Ex s.twoJ s.P).q - Pdg.getZ t.emitted = t.charge := h.charge.symm
          unfold remains
          simp only [← h.emitted, e1, e2, h1, h2, h3, hz]
          rw [← h.energy, ← h4, if_neg (not_lt.2 h5)]
        refine ⟨(E.draw (E.draw g).2).2, ?_⟩
        rw [hr]
        simp only [Except.map, chain, hc, ← h.bound, ← h.energy, ← h.spin, ← h.parity]
    have cont : ∀ k : Kind, k.continuum = true →
        ((∃ g', (chain (Decay.inner E fuel D (parent D s.rest s.Ex s.twoJ s.P) k g) fun y g =>
        chain (some ((remains D (parent D s.rest s.Ex s.twoJ s.P) k s.mass y.1).map
            fun l => (l, (E.draw (E.draw g).2).2))) fun l g =>
          some (.ok ((⟨k.continuum, y.1, y.2.1, y.2.2, l.2.1, l.2.2.1, l.2.2.2, l.1⟩ : Stage), g)))
          = some (.ok (t, g'))) ↔ ∃ l, Reaches D s k l t) := by
      intro k hc
      constructor
      · rintro ⟨g', h⟩
        exfalso
        generalize Decay.inner E fuel D (parent D s.rest s.Ex s.twoJ s.P) k g = r at h
        rcases r with _ | e | v
        · simp [chain] at h
        · simp [chain] at h
        · obtain ⟨v, g1⟩ := v
          simp only [chain] at h
          cases hr : remains D (parent D s.rest s.Ex s.twoJ s.P) k s.mass v.1 with
          | error e => rw [hr] at h; simp [Except.map, chain] at h
          | ok l =>
            rw [hr] at h
            simp only [Except.map, chain, Option.some.injEq, Except.ok.injEq, Prod.mk.injEq] at h
            rw [← h.1] at ht
            simp [hc] at ht
      · rintro ⟨l, h⟩
        rcases h.channel with h1 | h1 <;> rw [h1] at hc <;> simp [Kind.continuum] at hc
    cases k with
    | gamLevel l => exact lev _ l rfl (Or.inl rfl) rfl
    | fragLevel f l => exact lev _ l rfl (Or.inr rfl) rfl
    | fragCont f r => exact cont _ rfl
    | gamCont r => exact cont _ rfl

/-- **C135**, later decays: the probability of a path that goes on is the probability of its first part times that of
the rest, whatever the first part was. -/
theorem C135_memoryless (fuel : Nat) (s t : Stage) (before after : List Stage) :
    pathProb μ E fuel D s (before ++ t :: after)
      = pathProb μ E fuel D s (before ++ [t]) * pathProb μ E fuel D t after := by
  induction before generalizing s with
  | nil => simp [pathProb]
  | cons u us ih => simp [pathProb, ih, mul_assoc]

end

/-- **C135**, what the event shows: if the nucleus of an event passes through the states of a complete path, the
loop of decays ends there, and it has added the particles emitted on the path to the event, in this
order, and has left the nucleus of the last state. -/
theorem C135_course {G : Type} {E : Engine G} {D : Data} (fuel : Nat) (path : List Stage) :
    ∀ (s : Stage) (nucleus : Particle ℝ) (ev : Event ℝ) (g : G) (n : Nat), ev.final[1]? = some nucleus →
      s.Is nucleus → CompletePath s path → path.length < n → Passes E fuel D path s nucleus g →
      ∃ g' p' emitted, hfLoop exact E fuel D n s.continuum s.Ex s.twoJ s.P ev g
          = some ({ ev with final := ev.final.set 1 p' ++ emitted },
            .ok (((lastStage s path).continuum, (lastStage s path).Ex), g')) ∧
        emitted.map Particle.pdg = path.map Stage.emitted ∧ (lastStage s path).Is p' := by
  induction path with
  | nil =>
    intro s p ev g n hp hs hc hn _
    obtain ⟨n, rfl⟩ : ∃ k, n = k + 1 := ⟨n - 1, by simp at hn; omega⟩
    refine ⟨g, p, [], ?_, rfl, by simpa [lastStage] using hs⟩
    have hset : ev.final.set 1 p = ev.final := by
      obtain ⟨hl, hp⟩ := List.getElem?_eq_some_iff.1 hp
      rw [← hp, List.set_getElem_self]
    unfold hfLoop
    rw [if_neg hc, hset, List.append_nil]
    rfl
  | cons t ts ih =>
    intro s p ev g n hp hs hc hn h
    obtain ⟨n, rfl⟩ : ∃ k, n = k + 1 := ⟨n - 1, by simp at hn; omega⟩
    obtain ⟨q, g', h1, h2, h3⟩ := h
    have hlen : 1 < ev.final.length := by
      by_contra h
      rw [List.getElem?_eq_none (not_lt.1 h)] at hp
      cases hp
    have h1' : (Scheme.emit ev q.1.nucleus q.1.emitted).final[1]? = some q.1.nucleus := by
      simp only [Scheme.emit]
      rw [List.getElem?_append_left (by simpa using hlen)]
      simp [hlen]
    obtain ⟨g'', p', es, c1, c2, c3⟩ :=
      ih t q.1.nucleus (Scheme.emit ev q.1.nucleus q.1.emitted) g' n h1' (h2 ▸ stage_is q) hc.2
        (by simpa using hn) h3
    have hf : lastStage s (t :: ts) = lastStage t ts := by
      unfold lastStage
      cases ts with
      | nil => simp
      | cons u us => simp [List.getLast?_cons]
    refine ⟨g'', p', q.1.emitted :: es, ?_, by rw [List.map_cons, List.map_cons, c2, ← h2]; rfl,
      by rw [hf]; exact c3⟩
    have he : (Scheme.emit ev q.1.nucleus q.1.emitted).final.set 1 p' ++ es
        = ev.final.set 1 p' ++ q.1.emitted :: es := by
      simp only [Scheme.emit]
      rw [List.set_append_left _ _ (by simpa using hlen), List.set_set, List.append_assoc]
      rfl
    rw [he] at c1
    unfold hfLoop
    rw [if_pos hc.1, hp]
    dsimp only
    rw [h1, hf]
    subst h2
    exact c1

/-- **C135**, the other way round: when the loop of decays has ended without exception, the nucleus has passed
through a complete path. -/
theorem C135_complete {G : Type} {E : Engine G} {D : Data} (fuel : Nat) (n : Nat) :
    ∀ (s : Stage) (nucleus : Particle ℝ) (ev ev' : Event ℝ) (g g' : G) (x : Bool × ℝ),
      ev.final[1]? = some nucleus →
      hfLoop exact E fuel D n s.continuum s.Ex s.twoJ s.P ev g = some (ev', .ok (x, g')) →
      ∃ path, CompletePath s path ∧ path.length < n ∧ Passes E fuel D path s nucleus g := by
  induction n with
  | zero => intro s p ev ev' g g' x _ h; simp [hfLoop] at h
  | succ n ih =>
    intro s p ev ev' g g' x hp h
    by_cases hc : s.continuum = true ∧ s.Ex > cutoff
    · unfold hfLoop at h
      rw [if_pos hc, hp] at h
      dsimp only at h
      split at h
      · cases h
      · cases h
      · rename_i q c g1 hd
        have hlen : 1 < ev.final.length := by
          by_contra h
          rw [List.getElem?_eq_none (not_lt.1 h)] at hp
          cases hp
        have h1' : (Scheme.emit ev q.nucleus q.emitted).final[1]? = some q.nucleus := by
          simp only [Scheme.emit]
          rw [List.getElem?_append_left (by simpa using hlen)]
          simp [hlen]
        obtain ⟨path, c1, c2, c3⟩ := ih (stage (q, c)) q.nucleus _ ev' g1 g' x h1' h
        exact ⟨stage (q, c) :: path, ⟨hc, c1⟩, by simpa using c2, (q, c), g1, hd, rfl, c3⟩
    · exact ⟨[], hc, by simp, trivial⟩

/-! ### All paths together -/

theorem steps_unique {G : Type} {E : Engine G} {D : Data} (fuel : Nat) (path : List Stage) :
    ∀ (path' : List Stage) (s : Stage) (g : G), CompletePath s path → CompletePath s path' →
      Steps E fuel D path s g → Steps E fuel D path' s g → path = path' := by
  induction path with
  | nil =>
    intro path' s g h1 h2 _ _
    cases path' with
    | nil => rfl
    | cons t ts => exact absurd h2.1 h1
  | cons t ts ih =>
    intro path' s g h1 h2 h3 h4
    cases path' with
    | nil => exact absurd h1.1 h2
    | cons u us =>
      obtain ⟨g1, h5, h6⟩ := h3
      obtain ⟨g2, h7, h8⟩ := h4
      rw [h6] at h8
      simp only [Option.some.injEq, Except.ok.injEq, Prod.mk.injEq] at h8
      obtain ⟨rfl, rfl⟩ := h8
      rw [ih us t g1 h1.2 h2.2 h5 h7]

section
variable {Ω : Type} [MeasurableSpace Ω] {μ : Measure Ω} {E : Engine Ω} {D : Data}

theorem steps_countable (hI : Ideal E μ) (fuel : Nat) (n : Nat) :
    ∀ s, ∃ C : Set (List Stage), C.Countable ∧
      ∀ path ω, path.length = n → Steps E fuel D path s ω → path ∈ C := by
  induction n with
  | zero =>
    intro s
    exact ⟨{[]}, Set.countable_singleton _, fun path ω h _ => List.length_eq_zero_iff.1 h⟩
  | succ n ih =>
    intro s
    obtain ⟨C, h1, h2⟩ := (moves_renewing (D := D) hI fuel s).range
    choose R r1 r2 using ih
    refine ⟨⋃ t ∈ C, List.cons t '' R t, h1.biUnion fun t _ => (r1 t).image _, fun path ω h3 h4 => ?_⟩
    cases path with
    | nil => simp at h3
    | cons t ts =>
      obtain ⟨g', h5, h6⟩ := h4
      exact Set.mem_biUnion (h2 ω t g' h6) ⟨ts, r2 t ts g' (by simpa using h3) h5, rfl⟩

/-- **C135**, all paths together: the probability that the decays take one of a set of complete paths is the sum of
the probabilities of these paths. -/
theorem C135_law (hI : Ideal E μ) (hlight : ∀ id m, Mass.particleMass D.mass id = .ok m → 0 ≤ m)
    (fuel : Nat) {s : Stage} {nucleus : Particle ℝ} (hp : OnShell nucleus) (hs : s.Is nucleus)
    (hM : 0 < s.mass) {S : Set (List Stage)} (hc : ∀ path ∈ S, CompletePath s path)
    (hm : ∀ path ∈ S, ∀ t ∈ path, 0 < t.mass) :
    μ {ω | ∃ path ∈ S, Passes E fuel D path s nucleus ω} = ∑' path : S, pathProb μ E fuel D s path := by
  have := hI.prob
  choose R r1 r2 using fun n => steps_countable (D := D) hI fuel n s
  have hT : (⋃ n, R n).Countable := Set.countable_iUnion r1
  have hin : ∀ path ω, Steps E fuel D path s ω → path ∈ ⋃ n, R n := fun path ω h =>
    Set.mem_iUnion.2 ⟨path.length, r2 _ path ω rfl h⟩
  have e1 : ∀ path ∈ S, pathProb μ E fuel D s path = μ {ω | Steps E fuel D path s ω} := by
    intro path h
    rw [← C135_path hI hlight fuel path s nucleus hp hs hM (hm path h)]
    refine measure_congr ?_
    filter_upwards [often_ae hI] with ω ho
    exact propext (passes_steps hlight fuel path s nucleus ω hp hs hM (hm path h) ho)
  have e2 : μ {ω | ∃ path ∈ S, Passes E fuel D path s nucleus ω}
      = μ (⋃ path ∈ S ∩ ⋃ n, R n, {ω | Steps E fuel D path s ω}) := by
    refine measure_congr ?_
    filter_upwards [often_ae hI] with ω ho
    apply propext
    constructor
    · rintro ⟨path, h1, h2⟩
      have h3 := (passes_steps hlight fuel path s nucleus ω hp hs hM (hm path h1) ho).1 h2
      exact Set.mem_biUnion ⟨h1, hin path ω h3⟩ h3
    · intro h
      obtain ⟨path, h1, h2⟩ := Set.mem_iUnion₂.1 h
      exact ⟨path, h1.1, (passes_steps hlight fuel path s nucleus ω hp hs hM (hm path h1.1) ho).2 h2⟩
  rw [e2, measure_biUnion (hT.mono Set.inter_subset_right) ?_ fun path _ => steps_measurable hI fuel path s]
  · rw [tsum_subtype (S ∩ ⋃ n, R n) fun path => μ {ω | Steps E fuel D path s ω},
      tsum_subtype S fun path => pathProb μ E fuel D s path]
    refine tsum_congr fun path => ?_
    by_cases h1 : path ∈ S
    · by_cases h2 : path ∈ ⋃ n, R n
      · rw [Set.indicator_of_mem (show path ∈ S ∩ ⋃ n, R n from ⟨h1, h2⟩), Set.indicator_of_mem h1, e1 path h1]
      · rw [Set.indicator_of_notMem (fun h => h2 h.2), Set.indicator_of_mem h1, e1 path h1]
        have : {ω | Steps E fuel D path s ω} = ∅ := by
          ext ω
          simp only [Set.mem_ofPred_eq, Set.mem_empty_iff_false, iff_false]
          exact fun h => h2 (hin path ω h)
        rw [this, measure_empty]
    · rw [Set.indicator_of_notMem (fun h => h1 h.1), Set.indicator_of_notMem h1]
  · intro a ha b hb hab
    refine Set.disjoint_left.2 fun ω h1 h2 => hab ?_
    exact steps_unique fuel a b s ω (hc a ha.1) (hc b hb.1) h1 h2

/-- **C135**, what is seen: the probability that the loop of decays ends, after fewer than `n` decays, with
given kinds of particles added to the event in a given order is the sum over all complete paths on which they are
emitted of the products of the probabilities of the steps. -/
theorem C135_emitted (hI : Ideal E μ) (hlight : ∀ id m, Mass.particleMass D.mass id = .ok m → 0 ≤ m)
    {fuel : Nat} {s : Stage} {nucleus : Particle ℝ} (hp : OnShell nucleus) (hs : s.Is nucleus)
    (hM : 0 < s.mass) (hpos : ∀ path ω, CompletePath s path → Passes E fuel D path s nucleus ω →
      ∀ t ∈ path, 0 < t.mass) {ev : Event ℝ} (hev : ev.final[1]? = some nucleus) (n : Nat) (codes : List Int) :
    μ {ω | ∃ ev' x ω' p' added, hfLoop exact E fuel D n s.continuum s.Ex s.twoJ s.P ev ω
          = some (ev', .ok (x, ω')) ∧ ev'.final = ev.final.set 1 p' ++ added ∧
        added.map Particle.pdg = codes}
      = ∑' path : {path | CompletePath s path ∧ path.length < n ∧ path.map Stage.emitted = codes ∧
          ∀ t ∈ path, 0 < t.mass}, pathProb μ E fuel D s path := by
  rw [← C135_law hI hlight fuel hp hs hM (fun path h => h.1) (fun path h => h.2.2.2)]
  congr 1
  ext ω
  constructor
  · rintro ⟨ev', x, ω', p', added, h1, h2, h3⟩
    obtain ⟨path, c1, c2, c3⟩ := C135_complete fuel n s nucleus ev ev' ω ω' x hev h1
    refine ⟨path, ⟨c1, c2, ?_, hpos path ω c1 c3⟩, c3⟩
    obtain ⟨g', p2, es, d1, d2, -⟩ := C135_course fuel path s nucleus ev ω n hev hs c1 c2 c3
    rw [h1] at d1
    simp only [Option.some.injEq, Prod.mk.injEq] at d1
    have h4 : ev'.final = ev.final.set 1 p2 ++ es := by rw [d1.1]
    rw [h2] at h4
    rw [← d2, ← h3, (List.append_inj h4 (by simp)).2]
  · rintro ⟨path, ⟨c1, c2, c3, -⟩, c4⟩
    obtain ⟨g', p2, es, d1, d2, -⟩ := C135_course fuel path s nucleus ev ω n hev hs c1 c2 c4
    exact ⟨_, _, g', p2, es, d1, rfl, d2.trans c3⟩

end

/-! ### A nucleus that emits one gamma ray -/

/-- The nucleus of the examples. -/
noncomputable def gammaStart : Stage := ⟨true, 10, 2, ⟨false⟩, 1000190400, 0, 50, 0⟩

theorem gammaOnly_stage : ∃ t : Stage, t.continuum = false ∧ t.emitted = 22 ∧ 0 < t.mass ∧
    ∀ (G : Type) (E : Engine G) (g : G), ∃ q, hfDecay exact E 1 gammaOnly pairNucleus 10 2 ⟨false⟩ g
      = some (.ok (q, (E.draw (E.draw g).2).2)) ∧ stage q = t := by
  obtain ⟨s, h1, h2, h3⟩ := gammaOnly_build
  have hx : ∀ (G : Type) (E : Engine G) (g : G),
      sampleExit E s g = .ok (⟨.gamLevel ⟨0, 0, ⟨true⟩, []⟩, 1 / (2 * Real.pi)⟩, g) := by
    intro G E g
    unfold sampleExit
    rw [if_neg (not_le.2 h3), h2]
    simp [pickFrom]
  have hsh : OnShell pairNucleus := by constructor <;> norm_num [pairNucleus]
  have key : ∀ (G : Type) (E : Engine G) (g : G), moves E 1 gammaOnly gammaStart g
      = some (.ok (⟨false, 0, 0, ⟨true⟩, 1000190400, 0, 40 * Mass.microAmu, 22⟩, (E.draw (E.draw g).2).2)) := by
    intro G E g
    have hr : gammaStart.rest = pairNucleus := by simp [gammaStart, Stage.rest, pairNucleus]
    have hq : (parent gammaOnly pairNucleus 10 2 ⟨false⟩).q = 0 := rfl
    have m1 : Mass.particleMass gammaOnly.mass 22 = .ok 0 := by
      simp [Mass.particleMass, gammaOnly]
    have m2 : Mass.particleMass gammaOnly.mass Mass.ELECTRON = .ok 0 := by
      simp [Mass.particleMass, Mass.ELECTRON, gammaOnly]
    have e3 : Pdg.charge 22 = .ok 0 := by decide
    have e4 : Pdg.getZ 22 = 0 := by decide
    have m3 : Mass.atomicMassPid gammaOnly.mass 1000190400 true = .ok (some (40 * Mass.microAmu)) := by
      have e2 : Pdg.getA 1000190400 = 40 := by decide
      simp [Mass.atomicMassPid, Mass.lookupPid, Mass.toMeV, gammaOnly, e2]
    have hm : remains gammaOnly (parent gammaOnly pairNucleus 10 2 ⟨false⟩) (.gamLevel ⟨0, 0, ⟨true⟩, []⟩)
        50 0 = .ok (22, 1000190400, 0, 40 * Mass.microAmu) := by
      unfold remains
      simp only [Kind.emitted, Kind.final, m1, m2, e3, e4, hq,
        show (parent gammaOnly pairNucleus 10 2 ⟨false⟩).pdg = 1000190400 from rfl, m3]
      rw [if_neg (by norm_num [Mass.microAmu])]
      norm_num
    have hb : build gammaOnly gammaStart.rest gammaStart.Ex gammaStart.twoJ gammaStart.P = .ok s := by
      rw [hr]; exact h1
    unfold moves
    rw [hb, hr]
    dsimp only
    rw [hx]
    dsimp only [chain, Decay.inner]
    simp only [gammaStart, hm, Except.map, chain, Kind.continuum]
  refine ⟨⟨false, 0, 0, ⟨true⟩, 1000190400, 0, 40 * Mass.microAmu, 22⟩, rfl, rfl,
    by norm_num [Mass.microAmu], fun G E g => ?_⟩
  exact (decay_steps (s := gammaStart) hsh ⟨rfl, rfl, rfl⟩ (by norm_num [gammaStart]) 1 g _ _).2 (key G E g)

/-- The nucleus and the path of one gamma ray meet the hypotheses of the theorems, and the path has
probability one. -/
example {Ω : Type} [MeasurableSpace Ω] {μ : Measure Ω} {E : Engine Ω} (hI : Ideal E μ) :
    ∃ t : Stage, t.emitted = 22 ∧ 0 < t.mass ∧ CompletePath gammaStart [t] ∧ OnShell pairNucleus ∧
      gammaStart.Is pairNucleus ∧ 0 < gammaStart.mass ∧ gammaEvent.final[1]? = some pairNucleus ∧
      (∀ id m, Mass.particleMass gammaOnly.mass id = .ok m → 0 ≤ m) ∧
      (∀ ω, Passes E 1 gammaOnly [t] gammaStart pairNucleus ω) ∧ t.continuum = false ∧
      (∃ ch, build gammaOnly gammaStart.rest gammaStart.Ex gammaStart.twoJ gammaStart.P = .ok ch ∧
        (∀ x ∈ ch.2, 0 ≤ x.width) ∧ 0 < (ch.2.map (·.width)).sum) ∧
      (∀ path ω, CompletePath gammaStart path → Passes E 1 gammaOnly path gammaStart pairNucleus ω →
        ∀ u ∈ path, 0 < u.mass) ∧
      pathProb μ E 1 gammaOnly gammaStart [t] = 1 := by
  have := hI.prob
  obtain ⟨t, h1, h2, h3, h4⟩ := gammaOnly_stage
  have hsh : OnShell pairNucleus := by constructor <;> norm_num [pairNucleus]
  have hs : gammaStart.Is pairNucleus := ⟨rfl, rfl, rfl⟩
  have hM : 0 < gammaStart.mass := by norm_num [gammaStart]
  have hlight : ∀ id m, Mass.particleMass gammaOnly.mass id = .ok m → 0 ≤ m := by
    intro id m h
    simp only [Mass.particleMass, gammaOnly] at h
    split_ifs at h <;> simp_all
  have hp : ∀ ω, Passes E 1 gammaOnly [t] gammaStart pairNucleus ω := by
    intro ω
    obtain ⟨q, h5, h6⟩ := h4 Ω E ω
    exact ⟨q, _, h5, h6, trivial⟩
  refine ⟨t, h2, h3, ⟨⟨rfl, by norm_num [gammaStart, cutoff]⟩, by simp [CompletePath, h1]⟩, hsh, hs, hM, rfl,
    hlight, hp, h1, ?_, ?_, ?_⟩
  · obtain ⟨ch, c1, c2, -⟩ := gammaOnly_build
    have hr : gammaStart.rest = pairNucleus := by simp [gammaStart, Stage.rest, pairNucleus]
    have := Real.pi_pos
    exact ⟨ch, by rw [hr]; exact c1, by rw [c2]; simp; positivity, by rw [c2]; simp; positivity⟩
  · rintro path ω hc hpa u hu
    cases path with
    | nil => cases hu
    | cons v vs =>
      obtain ⟨q, ω', h5, h6, -⟩ := hpa
      obtain ⟨q', h7, h8⟩ := h4 Ω E ω
      have h5 : hfDecay exact E 1 gammaOnly pairNucleus 10 2 ⟨false⟩ ω = some (.ok (q, ω')) := h5
      rw [h7] at h5
      simp only [Option.some.injEq, Except.ok.injEq, Prod.mk.injEq] at h5
      have hv : v = t := by rw [← h6, ← h5.1, h8]
      subst hv
      cases vs with
      | nil => rw [List.mem_singleton.1 hu]; exact h3
      | cons w ws =>
        have := hc.2.1.1
        rw [h1] at this
        cases this
  rw [← C135_path hI hlight 1 [t] gammaStart pairNucleus hsh hs hM (by simpa using h3)]
  simp [hp]

end Marley.Props
