import Verif.Lemmas.HauserFeshbach
import Verif.Props.MassTable
import Verif.Props.Sampling
import Verif.Props.Kinematics
import Verif.Props.ExitChannel

/-!
# C52: exit channels of a compound nucleus
-/

set_option autoImplicit false

namespace Marley.Props
open Marley Marley.Decay
open Marley.Scheme (Scheme Level)
open Marley.Structure (Fragment)
open Marley.Sampling (Arith Engine exact)
open Marley.Kin (OnShell SumsTo SameSpecies lorentzBoost twoBodyDecay)

variable {G : Type}

theorem build_ok {D : Data} {nucleus : Particle ℝ} {Ex : ℝ} {twoJ : Int} {P : Parity} {s : Channels}
    (h : build D nucleus Ex twoJ P = .ok s) : channels D (parent D nucleus Ex twoJ P) = .ok s := by
  unfold build at h
  by_cases h0 : initialDensity D nucleus.pdg Ex twoJ P = 0
  · rw [if_pos h0] at h; simp at h
  · rwa [if_neg h0] at h

/-- C52: the channels offered for a compound nucleus are exactly those that are energetically
possible: emission of one of the fragments, or of a gamma ray, to any known level that
leaves some kinetic energy after the separation energy is paid, and to the continuum above the
highest known level if that is below the bound.  Part: the levels must be sorted and not below
the ground state, as they are when they are read. -/
theorem C52_offered_partial {D : Data} (hD : SortedSchemes D) {nucleus : Particle ℝ} {Ex : ℝ}
    {twoJ : Int} {P : Parity} {s : Channels} (h : build D nucleus Ex twoJ P = .ok s) (k : Kind) :
    (∃ x ∈ s.2, x.kind = k) ↔ Possible D nucleus.pdg Ex k := by
  rw [← List.mem_map]
  exact mem_channels hD (build_ok h) k

/-- C52: no channel is offered twice, if no fragment and no level is listed twice. -/
theorem C52_once {D : Data} (hn : (D.frags.map (·.pid)).Nodup)
    (hd : ∀ n s, D.scheme n = .ok (some s) → (s.levels.map (·.2)).Nodup) {nucleus : Particle ℝ}
    {Ex : ℝ} {twoJ : Int} {P : Parity} {s : Channels} (h : build D nucleus Ex twoJ P = .ok s) :
    (s.2.map (·.kind)).Nodup := nodup_channels hn hd (build_ok h)

/-- C52: every offered channel leads to a nonnegative excitation energy and leaves a nonnegative
kinetic energy after the separation energy is paid, for each level, and at both ends of the
continuum. -/
theorem C52_energies_partial {D : Data} (hD : SortedSchemes D) {nucleus : Int} {Ex : ℝ} {k : Kind}
    (h : Possible D nucleus Ex k) :
    ∃ S, Costs D nucleus k S ∧
      match k with
      | .fragLevel _ lev | .gamLevel lev => 0 ≤ lev.energy ∧ 0 < Ex - S - lev.energy
      | .fragCont _ Emin | .gamCont Emin => 0 ≤ Emin ∧ 0 < Ex - S - Emin := by
  obtain ⟨S, h1, h2⟩ := h
  refine ⟨S, h1, ?_⟩
  cases k with
  | fragLevel f lev => exact ⟨h2.1.nonneg hD, by linarith [h2.2]⟩
  | gamLevel lev => exact ⟨h2.1.nonneg hD, by linarith [h2.2]⟩
  | fragCont f E => exact ⟨h2.1.nonneg hD, by linarith [h2.2]⟩
  | gamCont E => exact ⟨h2.1.nonneg hD, by linarith [h2.2]⟩

/-- The total is the sum of the widths. -/
theorem build_total {D : Data} {nucleus : Particle ℝ} {Ex : ℝ} {twoJ : Int} {P : Parity}
    {s : Channels} (h : build D nucleus Ex twoJ P = .ok s) :
    s.1 = (s.2.map (·.width)).sum ∧
      ∀ x ∈ s.2, kindWidth D (parent D nucleus Ex twoJ P) x.kind = .ok x.width := by
  obtain ⟨ds, -, h2, -⟩ := channels_kinds (build_ok h)
  exact ⟨h2.total (by simp), h2.widths (by simp)⟩

theorem sampleExit_mem {E : Engine G} {s : Channels} {g g' : G} {x : Exit}
    (h : sampleExit E s g = .ok (x, g')) : x ∈ s.2 := by
  unfold sampleExit at h
  by_cases h0 : s.1 ≤ 0
  · rw [if_pos h0] at h; simp at h
  rw [if_neg h0] at h
  cases h1 : Sampling.pickFrom E (s.2.map (·.width)) g with
  | error e => rw [h1] at h; simp at h
  | ok y =>
    rw [h1] at h
    dsimp only at h
    cases h2 : s.2[y.1]? with
    | none => rw [h2] at h; simp at h
    | some z =>
      rw [h2] at h
      simp only [Except.ok.injEq, Prod.mk.injEq] at h
      rw [← h.1]
      exact List.mem_of_getElem? h2

/-- C52: the sampled channel is one of those offered and its width is positive.  Part: the
number drawn must not be exactly zero (`C52_positive_violated`). -/
theorem C52_positive_partial {E : Engine G} (hE : E.Lawful) {D : Data} {nucleus : Particle ℝ} {Ex : ℝ}
    {twoJ : Int} {P : Parity} {s : Channels} (hb : build D nucleus Ex twoJ P = .ok s) {g g' : G}
    {x : Exit} (h : sampleExit E s g = .ok (x, g')) (hu : 0 < (E.draw g).1) :
    x ∈ s.2 ∧ 0 < x.width := by
  refine ⟨sampleExit_mem h, ?_⟩
  have ht := (build_total hb).1
  unfold sampleExit at h
  by_cases h0 : s.1 ≤ 0
  · rw [if_pos h0] at h; simp at h
  rw [if_neg h0] at h
  rw [not_le] at h0
  rw [ht] at h0
  cases h1 : Sampling.pickFrom E (s.2.map (·.width)) g with
  | error e => rw [h1] at h; simp at h
  | ok y =>
    rw [h1] at h
    dsimp only at h
    cases h2 : s.2[y.1]? with
    | none => rw [h2] at h; simp at h
    | some z =>
      rw [h2] at h
      simp only [Except.ok.injEq, Prod.mk.injEq] at h
      obtain ⟨rfl, -⟩ := h
      unfold Sampling.pickFrom at h1
      by_cases hl : (s.2.map (·.width)).length < 2
      · rw [if_pos hl] at h1
        simp only [Except.ok.injEq] at h1
        subst h1
        dsimp only at h2
        have hl' : s.2.length < 2 := by simpa using hl
        match hs : s.2 with
        | [] => rw [hs] at h2; simp at h2
        | [w] =>
          rw [hs] at h2 h0
          simp only [List.getElem?_cons_zero, Option.some.injEq] at h2
          subst h2
          simpa using h0
        | _ :: _ :: _ => rw [hs] at hl'; simp at hl'
      · rw [if_neg hl] at h1
        cases h3 : Sampling.pick (s.2.map (·.width)) (E.draw g).1 with
        | error e => rw [h3] at h1; simp at h1
        | ok i =>
          rw [h3] at h1
          simp only [Except.ok.injEq] at h1
          subst h1
          dsimp only at h2
          have hw : ∀ w ∈ s.2.map (·.width), 0 ≤ w := by
            intro w hw
            by_contra hc
            unfold Sampling.pick at h3
            rw [if_neg hl, if_pos (Or.inl (List.any_eq_true.2 ⟨w, hw, by simpa using hc⟩))] at h3
            simp at h3
          obtain ⟨a1, a2, a3⟩ := (Sampling.pick_iff hw h0 hu (hE g).2.le i).1 h3
          rw [List.take_add_one, List.getElem?_map, h2] at a3
          simp only [Option.map_some, Option.toList_some, List.sum_append, List.sum_singleton] at a3
          linarith

/-- C52: if no channel is possible, or all widths vanish, `marley::Error` is thrown. -/
theorem C52_error {D : Data} (hD : SortedSchemes D) {nucleus : Particle ℝ} {Ex : ℝ}
    {twoJ : Int} {P : Parity} {s : Channels} (hb : build D nucleus Ex twoJ P = .ok s)
    (h : (∀ k, ¬ Possible D nucleus.pdg Ex k) ∨ ∀ x ∈ s.2, x.width = 0) (A : Arith) (E : Engine G)
    (fuel : Nat) (g : G) :
    hfDecay A E fuel D nucleus Ex twoJ P g = some (.error .marleyError) := by
  have ht := (build_total hb).1
  have h0 : s.1 ≤ 0 := by
    rw [ht]
    apply le_of_eq
    apply List.sum_eq_zero
    intro w hw
    obtain ⟨x, hx, rfl⟩ := List.mem_map.1 hw
    rcases h with h | h
    · exact absurd ((C52_offered_partial hD hb x.kind).1 ⟨x, hx, rfl⟩) (h _)
    · exact h x hx
  unfold hfDecay
  rw [hb]
  dsimp only
  unfold sampleExit
  rw [if_pos h0]

/-! ## Products -/

theorem boost_species {x y z : ℝ} {p q : Particle ℝ} (h : lorentzBoost x y z p = .ok q) :
    q.pdg = p.pdg ∧ q.mass = p.mass ∧ q.charge = p.charge := by
  unfold lorentzBoost at h
  cases hb : Kin.beta2 x y z with
  | error e => rw [hb] at h; simp at h
  | ok b =>
    rw [hb] at h
    dsimp only at h
    by_cases h0 : b = 0
    · rw [if_pos h0] at h
      simp only [Except.ok.injEq] at h
      rw [h]
      exact ⟨rfl, rfl, rfl⟩
    · rw [if_neg h0] at h
      simp only [Except.ok.injEq] at h
      rw [← h]
      exact ⟨rfl, rfl, rfl⟩

theorem decay_species {t a b a' b' : Particle ℝ} {c phi : ℝ}
    (h : twoBodyDecay t a b c phi = .ok (a', b')) :
    (a'.pdg = a.pdg ∧ a'.mass = a.mass ∧ a'.charge = a.charge) ∧
      b'.pdg = b.pdg ∧ b'.mass = b.mass ∧ b'.charge = b.charge := by
  unfold twoBodyDecay at h
  dsimp only at h
  by_cases h1 : t.mass < a.mass + b.mass
  · rw [if_pos h1] at h; simp at h
  rw [if_neg h1] at h
  by_cases h2 : t.mass = 0 ∨ t.E = 0
  · rw [if_pos h2] at h; simp at h
  rw [if_neg h2] at h
  split at h
  · simp at h
  · rename_i u hu
    split at h
    · simp at h
    · rename_i v hv
      simp only [Except.ok.injEq, Prod.mk.injEq] at h
      obtain ⟨rfl, rfl⟩ := h
      have h3 := boost_species hu
      have h4 := boost_species hv
      exact ⟨h3, h4⟩

/-- What is known of the products. -/
structure Produced (D : Data) (c : Parent) (k : Kind) (Exf : ℝ) (p : Particle ℝ × Particle ℝ) :
    Prop where
  emitted : p.1.pdg = k.emitted
  emitted_mass : Mass.particleMass D.mass k.emitted = .ok p.1.mass
  emitted_charge : Pdg.charge k.emitted = .ok p.1.charge
  nucleus : p.2.pdg = k.final c.pdg
  charge : p.2.charge = c.q - Pdg.getZ k.emitted
  mass : ∃ me m, Mass.particleMass D.mass Mass.ELECTRON = .ok me ∧
    Mass.atomicMassPid D.mass (k.final c.pdg) true = .ok (some m) ∧
    p.2.mass = m - p.2.charge * me + Exf

theorem products_ok {A : Arith} {E : Engine G} {D : Data} {c : Parent} {k : Kind}
    {nucleus : Particle ℝ} {Exf : ℝ} {g g' : G} {p : Particle ℝ × Particle ℝ}
    (h : prepareProducts A E D c k nucleus Exf g = .ok (p, g')) : Produced D c k Exf p := by
  unfold prepareProducts at h
  cases h1 : Mass.particleMass D.mass k.emitted with
  | error e => rw [h1] at h; simp at h
  | ok m =>
    rw [h1] at h
    dsimp only at h
    cases h2 : Pdg.charge k.emitted with
    | error e => rw [h2] at h; simp at h
    | ok q =>
      rw [h2] at h
      dsimp only at h
      cases h3 : Mass.particleMass D.mass Mass.ELECTRON with
      | error e => rw [h3] at h; simp at h
      | ok me =>
        rw [h3] at h
        dsimp only at h
        cases h4 : Mass.atomicMassPid D.mass (k.final c.pdg) true with
        | error e => rw [h4] at h; simp at h
        | ok ma =>
          rw [h4] at h
          cases ma with
          | none => simp at h
          | some ma =>
            dsimp only at h
            split at h
            · simp at h
            · rename_i p' hp
              simp only [Except.ok.injEq, Prod.mk.injEq] at h
              obtain ⟨rfl, -⟩ := h
              obtain ⟨⟨a1, a2, a3⟩, a4, a5, a6⟩ := decay_species hp
              dsimp only at a1 a2 a3 a4 a5 a6
              refine ⟨a1, by rw [a2, h1], by rw [a3, h2], a4, a6, me, ma, h3, h4, ?_⟩
              rw [a5, a6]

/-- The products of a decay of a given kind. -/
theorem kind_decay {A : Arith} {E : Engine G} {fuel : Nat} {D : Data} {c : Parent}
    {nucleus : Particle ℝ} {k : Kind} {g g' : G} {p : Product}
    (hb : ∀ lo hi, k.bounds D c = .ok (lo, hi) → lo ≤ hi)
    (h : k.decay A E fuel D c nucleus g = some (.ok (p, g'))) :
    Produced D c k p.Ex (p.emitted, p.nucleus) ∧ Leads k p.Ex p.twoJ p.P ∧
      ∀ lo hi, k.bounds D c = .ok (lo, hi) → p.Ex ≤ hi := by
  have level : ∀ lev, levelDecay A E D c k nucleus lev g = .ok (p, g') →
      Produced D c k p.Ex (p.emitted, p.nucleus) ∧ p.Ex = lev.energy ∧ p.twoJ = lev.twoJ ∧
        p.P = lev.parity := by
    intro lev h
    unfold levelDecay at h
    cases h1 : prepareProducts A E D c k nucleus lev.energy g with
    | error e => rw [h1] at h; simp at h
    | ok x =>
      rw [h1] at h
      simp only [Except.ok.injEq, Prod.mk.injEq] at h
      obtain ⟨rfl, -⟩ := h
      obtain ⟨x, g1⟩ := x
      exact ⟨products_ok h1, rfl, rfl, rfl⟩
  have cont : contDecay A E fuel D c k nucleus g = some (.ok (p, g')) →
      Produced D c k p.Ex (p.emitted, p.nucleus) ∧
        ∀ lo hi, k.bounds D c = .ok (lo, hi) → lo ≤ p.Ex ∧ p.Ex ≤ hi := by
    intro h
    unfold contDecay at h
    cases h1 : sampleExf A E fuel D c k g with
    | none => rw [h1] at h; simp at h
    | some r =>
      rw [h1] at h
      cases r with
      | error e => simp at h
      | ok y =>
        obtain ⟨Exf, g1⟩ := y
        dsimp only at h
        cases h2 : sampleSpinParity E D c k Exf g1 with
        | error e => rw [h2] at h; simp at h
        | ok jp =>
          rw [h2] at h
          dsimp only at h
          cases h3 : prepareProducts A E D c k nucleus Exf jp.2 with
          | error e => rw [h3] at h; simp at h
          | ok x =>
            rw [h3] at h
            simp only [Option.some.injEq, Except.ok.injEq, Prod.mk.injEq] at h
            obtain ⟨rfl, -⟩ := h
            obtain ⟨x, g2⟩ := x
            refine ⟨products_ok h3, fun lo hi hlh => ?_⟩
            unfold sampleExf at h1
            rw [hlh] at h1
            dsimp only at h1
            split at h1
            · simp at h1
            · simp only [Option.map_eq_some_iff] at h1
              obtain ⟨y, hy, hy'⟩ := h1
              cases hy'
              exact C22_range fuel _ (hb lo hi hlh) g hy
  unfold Kind.decay at h
  cases k with
  | fragLevel f lev =>
    simp only [Option.some.injEq] at h
    obtain ⟨a1, a2⟩ := level lev h
    exact ⟨a1, a2, by simp [Kind.bounds]⟩
  | gamLevel lev =>
    simp only [Option.some.injEq] at h
    obtain ⟨a1, a2⟩ := level lev h
    exact ⟨a1, a2, by simp [Kind.bounds]⟩
  | fragCont f Emin =>
    obtain ⟨a1, a2⟩ := cont h
    refine ⟨a1, ?_, fun lo hi e => (a2 lo hi e).2⟩
    -- the energy was sampled, so there are bounds
    cases hm : maxExf D c f with
    | error e =>
      simp only [contDecay, sampleExf, Kind.bounds, hm] at h
      simp at h
    | ok m =>
      cases m with
      | none =>
        simp only [contDecay, sampleExf, Kind.bounds, hm] at h
        simp at h
      | some m => exact (a2 Emin m (by simp [Kind.bounds, hm])).1
  | gamCont Emin =>
    obtain ⟨a1, a2⟩ := cont h
    exact ⟨a1, (a2 Emin c.Ex rfl).1, fun lo hi e => (a2 lo hi e).2⟩

/-- C52 for a decay as a whole: it goes through a possible channel, of positive width if the
first number drawn is not zero; the final energy belongs to it, is not negative and
leaves a nonnegative kinetic energy after the separation energy is paid.  A decay to the
continuum ends above the highest known level. -/
theorem C52_decay_partial {A : Arith} {E : Engine G} (hE : E.Lawful) {fuel : Nat} {D : Data}
    (hD : SortedSchemes D) {nucleus : Particle ℝ} {Ex : ℝ} {twoJ : Int} {P : Parity} {g g' : G}
    {p : Product} {b : Bool}
    (h : hfDecay A E fuel D nucleus Ex twoJ P g = some (.ok ((p, b), g'))) :
    ∃ k S, Possible D nucleus.pdg Ex k ∧ Costs D nucleus.pdg k S ∧ Leads k p.Ex p.twoJ p.P ∧
      0 ≤ p.Ex ∧ 0 ≤ Ex - S - p.Ex ∧ b = k.continuum ∧ p.emitted.pdg = k.emitted ∧
      p.nucleus.pdg = k.final nucleus.pdg ∧
      (0 < (E.draw g).1 → ∃ w > 0, kindWidth D (parent D nucleus Ex twoJ P) k = .ok w) := by
  unfold hfDecay at h
  cases h1 : build D nucleus Ex twoJ P with
  | error e => rw [h1] at h; simp at h
  | ok s =>
    rw [h1] at h
    dsimp only at h
    cases h2 : sampleExit E s g with
    | error e => rw [h2] at h; simp at h
    | ok y =>
      obtain ⟨x, g1⟩ := y
      rw [h2] at h
      dsimp only at h
      cases h3 : x.kind.decay A E fuel D (parent D nucleus Ex twoJ P) nucleus g1 with
      | none => rw [h3] at h; simp at h
      | some r =>
        rw [h3] at h
        cases r with
        | error e => simp at h
        | ok y =>
          simp only [Option.some.injEq, Except.ok.injEq, Prod.mk.injEq] at h
          obtain ⟨⟨rfl, rfl⟩, -⟩ := h
          have hx := sampleExit_mem h2
          have hp := (C52_offered_partial hD h1 x.kind).1 ⟨x, hx, rfl⟩
          obtain ⟨S, c1, c2⟩ := id hp
          have hbd : ∀ lo hi, x.kind.bounds D (parent D nucleus Ex twoJ P) = .ok (lo, hi) →
              hi = Ex - S ∧ lo ≤ hi := by
            intro lo hi e
            cases hk : x.kind with
            | fragLevel f l => rw [hk] at e; simp [Kind.bounds] at e
            | gamLevel l => rw [hk] at e; simp [Kind.bounds] at e
            | fragCont f m =>
              rw [hk] at e c1 c2
              simp only [Kind.bounds, maxExf] at e
              rw [show (parent D nucleus Ex twoJ P).pdg = nucleus.pdg from rfl, c1.2] at e
              simp only [Option.map_some, Except.ok.injEq, Prod.mk.injEq] at e
              obtain ⟨rfl, rfl⟩ := e
              exact ⟨rfl, c2.2.le⟩
            | gamCont m =>
              rw [hk] at e c1 c2
              simp only [Kind.bounds, Except.ok.injEq, Prod.mk.injEq] at e
              obtain ⟨rfl, rfl⟩ := e
              have c1 : S = 0 := c1
              subst c1
              exact ⟨by simp [parent], by simpa [parent] using c2.2.le⟩
          obtain ⟨d1, d2, d3⟩ := kind_decay (fun lo hi e => (hbd lo hi e).2) h3
          refine ⟨x.kind, S, hp, c1, d2, ?_, ?_, rfl, d1.emitted, d1.nucleus, fun hu => ?_⟩
          · cases hk : x.kind with
            | fragLevel f l => rw [hk] at c2 d2; rw [d2.1]; exact c2.1.nonneg hD
            | gamLevel l => rw [hk] at c2 d2; rw [d2.1]; exact c2.1.nonneg hD
            | fragCont f m => rw [hk] at c2 d2; exact le_trans (c2.1.nonneg hD) d2
            | gamCont m => rw [hk] at c2 d2; exact le_trans (c2.1.nonneg hD) d2
          · cases hk : x.kind with
            | fragLevel f l => rw [hk] at c2 d2; rw [d2.1]; linarith [c2.2]
            | gamLevel l => rw [hk] at c2 d2; rw [d2.1]; linarith [c2.2]
            | fragCont f m =>
              rw [hk] at hbd d3 c1
              have := hbd m (Ex - S) (by simp [Kind.bounds, maxExf, parent, c1.2])
              have := d3 m (Ex - S) (by simp [Kind.bounds, maxExf, parent, c1.2])
              linarith
            | gamCont m =>
              rw [hk] at hbd d3 c1
              have h5 := d3 m Ex (by simp [Kind.bounds, parent])
              have c1 : S = 0 := c1
              linarith
          · obtain ⟨-, hw⟩ := C52_positive_partial hE h1 h2 hu
            exact ⟨x.width, hw, (build_total h1).2 x hx⟩

/-- The masses of an open channel: the mass of the nucleus exceeds those of the products by the
energy that is left after paying the separation energy. -/
theorem release {D : Data} {nucleus : Particle ℝ} {Ex Exf S m me mi mf : ℝ} {Z A : Int} {k : Kind}
    (hpid : nucleus.pdg = Pdg.nucleusPid Z A) (hZ : 0 ≤ Z) (hZA : Z ≤ A) (hA : A < 1000)
    (hi : Mass.atomicMassPid D.mass nucleus.pdg true = .ok (some mi))
    (he : Mass.particleMass D.mass Mass.ELECTRON = .ok me)
    (hM : nucleus.mass = mi - nucleus.charge * me + Ex)
    (hm : Mass.particleMass D.mass k.emitted = .ok m) (h22 : k.emitted = 22 → m = 0)
    (h0 : 0 ≤ k.emitted) (hf : Mass.atomicMassPid D.mass (k.final nucleus.pdg) true = .ok (some mf))
    (hZf : 0 ≤ Z - Pdg.getZ k.emitted) (hAf : Z - Pdg.getZ k.emitted ≤ A - Pdg.getA k.emitted)
    (hAf' : A - Pdg.getA k.emitted < 1000) (hS : Costs D nucleus.pdg k S) :
    nucleus.mass - m - (mf - (nucleus.charge - Pdg.getZ k.emitted : Int) * me + Exf)
      = Ex - S - Exf := by
  have byNumbers : ∀ Z A : Int, 0 ≤ Z → Z ≤ A → A < 1000 →
      Mass.atomicMass D.mass Z A true = Mass.atomicMassPid D.mass (Pdg.nucleusPid Z A) true := by
    intro Z A h1 h2 h3
    obtain ⟨e1, e2, -⟩ := C28_nucleus_code Z A h1 h2 h3
    simp only [Mass.atomicMass, Mass.atomicMassPid, Mass.lookup, Mass.lookupPid, e1, e2]
  obtain ⟨e1, e2, -⟩ := C28_nucleus_code Z A hZ hZA hA
  have frag : ∀ f, k.emitted = f → k.final nucleus.pdg = remnant nucleus.pdg f →
      Mass.separationEnergyPid D.mass nucleus.pdg f true = .ok (some S) →
      nucleus.mass - m - (mf - (nucleus.charge - Pdg.getZ k.emitted : Int) * me + Exf)
        = Ex - S - Exf := by
    intro f hk hk' hS
    rw [hk] at hm h0 hZf hAf hAf' ⊢
    rw [hk', remnant, hpid, e1, e2, ← byNumbers _ _ hZf hAf hAf'] at hf
    rw [hpid, ← byNumbers _ _ hZ hZA hA] at hi
    have := C58_separation_energy h0 hi hf hm he
    rw [Mass.separationEnergyPid, hpid, e1, e2, this] at hS
    simp only [Except.ok.injEq, Option.some.injEq] at hS
    rw [hM, ← hS]
    push_cast
    ring
  have gam : k.emitted = 22 → k.final nucleus.pdg = nucleus.pdg → S = 0 →
      nucleus.mass - m - (mf - (nucleus.charge - Pdg.getZ k.emitted : Int) * me + Exf)
        = Ex - S - Exf := by
    intro hk hk' hS
    rw [hk', hi] at hf
    simp only [Except.ok.injEq, Option.some.injEq] at hf
    have hz : Pdg.getZ 22 = 0 := by decide
    rw [hk, hz, h22 hk, hM, hS, ← hf]
    push_cast
    ring
  cases k with
  | fragLevel f l => exact frag f rfl rfl hS.2
  | fragCont f E => exact frag f rfl rfl hS.2
  | gamLevel l => exact gam rfl rfl hS
  | gamCont E => exact gam rfl rfl hS

/-- C52: a decay that leaves a nonnegative kinetic energy after paying the separation energy is
kinematically possible: the products are on their mass shells, conserve energy and momentum,
and their masses are less than that of the nucleus by exactly that energy.  Part: numbers are
not rounded, and the nuclei have proper codes. -/
theorem C52_products_partial {E : Engine G} (hE : E.Lawful) {D : Data} {nucleus : Particle ℝ}
    {twoJ : Int} {P : Parity} {Ex Exf S m me mi mf : ℝ} {Z A q : Int} {k : Kind}
    (hpid : nucleus.pdg = Pdg.nucleusPid Z A) (hZ : 0 ≤ Z) (hZA : Z ≤ A) (hA : A < 1000)
    (hi : Mass.atomicMassPid D.mass nucleus.pdg true = .ok (some mi))
    (he : Mass.particleMass D.mass Mass.ELECTRON = .ok me)
    (hM : nucleus.mass = mi - nucleus.charge * me + Ex)
    (hm : Mass.particleMass D.mass k.emitted = .ok m) (h22 : k.emitted = 22 → m = 0)
    (h0 : 0 ≤ k.emitted) (hf : Mass.atomicMassPid D.mass (k.final nucleus.pdg) true = .ok (some mf))
    (hZf : 0 ≤ Z - Pdg.getZ k.emitted) (hAf : Z - Pdg.getZ k.emitted ≤ A - Pdg.getA k.emitted)
    (hAf' : A - Pdg.getA k.emitted < 1000) (hS : Costs D nucleus.pdg k S)
    (hq : Pdg.charge k.emitted = .ok q) (hon : OnShell nucleus) (hpos : 0 < nucleus.mass)
    (hm0 : 0 ≤ m) (hmf : 0 ≤ mf - (nucleus.charge - Pdg.getZ k.emitted : Int) * me + Exf)
    (hEx : 0 ≤ Ex - S - Exf) (g : G) :
    ∃ p g', prepareProducts exact E D (parent D nucleus Ex twoJ P) k nucleus Exf g = .ok (p, g') ∧
      OnShell p.1 ∧ OnShell p.2 ∧ SumsTo p.1 p.2 nucleus ∧
      nucleus.mass - p.1.mass - p.2.mass = Ex - S - Exf := by
  have hr := release (Exf := Exf) hpid hZ hZA hA hi he hM hm h22 h0 hf hZf hAf hAf' hS
  have hc : (Sampling.uniform exact E (-1) 1 true g).1 ^ 2 ≤ 1 := by
    have := hE g
    simp only [Sampling.uniform, exact, id, if_true]
    nlinarith [this.1, this.2]
  unfold prepareProducts
  rw [hm, hq, he]
  dsimp only
  rw [show (parent D nucleus Ex twoJ P).pdg = nucleus.pdg from rfl, hf]
  dsimp only
  rw [show (parent D nucleus Ex twoJ P).q = nucleus.charge from rfl]
  obtain ⟨a, b, h1, h2, h3, h4, h5, h6, -⟩ := C47_conserves (t := nucleus)
    (a := ⟨k.emitted, 0, 0, 0, 0, m, q⟩)
    (b := ⟨k.final nucleus.pdg, mf - (nucleus.charge - Pdg.getZ k.emitted : Int) * me + Exf, 0, 0, 0,
      mf - (nucleus.charge - Pdg.getZ k.emitted : Int) * me + Exf,
      nucleus.charge - Pdg.getZ k.emitted⟩)
    (Sampling.uniform exact E 0 (2 * Real.pi) false (Sampling.uniform exact E (-1) 1 true g).2).1
    hon hpos hm0 hmf (by dsimp only; linarith) hc
  refine ⟨(a, b), _, by rw [h1], h2, h3, h6, ?_⟩
  have e1 : a.mass = m := (decay_species h1).1.2.1
  have e2 : b.mass = mf - (nucleus.charge - Pdg.getZ k.emitted : Int) * me + Exf :=
    (decay_species h1).2.2.1
  rw [e1, e2, hr]

/-! ## An example -/

/-- Levels of potassium-40 and of other nuclei. -/
noncomputable def twoLevels (n : Int) : Scheme ℝ :=
  ⟨0, 0, [(0, ⟨0, if n = 1000190400 then 0 else 3, ⟨true⟩, []⟩),
    (1, ⟨100, 0, ⟨true⟩, []⟩)], 2⟩

/-- Unit masses, with two known levels for each nucleus; `o` is the transmission coefficient of
neutrons. -/
noncomputable def pairData (o : ℝ) : Data where
  mass := unitData.mass
  frags := [⟨2112, 1, ⟨true⟩⟩]
  scheme := fun n => .ok (some (twoLevels n))
  optical := fun _ _ _ _ _ _ => o
  density := fun _ _ _ _ => 1
  strength := fun _ _ _ _ => 1
  fragLMax := 5
  gamLMax := 5

noncomputable def pairNucleus : Particle ℝ := ⟨1000190400, 50, 0, 0, 0, 50, 0⟩

theorem pair_sorted (o : ℝ) : SortedSchemes (pairData o) := by
  intro n s h
  simp only [pairData, Except.ok.injEq, Option.some.injEq] at h
  subst h
  simp [twoLevels]

theorem pair_build (o : ℝ) : ∃ s, build (pairData o) pairNucleus 10 2 ⟨false⟩ = .ok s ∧
    s.2 = [⟨.fragLevel 2112 ⟨0, 3, ⟨true⟩, []⟩, 3 * (1 / (2 * Real.pi) * o)⟩,
      ⟨.gamLevel ⟨0, 0, ⟨true⟩, []⟩, 1 / (2 * Real.pi)⟩] ∧
    s.1 = 3 * (1 / (2 * Real.pi) * o) + 1 / (2 * Real.pi) := by
  have hr : remnant 1000190400 2112 = 1000190390 := by decide
  have hs : Mass.separationEnergy unitData.mass (Pdg.getZ 1000190400) (Pdg.getA 1000190400) 2112 true
      = .ok (some 0) := unit_separation
  have hf : fragDiscreteWidth (pairData o) (parent (pairData o) pairNucleus 10 2 ⟨false⟩) 2112
      ⟨0, 3, ⟨true⟩, []⟩ = .ok (3 * (1 / (2 * Real.pi) * o)) := by
    unfold fragDiscreteWidth maxExf
    rw [show fragment (pairData o) 2112 = some ⟨2112, 1, ⟨true⟩⟩ by simp [fragment, pairData],
      show Mass.separationEnergyPid (pairData o).mass (parent (pairData o) pairNucleus 10 2 ⟨false⟩).pdg
        2112 true = .ok (some 0) from hs]
    simp only [Option.map_some]
    rw [if_neg (by norm_num [parent]), jLoop_eq]
    have : waves (parent (pairData o) pairNucleus 10 2 ⟨false⟩).P (Parity.mul ⟨true⟩ ⟨true⟩) 1
        |(parent (pairData o) pairNucleus 10 2 ⟨false⟩).twoJ - 3|
        ((parent (pairData o) pairNucleus 10 2 ⟨false⟩).twoJ + 3) = [(1, 1), (1, 3), (3, 5)] := by
      show waves ⟨false⟩ (Parity.mul ⟨true⟩ ⟨true⟩) 1 |2 - 3| (2 + 3) = _
      decide +kernel
    rw [this]
    simp [pairData, parent, initialDensity]
    ring
  have hg : gamDiscreteWidth (pairData o) (parent (pairData o) pairNucleus 10 2 ⟨false⟩)
      ⟨0, 0, ⟨true⟩, []⟩ = 1 / (2 * Real.pi) := by
    unfold gamDiscreteWidth
    rw [if_neg (by norm_num [parent]), mpolLoop_eq]
    have : upTo 0 (max 1 (|(parent (pairData o) pairNucleus 10 2 ⟨false⟩).twoJ - 0|.tdiv 2))
        (((parent (pairData o) pairNucleus 10 2 ⟨false⟩).twoJ + 0).tdiv 2) = [1] := by
      show upTo 0 (max 1 (|(2 : Int) - 0|.tdiv 2)) (((2 : Int) + 0).tdiv 2) = [1]
      decide +kernel
    rw [this]
    simp [pairData, parent, initialDensity]
  have hm : Mass.particleMass (pairData o).mass 2112 = .ok (Mass.microAmu * 1) := by
    simp only [Mass.particleMass, pairData, unitData]
    norm_num
  have hsch : ∀ n, (pairData o).scheme n = .ok (some (twoLevels n)) := fun _ => rfl
  have hpdg : (parent (pairData o) pairNucleus 10 2 ⟨false⟩).pdg = 1000190400 := rfl
  have hEx : (parent (pairData o) pairNucleus 10 2 ⟨false⟩).Ex = 10 := rfl
  have hfr : (pairData o).frags = [⟨2112, 1, ⟨true⟩⟩] := rfl
  have hs' : Mass.separationEnergy (pairData o).mass (Pdg.getZ 1000190400) (Pdg.getA 1000190400)
      2112 true = .ok (some 0) := hs
  have hd : ¬ initialDensity (pairData o) pairNucleus.pdg 10 2 ⟨false⟩ = 0 := one_ne_zero
  unfold build channels
  rw [if_neg hd]
  generalize parent (pairData o) pairNucleus 10 2 ⟨false⟩ = c at *
  generalize pairData o = D at *
  have hlast : ∀ n, contMin (some (twoLevels n)) = 100 := by
    intro n
    simp [contMin, twoLevels]
  have hfrag : addFragment D c ⟨2112, 1, ⟨true⟩⟩ (0, []) = .ok (0 + 3 * (1 / (2 * Real.pi) * o),
        [⟨.fragLevel 2112 ⟨0, 3, ⟨true⟩, []⟩, 3 * (1 / (2 * Real.pi) * o)⟩]) := by
    unfold addFragment
    rw [hm]
    dsimp only
    rw [hpdg, hs']
    dsimp only
    rw [hr, hsch]
    dsimp only
    rw [hEx, if_neg (by norm_num)]
    unfold addChannels
    rw [hlast]
    simp only [twoLevels]
    rw [if_neg (by norm_num : ¬ ((1000190390 : Int) = 1000190400))]
    unfold levelLoop
    rw [if_pos (by norm_num)]
    rw [hf]
    dsimp only
    unfold levelLoop
    rw [if_neg (by norm_num)]
    dsimp only
    rw [if_neg (by norm_num)]
    rfl
  rw [hfr]
  unfold fragmentLoop
  rw [hfrag]
  dsimp only
  unfold fragmentLoop
  dsimp only
  unfold addGammas
  rw [hpdg, hsch]
  dsimp only
  rw [hEx]
  unfold addChannels
  rw [hlast]
  simp only [twoLevels]
  rw [if_pos trivial]
  unfold levelLoop
  rw [if_pos (by norm_num), hg]
  dsimp only
  unfold levelLoop
  rw [if_neg (by norm_num)]
  dsimp only
  rw [if_neg (by norm_num)]
  refine ⟨_, rfl, rfl, ?_⟩
  simp only [Channels.push]
  ring

/-- The hypotheses of the theorems hold: a nucleus that emits neutrons or gamma rays, and the
first channel is sampled. -/
example : SortedSchemes (pairData 1) ∧ ((pairData 1).frags.map (·.pid)).Nodup ∧
    (∃ s, build (pairData 1) pairNucleus 10 2 ⟨false⟩ = .ok s ∧ s.2.length = 2 ∧
      ∃ x, sampleExit Sampling.half s () = .ok (x, ()) ∧ 0 < x.width) := by
  refine ⟨pair_sorted 1, by decide, ?_⟩
  obtain ⟨s, h1, h2, h3⟩ := pair_build 1
  refine ⟨s, h1, by simp [h2], ?_⟩
  have hpi := Real.pi_pos
  have hp : (0 : ℝ) < 1 / (2 * Real.pi) := by positivity
  refine ⟨⟨.fragLevel 2112 ⟨0, 3, ⟨true⟩, []⟩, 3 * (1 / (2 * Real.pi) * 1)⟩, ?_, by positivity⟩
  unfold sampleExit
  rw [if_neg (by rw [h3, not_le]; positivity), h2]
  have hk : Sampling.pick [3 * (1 / (2 * Real.pi) * 1), 1 / (2 * Real.pi)] (1 / 2) = .ok 0 := by
    rw [Sampling.pick_iff (by
      intro w hw
      simp only [List.mem_cons, List.not_mem_nil, or_false] at hw
      rcases hw with rfl | rfl <;> positivity) (by simp; positivity) (by norm_num) (by norm_num)]
    have hi : (0 : ℝ) < Real.pi⁻¹ := inv_pos.2 hpi
    refine ⟨by simp, ?_, ?_⟩
    · simp; positivity
    · simp; linarith
  simp only [Sampling.pickFrom, List.map_cons, List.map_nil, Sampling.half]
  rw [if_neg (by simp), hk]
  simp

/-- The hypotheses of `C52_error` hold at zero excitation energy. -/
example : ∃ s, build (pairData 1) pairNucleus 0 2 ⟨false⟩ = .ok s ∧ ∀ x ∈ s.2, x.width = 0 := by
  have hs : Mass.separationEnergy (pairData 1).mass (Pdg.getZ 1000190400) (Pdg.getA 1000190400)
      2112 true = .ok (some 0) := unit_separation
  have hm : Mass.particleMass (pairData 1).mass 2112 = .ok (Mass.microAmu * 1) := by
    simp only [Mass.particleMass, pairData, unitData]
    norm_num
  have hsch : ∀ n, (pairData 1).scheme n = .ok (some (twoLevels n)) := fun _ => rfl
  have hpdg : (parent (pairData 1) pairNucleus 0 2 ⟨false⟩).pdg = 1000190400 := rfl
  have hEx : (parent (pairData 1) pairNucleus 0 2 ⟨false⟩).Ex = 0 := rfl
  have hfr : (pairData 1).frags = [⟨2112, 1, ⟨true⟩⟩] := rfl
  have hd : ¬ initialDensity (pairData 1) pairNucleus.pdg 0 2 ⟨false⟩ = 0 := one_ne_zero
  have hlast : ∀ n, contMin (some (twoLevels n)) = 100 := by
    intro n
    simp [contMin, twoLevels]
  unfold build channels
  rw [if_neg hd]
  generalize parent (pairData 1) pairNucleus 0 2 ⟨false⟩ = c at *
  generalize pairData 1 = D at *
  rw [hfr]
  unfold fragmentLoop addFragment
  rw [hm]
  dsimp only
  rw [hpdg, hs]
  dsimp only
  rw [hsch]
  dsimp only
  rw [hEx, if_pos (by norm_num)]
  dsimp only
  unfold fragmentLoop
  dsimp only
  unfold addGammas
  rw [hpdg, hsch]
  dsimp only
  unfold addChannels
  rw [hlast, hEx]
  simp only [twoLevels]
  unfold levelLoop
  rw [if_neg (by norm_num)]
  dsimp only
  rw [if_neg (by norm_num)]
  exact ⟨_, rfl, by simp⟩

/-- The hypotheses of `C52_products_partial` hold for the emission of a neutron at 10 MeV. -/
example : ∃ p g', prepareProducts exact Sampling.half (pairData 1)
      (parent (pairData 1) ⟨1000190400, Mass.microAmu * 40 + 10, 0, 0, 0, Mass.microAmu * 40 + 10, 0⟩
        10 2 ⟨false⟩)
      (.fragLevel 2112 ⟨0, 3, ⟨true⟩, []⟩)
      ⟨1000190400, Mass.microAmu * 40 + 10, 0, 0, 0, Mass.microAmu * 40 + 10, 0⟩ 0 () = .ok (p, g') ∧
    (Mass.microAmu * 40 + 10) - p.1.mass - p.2.mass = 10 := by
  have hu : (0 : ℝ) < Mass.microAmu := by norm_num [Mass.microAmu]
  have e1 : Pdg.getA 1000190400 = 40 := by decide
  have e2 : Pdg.getA (remnant 1000190400 2112) = 39 := by decide
  obtain ⟨p, g', h1, -, -, -, h2⟩ := C52_products_partial (E := Sampling.half)
    (twoJ := 2) (P := ⟨false⟩) (fun _ => by norm_num [Sampling.half])
    (D := pairData 1) (nucleus := ⟨1000190400, Mass.microAmu * 40 + 10, 0, 0, 0,
      Mass.microAmu * 40 + 10, 0⟩) (Ex := 10) (Exf := 0) (S := 0) (m := Mass.microAmu * 1)
    (me := 0) (mi := 40 * Mass.microAmu) (mf := 39 * Mass.microAmu) (Z := 19) (A := 40) (q := 0)
    (k := .fragLevel 2112 ⟨0, 3, ⟨true⟩, []⟩) (by decide) (by norm_num) (by norm_num) (by norm_num)
    (by simp [Mass.atomicMassPid, Mass.lookupPid, Mass.toMeV, pairData, unitData, e1])
    (by simp [Mass.particleMass, Mass.ELECTRON, pairData, unitData]) (by simp; ring)
    (by simp [Mass.particleMass, Kind.emitted, pairData, unitData]) (by decide) (by decide)
    (by simp [Mass.atomicMassPid, Mass.lookupPid, Mass.toMeV, pairData, unitData, Kind.final, e2])
    (by decide) (by decide) (by decide) ⟨⟨_, List.mem_cons_self, rfl⟩, unit_separation⟩ (by decide)
    (by constructor <;> simp <;> positivity) (by simp; positivity) (by positivity)
    (by simp; positivity) (by norm_num) ()
  exact ⟨p, g', h1, by rw [h2]; norm_num⟩

/-- C52 does not hold if the number drawn is exactly zero: the first channel is then sampled
even if its width is zero. -/
theorem C52_positive_violated :
    ∃ (E : Engine Unit) (D : Data) (nucleus : Particle ℝ) (Ex : ℝ) (twoJ : Int) (P : Parity)
      (s : Channels) (x : Exit), E.Lawful ∧ SortedSchemes D ∧ build D nucleus Ex twoJ P = .ok s ∧
      sampleExit E s () = .ok (x, ()) ∧ x.width = 0 := by
  obtain ⟨s, h1, h2, h3⟩ := pair_build 0
  refine ⟨⟨fun _ => (0, ())⟩, pairData 0, pairNucleus, 10, 2, ⟨false⟩, s,
    ⟨.fragLevel 2112 ⟨0, 3, ⟨true⟩, []⟩, 3 * (1 / (2 * Real.pi) * 0)⟩, fun _ => by norm_num,
    pair_sorted 0, h1, ?_, by simp⟩
  have hpi := Real.pi_pos
  have hp : (0 : ℝ) < 1 / (2 * Real.pi) := by positivity
  unfold sampleExit
  rw [if_neg (by rw [h3, not_le]; positivity), h2]
  have hk : Sampling.pick [3 * (1 / (2 * Real.pi) * 0), 1 / (2 * Real.pi)] 0 = .ok 0 := by
    refine Sampling.pick_zero (by
      intro w hw
      simp only [List.mem_cons, List.not_mem_nil, or_false] at hw
      rcases hw with rfl | rfl <;> positivity) (by simp; positivity)
  simp only [Sampling.pickFrom, List.map_cons, List.map_nil]
  rw [if_neg (by simp), hk]
  simp

end Marley.Props
