import Verif.Spec.Determined
import Verif.Model.CrossSection
import Verif.Model.Decayer

/-! Functions of random engines that are determined by finitely many numbers. -/

set_option autoImplicit false

namespace Marley.Sampling
open Marley

variable {α β : Type}

/-- One after the other. -/
def chain {G : Type} (x : Option (Res (α × G))) (k : α → G → Option (Res (β × G))) :
    Option (Res (β × G)) :=
  match x with
  | none => none
  | some (.error e) => some (.error e)
  | some (.ok (a, g)) => k a g

theorem drawn_length {G : Type} (E : Engine G) (n : Nat) (g : G) : (drawn E n g).length = n := by
  induction n generalizing g with
  | zero => rfl
  | succ n ih => simp [drawn, ih]

theorem drawn_add {G : Type} (E : Engine G) (n k : Nat) (g : G) :
    drawn E (n + k) g = drawn E n g ++ drawn E k (after E n g) := by
  induction n generalizing g with
  | zero => simp [drawn, after]
  | succ n ih => rw [Nat.succ_add]; simp [drawn, after, ih]

theorem after_add {G : Type} (E : Engine G) (n k : Nat) (g : G) :
    after E (n + k) g = after E k (after E n g) := by
  induction n generalizing g with
  | zero => simp [after]
  | succ n ih => rw [Nat.succ_add]; simp [after, ih]

theorem Determined.pure (r : Option (Res α)) : Determined fun _ _ g => leaves r g :=
  fun _ _ _ => ⟨0, r, fun _ _ _ _ => rfl⟩

theorem Determined.ok (a : α) : Determined fun _ _ g => some (.ok (a, g)) := .pure (some (.ok a))

theorem Determined.err (e : Exc) : Determined (α := α) fun _ _ _ => some (.error e) :=
  .pure (some (.error e))

theorem Determined.never : Determined (α := α) fun _ _ _ => none := .pure none

theorem Determined.draw : Determined fun _ E g => some (.ok (E.draw g)) := by
  intro G E g
  refine ⟨1, some (.ok (E.draw g).1), fun H F h e => ?_⟩
  have : (F.draw h).1 = (E.draw g).1 := by simpa [drawn] using e
  rw [← this]
  rfl

theorem Determined.bind {f : Sampler α} {k : α → Sampler β} (hf : Determined f)
    (hk : ∀ a, Determined (k a)) :
    Determined fun G E g => chain (f G E g) fun a g => k a G E g := by
  intro G E g
  obtain ⟨n, r, h1⟩ := hf G E g
  match r, h1 with
  | none, h1 => exact ⟨n, none, fun H F h e => by dsimp only; rw [h1 H F h e]; rfl⟩
  | some (.error x), h1 =>
    exact ⟨n, some (.error x), fun H F h e => by dsimp only; rw [h1 H F h e]; rfl⟩
  | some (.ok a), h1 =>
    obtain ⟨k', r', h2⟩ := hk a G E (after E n g)
    refine ⟨n + k', r', fun H F h e => ?_⟩
    rw [drawn_add, drawn_add] at e
    obtain ⟨e1, e2⟩ := List.append_inj e (by rw [drawn_length, drawn_length])
    dsimp only
    rw [h1 H F h e1, after_add]
    exact h2 H F _ e2

/-- Functions that are the same. -/
theorem Determined.same {f f' : Sampler α} (h : Determined f) (e : ∀ G E g, f' G E g = f G E g) :
    Determined f' := by
  have : f' = f := by funext G E g; exact e G E g
  rw [this]; exact h

theorem Determined.then {f' : Sampler β} {f : Sampler α} {k : α → Sampler β} (hf : Determined f)
    (hk : ∀ a, Determined (k a))
    (e : ∀ G E g, f' G E g = chain (f G E g) fun a g => k a G E g) : Determined f' :=
  (hf.bind hk).same e

/-! ### Sampling -/

theorem uniform_determined (A : Arith) (a b : ℝ) (i : Bool) :
    Determined fun _ E g => some (.ok (uniform A E a b i g)) :=
  Determined.then .draw (fun u => .ok (A.rd (A.rd (u * A.rd ((if i then A.next b else b) - a)) + a)))
    fun _ _ _ => rfl

theorem pickFrom_determined (w : List ℝ) : Determined fun _ E g => some (pickFrom E w g) := by
  by_cases h : w.length < 2
  · exact (Determined.ok 0).same fun G E g => by rw [pickFrom, if_pos h]
  · refine Determined.then (k := fun u G E g => leaves (some (pick w u)) g) .draw
      (fun u => .pure _) fun G E g => ?_
    rw [pickFrom, if_neg h]
    show _ = leaves (some (pick w (E.draw g).1)) _
    cases pick w (E.draw g).1 <;> rfl

/-- A result of rejection sampling, with the engine at the end. -/
def tidy {G σ : Type} (r : Sampled G σ) : (ℝ × ℝ × ℝ × σ) × G := ((r.x, r.y, r.fmax, r.st), r.gen)

theorem rejectLoop_determined {σ : Type} (A : Arith) (f : ℝ → σ → Res (ℝ × σ)) (a b s : ℝ) (n : Nat)
    (m : ℝ) (st : σ) :
    Determined fun _ E g => (rejectLoop A E f a b s n m g st).map (Except.map tidy) := by
  induction n generalizing m st with
  | zero => exact .never
  | succ n ih =>
    refine Determined.then (uniform_determined A a b true) (k := fun x G E g =>
      chain (some (.ok (uniform A E 0 m true g))) fun y g =>
        match f x st with
        | .error e => some (.error e)
        | .ok (val, st) =>
          if y > val then
            (rejectLoop A E f a b s n (if val > m then val * s else m) g st).map (Except.map tidy)
          else some (.ok ((x, y, if val > m then val * s else m, st), g))) (fun x => ?_) ?_
    · refine (uniform_determined A 0 m true).bind (k := fun y G E g => _) fun y => ?_
      cases f x st with
      | error e => exact .err e
      | ok v =>
        obtain ⟨val, st⟩ := v
        dsimp only
        split_ifs
        · exact ih _ _
        · exact ih _ _
        · exact .ok (x, y, _, st)
        · exact .ok (x, y, _, st)
    · intro G E g
      rw [rejectLoop]
      simp only [chain]
      cases f (uniform A E a b true g).1 st with
      | error e => rfl
      | ok v =>
        obtain ⟨val, st⟩ := v
        dsimp only
        split_ifs <;> rfl

theorem rejectionSample_determined {σ : Type} (A : Arith) (fuel : Nat) (f : ℝ → σ → Res (ℝ × σ))
    (a b : ℝ) (m : Option ℝ) (s t : ℝ) (st : σ) :
    Determined fun _ E g => (rejectionSample A E fuel f a b m s t g st).map (Except.map tidy) := by
  unfold rejectionSample
  cases m with
  | some m => exact rejectLoop_determined A f a b s fuel m st
  | none =>
    dsimp only
    cases maximize fuel f a b t st with
    | none => exact .never
    | some v =>
      cases v with
      | error e => exact .err e
      | ok v =>
        obtain ⟨_, m, st⟩ := v
        exact rejectLoop_determined A f a b s fuel _ st

theorem inverseTransform_determined (A : Arith) (fuel : Nat) (cdf : ℝ → ℝ) (a b t : ℝ) :
    Determined fun _ E g => (inverseTransform A E fuel cdf a b t g).map .ok := by
  refine Determined.then (uniform_determined A 0 1 true) (k := fun p G E g =>
    leaves ((if p = 0 then some a else if p = 1 then some b
      else bisect cdf (cdf b) p t fuel a b).map .ok) g) (fun p => .pure _) fun G E g => ?_
  unfold inverseTransform
  simp only [chain]
  split_ifs
  · rfl
  · rfl
  · cases bisect cdf (cdf b) (uniform A E 0 1 true g).1 t fuel a b <;> rfl

end Marley.Sampling

/-! ### Decays -/

namespace Marley.Decay
open Marley Marley.Sampling
open Marley
open Marley.Scheme (Scheme Level levelAt closestLevel)
open Marley.Structure (Fragment)
open Marley.Sampling (Arith Engine)

theorem sampleExit_determined (s : Channels) : Determined fun _ E g => some (sampleExit E s g) := by
  by_cases h : s.1 ≤ 0
  · exact (Determined.err _).same fun G E g => by rw [sampleExit, if_pos h]
  · refine Determined.then (pickFrom_determined (s.2.map (·.width))) (k := fun i G E g =>
      leaves (match s.2[i]? with
        | none => some (.error .outOfRange)
        | some x => some (.ok x)) g) (fun i => .pure _) fun G E g => ?_
    rw [sampleExit, if_neg h]
    cases pickFrom E (s.2.map (·.width)) g with
    | error e => rfl
    | ok v =>
      obtain ⟨i, g⟩ := v
      simp only [chain]
      cases s.2[i]? <;> rfl

theorem prepareProducts_determined (A : Arith) (D : Data) (c : Parent) (k : Kind)
    (nucleus : Particle ℝ) (Exf : ℝ) :
    Determined fun _ E g => some (prepareProducts A E D c k nucleus Exf g) := by
  unfold prepareProducts
  cases Mass.particleMass D.mass k.emitted with
  | error e => exact .err e
  | ok m =>
    dsimp only
    cases Pdg.charge k.emitted with
    | error e => exact .err e
    | ok q =>
      dsimp only
      cases Mass.particleMass D.mass Mass.ELECTRON with
      | error e => exact .err e
      | ok me =>
        dsimp only
        cases Mass.atomicMassPid D.mass (k.final c.pdg) true with
        | error e => exact .err e
        | ok v =>
          cases v with
          | none => exact .err _
          | some mAtom =>
            dsimp only
            refine Determined.then (uniform_determined A (-1) 1 true) (k := fun ct G E g =>
              chain (some (.ok (uniform A E 0 (2 * Real.pi) false g))) fun phi g =>
                leaves (some (Kin.twoBodyDecay nucleus ⟨k.emitted, 0, 0, 0, 0, m, q⟩
                  ⟨k.final c.pdg, mAtom - ↑(c.q - Pdg.getZ k.emitted) * me + Exf, 0, 0, 0,
                    mAtom - ↑(c.q - Pdg.getZ k.emitted) * me + Exf, c.q - Pdg.getZ k.emitted⟩
                  ct phi)) g)
              (fun ct => (uniform_determined A 0 (2 * Real.pi) false).bind fun phi => .pure _) ?_
            intro G E g
            simp only [chain]
            generalize Kin.twoBodyDecay _ _ _ _ _ = x
            cases x <;> rfl

theorem sampleExf_determined (A : Arith) (fuel : Nat) (D : Data) (c : Parent) (k : Kind) :
    Determined fun _ E g => sampleExf A E fuel D c k g := by
  unfold sampleExf
  cases k.bounds D c with
  | error e => exact .err e
  | ok v =>
    obtain ⟨Emin, Emax⟩ := v
    dsimp only
    cases Cheb.make (fun x => (k.diff D c x).map (·.1)) Emin Emax 64 with
    | error e => exact .err e
    | ok pdf => exact inverseTransform_determined A fuel _ Emin Emax _

theorem sampleSpinParity_determined (D : Data) (c : Parent) (k : Kind) (Exf : ℝ) :
    Determined fun _ E g => some (sampleSpinParity E D c k Exf g) := by
  unfold sampleSpinParity
  cases k.diff D c Exf with
  | error e => exact .err e
  | ok a =>
    dsimp only
    split_ifs
    · exact .err _
    · refine Determined.then (pickFrom_determined (a.2.map (·.width))) (k := fun i G E g =>
        leaves (match a.2[i]? with
          | none => some (.error .outOfRange)
          | some x => some (.ok (x.twoJf, x.Pf))) g) (fun i => .pure _) fun G E g => ?_
      cases pickFrom E (a.2.map (·.width)) g with
      | error e => rfl
      | ok v =>
        obtain ⟨i, g⟩ := v
        simp only [chain]
        cases a.2[i]? <;> rfl

theorem levelDecay_determined (A : Arith) (D : Data) (c : Parent) (k : Kind)
    (nucleus : Particle ℝ) (lev : Level ℝ) :
    Determined fun _ E g => some (levelDecay A E D c k nucleus lev g) := by
  refine Determined.then (prepareProducts_determined A D c k nucleus lev.energy)
    (fun p => .ok (⟨lev.energy, lev.twoJ, lev.parity, p.1, p.2⟩ : Product)) fun G E g => ?_
  unfold levelDecay
  cases prepareProducts A E D c k nucleus lev.energy g <;> rfl

theorem contDecay_determined (A : Arith) (fuel : Nat) (D : Data) (c : Parent) (k : Kind)
    (nucleus : Particle ℝ) :
    Determined fun _ E g => contDecay A E fuel D c k nucleus g := by
  refine Determined.then (sampleExf_determined A fuel D c k) (k := fun Exf G E g =>
    chain (some (sampleSpinParity E D c k Exf g)) fun jp g =>
      chain (some (prepareProducts A E D c k nucleus Exf g)) fun p g =>
        some (.ok ((⟨Exf, jp.1, jp.2, p.1, p.2⟩ : Product), g)))
    (fun Exf => (sampleSpinParity_determined D c k Exf).bind fun jp =>
      (prepareProducts_determined A D c k nucleus Exf).bind fun p => .ok _) fun G E g => ?_
  unfold contDecay
  cases sampleExf A E fuel D c k g with
  | none => rfl
  | some v =>
    cases v with
    | error e => rfl
    | ok v =>
      obtain ⟨Exf, g⟩ := v
      simp only [chain]
      cases sampleSpinParity E D c k Exf g with
      | error e => rfl
      | ok v =>
        obtain ⟨jp, g⟩ := v
        dsimp only
        cases prepareProducts A E D c k nucleus Exf g <;> rfl

theorem decay_determined (A : Arith) (fuel : Nat) (D : Data) (c : Parent) (nucleus : Particle ℝ)
    (k : Kind) : Determined fun _ E g => k.decay A E fuel D c nucleus g := by
  cases k with
  | fragLevel f lev => exact levelDecay_determined A D c _ nucleus lev
  | gamLevel lev => exact levelDecay_determined A D c _ nucleus lev
  | fragCont f r => exact contDecay_determined A fuel D c _ nucleus
  | gamCont r => exact contDecay_determined A fuel D c _ nucleus

theorem hfDecay_determined (A : Arith) (fuel : Nat) (D : Data) (nucleus : Particle ℝ)
    (Ex : ℝ) (twoJ : Int) (P : Parity) :
    Determined fun _ E g => hfDecay A E fuel D nucleus Ex twoJ P g := by
  unfold hfDecay
  cases build D nucleus Ex twoJ P with
  | error e => exact .err e
  | ok s =>
    dsimp only
    refine Determined.then (sampleExit_determined s) (k := fun x G E g =>
      chain (x.kind.decay A E fuel D (parent D nucleus Ex twoJ P) nucleus g) fun p g =>
        some (.ok ((p, x.kind.continuum), g)))
      (fun x => (decay_determined A fuel D _ nucleus x.kind).bind fun p => .ok _) fun G E g => ?_
    cases sampleExit E s g with
    | error e => rfl
    | ok v =>
      obtain ⟨x, g⟩ := v
      simp only [chain]
      cases x.kind.decay A E fuel D (parent D nucleus Ex twoJ P) nucleus g with
      | none => rfl
      | some v => cases v <;> rfl

/-- The event and the engine, if there is no exception. -/
def kept {G : Type} (x : Event ℝ × Res G) : Res (Event ℝ × G) := x.2.map (x.1, ·)

theorem cascade_determined (A : Arith) (D : Data) (s : Scheme ℝ) (q : Int) (n a : Nat)
    (ev : Event ℝ) : Determined fun _ E g => (cascade A E D s q n a ev g).map kept := by
  induction n generalizing a ev with
  | zero => exact .never
  | succ n ih =>
    simp only [cascade]
    cases levelAt s a with
    | none => exact .err _
    | some l =>
      dsimp only
      split_ifs
      · exact .ok ev
      · refine Determined.then (pickFrom_determined (l.gammas.map (·.ri))) (k := fun i G E g =>
          (match l.gammas[i]? with
          | none => some (.error .ub)
          | some gam =>
            match gam.dest with
            | none => some (.error .marleyError)
            | some b =>
              match levelAt s b with
              | none => some (.error .ub)
              | some lf =>
                match Mass.atomicMassPid D.mass (Pdg.nucleusPid s.Z s.A) true with
                | .error e => some (.error e)
                | .ok none => some (.error .ub)
                | .ok (some mAtom) =>
                  match Mass.particleMass D.mass Mass.ELECTRON with
                  | .error e => some (.error e)
                  | .ok me =>
                    chain (some (.ok (uniform A E (-1) 1 true g))) fun ct g =>
                      chain (some (.ok (uniform A E 0 (2 * Real.pi) false g))) fun phi g =>
                        match ev.final[1]? with
                        | none => some (.error .outOfRange)
                        | some residue =>
                          match Kin.twoBodyDecay residue ⟨22, 0, 0, 0, 0, 0, 0⟩
                              ⟨Pdg.nucleusPid s.Z s.A, mAtom + lf.energy - q * me, 0, 0, 0,
                                mAtom + lf.energy - q * me, q⟩ ct phi with
                          | .error e => some (.error e)
                          | .ok (gamma, nucleus) =>
                            (cascade A E D s q n b (Scheme.emit ev nucleus gamma) g).map kept :
              Option (Res (Event ℝ × G))))
          (fun i => ?_) fun G E g => ?_
        · cases l.gammas[i]? with
          | none => exact .err _
          | some gam =>
            dsimp only
            cases gam.dest with
            | none => exact .err _
            | some b =>
              dsimp only
              cases levelAt s b with
              | none => exact .err _
              | some lf =>
                dsimp only
                cases Mass.atomicMassPid D.mass (Pdg.nucleusPid s.Z s.A) true with
                | error e => exact .err e
                | ok v =>
                  cases v with
                  | none => exact .err _
                  | some mAtom =>
                    dsimp only
                    cases Mass.particleMass D.mass Mass.ELECTRON with
                    | error e => exact .err e
                    | ok me =>
                      dsimp only
                      refine (uniform_determined A (-1) 1 true).bind
                        (k := fun ct G E g => _) fun ct => ?_
                      refine (uniform_determined A 0 (2 * Real.pi) false).bind
                        (k := fun phi G E g => _) fun phi => ?_
                      cases ev.final[1]? with
                      | none => exact .err _
                      | some residue =>
                        dsimp only
                        generalize Kin.twoBodyDecay _ _ _ _ _ = x
                        cases x with
                        | error e => exact .err e
                        | ok p => exact ih _ _
        · cases pickFrom E (l.gammas.map (·.ri)) g with
          | error e => rfl
          | ok v =>
            obtain ⟨i, g⟩ := v
            simp only [chain]
            cases l.gammas[i]? with
            | none => rfl
            | some gam =>
              dsimp only
              cases gam.dest with
              | none => rfl
              | some b =>
                dsimp only
                cases levelAt s b with
                | none => rfl
                | some lf =>
                  dsimp only
                  cases Mass.atomicMassPid D.mass (Pdg.nucleusPid s.Z s.A) true with
                  | error e => rfl
                  | ok v =>
                    cases v with
                    | none => rfl
                    | some mAtom =>
                      dsimp only
                      cases Mass.particleMass D.mass Mass.ELECTRON with
                      | error e => rfl
                      | ok me =>
                        dsimp only
                        cases ev.final[1]? with
                        | none => rfl
                        | some residue =>
                          dsimp only
                          generalize Kin.twoBodyDecay _ _ _ _ _ = x
                          cases x <;> rfl

theorem hfLoop_determined (A : Arith) (fuel : Nat) (D : Data) (n : Nat) (continuum : Bool) (Ex : ℝ)
    (twoJ : Int) (P : Parity) (ev : Event ℝ) :
    Determined fun _ E g => (hfLoop A E fuel D n continuum Ex twoJ P ev g).map
      fun x => x.2.map fun y => ((x.1, y.1), y.2) := by
  induction n generalizing continuum Ex twoJ P ev with
  | zero => exact .never
  | succ n ih =>
    simp only [hfLoop]
    split_ifs
    · cases ev.final[1]? with
      | none => exact .err _
      | some residue =>
        dsimp only
        refine Determined.then (hfDecay_determined A fuel D residue Ex twoJ P) (k := fun p G E g => _)
          (fun p => ih p.2 p.1.Ex p.1.twoJ p.1.P (Scheme.emit ev p.1.nucleus p.1.emitted))
          fun G E g => ?_
        cases hfDecay A E fuel D residue Ex twoJ P g with
        | none => rfl
        | some v => cases v <;> rfl
    · exact .ok (ev, (continuum, Ex))

theorem finishGammas_determined (A : Arith) (fuel : Nat) (D : Data) (started : Bool) (Ex : ℝ)
    (ev : Event ℝ) :
    Determined fun _ E g => (finishGammas A E fuel D started Ex ev g).map kept := by
  unfold finishGammas
  cases ev.final[1]? with
  | none => exact .err _
  | some residue =>
    dsimp only
    cases D.scheme residue.pdg with
    | error e => exact .err e
    | ok v =>
      cases v with
      | none => exact .err _
      | some s =>
        dsimp only
        cases closestLevel s Ex with
        | error e => exact .err e
        | ok v =>
          cases v with
          | none => exact .err _
          | some a =>
            dsimp only
            cases levelAt s a with
            | none => exact .err _
            | some lev =>
              dsimp only
              split_ifs
              · exact .err _
              · exact cascade_determined A D s residue.charge fuel a ev

theorem deexcite_determined (A : Arith) (fuel : Nat) (D : Data) (pdg : Int) (ev : Event ℝ) :
    Determined fun _ E g => (deexcite A E fuel D pdg ev g).map kept := by
  unfold deexcite
  cases D.scheme pdg with
  | error e => exact .err e
  | ok ds =>
    dsimp only
    cases Mass.unboundThresholdPid D.mass (D.frags.map (·.pid)) pdg with
    | error e => exact .err e
    | ok threshold =>
      dsimp only
      refine Determined.then (hfLoop_determined A fuel D fuel
        (decide (ev.Ex > threshold) || ds.isNone) ev.Ex ev.twoJ ev.parity ev)
        (k := fun x G E g => if x.2.1 = false then
          (finishGammas A E fuel D (decide (ev.Ex > threshold) || ds.isNone) x.2.2 x.1 g).map kept
          else some (.ok (x.1, g))) (fun x => ?_) fun G E g => ?_
      · by_cases h : x.2.1 = false
        · exact (finishGammas_determined A fuel D _ x.2.2 x.1).same fun G E g => if_pos h
        · exact (Determined.ok x.1).same fun G E g => if_neg h
      · cases hfLoop A E fuel D fuel (decide (ev.Ex > threshold) || ds.isNone) ev.Ex ev.twoJ
            ev.parity ev g with
        | none => rfl
        | some v =>
          obtain ⟨ev', v⟩ := v
          cases v with
          | error e => rfl
          | ok v =>
            obtain ⟨⟨c, x⟩, g⟩ := v
            simp only [chain, Option.map_some, Except.map]
            split_ifs <;> rfl

theorem decayer_determined (A : Arith) (fuel : Nat) (D : Data) (ev : Event ℝ) :
    Determined fun _ E g => decayer A E fuel D ev g := by
  unfold decayer process
  split_ifs
  · exact .ok ev
  · exact .err _
  · cases ev.final[1]? with
    | none => exact .err _
    | some residue =>
      dsimp only
      split_ifs
      · exact .ok ev
      · cases Mass.atomicMassPid D.mass residue.pdg true with
        | error e => exact .err e
        | ok v =>
          cases v with
          | none => exact .err _
          | some mAtom =>
            dsimp only
            cases Mass.particleMass D.mass Mass.ELECTRON with
            | error e => exact .err e
            | ok me =>
              dsimp only
              split_ifs
              · exact .ok ev
              · exact .err _
              · exact deexcite_determined A fuel D residue.pdg ev

end Marley.Decay

/-! ### Reactions -/

namespace Marley.Xs
open Marley Marley.Reaction Marley.Sampling Marley.Kin
open Marley.Utils (fdiv)

/-- The same surroundings with another engine. -/
def Env.on {G H : Type} (B : Env G) (F : Engine H) : Env H :=
  ⟨B.arith, F, B.fuel, B.fermi, B.gs, B.density⟩

variable (B : Env Unit)

theorem sampleCos_determined (m : MatEl) (beta : ℝ) :
    Determined fun _ E g => sampleCos (B.on E) m beta g := by
  unfold sampleCos
  cases cosMax m beta with
  | error e => exact .err e
  | ok max =>
    refine Determined.then (rejectionSample_determined B.arith B.fuel
      (fun c (_ : Unit) => (cosDensity m c beta).map (·, ())) (-1) 1 (some max) 1.01 1e-8 ())
      (fun r => .ok r.1) fun G E g => ?_
    simp only [Env.on]
    generalize rejectionSample _ _ _ _ _ _ _ _ _ _ _ = x
    cases x with
    | none => rfl
    | some x => cases x <;> rfl

theorem spinParity_determined (n : Nuc) (m : MatEl) (twoJ : Int) (P : Parity) :
    Determined fun _ E g => some ((spinParity (B.on E) n m twoJ P g).map
      fun x => ((x.1, x.2.1), x.2.2)) := by
  unfold spinParity
  cases m.level with
  | some l => exact .ok (l.2.twoJ, l.2.parity)
  | none =>
    dsimp only
    split_ifs
    · exact .ok (twoJ, P)
    · exact .ok (2, P)
    · simp only [Env.on]
      cases B.density n.pdgD with
      | error e => exact .err e
      | ok rho =>
        dsimp only
        refine Determined.then (pickFrom_determined
          ((gtSpins twoJ).map (fun J => rho m.levelEnergy J P))) (k := fun i G E g =>
          leaves (match (gtSpins twoJ)[i]? with
            | none => some (.error .outOfRange)
            | some J => some (.ok (J, P))) g) (fun i => .pure _) fun G E g => ?_
        cases pickFrom E ((gtSpins twoJ).map (fun J => rho m.levelEnergy J P)) g with
        | error e => rfl
        | ok v =>
          obtain ⟨i, g⟩ := v
          simp only [chain]
          cases (gtSpins twoJ)[i]? <;> rfl
    · exact .err _

theorem choose_determined (n : Nuc) (pdg : Int) (KEa : ℝ) :
    Determined fun _ E g => some (n.choose (B.on E) pdg KEa g) := by
  unfold Nuc.choose
  split_ifs
  · exact .err _
  · exact .err _
  · simp only [Env.on]
    cases summed B.fermi n pdg KEa none with
    | error e => exact .err e
    | ok v =>
      obtain ⟨sum, weights⟩ := v
      dsimp only
      split_ifs
      · exact .err _
      · exact .err _
      · refine Determined.then (pickFrom_determined weights) (k := fun i G E g =>
          leaves (match n.elements[i]? with
            | none => some (.error .outOfRange)
            | some m => some (.ok m)) g) (fun i => .pure _) fun G E g => ?_
        cases pickFrom E weights g with
        | error e => rfl
        | ok v =>
          obtain ⟨i, g⟩ := v
          simp only [chain]
          cases n.elements[i]? <;> rfl

theorem nuclear_determined (n : Nuc) (pdg : Int) (KEa : ℝ) :
    Determined fun _ E g => n.createEvent (B.on E) pdg KEa g := by
  refine Determined.then (choose_determined B n pdg KEa) (k := fun m G E g =>
    (match fdiv (twoTwoScatter (n.masses m.levelEnergy) KEa).pc
        (twoTwoScatter (n.masses m.levelEnergy) KEa).Ec with
    | none => some (.error .ub)
    | some beta =>
      chain (sampleCos (B.on E) m beta g) fun c g =>
        chain (some (.ok (uniform B.arith E 0 (2 * Real.pi) false g))) fun phi g =>
          match B.gs n.pdgB with
          | .error e => some (.error e)
          | .ok (twoJgs, Pgs) =>
            chain (some ((spinParity (B.on E) n m twoJgs Pgs g).map
              fun x => ((x.1, x.2.1), x.2.2))) fun jp g =>
              leaves (some (match makeEvent (n.masses m.levelEnergy) KEa
                  (twoTwoScatter (n.masses m.levelEnergy) KEa) c phi m.levelEnergy jp.1 jp.2 with
                | .error e => .error e
                | .ok ev => setCharges n ev)) g : Option (Res (Event ℝ × G)))) (fun m => ?_)
    fun G E g => ?_
  · cases fdiv (twoTwoScatter (n.masses m.levelEnergy) KEa).pc
        (twoTwoScatter (n.masses m.levelEnergy) KEa).Ec with
    | none => exact .err _
    | some beta =>
      refine (sampleCos_determined B m beta).bind (k := fun c G E g => _) fun c => ?_
      refine (uniform_determined B.arith 0 (2 * Real.pi) false).bind
        (k := fun phi G E g => _) fun phi => ?_
      cases B.gs n.pdgB with
      | error e => exact .err e
      | ok v => exact (spinParity_determined B n m v.1 v.2).bind fun jp => .pure _
  · unfold Nuc.createEvent
    cases n.choose (B.on E) pdg KEa g with
    | error e => rfl
    | ok v =>
      obtain ⟨m, g⟩ := v
      simp only [chain]
      cases fdiv (twoTwoScatter (n.masses m.levelEnergy) KEa).pc
          (twoTwoScatter (n.masses m.levelEnergy) KEa).Ec with
      | none => rfl
      | some beta =>
        dsimp only
        cases sampleCos (B.on E) m beta g with
        | none => rfl
        | some v =>
          cases v with
          | error e => rfl
          | ok v =>
            obtain ⟨c, g⟩ := v
            simp only [Env.on]
            cases B.gs n.pdgB with
            | error e => rfl
            | ok v =>
              obtain ⟨twoJgs, Pgs⟩ := v
              dsimp only
              generalize spinParity _ n m twoJgs Pgs _ = x
              cases x with
              | error e => rfl
              | ok v =>
                obtain ⟨twoJ, P, g⟩ := v
                simp only [Except.map]
                generalize makeEvent _ _ _ _ _ _ _ _ = x
                cases x with
                | error e => rfl
                | ok ev =>
                  dsimp only
                  cases setCharges n ev <;> rfl

theorem electron_determined (r : Electron) (pdg : Int) (KEa : ℝ) :
    Determined fun _ E g => elCreate (B.on E) r pdg KEa g := by
  unfold elCreate
  split_ifs
  · exact .err _
  · exact .err _
  · refine Determined.then (rejectionSample_determined B.arith B.fuel
      (fun c (_ : Unit) => .ok (elDiff r pdg KEa c, ())) (-1) 1
      (some (elBound r pdg KEa (twoTwoScatter (elMasses r) KEa).s)) 1.01 1e-8 ())
      (k := fun x G E g => chain (some (.ok (uniform B.arith E 0 (2 * Real.pi) false g)))
        fun phi g => leaves (some (makeEvent (elMasses r) KEa (twoTwoScatter (elMasses r) KEa) x.1 phi
          0 1 ⟨true⟩)) g)
      (fun x => (uniform_determined B.arith 0 (2 * Real.pi) false).bind fun phi => .pure _)
      fun G E g => ?_
    simp only [Env.on]
    generalize rejectionSample _ _ _ _ _ _ _ _ _ _ _ = x
    cases x with
    | none => rfl
    | some x =>
      cases x with
      | error e => rfl
      | ok x =>
        simp only [chain, Option.map_some, Except.map, tidy]
        generalize makeEvent _ _ _ _ _ _ _ _ = y
        cases y <;> rfl

end Marley.Xs

/-! ### Generators -/

namespace Marley.Gen
open Marley Marley.Sampling
open Marley.Rot (Rotator)

/-- A reaction that can be used with any engine. -/
structure RxPlan where
  pdgA : Int
  atom : Int
  totalXs : Int → ℝ → Res ℝ
  create : Int → ℝ → Sampler (Event ℝ)

/-- A generator and its surroundings without the engine. -/
structure Plan where
  arith : Arith
  fuel : Nat
  decay : Event ℝ → Sampler (Event ℝ)
  seed : Nat
  norm : ℝ
  source : Src
  target : Option (List (Int × ℝ))
  reactions : List RxPlan
  values : List ℝ
  weightFlux : Bool
  pdfMax : Option ℝ
  pdfMaxDefault : Option ℝ
  frozen : Bool
  rotator : Rotator
  deexcite : Bool

/-- The reaction with an engine. -/
def RxPlan.rx {G : Type} (r : RxPlan) (E : Engine G) : Rx G :=
  ⟨r.pdgA, r.atom, r.totalXs, fun pdg e g => r.create pdg e G E g⟩

/-- The surroundings with an engine. -/
def Plan.world {G : Type} (P : Plan) (E : Engine G) : World G :=
  ⟨P.arith, E, P.fuel, fun ev g => P.decay ev G E g⟩

/-- The generator with an engine. -/
def Plan.gen {G : Type} (P : Plan) (E : Engine G) (g : G) : Gen G :=
  { seed := P.seed, eng := g, norm := P.norm, source := P.source, target := P.target,
    reactions := P.reactions.map (·.rx E), values := P.values, weightFlux := P.weightFlux,
    pdfMax := P.pdfMax, pdfMaxDefault := P.pdfMaxDefault, frozen := P.frozen, rotator := P.rotator,
    deexcite := P.deexcite }

/-- An engine to speak of cross sections only. -/
def silent : Engine Unit := ⟨fun _ => (0, ())⟩

theorem plan_pdf {G : Type} (P : Plan) (E : Engine G) (g : G) :
    (P.gen E g).ePdf = (P.gen silent ()).ePdf := by
  have hl : ∀ e (rs : List RxPlan) j acc vals,
      (P.gen E g).pdfLoop e (rs.map (·.rx E)) j acc vals
        = (P.gen silent ()).pdfLoop e (rs.map (·.rx silent)) j acc vals := by
    intro e rs
    induction rs with
    | nil => intros; rfl
    | cons r rs ih =>
      intros j acc vals
      have hw : (P.gen E g).weighted (r.rx E) (P.gen E g).source.pid e
          = (P.gen silent ()).weighted (r.rx silent) (P.gen silent ()).source.pid e := rfl
      simp only [List.map_cons, Gen.pdfLoop, ih, hw]
  funext e vals
  have h2 := hl e P.reactions 0 0 vals
  unfold Gen.ePdf
  rw [show (P.gen E g).reactions = P.reactions.map (·.rx E) from rfl, h2]
  rfl

theorem sampleReaction_plan (P : Plan) :
    ∃ f : Sampler (Nat × ℝ × Option ℝ × List ℝ), Determined f ∧ ∀ (G : Type) (E : Engine G) (g : G),
      (P.gen E g).sampleReaction (P.world E) = (f G E g).map (Except.map fun x =>
        (x.1.1, x.1.2.1, ({ P with pdfMax := x.1.2.2.1, values := x.1.2.2.2 } : Plan).gen E x.2)) := by
  by_cases hne : P.reactions.isEmpty = true
  · refine ⟨_, .err .marleyError, fun G E g => ?_⟩
    unfold Gen.sampleReaction
    have : (P.gen E g).reactions.isEmpty = true := by
      rw [List.isEmpty_iff] at hne
      simp [Plan.gen, hne]
    rw [if_pos this]
    rfl
  refine ⟨_, (rejectionSample_determined P.arith P.fuel (P.gen silent ()).ePdf P.source.Emin
    P.source.Emax P.pdfMax 1.01 1e-8 P.values).bind (k := fun r G E g =>
      chain (some (pickFrom E r.2.2.2 g)) fun i g =>
        leaves (if i < P.reactions.length then some (.ok (i, r.1, some r.2.2.1, r.2.2.2))
          else some (.error .outOfRange)) g)
    (fun r => (pickFrom_determined r.2.2.2).bind fun i => .pure _), fun G E g => ?_⟩
  unfold Gen.sampleReaction
  have : ¬ (P.gen E g).reactions.isEmpty = true := by
    rw [List.isEmpty_iff] at hne ⊢
    simpa [Plan.gen] using hne
  rw [if_neg this, plan_pdf P E g]
  simp only [Plan.gen, Plan.world, List.length_map]
  generalize rejectionSample _ _ _ _ _ _ _ _ _ _ _ = x
  cases x with
  | none => rfl
  | some x =>
    cases x with
    | error e => rfl
    | ok r =>
      simp only [chain, Option.map_some, Except.map, tidy]
      cases pickFrom E r.st r.gen with
      | error e => rfl
      | ok v =>
        obtain ⟨i, g⟩ := v
        dsimp only
        split_ifs <;> rfl

theorem direction_determined (P : Plan) (r : Rotator) (ev : Event ℝ) :
    Determined fun _ E g => some (.ok (((direction (P.world E) r ev g).1,
      (direction (P.world E) r ev g).2.1), (direction (P.world E) r ev g).2.2)) := by
  unfold direction
  cases ev.initial with
  | nil => exact .ok ((0 : ℝ), (0 : ℝ))
  | cons p _ =>
    dsimp only
    split_ifs
    · exact .ok ((0 : ℝ), (0 : ℝ))
    · exact Determined.then (uniform_determined P.arith (-1) 1 true) (k := fun c G E g =>
        chain (some (.ok (uniform P.arith E 0 (2 * Real.pi) false g))) fun phi g =>
          some (.ok ((c, phi), g)))
        (fun c => (uniform_determined P.arith 0 (2 * Real.pi) false).bind fun phi => .ok (c, phi))
        fun G E g => rfl

theorem finish_determined (P : Plan) (hd : ∀ ev, Determined (P.decay ev)) (b : Bool) (r : Rotator)
    (ev : Event ℝ) :
    Determined fun _ E g => (finish (P.world E) b r ev g).map (Except.map fun x =>
      ((x.1, x.2.1), x.2.2)) := by
  have h0 : Determined fun G E g => (if b then (P.world E).decay ev g else some (.ok (ev, g)) :
      Option (Res (Event ℝ × G))) := by
    cases b with
    | true => exact (hd ev).same fun G E g => if_pos rfl
    | false => exact (Determined.ok ev).same fun G E g => if_neg (by simp)
  refine h0.then (k := fun ev G E g => chain (some (.ok (((direction (P.world E) r ev g).1,
      (direction (P.world E) r ev g).2.1), (direction (P.world E) r ev g).2.2))) fun d g =>
        leaves (some ((r.process ev d.1 d.2).map fun x => (x.2, x.1))) g)
    (fun ev => (direction_determined P r ev).bind fun d => .pure _) fun G E g => ?_
  unfold finish
  generalize (if b then (P.world E).decay ev g else some (.ok (ev, g)) :
      Option (Res (Event ℝ × G))) = x
  cases x with
  | none => rfl
  | some x =>
    cases x with
    | error e => rfl
    | ok x =>
      obtain ⟨ev, g⟩ := x
      simp only [chain]
      cases r.process ev (direction (P.world E) r ev g).1 (direction (P.world E) r ev g).2.1 <;> rfl

/-- Reactions and de-excitation are determined by finitely many numbers. -/
def Plan.Finite (P : Plan) : Prop :=
  (∀ r ∈ P.reactions, ∀ pdg e, Determined (r.create pdg e)) ∧ ∀ ev, Determined (P.decay ev)

theorem createEvent_plan {P : Plan} (hP : P.Finite) :
    ∃ f : Sampler (Event ℝ × Option ℝ × List ℝ × Rotator), Determined f ∧
      ∀ (G : Type) (E : Engine G) (g : G), (P.gen E g).createEvent (P.world E)
        = (f G E g).map (Except.map fun x => (x.1.1,
          ({ P with pdfMax := x.1.2.1, values := x.1.2.2.1, rotator := x.1.2.2.2 } : Plan).gen E x.2)) := by
  obtain ⟨f, hf, he⟩ := sampleReaction_plan P
  refine ⟨_, hf.bind (k := fun x G E g =>
    (match P.reactions[x.1]? with
    | none => some (.error .outOfRange)
    | some r => chain (r.create P.source.pid x.2.1 G E g) fun ev g =>
      chain ((finish (P.world E) P.deexcite P.rotator ev g).map (Except.map fun x =>
        ((x.1, x.2.1), x.2.2))) fun y g =>
        some (.ok ((y.1, x.2.2.1, x.2.2.2, y.2), g)) :
      Option (Res ((Event ℝ × Option ℝ × List ℝ × Rotator) × G)))) fun x => ?_, fun G E g => ?_⟩
  · cases hr : P.reactions[x.1]? with
    | none => exact .err _
    | some r =>
      exact (hP.1 r (List.mem_of_getElem? hr) _ _).bind fun ev =>
        (finish_determined P hP.2 P.deexcite P.rotator ev).bind fun y => .ok _
  · unfold Gen.createEvent
    rw [he]
    cases f G E g with
    | none => rfl
    | some v =>
      cases v with
      | error e => rfl
      | ok v =>
        obtain ⟨⟨i, e, m, st⟩, g⟩ := v
        simp only [chain, Option.map_some, Except.map]
        simp only [Plan.gen, List.getElem?_map]
        cases P.reactions[i]? with
        | none => rfl
        | some r =>
          simp only [Option.map_some, RxPlan.rx]
          cases r.create P.source.pid e G E g with
          | none => rfl
          | some v =>
            cases v with
            | error e => rfl
            | ok v =>
              obtain ⟨ev, g⟩ := v
              dsimp only
              cases finish (P.world E) P.deexcite P.rotator ev g with
              | none => rfl
              | some v => cases v <;> rfl

theorem createEvents_plan {P : Plan} (hP : P.Finite) (n : Nat) :
    Determined fun _ E g => ((P.gen E g).createEvents (P.world E) n).map
      (Except.map fun x => (x.1, x.2.eng)) := by
  induction n generalizing P with
  | zero => exact .ok []
  | succ n ih =>
    obtain ⟨f, hf, he⟩ := createEvent_plan hP
    refine hf.then (k := fun x G E g => chain
      (((({ P with pdfMax := x.2.1, values := x.2.2.1, rotator := x.2.2.2 } : Plan).gen E
        g).createEvents (P.world E) n).map (Except.map fun x => (x.1, x.2.eng)))
      fun evs g => some (.ok (x.1 :: evs, g))) (fun x => ?_) fun G E g => ?_
    · exact (ih (P := { P with pdfMax := x.2.1, values := x.2.2.1, rotator := x.2.2.2 }) hP).bind
        fun evs => .ok _
    · rw [Gen.createEvents, he]
      cases f G E g with
      | none => rfl
      | some v =>
        cases v with
        | error e => rfl
        | ok v =>
          simp only [chain, Option.map_some, Except.map]
          generalize Gen.createEvents (P.world E) n _ = y
          cases y with
          | none => rfl
          | some y => cases y <;> rfl

end Marley.Gen
