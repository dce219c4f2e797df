import Verif.Props.Randomness
import Verif.Props.Decayer

/-!
# C82 for de-excitations

The nucleus decayer, too, takes each random number of the tape once: what it does
depends only on the numbers between the position before and the position after.
-/

set_option autoImplicit false
set_option linter.dupNamespace false

namespace Marley.Props
open Marley Marley.Sampling Marley.Gen Marley.Decay
open Marley.Scheme (Level levelAt closestLevel)

theorem Local.inverseTransform (A : Arith) (fuel : Nat) (cdf : ℝ → ℝ) (a b tol : ℝ) :
    Local (fun g => (Sampling.inverseTransform A tape fuel cdf a b tol g).map .ok) := by
  refine Local.congr (fun g => ?_) ((Local.uniform A 0 1 true).andThen (fun p =>
    (?_ : Local (fun g => if p = 0 then some (.ok (a, g)) else if p = 1 then some (.ok (b, g))
      else (bisect cdf (cdf b) p tol fuel a b).map (fun x => .ok (x, g))))))
  · unfold Sampling.inverseTransform Props.andThen
    dsimp only
    by_cases h0 : (Sampling.uniform A tape 0 1 true g).1 = 0
    · rw [if_pos h0, if_pos h0]; rfl
    · rw [if_neg h0, if_neg h0]
      by_cases h1 : (Sampling.uniform A tape 0 1 true g).1 = 1
      · rw [if_pos h1, if_pos h1]; rfl
      · rw [if_neg h1, if_neg h1]
        cases bisect cdf (cdf b) (Sampling.uniform A tape 0 1 true g).1 tol fuel a b <;> rfl
  · by_cases h0 : p = 0
    · simp only [if_pos h0]; exact Local.ret a
    · by_cases h1 : p = 1
      · simp only [if_neg h0, if_pos h1]; exact Local.ret b
      · simp only [if_neg h0, if_neg h1]
        cases bisect cdf (cdf b) p tol fuel a b with
        | none => intro s p x g e; simp at e
        | some x => exact Local.ret x

theorem sampleExit_local (s : Channels) : Local (fun g => some (sampleExit tape s g)) := by
  by_cases h : s.1 ≤ 0
  · have : (fun g => some (sampleExit tape s g)) = fun _ => some (.error .marleyError) := by
      funext g; unfold sampleExit; rw [if_pos h]
    rw [this]; exact Local.fail _
  · refine Local.congr (fun g => ?_) ((Local.pickFrom (s.2.map (·.width))).andThen (fun i =>
      (?_ : Local (fun g => match s.2[i]? with
        | none => some (.error .outOfRange)
        | some x => some (.ok (x, g))))))
    · unfold sampleExit Props.andThen
      rw [if_neg h]
      dsimp only
      generalize Sampling.pickFrom tape (s.2.map Exit.width) g = r
      rcases r with _ | ⟨i, g'⟩
      · rfl
      · dsimp only
        cases s.2[i]? <;> rfl
    · cases s.2[i]? with
      | none => exact Local.fail _
      | some x => exact Local.ret x

theorem sampleSpinParity_local (D : Data) (c : Parent) (k : Kind) (Exf : ℝ) :
    Local (fun g => some (sampleSpinParity tape D c k Exf g)) := by
  unfold sampleSpinParity
  cases k.diff D c Exf with
  | error e => exact Local.fail e
  | ok a =>
    dsimp only
    by_cases h : a.1 ≤ 0
    · simp only [if_pos h]; exact Local.fail _
    · simp only [if_neg h]
      refine Local.congr (fun g => ?_) ((Local.pickFrom (a.2.map (·.width))).andThen (fun i =>
        (?_ : Local (fun g => match a.2[i]? with
          | none => some (.error .outOfRange)
          | some x => some (.ok ((x.twoJf, x.Pf), g))))))
      · unfold Props.andThen
        dsimp only
        generalize Sampling.pickFrom tape _ g = r
        rcases r with _ | ⟨i, g'⟩
        · rfl
        · dsimp only
          cases a.2[i]? <;> rfl
      · cases a.2[i]? with
        | none => exact Local.fail _
        | some x => exact Local.ret _

/-- A pair of angles is two numbers of the tape. -/
theorem Local.angles {α : Type} (A : Arith) {k : ℝ → ℝ → Res α} :
    Local (fun g => some ((k (Sampling.uniform A tape (-1) 1 true g).1
      (Sampling.uniform A tape 0 (2 * Real.pi) false (Sampling.uniform A tape (-1) 1 true g).2).1).map
        (·, (Sampling.uniform A tape 0 (2 * Real.pi) false
          (Sampling.uniform A tape (-1) 1 true g).2).2))) :=
  (Local.uniform A (-1) 1 true).andThen (fun c => (Local.uniform A 0 (2 * Real.pi) false).andThen
    (fun phi => Local.of (k c phi)))

theorem prepareProducts_local (A : Arith) (D : Data) (c : Parent) (k : Kind) (nucleus : Particle ℝ)
    (Exf : ℝ) : Local (fun g => some (prepareProducts A tape D c k nucleus Exf g)) := by
  unfold prepareProducts
  cases Mass.particleMass D.mass k.emitted with
  | error e => exact Local.fail e
  | ok m =>
  dsimp only
  cases Pdg.charge k.emitted with
  | error e => exact Local.fail e
  | ok q =>
  dsimp only
  cases Mass.particleMass D.mass Mass.ELECTRON with
  | error e => exact Local.fail e
  | ok me =>
  dsimp only
  cases Mass.atomicMassPid D.mass (k.final c.pdg) true with
  | error e => exact Local.fail e
  | ok x =>
  cases x with
  | none => exact Local.fail _
  | some mAtom =>
    dsimp only
    refine Local.congr (fun g => ?_) (Local.angles A (k := fun ct phi =>
      Kin.twoBodyDecay nucleus ⟨k.emitted, 0, 0, 0, 0, m, q⟩
        ⟨k.final c.pdg, mAtom - ((c.q - Pdg.getZ k.emitted : Int) : ℝ) * me + Exf, 0, 0, 0,
          mAtom - ((c.q - Pdg.getZ k.emitted : Int) : ℝ) * me + Exf, c.q - Pdg.getZ k.emitted⟩ ct phi))
    generalize Kin.twoBodyDecay _ _ _ _ _ = x
    cases x <;> rfl

theorem levelDecay_local (A : Arith) (D : Data) (c : Parent) (k : Kind) (nucleus : Particle ℝ)
    (lev : Level ℝ) : Local (fun g => some (levelDecay A tape D c k nucleus lev g)) := by
  refine Local.congr (fun g => ?_) ((prepareProducts_local A D c k nucleus lev.energy).andThen (fun p =>
    Local.ret (⟨lev.energy, lev.twoJ, lev.parity, p.1, p.2⟩ : Product)))
  unfold levelDecay Props.andThen
  dsimp only
  rcases prepareProducts A tape D c k nucleus lev.energy g with _ | ⟨p, g'⟩ <;> rfl

theorem sampleExf_local (A : Arith) (fuel : Nat) (D : Data) (c : Parent) (k : Kind) :
    Local (sampleExf A tape fuel D c k) := by
  unfold sampleExf
  cases k.bounds D c with
  | error e => exact Local.fail e
  | ok b =>
    dsimp only
    cases Cheb.make (fun x => (k.diff D c x).map (·.1)) b.1 b.2 64 with
    | error e => exact Local.fail e
    | ok pdf => exact Local.inverseTransform A fuel _ _ _ _

theorem contDecay_local (A : Arith) (fuel : Nat) (D : Data) (c : Parent) (k : Kind)
    (nucleus : Particle ℝ) : Local (contDecay A tape fuel D c k nucleus) := by
  refine Local.congr (fun g => ?_) ((sampleExf_local A fuel D c k).andThen (fun Exf =>
    (sampleSpinParity_local D c k Exf).andThen (fun jp =>
      (prepareProducts_local A D c k nucleus Exf).andThen (fun p =>
        Local.ret (⟨Exf, jp.1, jp.2, p.1, p.2⟩ : Product)))))
  unfold contDecay Props.andThen
  rcases sampleExf A tape fuel D c k g with _ | _ | ⟨Exf, g1⟩
  · rfl
  · rfl
  dsimp only
  rcases sampleSpinParity tape D c k Exf g1 with _ | ⟨jp, g2⟩
  · rfl
  dsimp only
  rcases prepareProducts A tape D c k nucleus Exf g2 with _ | ⟨p, g3⟩ <;> rfl

theorem kind_local (A : Arith) (fuel : Nat) (D : Data) (c : Parent) (k : Kind)
    (nucleus : Particle ℝ) : Local (k.decay A tape fuel D c nucleus) := by
  cases k with
  | fragLevel f lev => exact levelDecay_local A D c _ nucleus lev
  | gamLevel lev => exact levelDecay_local A D c _ nucleus lev
  | fragCont f m => exact contDecay_local A fuel D c _ nucleus
  | gamCont m => exact contDecay_local A fuel D c _ nucleus

/-- C82: one decay of a compound nucleus. -/
theorem C82_decay (A : Arith) (fuel : Nat) (D : Data) (nucleus : Particle ℝ) (Ex : ℝ) (twoJ : Int)
    (P : Parity) : Local (hfDecay A tape fuel D nucleus Ex twoJ P) := by
  unfold hfDecay
  cases build D nucleus Ex twoJ P with
  | error e => exact Local.fail e
  | ok s =>
    refine Local.congr (fun g => ?_) ((sampleExit_local s).andThen (fun x =>
      (kind_local A fuel D (parent D nucleus Ex twoJ P) x.kind nucleus).andThen (fun p =>
        Local.ret (p, x.kind.continuum))))
    unfold Props.andThen
    dsimp only
    rcases sampleExit tape s g with _ | ⟨x, g1⟩
    · rfl
    dsimp only
    rcases x.kind.decay A tape fuel D (parent D nucleus Ex twoJ P) nucleus g1 with _ | _ | ⟨p, g2⟩ <;> rfl

/-- What is left of a stage that was not interrupted. -/
def stage {α : Type} (x : Option (Event ℝ × Res (α × Tape))) : Option (Res ((Event ℝ × α) × Tape)) :=
  x.map (fun x => x.2.map (fun y => ((x.1, y.1), y.2)))

/-- The same for a stage without a result. -/
def stage' (x : Option (Event ℝ × Res Tape)) : Option (Res (Event ℝ × Tape)) :=
  x.map (fun x => x.2.map (x.1, ·))

theorem cascade_local (A : Arith) (D : Data) (s : Scheme.Scheme ℝ) (q : Int) (n : Nat) :
    ∀ (a : Nat) (ev : Event ℝ), Local (fun g => stage' (cascade A tape D s q n a ev g)) := by
  induction n with
  | zero => intro a ev s p b g e; simp [stage', cascade] at e
  | succ n ih =>
    intro a ev
    unfold cascade
    cases levelAt s a with
    | none => exact Local.fail _
    | some l =>
    dsimp only
    by_cases h : l.gammas = []
    · simp only [if_pos h]; exact Local.ret ev
    · simp only [if_neg h]
      have hk : ∀ i : Nat, Local (fun g => stage' (match l.gammas[i]? with
          | none => some (ev, .error .ub)
          | some gam =>
            match gam.dest with
            | none => some (ev, .error .marleyError)
            | some b =>
              match levelAt s b with
              | none => some (ev, .error .ub)
              | some lf =>
                match Mass.atomicMassPid D.mass (Pdg.nucleusPid s.Z s.A) true with
                | .error e => some (ev, .error e)
                | .ok none => some (ev, .error .ub)
                | .ok (some mAtom) =>
                  match Mass.particleMass D.mass Mass.ELECTRON with
                  | .error e => some (ev, .error e)
                  | .ok me =>
                    let m := mAtom + lf.energy - q * me
                    let ct := Sampling.uniform A tape (-1) 1 true g
                    let phi := Sampling.uniform A tape 0 (2 * Real.pi) false ct.2
                    match ev.final[1]? with
                    | none => some (ev, .error .outOfRange)
                    | some residue =>
                      match Kin.twoBodyDecay residue ⟨22, 0, 0, 0, 0, 0, 0⟩
                          ⟨Pdg.nucleusPid s.Z s.A, m, 0, 0, 0, m, q⟩ ct.1 phi.1 with
                      | .error e => some (ev, .error e)
                      | .ok (gamma, nucleus) =>
                        cascade A tape D s q n b (Scheme.emit ev nucleus gamma) phi.2)) := by
        intro i
        cases l.gammas[i]? with
        | none => exact Local.fail _
        | some gam =>
        dsimp only
        cases gam.dest with
        | none => exact Local.fail _
        | some b =>
        dsimp only
        cases levelAt s b with
        | none => exact Local.fail _
        | some lf =>
        dsimp only
        rcases Mass.atomicMassPid D.mass (Pdg.nucleusPid s.Z s.A) true with e | _ | mAtom
        · exact Local.fail e
        · exact Local.fail _
        dsimp only
        cases Mass.particleMass D.mass Mass.ELECTRON with
        | error e => exact Local.fail e
        | ok me =>
        dsimp only
        cases ev.final[1]? with
        | none => exact Local.fail _
        | some residue =>
        dsimp only
        refine Local.congr (fun g => ?_) ((Local.angles A (k := fun ct phi =>
          Kin.twoBodyDecay residue ⟨22, 0, 0, 0, 0, 0, 0⟩
            ⟨Pdg.nucleusPid s.Z s.A, mAtom + lf.energy - q * me, 0, 0, 0,
              mAtom + lf.energy - q * me, q⟩ ct phi)).andThen (fun p =>
                ih b (Scheme.emit ev p.2 p.1)))
        unfold Props.andThen
        dsimp only
        generalize Kin.twoBodyDecay _ _ _ _ _ = x
        rcases x with e | ⟨gamma, nucleus⟩ <;> rfl
      refine Local.congr (fun g => ?_) ((Local.pickFrom (l.gammas.map (·.ri))).andThen hk)
      unfold Props.andThen
      dsimp only
      generalize Sampling.pickFrom tape _ g = r
      rcases r with _ | ⟨i, g1⟩
      · rfl
      · rfl

theorem hfLoop_local (A : Arith) (fuel : Nat) (D : Data) (n : Nat) :
    ∀ (c : Bool) (Ex : ℝ) (twoJ : Int) (P : Parity) (ev : Event ℝ),
      Local (fun g => stage (hfLoop A tape fuel D n c Ex twoJ P ev g)) := by
  induction n with
  | zero => intro c Ex twoJ P ev s p b g e; simp [stage, hfLoop] at e
  | succ n ih =>
    intro c Ex twoJ P ev
    unfold hfLoop
    by_cases h : c = true ∧ Ex > cutoff
    · simp only [if_pos h]
      cases ev.final[1]? with
      | none => exact Local.fail _
      | some residue =>
        dsimp only
        refine Local.congr (fun g => ?_) ((C82_decay A fuel D residue Ex twoJ P).andThen (fun p =>
          ih p.2 p.1.Ex p.1.twoJ p.1.P (Scheme.emit ev p.1.nucleus p.1.emitted)))
        unfold Props.andThen
        rcases hfDecay A tape fuel D residue Ex twoJ P g with _ | _ | ⟨⟨p, c'⟩, g1⟩ <;> rfl
    · simp only [if_neg h]
      exact Local.ret (ev, (c, Ex))

theorem finishGammas_local (A : Arith) (fuel : Nat) (D : Data) (started : Bool) (Ex : ℝ)
    (ev : Event ℝ) : Local (fun g => stage' (finishGammas A tape fuel D started Ex ev g)) := by
  unfold finishGammas
  cases ev.final[1]? with
  | none => exact Local.fail _
  | some residue =>
  dsimp only
  rcases D.scheme residue.pdg with e | _ | s
  · exact Local.fail e
  · exact Local.fail _
  dsimp only
  rcases closestLevel s Ex with e | _ | a
  · exact Local.fail e
  · exact Local.fail _
  dsimp only
  cases levelAt s a with
  | none => exact Local.fail _
  | some lev =>
  dsimp only
  by_cases h : started = false ∧ |Ex - lev.energy| > tolerance
  · simp only [if_pos h]; exact Local.fail _
  · simp only [if_neg h]; exact cascade_local A D s residue.charge fuel a ev

theorem deexcite_local (A : Arith) (fuel : Nat) (D : Data) (pdg : Int) (ev : Event ℝ) :
    Local (fun g => stage' (deexcite A tape fuel D pdg ev g)) := by
  unfold deexcite
  cases D.scheme pdg with
  | error e => exact Local.fail e
  | ok ds =>
  dsimp only
  cases Mass.unboundThresholdPid D.mass (D.frags.map (·.pid)) pdg with
  | error e => exact Local.fail e
  | ok threshold =>
  dsimp only
  refine Local.congr (fun g => ?_) ((hfLoop_local A fuel D fuel
    (decide (ev.Ex > threshold) || ds.isNone) ev.Ex ev.twoJ ev.parity ev).andThen (fun x =>
      (?_ : Local (fun g => if x.2.1 = false
        then stage' (finishGammas A tape fuel D (decide (ev.Ex > threshold) || ds.isNone) x.2.2 x.1 g)
        else some (.ok (x.1, g))))))
  · unfold Props.andThen
    dsimp only
    rcases hfLoop A tape fuel D fuel (decide (ev.Ex > threshold) || ds.isNone) ev.Ex ev.twoJ ev.parity
      ev g with _ | ⟨ev', _ | ⟨⟨c, Ex⟩, g'⟩⟩
    · rfl
    · rfl
    · cases c <;> rfl
  · by_cases h : x.2.1 = false
    · simp only [if_pos h]; exact finishGammas_local A fuel D _ _ _
    · simp only [if_neg h]; exact Local.ret x.1

/-- C82: the de-excitation of an event. -/
theorem C82_deexcitation (A : Arith) (fuel : Nat) (D : Data) (ev : Event ℝ) :
    Local (decayer A tape fuel D ev) := by
  have : Local (fun g => stage' (process A tape fuel D ev g)) := by
    unfold process
    by_cases h0 : ev.Ex = 0
    · simp only [if_pos h0]; exact Local.ret ev
    simp only [if_neg h0]
    by_cases h1 : ev.Ex < 0
    · simp only [if_pos h1]; exact Local.fail _
    simp only [if_neg h1]
    cases ev.final[1]? with
    | none => exact Local.fail _
    | some residue =>
    dsimp only
    by_cases h2 : Pdg.isIon residue.pdg = false
    · simp only [if_pos h2]; exact Local.ret ev
    simp only [if_neg h2]
    rcases Mass.atomicMassPid D.mass residue.pdg true with e | _ | mAtom
    · exact Local.fail e
    · exact Local.fail _
    dsimp only
    cases Mass.particleMass D.mass Mass.ELECTRON with
    | error e => exact Local.fail e
    | ok me =>
    dsimp only
    by_cases h3 : |residue.mass - (mAtom - residue.charge * me + ev.Ex)| > tolerance
    · simp only [if_pos h3]
      by_cases h4 : |residue.mass - (mAtom - residue.charge * me)| ≤ tolerance
      · simp only [if_pos h4]; exact Local.ret ev
      · simp only [if_neg h4]; exact Local.fail _
    · simp only [if_neg h3]
      exact deexcite_local A fuel D residue.pdg ev
  exact this

/-- C82 for whole events: sampling the energy and the reaction, scattering on nuclei or electrons,
de-exciting the nucleus and orienting the event. -/
theorem C82_whole {A : Arith} {fuel : Nat} {D : Data} {E : Xs.Env Tape} (hE : E.engine = tape)
    {g g' : Gen Tape}
    (hr : ∀ r ∈ g.reactions, (∃ n : Xs.Nuc, r = n.rx E) ∨ ∃ e, r = Xs.elRx E e)
    {s : ℕ → ℝ} {p : ℕ} (hg : g.eng = (s, p)) {ev : Event ℝ}
    (e : g.createEvent ⟨A, tape, fuel, decayer A tape fuel D⟩ = some (.ok (ev, g'))) :
    ∃ q, p + 2 ≤ q ∧ g'.eng = (s, q) ∧ ∀ t, Agree s t p q →
      Gen.createEvent ⟨A, tape, fuel, decayer A tape fuel D⟩ { g with eng := (t, p) }
        = some (.ok (ev, { g' with eng := (t, q) })) := by
  refine C82_event_partial rfl (fun ev => C82_deexcitation A fuel D ev) (fun r h pdg KE => ?_) hg e
  rcases hr r h with ⟨n, rfl⟩ | ⟨x, rfl⟩
  · exact C82_nuclear hE n pdg KE
  · exact C82_electron hE x pdg KE

/-- Non-vacuity of `C82_deexcitation`: a residue of potassium-40 emits one gamma ray, which takes two
numbers of the tape. -/
example : ∃ nuc gam, decayer exact tape 2 (gapData 1)
    (gapEvent 1 (gapIon (40 * Mass.microAmu + 1)) []) (fun _ => 1 / 4, 7) =
      some (.ok (gapEvent 1 nuc [gam], (fun _ => 1 / 4, 9))) := by
  have hu : (0 : ℝ) < Mass.microAmu := by norm_num [Mass.microAmu]
  obtain ⟨nuc, gam, h, -⟩ := gap_run (E := tape) (g := (fun _ => 1 / 4, 7)) (by norm_num [tape]) (d := 1)
    one_pos le_rfl (re := gapIon (40 * Mass.microAmu + 1)) rfl rfl
    (by constructor <;> simp [gapIon] <;> positivity) (by simp [gapIon]) (by simp [gapIon]) []
  refine ⟨nuc, gam, ?_⟩
  rw [decayer, h]
  rfl

end Marley.Props
