import Verif.Model.Generator
import Verif.Spec.Sampling

/-!
# Notions used to state the properties of the generator
-/

set_option autoImplicit false
set_option linter.dupNamespace false

namespace Marley.Gen
open Marley Marley.Sampling
open Marley.Rot (V3 Rotator)

variable {G : Type}

/-- Calls that change the configuration. -/
inductive Op (G : Type) where
  | setSource (s : Src)
  | setTarget (t : List (Int × ℝ))
  | addReaction (r : Rx G)
  | clearReactions
  | setWeightFlux (b : Bool)
  | setDirection (d : V3)

/-- The generator after a call, and whether the call threw. -/
noncomputable def Gen.call (g : Gen G) : Op G → Gen G × Res Unit
  | .setSource s => g.setSource s
  | .setTarget t => g.setTarget t
  | .addReaction r => g.addReaction r
  | .clearReactions => g.clearReactions
  | .setWeightFlux b => g.setWeightFlux b
  | .setDirection d => g.setDirection d

/-- The generator after a sequence of calls; exceptions are caught and the sequence
goes on. -/
noncomputable def Gen.calls (g : Gen G) : List (Op G) → Gen G
  | [] => g
  | o :: os => (g.call o).1.calls os

/-- The fraction by which cross sections for an atom are multiplied. -/
noncomputable def Gen.share (g : Gen G) (atom : Int) : ℝ :=
  match g.target with
  | none => 1
  | some t => Target.fraction t atom

/-- `w` lists fraction of the atom times total cross section, for every reaction. -/
def Gen.Weights (g : Gen G) (pdg : Int) (E : ℝ) (w : List ℝ) : Prop :=
  w.length = g.reactions.length ∧ ∀ (j : Nat) (r : Rx G), g.reactions[j]? = some r →
    ∃ x, r.totalXs pdg E = .ok x ∧ w[j]? = some (x * g.share r.atom)

/-- The density of reacting energies integrates to one, with the integration rule of
the code; for a single energy its value there is one.  This holds whatever the cache
contains. -/
def Gen.Normalised (g : Gen G) : Prop :=
  ∀ vals, vals.length = g.reactions.length → ∃ vals',
    if g.source.Emin = g.source.Emax then g.ePdf g.source.Emin vals = .ok (1, vals')
    else numIntegrate g.ePdf g.source.Emin g.source.Emax vals = .ok (1, vals')

/-- The integration rule of the code for an ordinary function. -/
noncomputable def quadrature (f : ℝ → ℝ) (a b : ℝ) : ℝ :=
  ((nodes 50 a b).map (fun p => p.1 * f p.2)).sum

/-- The bound used for rejection sampling in the next event. -/
noncomputable def Gen.bound (W : World G) (g : Gen G) : Option (Res ℝ) :=
  match g.pdfMax with
  | some m => some (.ok m)
  | none =>
    match maximize W.fuel g.ePdf g.source.Emin g.source.Emax 1e-8 g.values with
    | none => none
    | some (.error e) => some (.error e)
    | some (.ok (_, m, _)) => some (.ok (m * 1.01))

/-- The events of a run, or how it ended. -/
noncomputable def Gen.run (W : World G) (k : Nat) (g : Gen G) : Option (Res (List (Event ℝ))) :=
  (g.createEvents W k).map (fun r => r.map Prod.fst)

/-- The matrix kept by a rotator belongs to the direction kept. -/
def Consistent (r : Rotator) : Prop :=
  r.last = r.dir ∨ Rot.rotationMatrix r.last r.dir = .ok r.mat

/-- What holds for a generator after any configuration. -/
structure Gen.Ready (g : Gen G) : Prop where
  sized : g.values.length = g.reactions.length
  rotator : Consistent g.rotator

/-- The same configuration; the state of the engine and cached values may differ.  If
directions are random, it does not matter which one was used last. -/
structure SameConfig (g h : Gen G) : Prop where
  source : g.source = h.source
  target : g.target = h.target
  reactions : g.reactions = h.reactions
  weightFlux : g.weightFlux = h.weightFlux
  deexcite : g.deexcite = h.deexcite
  default : g.pdfMaxDefault = h.pdfMaxDefault
  dir : g.rotator.randomize = true ∨ g.rotator.dir = h.rotator.dir
  randomize : g.rotator.randomize = h.rotator.randomize

/-- A state the engine can be in. -/
structure Mt.Valid (m : Mt) : Prop where
  length : m.words.length = 312
  word : ∀ w ∈ m.words, w < 2 ^ 64
  pos : m.pos < 2 ^ 64

/-- A reaction that can be used for a projectile, energy and atom. -/
def Open (pdg : Int) (KE : ℝ) (atom : Int) (r : Rx G) : Prop :=
  r.atom = atom ∧ r.pdgA = pdg ∧ ∃ x, r.totalXs pdg KE = .ok x ∧ 0 < x

end Marley.Gen
