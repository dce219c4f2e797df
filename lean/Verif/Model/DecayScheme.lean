import Verif.Model.Kinematics
import Verif.Model.Std

/-!
# Nuclear levels and decay schemes (src/Level.cc, src/Gamma.cc, src/DecayScheme.cc)

Levels are objects referred to by pointers (the end levels of gammas), so each
level has an address.  Addresses are handed out in increasing order and never
reused; a gamma that points to an address that is not in the scheme is dangling.
-/

set_option autoImplicit false

namespace Marley.Scheme
open Marley
open Marley.Json (Str natText intText isDigit)

variable {K : Type}

/-- `marley::Gamma` (include/marley/Gamma.hh:65-72); `dest` is `end_level_`,
`none` for a null pointer.  `start_level_` is the level owning the gamma. -/
structure Gamma (K : Type) where
  energy : K
  ri : K
  dest : Option Nat
  deriving DecidableEq, Repr

/-- `marley::Level` (include/marley/Level.hh; constructor src/Level.cc:25-26).
The discrete distribution `gamma_dist_` is not stored: it is rebuilt from the
relative intensities after every change of the gammas (src/Level.cc:42-72,
81-90). -/
structure Level (K : Type) where
  energy : K
  twoJ : Int
  parity : Parity
  gammas : List (Gamma K)
  deriving DecidableEq, Repr

/-- `marley::DecayScheme` (include/marley/DecayScheme.hh:116-120): the levels in
the order of the vector `levels_`, each with its address.  `next` is the next
free address. -/
structure Scheme (K : Type) where
  Z : Int
  A : Int
  levels : List (Nat × Level K)
  next : Nat
  deriving Repr

/-- A scheme without levels (constructors include/marley/DecayScheme.hh:43, src/DecayScheme.cc:143-145, and the
`clear()` in `read_from_stream`). -/
def Scheme.empty (Z A : Int) (next : Nat) : Scheme K := ⟨Z, A, [], next⟩

/-- `level_lower_bound_index` (src/DecayScheme.cc:358-364). -/
def lowerBoundIndex [LT K] [DecidableLT K] (s : Scheme K) (Ex : K) : Nat :=
  Std.lowerBound (fun l => decide (l.2.energy < Ex)) s.levels

/-- `get_pointer_to_closest_level` (src/DecayScheme.cc:35-65): the address, or
`none` for a null pointer; `.at` of a bad index throws. -/
def closestLevel [Ring K] [LinearOrder K] (s : Scheme K) (E : K) : Res (Option Nat) :=
  let n := s.levels.length
  if n = 0 then .ok none
  else
    let i := lowerBoundIndex s E
    let at' (i : Nat) : Res (Option Nat) := match s.levels[i]? with
      | none => .error .outOfRange
      | some l => .ok (some l.1)
    if i = n then at' (i - 1)
    else if i > 0 then
      match s.levels[i]?, s.levels[i - 1]? with
      | some hi, some lo => if |E - hi.2.energy| > |E - lo.2.energy| then at' (i - 1) else at' i
      | _, _ => .error .outOfRange
    else at' i

/-- `add_level` (src/DecayScheme.cc:367-378): the new scheme and the address of
the level inserted. -/
def addLevel [LT K] [DecidableLT K] (s : Scheme K) (l : Level K) : Scheme K × Nat :=
  let i := lowerBoundIndex s l.energy
  ({ s with levels := s.levels.take i ++ (s.next, l) :: s.levels.drop i, next := s.next + 1 }, s.next)

/-- `Level::add_gamma` (src/Level.cc:42-64) of the level at address `a`. -/
def addGamma (s : Scheme K) (a : Nat) (g : Gamma K) : Scheme K :=
  { s with levels := s.levels.map (fun l =>
      if l.1 = a then (l.1, { l.2 with gammas := l.2.gammas ++ [g] }) else l) }

/-- The level a pointer points to; `none` if it is not one of this scheme. Used at src/DecayScheme.cc:392-398. -/
def levelAt (s : Scheme K) (a : Nat) : Option (Level K) :=
  (s.levels.find? (fun l => l.1 = a)).map (·.2)

/-! ## Text -/

/-- Position of the end level in the vector, `-1` if it is not there
(src/DecayScheme.cc:392-398). -/
def destIndex (s : Scheme K) (g : Gamma K) : Int :=
  match g.dest with
  | none => -1
  | some a => if s.levels.findIdx (fun l => l.1 = a) < s.levels.length then
      (s.levels.findIdx (fun l => l.1 = a) : Int) else -1

/-- A line for a gamma (src/DecayScheme.cc:390, 399). -/
def printGamma (f : DblFmt K) (s : Scheme K) (g : Gamma K) : Str :=
  ' ' :: ' ' :: ' ' :: ' ' :: (f.print g.energy ++ ' ' :: (f.print g.ri ++
    ' ' :: (intText (destIndex s g) ++ ['\n'])))

/-- The lines for a level (src/DecayScheme.cc:387-400). -/
def printLevel (f : DblFmt K) (s : Scheme K) (l : Level K) : Str :=
  ' ' :: ' ' :: (f.print l.energy ++ ' ' :: (intText l.twoJ ++ ' ' :: l.parity.toChar ::
    ' ' :: (natText l.gammas.length ++ '\n' :: l.gammas.flatMap (printGamma f s))))

/-- `DecayScheme::print` (src/DecayScheme.cc:380-402).  The format of doubles is
that of the stream given by the caller. -/
def print (f : DblFmt K) (s : Scheme K) : Str :=
  intText s.Z ++ ' ' :: (intText s.A ++ ' ' :: (natText s.levels.length ++
    '\n' :: s.levels.flatMap (fun l => printLevel f s l.2)))

/-- The stream (`none` once it has failed) and the local variables of
`read_from_stream` (src/DecayScheme.cc:415-417); `none` for a variable that has
no value yet. -/
structure ReadVars (K : Type) where
  inp : Option Str
  energy : Option K
  ri : Option K
  twoJ : Option Int
  numGammas : Option Int
  idx : Option Int
  pi : Parity

/-- `in >> x` for a double: a stream at its end or failed already changes nothing,
otherwise a failing extraction stores zero.  (After an overflow the library
stores the largest double instead of zero; not modelled.). Used at src/DecayScheme.cc:409-423. -/
def exDbl [Zero K] (f : DblFmt K) (inp : Option Str) (old : Option K) : Option Str × Option K :=
  match inp with
  | none => (none, old)
  | some s => match f.get s with
    | some (x, t) => (some t, some x)
    | none => (none, if skipBlank s = [] then old else some 0)

/-- What a failing extraction of an `int` stores: zero, or the nearest value if
the number is out of range. Used at src/DecayScheme.cc:409-423. -/
def failedInt (s : Str) : Int :=
  let r := splitSign2 (skipBlank s)
  if r.2.takeWhile isDigit = [] then 0 else if r.1 then intMin else intMax

/-- `in >> n` for an int, likewise. Used at src/DecayScheme.cc:409-423. -/
def exInt (inp : Option Str) (old : Option Int) : Option Str × Option Int :=
  match inp with
  | none => (none, old)
  | some s => match readInt s with
    | some (x, t) => (some t, some x)
    | none => (none, if skipBlank s = [] then old else some (failedInt s))

/-- `in >> pi` (src/Parity.cc:52-62): a failed stream leaves the parity alone. -/
def exParity (inp : Option Str) (old : Parity) : Res (Option Str × Parity) :=
  match inp with
  | none => .ok (none, old)
  | some s => match Parity.read s with
    | .error e => .error e
    | .ok (some p, t) => .ok (some t, p)
    | .ok (none, _) => .ok (none, old)

/-- `levels_.at(i).get()` (src/DecayScheme.cc:424): a negative index becomes a
huge unsigned one. -/
def pointerAt (s : Scheme K) (i : Int) : Res Nat :=
  if i < 0 then .error .outOfRange
  else match s.levels[i.toNat]? with
    | none => .error .outOfRange
    | some l => .ok l.1

/-- The inner loop (src/DecayScheme.cc:422-425), for the level at address `a`.
Using a variable without a value is undefined behaviour. -/
def readGammas [Zero K] (f : DblFmt K) (a : Nat) : Nat → Scheme K → ReadVars K →
    Res (Scheme K × ReadVars K)
  | 0, s, v => .ok (s, v)
  | n + 1, s, v =>
    let e := exDbl f v.inp v.energy
    let r := exDbl f e.1 v.ri
    let i := exInt r.1 v.idx
    match e.2, r.2, i.2 with
    | some energy, some ri, some idx =>
      match pointerAt s idx with
      | .error x => .error x
      | .ok p => readGammas f a n (addGamma s a ⟨energy, ri, some p⟩)
          { v with inp := i.1, energy := e.2, ri := r.2, idx := i.2 }
    | _, _, _ => .error .ub

/-- The outer loop (src/DecayScheme.cc:419-426). -/
def readLevels [Zero K] [LT K] [DecidableLT K] (f : DblFmt K) : Nat → Scheme K → ReadVars K →
    Res (Scheme K × ReadVars K)
  | 0, s, v => .ok (s, v)
  | n + 1, s, v =>
    let e := exDbl f v.inp v.energy
    let j := exInt e.1 v.twoJ
    match exParity j.1 v.pi with
    | .error x => .error x
    | .ok (inp, pi) =>
      let g := exInt inp v.numGammas
      match e.2, j.2, g.2 with
      | some energy, some twoJ, some num =>
        let r := addLevel s ⟨energy, twoJ, pi, []⟩
        match readGammas f r.2 num.toNat r.1
            { v with inp := g.1, energy := e.2, twoJ := j.2, numGammas := g.2, pi := pi } with
        | .error x => .error x
        | .ok (s', v') => readLevels f n s' v'
      | _, _, _ => .error .ub

/-- `read_from_stream` (src/DecayScheme.cc:404-427): the scheme and the rest of
the stream (`none`: failed).  `next` is the next free address.  With a failed
header the members Z and A may be changed; the model leaves them at zero. -/
def read [Zero K] [LT K] [DecidableLT K] (f : DblFmt K) (next : Nat) (s : Str) :
    Res (Scheme K × Option Str) :=
  match readInt s with
  | none => .ok (Scheme.empty 0 0 next, none)
  | some (Z, s) =>
    match readInt s with
    | none => .ok (Scheme.empty Z 0 next, none)
    | some (A, s) =>
      match readInt s with
      | none => .ok (Scheme.empty Z A next, none)
      | some (n, s) =>
        match readLevels f n.toNat (Scheme.empty Z A next)
            ⟨some s, none, none, none, none, none, ⟨true⟩⟩ with
        | .error e => .error e
        | .ok (sch, v) => .ok (sch, v.inp)

/-! ## Gamma cascades -/

/-- The random draws of one step of a cascade: the index drawn from a discrete
distribution with the given weights, the cosine of the polar angle and the
azimuth. Used at src/DecayScheme.cc:118-121, src/Level.cc:88. -/
structure Draw where
  pick : List ℝ → Nat
  cosTheta : ℝ
  phi : ℝ

/-- How a cascade ends. See src/DecayScheme.cc:71-141. -/
inductive CascadeEnd where
  /-- it stopped at the level with that address -/
  | finished (level : Nat) (ev : Event ℝ)
  /-- an exception was thrown (or undefined behaviour) -/
  | failed (e : Exc)
  /-- it would go on if there were more draws -/
  | running

/-- `event.residue() = nucleus; event.add_final_particle(gamma)`
(src/DecayScheme.cc:129-134): the residue is the second final particle. -/
def emit (ev : Event ℝ) (nucleus gamma : Particle ℝ) : Event ℝ :=
  { ev with final := ev.final.set 1 nucleus ++ [gamma] }

/-- `do_cascade` (src/DecayScheme.cc:71-141), from the level at address `a`.
`atomicMass` and `me` are what the mass table gives for the nuclide and the
electron.  A dangling pointer, or an index outside the list of gammas, is
undefined behaviour. -/
noncomputable def doCascade (s : Scheme ℝ) (atomicMass me : ℝ) (qIon : Int) :
    Nat → Event ℝ → List Draw → CascadeEnd
  | a, ev, draws =>
    match levelAt s a with
    | none => .failed .ub
    | some l =>
      if l.gammas = [] then .finished a ev
      else
        match draws with
        | [] => .running
        | d :: rest =>
          match l.gammas[d.pick (l.gammas.map (·.ri))]? with
          | none => .failed .ub
          | some g =>
            match g.dest with
            | none => .failed .marleyError
            | some b =>
              match levelAt s b with
              | none => .failed .ub
              | some lf =>
                let m := atomicMass + lf.energy - qIon * me
                match ev.final[1]? with
                | none => .failed .outOfRange
                | some residue =>
                  match Kin.twoBodyDecay residue ⟨22, 0, 0, 0, 0, 0, 0⟩
                      ⟨Pdg.nucleusPid s.Z s.A, m, 0, 0, 0, m, qIon⟩ d.cosTheta d.phi with
                  | .error e => .failed e
                  | .ok (gamma, nucleus) =>
                    doCascade s atomicMass me qIon b (emit ev nucleus gamma) rest

end Marley.Scheme
