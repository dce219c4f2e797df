import Verif.Model.Source

/-!
# Neutrino sources from ROOT files

src/marley_root.cc, include/marley/marley_root.hh, src/RootJSONConfig.cc.  Of ROOT only
this is modelled: a file that can be opened gives an object for some names; a histogram
(`TH1`) has a number of bins, and a lower edge and a content for each number of a bin
(0 is the underflow bin, `bins + 1` the overflow bin); a graph (`TGraph`) has points.
Histograms of more dimensions, which also are `TH1`, are not treated.  Numbers are real
numbers.  Messages are not modelled.
-/

set_option autoImplicit false

namespace Marley.Source
open Marley Marley.Json
open Marley.Grid (Interp)

/-- What is used of a `TH1` (src/marley_root.cc:33, 39, 41). -/
structure TH1 where
  bins : Nat
  lowEdge : Nat → ℝ
  content : Nat → ℝ

/-- Objects in a ROOT file (include/marley/marley_root.hh:63). -/
inductive RootObject where
  | th1 (h : TH1)
  | tgraph (points : List (ℝ × ℝ))
  | other

/-- The ROOT files: `TFile::Open` and `TFile::Get`
(include/marley/marley_root.hh:57-63). -/
abbrev RootFiles := Str → Option (Str → Option RootObject)

/-- `get_root_object<TH1>` (include/marley/marley_root.hh:50-82): a null pointer if there is
no such object or it is something else. -/
def getTH1 (R : RootFiles) (file name : Str) : Res (Option TH1) :=
  match R file with
  | none => .error .marleyError
  | some f =>
    match f name with
    | some (.th1 h) => .ok (some h)
    | _ => .ok none

/-- `get_root_object<TGraph>` (include/marley/marley_root.hh:50-82). -/
def getTGraph (R : RootFiles) (file name : Str) : Res (Option (List (ℝ × ℝ))) :=
  match R file with
  | none => .error .marleyError
  | some f =>
    match f name with
    | some (.tgraph l) => .ok (some l)
    | _ => .ok none

/-- One round of the loop that divides by the widths (src/marley_root.cc:47-53). -/
noncomputable def divideBin (Es PDs : List ℝ) (c : Nat) : Res (List ℝ) :=
  match Es[c + 1]?, Es[c]?, PDs[c]? with
  | some b, some a, some y =>
    let width := b - a
    if width ≤ 0 then .error .marleyError else .ok (PDs.set c (y / width))
  | _, _, _ => .error .outOfRange

/-- `make_root_neutrino_source` for a histogram (src/marley_root.cc:21-68). -/
noncomputable def th1Source (pdg : Int) (th1 : Option TH1) : Res Source :=
  match th1 with
  | none => .error .marleyError
  | some h => do
    let n := h.bins + 1
    let Es := (List.range n).map fun c => h.lowEdge (c + 1)
    let PDs := (List.range n).map fun c => h.content (c + 1)
    let PDs ← (List.range (n - 1)).foldlM (divideBin Es) PDs
    mkGridVectors pdg Es (PDs.set (PDs.length - 1) 0) .constant

/-- `make_root_neutrino_source` for a graph (src/marley_root.cc:70-93). -/
noncomputable def tgraphSource (pdg : Int) (tg : Option (List (ℝ × ℝ))) : Res Source :=
  match tg with
  | none => .error .marleyError
  | some l => mkGridVectors pdg (l.map Prod.fst) (l.map Prod.snd) .linearLinear

/-- `source_get` without a default (src/JSONConfig.cc:822-836). -/
def sourceGet (j : JVal ℝ) (k : Str) : Res Str :=
  if hasKey j k then
    match at? j k with
    | .error e => .error e
    | .ok v => toStringOrThrow v
  else .error .marleyError

/-- `process_extra_source_types` (src/RootJSONConfig.cc:25-60), called at
src/JSONConfig.cc:694; `none` is the result `false`. -/
noncomputable def rootBuild (R : RootFiles) (type : Str) (pdg : Int) (j : JVal ℝ) :
    Option (Res Source) :=
  if type ≠ "th1".toList ∧ type ≠ "tgraph".toList then none
  else some (do
    let file ← sourceGet j "tfile".toList
    let name ← sourceGet j "namecycle".toList
    if type = "th1".toList then
      let h ← getTH1 R file name
      th1Source pdg h
    else
      let g ← getTGraph R file name
      tgraphSource pdg g)

/-- The types `prepare_neutrino_source` knows itself
(src/JSONConfig.cc:579, 588, 593, 618, 642, 682). -/
def ownTypes : List Str :=
  ["mono".toList, "monoenergetic".toList, "dar".toList, "decay-at-rest".toList, "fd".toList,
    "fermi-dirac".toList, "fermi_dirac".toList, "bf".toList, "beta".toList, "beta-fit".toList,
    "hist".toList, "histogram".toList, "grid".toList]

/-- The source described by the value of the key `source`, with ROOT
(src/JSONConfig.cc:542-697, include/marley/RootJSONConfig.hh:24-37). -/
noncomputable def fromSpecRoot (R : RootFiles) (j : JVal ℝ) : Res (Option Source) :=
  match j with
  | .null => .ok none
  | j => do
    let type ← getText j "type".toList
    let nu ← getText j "neutrino".toList
    let pdg ← neutrinoPdg nu
    let s ← if type ∈ ownTypes then build type pdg j
      else match rootBuild R type pdg j with
        | none => .error .marleyError
        | some r => r
    .ok (some s)

end Marley.Source
