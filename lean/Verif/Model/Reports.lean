import Verif.Model.Target
import Verif.Model.DecayScheme
import Verif.Model.Decayer
import Verif.Model.Val

/-!
# Texts for the reader: names, descriptions, reports and tables

include/marley/marley_utils.hh (symbols of particles), src/NuclearReaction.cc and
src/ElectronReaction.cc (descriptions), src/DecayScheme.cc (report and LaTeX
table), src/Target.cc and src/HauserFeshbachDecay.cc (printing).

Characters outside ASCII are characters here, not the bytes of their UTF-8
encoding.  `p x` is the text `out << x` gives for the double `x`, in the format
of the stream used by the caller.
-/

set_option autoImplicit false

namespace Marley.Reports
open Marley
open Marley.Json (Str natText intText)
open Marley.Scheme (Gamma Level Scheme levelAt)

variable {K : Type}

/-- A text as a list of characters. -/
macro:max "chars%" s:str : term => do
  let cs := s.getString.toList.map (fun c => Lean.Syntax.mkCharLit c)
  `([$(cs.toArray),*])

/-! ## Symbols of particles -/

/-- `particle_symbols` (include/marley/marley_utils.hh:452-466). -/
def particleSymbols : List (Nat × Str) :=
  [(11, ['e']), (12, ['ν', 'e']), (13, ['μ']), (14, ['ν', 'μ']), (15, ['τ']), (16, ['ν', 'τ']),
   (22, ['γ']), (2112, ['n']), (2212, ['p']), (1000010020, ['d']), (1000010030, ['t']),
   (1000020030, ['h']), (1000020040, ['α'])]

/-- The entry of `particle_symbols` for a code; `none` if there is none.
Used at include/marley/marley_utils.hh:497. -/
def symbolAt (pid : Int) : Option Str :=
  if pid < 0 then none else particleSymbols.lookup pid.toNat

/-- `get_particle_symbol` (include/marley/marley_utils.hh:495-502); `.at` of a
missing key throws `std::out_of_range`. -/
def particleSymbol (pid : Int) : Res Str :=
  match Pdg.charge pid with
  | .error e => .error e
  | .ok charge =>
    match particleSymbols.lookup pid.natAbs with
    | none => .error .outOfRange
    | some result =>
      if charge < 0 then .ok (result ++ ['⁻'])
      else if charge > 0 then .ok (result ++ ['⁺'])
      else if pid < 0 then .ok (chars%"anti-" ++ result)
      else .ok result

/-! ## Descriptions of reactions -/

/-- What `NuclearReaction::set_description` reads: the codes of the projectile and
of the ejectile, mass and atomic numbers, and the level energies of the matrix
elements (members of include/marley/NuclearReaction.hh, include/marley/Reaction.hh:118-137). -/
structure Nuclear (K : Type) where
  pdgA : Int
  Ai : Int
  Zi : Int
  pdgC : Int
  Af : Int
  Zf : Int
  levels : List K

/-- `NuclearReaction::set_description` (src/NuclearReaction.cc:719-735).  The order in
which the symbols are looked up matters only for which exception is thrown; all
are `std::out_of_range`. -/
def describeNuclear [Zero K] [LT K] [DecidableLT K] (r : Nuclear K) : Res Str :=
  match particleSymbol r.pdgA with
  | .error e => .error e
  | .ok a => match Utils.elementSymbol r.Zi with
    | .error e => .error e
    | .ok b => match particleSymbol r.pdgC with
      | .error e => .error e
      | .ok c => match Utils.elementSymbol r.Zf with
        | .error e => .error e
        | .ok d =>
          .ok (a ++ (chars%" + " ++ (intText r.Ai ++ (b ++ (chars%" --> " ++ (c ++ (chars%" + " ++
            (intText r.Af ++ (d ++
              if r.levels.any (fun e => decide (0 < e)) then ['*'] else chars%" (g.s.)")))))))))

/-- The description of a reaction on electrons (src/ElectronReaction.cc:38-43; the
codes are set in lines 33-36, the electron is 11). -/
def describeElectron (pdgA pdgC : Int) : Res Str :=
  match particleSymbol pdgA with
  | .error e => .error e
  | .ok a => match particleSymbol 11 with
    | .error e => .error e
    | .ok b => match particleSymbol pdgC with
      | .error e => .error e
      | .ok c => .ok (a ++ (chars%" + " ++ (b ++ (chars%" --> " ++ (c ++ (chars%" + " ++ b))))))

/-! ## The report on a decay scheme -/

/-- The lines for a gamma (src/DecayScheme.cc:282-286).  Following a null or
dangling pointer to the end level is undefined behaviour. -/
def reportGamma (p : K → Str) (s : Scheme K) (g : Gamma K) : Res Str :=
  match g.dest.bind (levelAt s) with
  | none => .error .ub
  | some l =>
    .ok (chars%"  has a gamma with energy " ++ (p g.energy ++ (chars%" MeV (transition to level at " ++
      (p l.energy ++ (chars%" MeV)\n    and relative intensity " ++ (p g.ri ++ ['\n']))))))

/-- The loop over the gammas of a level (src/DecayScheme.cc:281-287). -/
def reportGammas (p : K → Str) (s : Scheme K) : List (Gamma K) → Res Str
  | [] => .ok []
  | g :: t => match reportGamma p s g with
    | .error e => .error e
    | .ok a => match reportGammas p s t with
      | .error e => .error e
      | .ok b => .ok (a ++ b)

/-- The line for a level (src/DecayScheme.cc:268-275). -/
def reportHead (p : K → Str) (l : Level K) : Str :=
  chars%"Level at " ++ (p l.energy ++ (chars%" MeV has spin-parity " ++
    (Utils.spinParityString l.twoJ l.parity ++ ['\n'])))

/-- The loop over the levels (src/DecayScheme.cc:267-288). -/
def reportLevels (p : K → Str) (s : Scheme K) : List (Nat × Level K) → Res Str
  | [] => .ok []
  | l :: t => match reportGammas p s l.2.gammas with
    | .error e => .error e
    | .ok a => match reportLevels p s t with
      | .error e => .error e
      | .ok b => .ok (reportHead p l.2 ++ (a ++ b))

/-- `DecayScheme::print_report` (src/DecayScheme.cc:264-289). -/
def report (p : K → Str) (s : Scheme K) : Res Str := reportLevels p s s.levels

/-! ## The LaTeX table -/

/-- `latex_table_1` (src/marley_utils.cc:35-64). -/
def latexTable1 : Str := List.flatten [
  chars%"\\documentclass[12pt]{article}\n",
  chars%"\n\\usepackage{amsmath}\n",
  chars%"\\usepackage{booktabs}\n",
  chars%"\\usepackage[justification=justified,\n",
  chars%"width=\\textwidth,\n",
  chars%"labelformat=empty]{caption}\n",
  chars%"\\usepackage[top=1in, bottom=1in, left=0.25in, right=0.25in]{geometry}\n",
  chars%"\\usepackage{isotope}\n",
  chars%"\\usepackage{longtable}\n",
  chars%"\\usepackage{multirow}\n",
  chars%"\\usepackage{siunitx}\n",
  chars%"\n\\newcommand{\\ExtraRowSpace}{1cm}\n",
  chars%"\n\\begin{document}\n",
  chars%"\\begin{center}\n",
  chars%"\\begin{longtable}{\n",
  chars%"S[table-number-alignment = center,\n",
  chars%"  table-text-alignment = center]\n",
  chars%"c\n",
  chars%"S[table-number-alignment = center,\n",
  chars%"  table-text-alignment = center]\n",
  chars%"%  table-column-width = 2cm]\n",
  chars%"S[table-number-alignment = center,\n",
  chars%"  table-text-alignment = center]\n",
  chars%"S[table-number-alignment = center,\n",
  chars%"  table-text-alignment = center]\n",
  chars%"}\n",
  chars%"\\caption"]

/-- The headings of the columns, which `latex_table_2` and `latex_table_3` share
(src/marley_utils.cc:66-79, 83-96). -/
def latexHeadings : Str := List.flatten [
  chars%"\\toprule\n",
  chars%"%{\\centering\\textbf{Level Energy (keV)}}\n",
  chars%"%& {\\centering\\textbf{Spin-Parity}}\n",
  chars%"%& {\\centering\\textbf{$\\boldsymbol{\\gamma}$ Energy (keV)}}\n",
  chars%"%& {\\centering\\textbf{$\\boldsymbol{\\gamma}$ RI}}\n",
  chars%"%& {\\centering\\textbf{Final Energy (keV)}} \\\\\n",
  chars%"{\\multirow{3}{2cm}{\\centering\\textbf{Level Energy (keV)}}}\n",
  chars%"& {\\multirow{3}{2cm}{\\centering\\textbf{Spin-Parity}}}\n",
  chars%"& {\\multirow{3}{2cm}{\\centering\\textbf{$\\boldsymbol{\\gamma}$ Energy (keV)}}}\n",
  chars%"& {\\multirow{3}{2cm}{\\centering\\textbf{$\\boldsymbol{\\gamma}$ RI}}}\n",
  chars%"& {\\multirow{3}{2.5cm}{\\centering\\textbf{Final Level Energy (keV)}}} \\\\\n",
  chars%"& & & & \\\\\n",
  chars%"& & & & \\\\\n",
  chars%"\\midrule\n"]

/-- `latex_table_2` (src/marley_utils.cc:66-81). -/
def latexTable2 : Str := latexHeadings ++ List.flatten [
  chars%"\\endfirsthead\n",
  chars%"\\caption[]"]

/-- `latex_table_3` (src/marley_utils.cc:83-104). -/
def latexTable3 : Str := latexHeadings ++ List.flatten [
  chars%"\\noalign{\\vspace{-\\ExtraRowSpace}}\n",
  chars%"\\endhead\n",
  chars%"\\bottomrule \\multicolumn{4}{r}{\\textit{Continued on next page}} \\\\\n",
  chars%"\\endfoot\n",
  chars%"\\bottomrule\n",
  chars%"\\endlastfoot\n",
  chars%"% Table data\n",
  chars%"\n"]

/-- `latex_table_4` (src/marley_utils.cc:106-108). -/
def latexTable4 : Str := List.flatten [
  chars%"\\end{longtable}\n",
  chars%"\\end{center}\n",
  chars%"\\end{document}"]

/-- `caption_beginning` (src/DecayScheme.cc:295-303), from the identifier of the
nuclide; the identifiers of `nuc_id` have five characters, so `substr` does not
throw. -/
def latexCaption (id : Str) : Str :=
  chars%"{\\textbf{Levels and $\\boldsymbol{\\gamma}$ transitions \n for \\isotope[\\boldsymbol{" ++
    (Utils.trim (id.take 3) Utils.whitespace ++ (chars%"}]{\\textbf{" ++ ((id.drop 3).take 1 ++
      (Utils.trim (((id.drop 4).take 1).map Utils.toLower) Utils.whitespace ++ chars%"}} \n"))))

/-- The end of a row: nothing in the very last one, else a row break with extra
space (src/DecayScheme.cc:330-332, 347-349). -/
def latexEnd (last : Bool) : Str :=
  if last then ['\n'] else chars%" \\\\ \\addlinespace[\\ExtraRowSpace]\n"

/-- The rows of the gammas of a level (src/DecayScheme.cc:335-352); the addresses
compared there say whether a gamma is the first (`first`) or the last one. -/
def latexGammas (p : K → Str) (s : Scheme K) (last : Bool) : Bool → List (Gamma K) → Res Str
  | _, [] => .ok []
  | first, g :: t => match g.dest.bind (levelAt s) with
    | none => .error .ub
    | some l => match latexGammas p s last false t with
      | .error e => .error e
      | .ok b =>
        .ok ((if first then [] else chars%" & & ") ++ (p g.energy ++ (chars%" & " ++ (p g.ri ++
          (chars%" & " ++ (p l.energy ++ ((if t = [] then latexEnd last else chars%" \\\\*\n") ++ b)))))))

/-- The rows of a level (src/DecayScheme.cc:319-352). -/
def latexLevel (p : K → Str) (s : Scheme K) (last : Bool) (l : Level K) : Res Str :=
  match latexGammas p s last true l.gammas with
  | .error e => .error e
  | .ok b =>
    .ok (p l.energy ++ (chars%" & " ++ (Utils.spinParityString l.twoJ l.parity ++ (chars%" & " ++
      ((if l.gammas = [] then chars%" &  &" ++ latexEnd last else []) ++ b)))))

/-- The loop over the levels (src/DecayScheme.cc:317-353). -/
def latexLevels (p : K → Str) (s : Scheme K) : List (Nat × Level K) → Res Str
  | [] => .ok []
  | l :: t => match latexLevel p s (t = []) l.2 with
    | .error e => .error e
    | .ok a => match latexLevels p s t with
      | .error e => .error e
      | .ok b => .ok (a ++ b)

/-- `DecayScheme::print_latex_table` (src/DecayScheme.cc:291-355). -/
def latexTable (p : K → Str) (s : Scheme K) : Res Str :=
  match Utils.nucId s.Z s.A with
  | .error e => .error e
  | .ok id => match latexLevels p s s.levels with
    | .error e => .error e
    | .ok rows =>
      .ok (latexTable1 ++ (latexCaption id ++ (chars%"}}\\\\\n" ++ (latexTable2 ++
        (latexCaption id ++ (chars%" -- \\textit{continued}}} \\\\\n" ++ (latexTable3 ++
          (rows ++ (latexTable4 ++ ['\n'])))))))))

/-! ## Targets -/

/-- A line of `Target::print` without the newline (src/Target.cc:115-124); the
number and the element come from the code (src/TargetAtom.cc:32-38). -/
def targetLine (p : K → Str) (e : Int × K) : Str :=
  Utils.padLeft (intText (Pdg.getA e.1)) 3 ' ' ++
    (Utils.padRight (match Utils.elementSymbols.lookup (Pdg.getZ e.1) with
      | some sym => sym
      | none => ['?', '?']) 2 ' ' ++ (chars%" = " ++ p e.2))

/-- `Target::print` (src/Target.cc:111-130), for the entries of the map in order. -/
def targetText (p : K → Str) : List (Int × K) → Str
  | [] => []
  | e :: t => targetLine p e ++ (if t = [] then [] else ['\n']) ++ targetText p t

/-! ## Decays of compound nuclei -/

/-- `hbar` in MeV s (src/HauserFeshbachDecay.cc:209). -/
noncomputable def hbar : ℝ := 6.58211951e-22

/-- The line of a channel (src/HauserFeshbachDecay.cc:217-235).  The channels that
are not in the continuum are `DiscreteExitChannel`s, so the cast succeeds. -/
def channelLine (p : Val → Str) (x : Decay.Exit) : Res Str :=
  match symbolAt x.kind.emitted with
  | none => .error .outOfRange
  | some symbol =>
    let name := match x.kind with
      | .fragLevel _ _ | .fragCont _ _ => symbol
      | .gamLevel _ | .gamCont _ => chars%"gamma-ray"
    let goal := match x.kind with
      | .fragCont _ _ | .gamCont _ => chars%" emission to the continuum width = "
      | .fragLevel _ l | .gamLevel l =>
        chars%" emission to level at " ++ (p (.num l.energy) ++ chars%" MeV width = ")
    .ok (chars%"  " ++ (name ++ (goal ++ (p (.num x.width) ++ chars%" MeV\n"))))

/-- The loop over the channels (src/HauserFeshbachDecay.cc:217-235). -/
def channelLines (p : Val → Str) : List Decay.Exit → Res Str
  | [] => .ok []
  | x :: t => match channelLine p x with
    | .error e => .error e
    | .ok a => match channelLines p t with
      | .error e => .error e
      | .ok b => .ok (a ++ b)

/-- The spin (src/HauserFeshbachDecay.cc:212-213). -/
def decaySpin (twoJ : Int) : Str :=
  intText (twoJ.tdiv 2) ++ (if twoJ.tmod 2 ≠ 0 then ['.', '5'] else [])

/-- `HauserFeshbachDecay::print` (src/HauserFeshbachDecay.cc:206-236). -/
noncomputable def decayText (p : Val → Str) (pdg : Int) (Ex : ℝ) (twoJ : Int) (P : Parity)
    (total : ℝ) (xs : List Decay.Exit) : Res Str :=
  match channelLines p xs with
  | .error e => .error e
  | .ok b =>
    .ok (chars%"Compound nucleus " ++ (intText pdg ++ (chars%" with Ex = " ++ (p (.num Ex) ++
      (chars%", spin = " ++ (decaySpin twoJ ++ (chars%", and parity = " ++ (P.toChar ::
        (chars%"\nTotal width = " ++ (p (.num total) ++ (chars%" MeV\nMean lifetime = " ++
          (p (Val.div (.num hbar) (.num total)) ++ (chars%" s\n" ++ b)))))))))))))

end Marley.Reports
