import Verif.Model.OpticalModel
import Verif.Model.Logger

/-!
# Coulomb wave functions (src/coulomb_wavefunctions.cc)

The functions of the GNU Scientific Library (GSL) are parameters: what `gsl_sf_coulomb_wave_FG_e` gives, and
which errors it reports while it is at work.  The error handler is a global variable of GSL; `gsl_error` of GSL calls
it, or ends the program if none is set.  Numbers that are not finite are `none`.
-/

set_option autoImplicit false

namespace Marley.CoulombWave
open Marley
open Marley.Json (Str intText)

/-- The error handler of GSL: none (the default), `marley_gsl_error_handler`
(include/marley/coulomb_wavefunctions.hh:22-23), or one of another package. -/
inductive Handler where
  | none | marley | other (n : Nat)
  deriving DecidableEq

/-- An error that GSL reports: the arguments of the handler (src/coulomb_wavefunctions.cc:61-62). -/
structure Report where
  reason : Str
  file : Str
  line : Int
  errno : Int

/-- `GSL_EOVRFLW` of GSL (as used in src/coulomb_wavefunctions.cc:43, 66). -/
def overflow : Int := 16

/-- The global variables in question: the handler and the logger. See src/coulomb_wavefunctions.cc:31, 54. -/
structure Sys where
  handler : Handler
  logger : Logger.State

/-- What becomes visible: something is written to a stream, or the handler of another package is called.
See src/coulomb_wavefunctions.cc:31, 54. -/
inductive Seen where
  | written (x : Logger.Stream) (text : Str)
  | called (n : Nat) (r : Report)

/-- The text of the message (src/coulomb_wavefunctions.cc:68-69). -/
def message (r : Report) : Str :=
  "GSL error: ".toList ++ r.reason ++ " in file ".toList ++ r.file ++ " at line ".toList ++ intText r.line ++
    " with error code ".toList ++ intText r.errno

/-- `marley_gsl_error_handler` (src/coulomb_wavefunctions.cc:61-70). -/
def marleyHandler (r : Report) (s : Sys) : Res (Sys × List Seen) :=
  if r.errno = overflow then .ok (s, [])
  else
    match Logger.log s.logger .error (message r) with
    | .error e => .error e
    | .ok (logger, out) => .ok ({ s with logger }, out.map (fun p => .written p.1 p.2))

/-- How GSL reports an error; `none` if the program is ended
(as used in src/coulomb_wavefunctions.cc:36-37). -/
def report (r : Report) (s : Sys) : Option (Res (Sys × List Seen)) :=
  match s.handler with
  | .none => Option.none
  | .marley => some (marleyHandler r s)
  | .other n => some (.ok (s, [.called n r]))

/-- All reports, one after the other (as used in src/coulomb_wavefunctions.cc:36-37). -/
def reports : List Report → Sys → Option (Res (Sys × List Seen))
  | [], s => some (.ok (s, []))
  | r :: t, s =>
    match report r s with
    | Option.none => Option.none
    | some (.error e) => some (.error e)
    | some (.ok (s, o)) =>
      match reports t s with
      | Option.none => Option.none
      | some (.error e) => some (.error e)
      | some (.ok (s, o')) => some (.ok (s, o ++ o'))

/-- What `gsl_sf_coulomb_wave_FG_e` gives (src/coulomb_wavefunctions.cc:34-37), without the derivatives. -/
structure Waves where
  code : Int
  F : Option ℝ
  G : Option ℝ
  expF : ℝ
  expG : ℝ
  errors : List Report

/-- The complex number with these parts, if both are finite (src/coulomb_wavefunctions.cc:46, 49). -/
def toComplex (re im : Option ℝ) : Option ℂ :=
  match re, im with
  | some x, some y => some ⟨x, y⟩
  | _, _ => none

/-- `coulomb_H_plus` (src/coulomb_wavefunctions.cc:25-57); `gsl` has the arguments eta, rho and l. -/
noncomputable def hPlus (gsl : ℝ → ℝ → ℝ → Waves) (l : Int) (eta rho : ℝ) (s : Sys) :
    Option (Res (Option ℂ × Sys × List Seen)) :=
  let previous := s.handler
  let s := { s with handler := .marley }
  let w := gsl eta rho l
  match reports w.errors s with
  | Option.none => Option.none
  | some (.error e) => some (.error e)
  | some (.ok (s, out)) =>
    let result :=
      if w.code = overflow then
        let Fl := w.F.map (· * Real.exp w.expF)
        let Gl := w.G.map (· * Real.exp w.expG)
        toComplex Gl Fl
      else toComplex w.G w.F
    some (.ok (result, { s with handler := previous }, out))

end Marley.CoulombWave
