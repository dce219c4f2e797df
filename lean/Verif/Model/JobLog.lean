import Verif.Model.JobConfig
import Verif.Model.Logger

/-!
# Logger settings of a job configuration (src/JSONConfig.cc:100-116, 838-926)

The text of error messages is not modelled.
-/

set_option autoImplicit false

namespace Marley.Job
open Marley
open Marley.Json (Str JVal hasKey at?)
open Marley.Logger (LogLevel)

/-- What the settings act on: the logger, of which there is only one
(src/Logger.cc:109-112); the names of the files opened so far, in order, of which the one
at place `n` is the stream `.other n`; the contents of files (`none`: no such file); and
whether opening a file for writing succeeds. -/
structure LogWorld where
  logger : Logger.State
  opened : List Str
  files : Str → Option Str
  openable : Str → Bool

/-- The level of a log file (src/JSONConfig.cc:877-890). -/
def levelOf (el : JVal ℝ) : Res LogLevel :=
  if hasKey el "level".toList then
    match at? el "level".toList with
    | .error e => .error e
    | .ok x =>
      let s := textOf x
      if s = "error".toList then .ok .error
      else if s = "warning".toList then .ok .warning
      else if s = "info".toList then .ok .info
      else if s = "debug".toList then .ok .debug
      else if s = "disabled".toList then .ok .disabled
      else .error .marleyError
  else .ok .info

/-- Whether to overwrite a log file (src/JSONConfig.cc:903-916). -/
def overwriteOf (el : JVal ℝ) : Res Bool :=
  if hasKey el "overwrite".toList then
    match at? el "overwrite".toList with
    | .error e => .error e
    | .ok (.bool b) => .ok b
    | .ok _ => .error .marleyError
  else .ok false

/-- `add_stream` on the logger (src/Logger.cc:157-175). -/
def LogWorld.add (w : LogWorld) (shared : Bool) (x : Logger.Stream) (lev : LogLevel) :
    LogWorld × Res Unit :=
  match Logger.addStream w.logger shared x lev with
  | .error e => (w, .error e)
  | .ok st => ({ w with logger := st }, .ok ())

/-- A file is opened for writing: its contents are removed if they are to be overwritten,
and kept otherwise; a file that does not exist is created (src/JSONConfig.cc:902-918).
-/
def LogWorld.openFile (w : LogWorld) (name : Str) (overwrite : Bool) : LogWorld :=
  { w with
    opened := w.opened ++ [name]
    files := fun f => if f = name then some (if overwrite then [] else (w.files f).getD [])
      else w.files f }

/-- One entry of the list of log files (src/JSONConfig.cc:867-923).  What was done before an
exception is kept. -/
def logEntry (w : LogWorld) (el : JVal ℝ) : LogWorld × Res Unit :=
  if hasKey el "file".toList then
    match at? el "file".toList with
    | .error e => (w, .error e)
    | .ok (.str s) =>
      let name := textOf (.str s)
      match levelOf el with
      | .error e => (w, .error e)
      | .ok lev =>
        if name = "stdout".toList then w.add false .cout lev
        else if name = "stderr".toList then w.add false .cerr lev
        else
          match overwriteOf el with
          | .error e => (w, .error e)
          | .ok b =>
            if w.openable name then (w.openFile name b).add true (.other w.opened.length) lev
            else (w, .error .marleyError)
    | .ok _ => (w, .error .marleyError)
  else (w, .error .marleyError)

/-- The loop over the list (src/JSONConfig.cc:866-924). -/
def logEntries (w : LogWorld) : List (JVal ℝ) → LogWorld × Res Unit
  | [] => (w, .ok ())
  | el :: els =>
    match logEntry w el with
    | (w, .error e) => (w, .error e)
    | (w, .ok ()) => logEntries w els

/-- `update_logger_settings` (src/JSONConfig.cc:838-926). -/
def updateLogger (w : LogWorld) (j : JVal ℝ) : LogWorld × Res Unit :=
  match Logger.clearStreams w.logger with
  | .error e => (w, .error e)
  | .ok st =>
    let w := { w with logger := st }
    if hasKey j "log".toList then
      match at? j "log".toList with
      | .error e => (w, .error e)
      | .ok (.arr []) => ({ w with logger := Logger.enable w.logger false }, .ok ())
      | .ok (.arr els) => logEntries { w with logger := Logger.enable w.logger true } els
      | .ok _ => (w, .error .marleyError)
    else
      match w.add false .cout .info with
      | (w, .error e) => (w, .error e)
      | (w, .ok ()) => ({ w with logger := Logger.enable w.logger true }, .ok ())

/-- The constructor of `JSONConfig` from the name of a file (src/JSONConfig.cc:105-116);
`loaded` is the outcome of reading the file. -/
def configFromFile (w : LogWorld) (loaded : Res (JVal ℝ)) : LogWorld × Res Unit :=
  match updateLogger w .null with
  | (w, .error e) => (w, .error e)
  | (w, .ok ()) =>
    match loaded with
    | .error e => (w, .error e)
    | .ok j => updateLogger w j

end Marley.Job
