import Verif.Spec.CoulombWave
import Verif.Props.Logger
import Verif.Props.OpticalModel

/-!
# C115: Coulomb wave functions
-/

set_option autoImplicit false

namespace Marley.Props
open Marley Marley.CoulombWave
open Marley.Json (Str)
open Marley.Logger (Stream LogLevel)

/-- What operations of the logger write. -/
def outputs : Logger.State → List Logger.Op → List (Stream × Str)
  | _, [] => []
  | st, o :: l => (Logger.step st o).2 ++ outputs (Logger.step st o).1 l

/-- The messages for some errors. -/
def errorOps (l : List Report) : List Logger.Op := (trueErrors l).map (fun r => .log .error (message r))

theorem errorOps_cons (r : Report) (l : List Report) :
    errorOps (r :: l) = if r.errno = overflow then errorOps l else .log .error (message r) :: errorOps l := by
  rw [errorOps, trueErrors]
  by_cases h : r.errno = 16
  · rw [List.filter_cons_of_neg (by simpa using h), if_pos (show r.errno = overflow from h)]; rfl
  · rw [List.filter_cons_of_pos (by simpa using h), if_neg (show ¬ r.errno = overflow from h)]; rfl

/-- Only the state of the logger changes. -/
theorem reports_marley (l : List Report) (s : Sys) (hs : s.handler = .marley) :
    reports l s = some (.ok (⟨.marley, Logger.run s.logger (errorOps l)⟩,
      (outputs s.logger (errorOps l)).map (fun p => .written p.1 p.2))) := by
  induction l generalizing s with
  | nil =>
    obtain ⟨h, logger⟩ := s
    simp only at hs
    subst hs
    rfl
  | cons r l ih =>
    rw [errorOps_cons]
    by_cases hr : r.errno = overflow
    · rw [reports, report, hs, if_pos hr]
      simp only [marleyHandler, if_pos hr, ih s hs, List.nil_append]
    · rw [if_neg hr]
      rcases hl : Logger.log s.logger .error (message r) with e | ⟨lg, out⟩
      · rw [Logger.log, if_neg (by decide)] at hl
        split at hl <;> cases hl
      rw [reports, report, hs]
      simp only [marleyHandler, if_neg hr, hl]
      rw [ih ⟨s.handler, lg⟩ hs]
      have hst : Logger.step s.logger (.log .error (message r)) = (lg, out) := by rw [Logger.step, hl]
      simp only [outputs, Logger.run, List.foldl_cons, hst, List.map_append]

theorem hPlus_eq (gsl : ℝ → ℝ → ℝ → Waves) (l : Int) (eta rho : ℝ) (s : Sys) :
    hPlus gsl l eta rho s = some (.ok (
      if (gsl eta rho l).code = overflow then
        toComplex ((gsl eta rho l).G.map (· * Real.exp (gsl eta rho l).expG))
          ((gsl eta rho l).F.map (· * Real.exp (gsl eta rho l).expF))
      else toComplex (gsl eta rho l).G (gsl eta rho l).F,
      ⟨s.handler, Logger.run s.logger (errorOps (gsl eta rho l).errors)⟩,
      (outputs s.logger (errorOps (gsl eta rho l).errors)).map (fun p => .written p.1 p.2))) := by
  rw [hPlus]
  simp only [reports_marley _ ⟨.marley, s.logger⟩ rfl]

/-- C115: whatever GSL reports and whichever handler was set, the program goes on, the same handler is set
afterwards, and no other handler is called meanwhile. -/
theorem C115_handler (gsl : ℝ → ℝ → ℝ → Waves) (l : Int) (eta rho : ℝ) (s : Sys) :
    ∃ v s' o, hPlus gsl l eta rho s = some (.ok (v, s', o)) ∧ s'.handler = s.handler ∧ ∀ x ∈ o, x.isCall = false := by
  refine ⟨_, _, _, hPlus_eq gsl l eta rho s, rfl, fun x hx => ?_⟩
  obtain ⟨p, -, rfl⟩ := List.mem_map.1 hx
  rfl

/-- C115: the value is G + iF, whether or not GSL had to scale the functions. -/
theorem C115_value (gsl : ℝ → ℝ → ℝ → Waves) (l : Int) (eta rho F G : ℝ) (h : Right (gsl eta rho l) F G) (s : Sys) :
    ∃ s' o, hPlus gsl l eta rho s = some (.ok (some (G + F * Complex.I), s', o)) := by
  have hz : ∀ x y : ℝ, (⟨x, y⟩ : ℂ) = x + y * Complex.I := fun x y => Complex.mk_eq_add_mul_I x y
  rw [hPlus_eq]
  refine ⟨⟨s.handler, Logger.run s.logger (errorOps (gsl eta rho l).errors)⟩,
    (outputs s.logger (errorOps (gsl eta rho l).errors)).map (fun p => .written p.1 p.2), ?_⟩
  rcases h with ⟨c, hF, hG⟩ | ⟨c, f, g, hF, hG, rfl, rfl⟩
  · rw [if_neg (by rw [c]; decide), hF, hG, toComplex, hz]
  · rw [if_pos (show (gsl eta rho l).code = overflow from c), hF, hG]
    simp only [Option.map_some, toComplex, hz]

theorem eight_texts (a b c d e f g h : Str) : a ++ b ++ c ++ d ++ e ++ f ++ g ++ h = [a, b, c, d, e, f, g, h].flatten := by simp

theorem message_eq (r : Report) : message r = announcement r.reason r.file r.line r.errno := eight_texts _ _ _ _ _ _ _ _

theorem configured_log (on : Bool) (ops : List Logger.Op) (lev : LogLevel) (t : Str) :
    configured on (ops ++ [.log lev t]) = configured on ops := by
  simp only [configured, List.foldl_append, List.foldl_cons, List.foldl_nil]
  rfl

theorem loggerAfter_snoc (on : Bool) (ops : List Logger.Op) (o : Logger.Op) :
    (Logger.step (loggerAfter on ops) o).1 = loggerAfter on (ops ++ [o]) := by
  simp only [loggerAfter]
  rcases h : Logger.init on with e | st
  · cases on <;> cases h
  · simp [Logger.run]

theorem outputs_errors (on : Bool) (ops : List Logger.Op) (l : List Report) :
    (outputs (loggerAfter on ops) (errorOps l)).filter (fun p => p.1 ≠ .cout) =
      (trueErrors l).flatMap (fun r => (expected (configured on ops) .error (message r)).filter (fun p => p.1 ≠ .cout)) := by
  rw [errorOps]
  generalize trueErrors l = l
  induction l generalizing ops with
  | nil => rfl
  | cons r l ih =>
    have h := C71_other_streams on ops .error (message r)
    simp only [List.map_cons, outputs, List.filter_append, List.flatMap_cons]
    rw [h, loggerAfter_snoc, ih, configured_log]

/-- C115: overflows are not reported, every other error once, as an error message with what GSL says, in order; nothing else is
written.  (What is excluded here, messages on standard output, are the subject of C71.) -/
theorem C115_messages (gsl : ℝ → ℝ → ℝ → Waves) (l : Int) (eta rho : ℝ) (h : Handler) (on : Bool) (ops : List Logger.Op) :
    ∃ v s' o, hPlus gsl l eta rho ⟨h, loggerAfter on ops⟩ = some (.ok (v, s', o)) ∧
      (writings o).filter (fun p => p.1 ≠ .cout) = (trueErrors (gsl eta rho l).errors).flatMap (fun r =>
        (expected (configured on ops) .error (announcement r.reason r.file r.line r.errno)).filter (fun p => p.1 ≠ .cout)) ∧
      (trueErrors (gsl eta rho l).errors = [] → o = [] ∧ s' = ⟨h, loggerAfter on ops⟩) := by
  refine ⟨_, _, _, hPlus_eq gsl l eta rho _, ?_, fun h0 => ?_⟩
  · simp only [← message_eq]
    rw [← outputs_errors]
    simp [writings, List.filterMap_map]
  · simp [errorOps, h0, outputs, Logger.run]

/-- The value as a function of its arguments, as the optical model uses it. -/
noncomputable def waveOf (gsl : ℝ → ℝ → ℝ → Waves) (l : Int) (eta rho : ℝ) : Option ℂ :=
  match hPlus gsl l eta rho ⟨.none, Logger.init true |>.toOption.getD ⟨[], false, .info⟩⟩ with
  | some (.ok (v, _, _)) => v
  | _ => none

/-- C115: the value does not depend on the handler or the logger, so that the optical model can be regarded as using a
function of the arguments. -/
theorem C115_function (gsl : ℝ → ℝ → ℝ → Waves) (l : Int) (eta rho : ℝ) (s : Sys) :
    ∃ s' o, hPlus gsl l eta rho s = some (.ok (waveOf gsl l eta rho, s', o)) := by
  refine ⟨⟨s.handler, Logger.run s.logger (errorOps (gsl eta rho l).errors)⟩,
    (outputs s.logger (errorOps (gsl eta rho l).errors)).map (fun p => .written p.1 p.2), ?_⟩
  rw [waveOf, hPlus_eq, hPlus_eq]

/-- C115: where GSL finds no finite value the transmission coefficient is zero. -/
theorem C115_not_finite (gsl : ℝ → ℝ → ℝ → Waves) (hg : ∀ eta rho l, (gsl eta rho l).F = none ∨ (gsl eta rho l).G = none)
    (t : Mass.Table) (m : Optical.Om) (KE : ℝ) (frag twoJ l twoS charge : Int) (T : ℝ)
    (h : (m.transmission t (waveOf gsl) KE frag twoJ l twoS charge).1 = .ok T) : T = 0 := by
  have hH : ∀ l eta rho, waveOf gsl l eta rho = none := by
    intro l eta rho
    rw [waveOf, hPlus_eq]
    rcases hg eta rho l with h0 | h0 <;> simp [h0, toComplex]
  have hs : ∀ (m : Optical.Om) (l : Int) (S : Option ℂ), m.solve (waveOf gsl) l = .ok S → S = none := by
    intro m l S h
    unfold Optical.Om.solve at h
    split_ifs at h
    split at h
    · cases h
    dsimp only at h
    split at h
    · cases h
    simp only [hH] at h
    cases h
    cases Utils.fdiv _ _ <;> rfl
  unfold Optical.Om.transmission at h
  split_ifs at h
  · cases h; rfl
  split at h
  · cases h
  split at h
  · cases h
  split at h
  · cases h
  · cases h; rfl
  · next heq =>
    rw [Optical.Om.sMatrix] at heq
    have := hs _ _ _ (Prod.mk.inj heq).1
    cases this

example (t : Mass.Table) (m : Optical.Om) (T : ℝ)
    (h : (m.transmission t (waveOf (fun _ _ _ => ⟨1, none, none, 0, 0, [⟨['d'], ['c'], 7, 1⟩]⟩)) 5 1000020040 0 0 0 0).1 = .ok T) :
    T = 0 := C115_not_finite _ (fun _ _ _ => .inl rfl) t m 5 _ _ _ _ _ T h

/-- Values of GSL with an overflow and another error. -/
noncomputable def exWaves : Waves :=
  ⟨16, some 1, some 2, 800, -800, [⟨['o'], ['c'], 3, 16⟩, ⟨['u'], ['c'], 5, 15⟩]⟩

example : Right exWaves (Real.exp 800) (2 * Real.exp (-800)) :=
  .inr ⟨rfl, 1, 2, rfl, rfl, by simp [exWaves], by simp [exWaves]⟩

example (s : Sys) : ∃ s' o, hPlus (fun _ _ _ => exWaves) 0 1 1 s =
    some (.ok (some ((2 * Real.exp (-800) : ℝ) + (Real.exp 800 : ℝ) * Complex.I), s', o)) :=
  C115_value _ 0 1 1 _ _ (.inr ⟨rfl, 1, 2, rfl, rfl, by simp [exWaves], by simp [exWaves]⟩) s

example : trueErrors exWaves.errors = [⟨['u'], ['c'], 5, 15⟩] := rfl

end Marley.Props
