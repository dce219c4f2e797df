import Verif.Model.Logger
import Mathlib.Tactic.SplitIfs
import Mathlib.Tactic.Tauto

/-!
# C71: log messages reach exactly the configured streams
-/

set_option autoImplicit false

namespace Marley.Props
open Marley Marley.Logger
open Marley.Json (Str)

/-! ## Specification -/

/-- What has been configured: the streams in order of registration with their
levels, and whether logging is on. -/
structure LogConfig where
  streams : List (Stream × LogLevel)
  on : Bool

/-- Registering a stream again changes its level. -/
def setLevel (x : Stream) (lev : LogLevel) (l : List (Stream × LogLevel)) :
    List (Stream × LogLevel) :=
  if l.any (fun p => p.1 = x) then l.map (fun p => if p.1 = x then (x, lev) else p)
  else l ++ [(x, lev)]

/-- A call `add_stream` that is refused: a shared pointer to one of the standard
streams, unless that stream is registered. -/
def refused (c : LogConfig) (shared : Bool) (x : Stream) : Prop :=
  shared = true ∧ (x = .cout ∨ x = .cerr) ∧ ∀ p ∈ c.streams, p.1 ≠ x

instance (c : LogConfig) (shared : Bool) (x : Stream) : Decidable (refused c shared x) := by
  unfold refused; infer_instance

/-- The effect of an operation on the configuration; logging has none. -/
def LogConfig.step (c : LogConfig) : Op → LogConfig
  | .add sh x lev => if refused c sh x then c else { c with streams := setLevel x lev c.streams }
  | .clear => { c with streams := [(.cerr, .warning)] }
  | .enable b => { c with on := b }
  | .log _ _ => c
  | .newline => c

/-- The configuration at the start. -/
def LogConfig.init (on : Bool) : LogConfig := ⟨[(.cerr, .warning), (.cout, .info)], on⟩

/-- The configuration after some operations. -/
def configured (on : Bool) (ops : List Op) : LogConfig := ops.foldl LogConfig.step (.init on)

/-- A message of level `lev` is meant for a stream configured with level `l`. -/
def meantFor (lev : LogLevel) (p : Stream × LogLevel) : Bool :=
  decide (lev.rank ≤ p.2.rank) && (!decide (p.1 = .cout) || decide (LogLevel.warning.rank < lev.rank))

/-- What a message should cause to be written. -/
def expected (c : LogConfig) (lev : LogLevel) (text : Str) : List (Stream × Str) :=
  if c.on && !decide (lev = .disabled) then
    (c.streams.filter (meantFor lev)).map (fun p => (p.1, prefixOf lev ++ text ++ ['\n'])) else []

/-- The logger after some operations. -/
def loggerAfter (on : Bool) (ops : List Op) : State :=
  match init on with
  | .ok st => run st ops
  | .error _ => ⟨[], false, .info⟩

/-! ## Invariant -/

/-- An entry is enabled as its level demands, except that standard output may be
enabled although the last message was a warning or an error. -/
def EntryOk (st : State) (s : OutStream) : Prop :=
  if s.stream = .cout then
    (s.enabled = true → st.enabled = true ∧ s.level.rank ≥ st.old.rank) ∧
    (LogLevel.warning.rank < st.old.rank →
      s.enabled = (st.enabled && decide (s.level.rank ≥ st.old.rank)))
  else s.enabled = (st.enabled && decide (s.level.rank ≥ st.old.rank))

structure Agrees (st : State) (c : LogConfig) : Prop where
  streams : st.streams.map (fun s => (s.stream, s.level)) = c.streams
  on : st.enabled = c.on
  nodup : (st.streams.map (·.stream)).Nodup
  entries : ∀ s ∈ st.streams, EntryOk st s

theorem any_map {l : List OutStream} (x : Stream) :
    (l.map (fun s => (s.stream, s.level))).any (fun p => decide (p.1 = x)) =
      l.any (fun s => decide (s.stream = x)) := by
  rw [List.any_map]; rfl

theorem update_map {l : List OutStream} {x : Stream} {lev : LogLevel} {en : Bool}
    (hn : (l.map (·.stream)).Nodup) :
    (update x lev en l).map (fun s => (s.stream, s.level)) =
      (l.map (fun s => (s.stream, s.level))).map (fun p => if p.1 = x then (x, lev) else p) := by
  induction l with
  | nil => rfl
  | cons s t ih =>
    rw [List.map_cons, List.nodup_cons] at hn
    simp only [update]
    by_cases h : s.stream = x
    · rw [if_pos h]
      simp only [List.map_cons, h, if_true, List.cons.injEq, true_and]
      rw [List.map_map]
      apply List.map_congr_left
      intro y hy
      have : y.stream ≠ x := by
        intro e
        exact hn.1 (List.mem_map.2 ⟨y, hy, by rw [e, h]⟩)
      simp [this]
    · rw [if_neg h]
      simp [h, ih hn.2]

theorem update_streams {l : List OutStream} {x : Stream} {lev : LogLevel} {en : Bool} :
    (update x lev en l).map (·.stream) = l.map (·.stream) := by
  induction l with
  | nil => rfl
  | cons s t ih =>
    simp only [update]
    split_ifs with h
    · simp
    · simp [ih]

theorem update_mem {l : List OutStream} {x : Stream} {lev : LogLevel} {en : Bool} {s : OutStream}
    (h : s ∈ update x lev en l) : s ∈ l ∨ s = ⟨x, lev, en⟩ := by
  induction l with
  | nil => simp [update] at h
  | cons y t ih =>
    simp only [update] at h
    split_ifs at h with hy
    · rcases List.mem_cons.1 h with rfl | h
      · right; rw [hy]
      · left; exact List.mem_cons_of_mem _ h
    · rcases List.mem_cons.1 h with rfl | h
      · left; simp
      · rcases ih h with h | h
        · left; exact List.mem_cons_of_mem _ h
        · right; exact h

theorem entryOk_new (st : State) (x : Stream) (lev : LogLevel) :
    EntryOk st ⟨x, lev, st.enabled && decide (lev.rank ≥ st.old.rank)⟩ := by
  unfold EntryOk
  split_ifs <;> simp

theorem entryOk_congr {st st' : State} (h1 : st.enabled = st'.enabled) (h2 : st.old = st'.old)
    {s : OutStream} (h : EntryOk st s) : EntryOk st' s := by
  unfold EntryOk at *
  rw [← h1, ← h2]; exact h

theorem addStream_agrees {st : State} {c : LogConfig} (h : Agrees st c) (sh : Bool) (x : Stream)
    (lev : LogLevel) :
    (refused c sh x → addStream st sh x lev = .error .marleyError) ∧
    (¬ refused c sh x → ∃ st', addStream st sh x lev = .ok st' ∧
      Agrees st' { c with streams := setLevel x lev c.streams }) := by
  have hany : hasStream st x = c.streams.any (fun p => decide (p.1 = x)) := by
    rw [← h.streams, any_map]; rfl
  constructor
  · rintro ⟨r1, r2, r3⟩
    have : hasStream st x = false := by
      rw [hany, List.any_eq_false]; intro p hp; simpa using r3 p hp
    simp only [addStream, this, r1, Bool.false_eq_true, if_false, Bool.true_and]
    rw [if_pos (by simpa using r2)]
  · intro hr
    simp only [addStream]
    by_cases hx : hasStream st x = true
    · rw [if_pos hx]
      refine ⟨_, rfl, ?_, h.on, ?_, ?_⟩
      · dsimp only
        rw [update_map h.nodup, h.streams, setLevel, if_pos (by rw [← hany]; exact hx)]
      · dsimp only; rw [update_streams]; exact h.nodup
      · intro s hs
        rcases update_mem hs with h1 | rfl
        · exact entryOk_congr rfl rfl (h.entries s h1)
        · exact entryOk_congr rfl rfl (entryOk_new st x lev)
    · have hx' : hasStream st x = false := by simpa using hx
      have hno : ∀ p ∈ c.streams, p.1 ≠ x := by
        rw [hany, List.any_eq_false] at hx'
        intro p hp; simpa using hx' p hp
      rw [if_neg hx, if_neg ?_]
      · refine ⟨_, rfl, ?_, h.on, ?_, ?_⟩
        · dsimp only
          rw [List.map_append, h.streams, setLevel, if_neg (by rw [← hany]; exact hx)]
          rfl
        · dsimp only
          rw [List.map_append, List.nodup_append]
          refine ⟨h.nodup, by simp, ?_⟩
          intro a ha b hb
          simp only [List.map_cons, List.map_nil, List.mem_singleton] at hb
          obtain ⟨s, hs, rfl⟩ := List.mem_map.1 ha
          subst hb
          have : (s.stream, s.level) ∈ c.streams := by
            rw [← h.streams]; exact List.mem_map.2 ⟨s, hs, rfl⟩
          exact hno _ this
        · intro s hs
          rcases List.mem_append.1 hs with h1 | h1
          · exact entryOk_congr rfl rfl (h.entries s h1)
          · rw [List.mem_singleton] at h1; subst h1
            exact entryOk_congr rfl rfl (entryOk_new st x lev)
      · intro hc
        rw [Bool.and_eq_true] at hc
        exact hr ⟨hc.1, by simpa using hc.2, hno⟩

theorem switch_agrees {st : State} {c : LogConfig} (h : Agrees st c) (he : st.enabled = true)
    (lev : LogLevel) : Agrees { st with streams := st.streams.map (switch lev), old := lev } c := by
  refine ⟨?_, h.on, ?_, ?_⟩
  · rw [← h.streams]; simp [List.map_map, Function.comp_def, switch]
  · have := h.nodup; simpa [List.map_map, Function.comp_def, switch] using this
  · intro s hs
    obtain ⟨y, hy, rfl⟩ := List.mem_map.1 hs
    unfold EntryOk
    simp only [switch, he, Bool.true_and]
    by_cases hc : y.stream = .cout
    · simp only [hc, if_true, Bool.and_eq_true, decide_eq_true_eq, true_and]
      refine ⟨fun h => h.1, fun hw => ?_⟩
      simp [hw]
    · simp [hc]

theorem step_agrees {st : State} {c : LogConfig} (h : Agrees st c) (o : Op) :
    Agrees (step st o).1 (c.step o) := by
  cases o with
  | add sh x lev =>
    obtain ⟨h1, h2⟩ := addStream_agrees h sh x lev
    simp only [step, LogConfig.step]
    by_cases hr : refused c sh x
    · rw [if_pos hr, h1 hr]; exact h
    · obtain ⟨st', e, h3⟩ := h2 hr
      rw [if_neg hr, e]; exact h3
  | clear =>
    simp only [step, LogConfig.step, clearStreams, addStream, hasStream, List.any_nil,
      Bool.false_and, Bool.false_eq_true, if_false, List.nil_append]
    refine ⟨rfl, h.on, by simp, ?_⟩
    intro s hs
    rw [List.mem_singleton] at hs; subst hs
    exact entryOk_congr rfl rfl (entryOk_new st .cerr .warning)
  | enable b =>
    simp only [step, LogConfig.step, Logger.enable]
    refine ⟨?_, rfl, ?_, ?_⟩
    · rw [← h.streams]; simp [List.map_map, Function.comp_def]
    · have := h.nodup; simpa [List.map_map, Function.comp_def] using this
    · intro s hs
      obtain ⟨y, hy, rfl⟩ := List.mem_map.1 hs
      exact entryOk_new { st with enabled := b } y.stream y.level
  | log lev text =>
    simp only [step, LogConfig.step, Logger.log]
    by_cases h0 : lev = .disabled
    · rw [if_pos h0]; exact h
    rw [if_neg h0]
    by_cases he : st.enabled = true
    · rw [if_pos he]
      by_cases hl : lev ≠ st.old
      · dsimp only; rw [if_pos hl]; exact switch_agrees h he lev
      · dsimp only; rw [if_neg hl]
        rw [not_not] at hl
        rw [hl]; exact h
    · rw [if_neg he]; exact h
  | newline => exact h

theorem init_agrees (on : Bool) : ∃ st, init on = .ok st ∧ Agrees st (.init on) := by
  refine ⟨_, rfl, rfl, rfl, by simp [addStream, hasStream], ?_⟩
  intro s hs
  simp only [addStream, hasStream, List.any_cons, List.any_nil, Bool.or_false, List.mem_cons,
    List.not_mem_nil, or_false, List.nil_append, List.cons_append, Bool.false_and,
    Bool.false_eq_true, if_false] at hs
  rcases hs with rfl | rfl <;> simp [EntryOk, LogLevel.rank, addStream, hasStream]

theorem run_agrees {st : State} {c : LogConfig} (h : Agrees st c) (ops : List Op) :
    Agrees (run st ops) (ops.foldl LogConfig.step c) := by
  induction ops generalizing st c with
  | nil => exact h
  | cons o t ih => exact ih (step_agrees h o)

theorem after_agrees (on : Bool) (ops : List Op) :
    Agrees (loggerAfter on ops) (configured on ops) := by
  obtain ⟨st, h1, h2⟩ := init_agrees on
  rw [loggerAfter, h1]
  exact run_agrees h2 ops

/-! ## What a message writes -/

theorem send_eq {ss : List OutStream} {p : Stream × LogLevel → Bool} {text : Str}
    {q : Stream → Bool}
    (h : ∀ s ∈ ss, q s.stream = true → s.enabled = p (s.stream, s.level)) :
    (send ss text).filter (fun o => q o.1) =
      (((ss.map (fun s => (s.stream, s.level))).filter p).map (fun x => (x.1, text))).filter
        (fun o => q o.1) := by
  induction ss with
  | nil => rfl
  | cons s t ih =>
    have ih := ih (fun s hs => h s (List.mem_cons_of_mem _ hs))
    have h0 := h s (by simp)
    simp only [send] at ih ⊢
    rw [List.map_cons, List.filter_cons, List.filter_cons]
    by_cases hq : q s.stream = true
    · rw [h0 hq]
      split_ifs <;> simp [hq, ih]
    · rw [Bool.not_eq_true] at hq
      split_ifs <;> simp [hq, ih]

theorem filter_all (l : List (Stream × Str)) : l.filter (fun _ => true) = l :=
  List.filter_eq_self.2 (fun _ _ => rfl)

theorem log_output {st : State} {c : LogConfig} (h : Agrees st c) (lev : LogLevel) (text : Str)
    (q : Stream → Bool)
    (hq : q .cout = true → LogLevel.warning.rank < lev.rank ∨ lev ≠ st.old) :
    (step st (.log lev text)).2.filter (fun o => q o.1) =
      (expected c lev text).filter (fun o => q o.1) := by
  simp only [step, Logger.log, expected]
  by_cases h0 : lev = .disabled
  · rw [if_pos h0]; simp [h0]
  rw [if_neg h0, ← h.on]
  by_cases he : st.enabled = true
  · have hb : (st.enabled && !decide (lev = LogLevel.disabled)) = true := by simp [he, h0]
    rw [if_pos he, if_pos hb, ← h.streams]
    by_cases hl : lev ≠ st.old
    · dsimp only; rw [if_pos hl]
      have e : (st.streams.map (switch lev)).map (fun s => (s.stream, s.level)) =
          st.streams.map (fun s => (s.stream, s.level)) := by
        simp [List.map_map, Function.comp_def, switch]
      rw [← e]
      refine send_eq ?_
      intro s hs _
      obtain ⟨y, hy, rfl⟩ := List.mem_map.1 hs
      simp only [switch, meantFor]
      rw [Bool.eq_iff_iff]
      by_cases hc : y.stream = .cout
      · simp only [hc, if_true, Bool.and_eq_true, decide_eq_true_iff, ge_iff_le, gt_iff_lt,
          decide_true, Bool.not_true, Bool.false_or]
        exact and_congr decide_eq_true_iff.symm Iff.rfl
      · simp only [hc, if_false, Bool.and_eq_true, decide_eq_true_iff, ge_iff_le, decide_false,
          Bool.not_false, Bool.true_or, and_true]
        exact decide_eq_true_iff.symm
    · dsimp only; rw [if_neg hl]
      refine send_eq ?_
      intro s hs hqs
      rw [not_not] at hl
      have hE := h.entries s hs
      unfold EntryOk at hE
      simp only [meantFor]
      by_cases hc : s.stream = .cout
      · rw [if_pos hc] at hE
        rw [hc] at hqs
        have hw : LogLevel.warning.rank < lev.rank := by
          rcases hq hqs with h | h
          · exact h
          · exact absurd hl h
        rw [hE.2 (by rw [← hl]; exact hw)]
        rw [Bool.eq_iff_iff]; simp [hc, hw, he, ← hl]
      · rw [if_neg hc] at hE
        rw [hE]; simp [hc, he, hl]
  · rw [if_neg he, if_neg (by simp [he])]
    have : send st.streams (text ++ ['\n']) = [] := by
      simp only [send, List.map_eq_nil_iff, List.filter_eq_nil_iff]
      intro s hs
      have hE := h.entries s hs
      unfold EntryOk at hE
      intro hen
      split_ifs at hE
      · exact he (hE.1 hen).1
      · rw [hE] at hen; simp at hen; exact he hen.1
    dsimp only
    rw [this]

/-- C71: after any operations, a message is written to a stream other than
standard output exactly when the stream is registered, logging is on and the
level configured for the stream is at least as verbose as the message; nothing
else is written to such a stream. -/
theorem C71_other_streams (on : Bool) (ops : List Op) (lev : LogLevel) (text : Str) :
    (step (loggerAfter on ops) (.log lev text)).2.filter (fun o => o.1 ≠ .cout) =
      (expected (configured on ops) lev text).filter (fun o => o.1 ≠ .cout) := by
  have := log_output (after_agrees on ops) lev text (fun x => x ≠ .cout) (by simp)
  simpa using this

/-- C71: for messages other than warnings and errors this holds for all
streams. -/
theorem C71_info_and_debug (on : Bool) (ops : List Op) {lev : LogLevel} (text : Str)
    (hl : LogLevel.warning.rank < lev.rank) :
    (step (loggerAfter on ops) (.log lev text)).2 = expected (configured on ops) lev text := by
  have := log_output (after_agrees on ops) lev text (fun _ => true) (fun _ => .inl hl)
  rwa [filter_all, filter_all] at this

/-- C71: warnings and errors go to the streams they should go to, standard
output excluded, whenever the preceding message that was logged had another
level.  Partial: see `C71_standard_output_violated` for the other case. -/
theorem C71_warnings_partial (on : Bool) (ops : List Op) (lev : LogLevel) (text : Str)
    (hl : lev ≠ (loggerAfter on ops).old) :
    (step (loggerAfter on ops) (.log lev text)).2 = expected (configured on ops) lev text := by
  have := log_output (after_agrees on ops) lev text (fun _ => true) (fun _ => .inr hl)
  rwa [filter_all, filter_all] at this

/-- The level of the preceding message is what it should be: that of the last
message logged while logging was on. -/
theorem C71_last_level (on : Bool) (ops : List Op) (lev : LogLevel) (text : Str)
    (h0 : lev ≠ .disabled) (hc : (configured on ops).on = true) :
    (loggerAfter on (ops ++ [.log lev text])).old = lev := by
  have h := (after_agrees on ops).on
  rw [hc] at h
  simp only [loggerAfter, run] at h ⊢
  cases hi : init on with
  | error e => rw [hi] at h; simp at h
  | ok st =>
    rw [hi] at h
    dsimp only at h ⊢
    rw [List.foldl_append]
    generalize ops.foldl (fun st o => (step st o).1) st = st' at h ⊢
    simp [step, Logger.log, h0, h]

/-- C71 does not hold for standard output in general: after a warning, adding
standard output again (or calling `enable`) makes it take the next warning. -/
theorem C71_standard_output_violated (text : Str) :
    (step (loggerAfter true [.log .warning [], .add false .cout .info]) (.log .warning text)).2 =
      [(.cerr, prefixOf .warning ++ text ++ ['\n']), (.cout, prefixOf .warning ++ text ++ ['\n'])] ∧
    (step (loggerAfter true [.log .warning [], .enable true]) (.log .warning text)).2 =
      [(.cerr, prefixOf .warning ++ text ++ ['\n']), (.cout, prefixOf .warning ++ text ++ ['\n'])] ∧
    expected (configured true [.log .warning [], .add false .cout .info]) .warning text =
      [(.cerr, prefixOf .warning ++ text ++ ['\n'])] := ⟨rfl, rfl, rfl⟩

-- a history with a file at level debug and standard output at error
example : (step (loggerAfter true [.add true (.other 0) .debug, .add false .cout .error,
      .log .info ['a'], .enable false, .log .error ['b'], .enable true]) (.log .info ['c'])).2 =
    [(.other 0, ['c', '\n'])] := by decide
example : (LogLevel.info) ≠ (loggerAfter true [.log .warning []]).old := by decide

end Marley.Props
