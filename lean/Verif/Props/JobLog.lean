import Verif.Model.JobLog
import Verif.Props.Logger
import Verif.Props.CreateGenerator
import Verif.Lemmas.JsonRoundTrip

/-!
# C95: the log settings of a job configuration
-/

set_option autoImplicit false

namespace Marley.Props
open Marley Marley.Job Marley.Logger
open Marley.Json (Str JVal hasKey at? jsonEscape NeedsEscape)

/-! ## Specification -/

/-- Where a listed log goes. -/
inductive LogDest where
  | stdout
  | stderr
  | file (name : Str) (overwrite : Bool)
  deriving DecidableEq

/-- A listed log. -/
structure Listing where
  dest : LogDest
  level : LogLevel

/-- The names of the levels. -/
def levelName : LogLevel → Str
  | .error => "error".toList
  | .warning => "warning".toList
  | .info => "info".toList
  | .debug => "debug".toList
  | .disabled => "disabled".toList

/-- The entry asks for this level; `info` if it says nothing. -/
def AsksLevel (el : JVal ℝ) (lev : LogLevel) : Prop :=
  HasValue el "level".toList (.str (levelName lev)) ∨ (Absent el "level".toList ∧ lev = .info)

/-- The entry asks for this destination; a file is appended to if it says nothing. -/
def AsksDest (el : JVal ℝ) : LogDest → Prop
  | .stdout => HasValue el "file".toList (.str "stdout".toList)
  | .stderr => HasValue el "file".toList (.str "stderr".toList)
  | .file name b => HasValue el "file".toList (.str name) ∧
      name ≠ "stdout".toList ∧ name ≠ "stderr".toList ∧
      (HasValue el "overwrite".toList (.bool b) ∨ (Absent el "overwrite".toList ∧ b = false))

/-- The entry of the configuration means this. -/
def IsListing (el : JVal ℝ) (L : Listing) : Prop := AsksDest el L.dest ∧ AsksLevel el L.level

/-- The files are named without characters that JSON escapes. -/
def PlainName (el : JVal ℝ) : Prop :=
  ∀ s, HasValue el "file".toList (.str s) → ∀ c ∈ s, ¬ NeedsEscape c

/-- The listed file can be opened. -/
def CanOpen (w : LogWorld) (L : Listing) : Prop := ∀ name b, L.dest = .file name b → w.openable name = true

/-- The level of the last listing of a destination. -/
def lastOf (d : LogDest) (Ls : List Listing) : Option LogLevel :=
  ((Ls.filter (fun L => L.dest = d)).getLast?).map (·.level)

/-- The listed files with their levels. -/
def fileListings (Ls : List Listing) : List (Str × LogLevel) :=
  Ls.filterMap (fun L => match L.dest with | .file name _ => some (name, L.level) | _ => none)

/-- The file, if it is one, that an output goes to, and the text. -/
def fileOf (opened : List Str) (o : Stream × Str) : Option (Option Str × Str) :=
  match o.1 with
  | .other n => some (opened[n]?, o.2)
  | _ => none

/-- The process has performed these operations on its logger before. -/
def LogPast (w : LogWorld) (on : Bool) (ops : List Op) : Prop := w.logger = loggerAfter on ops

/-- What a message looks like. -/
def line (lev : LogLevel) (text : Str) : Str := prefixOf lev ++ text ++ ['\n']

/-- The messages as operations. -/
def logs (ms : List (LogLevel × Str)) : List Op := ms.map (fun m => .log m.1 m.2)

/-- What a message writes. -/
def written (st : State) (lev : LogLevel) (text : Str) : List (Stream × Str) :=
  (step st (.log lev text)).2

/-- The contents of a file after it has been opened for all its listings. -/
def contents (old : Option Str) (Ls : List Listing) (f : Str) : Option Str :=
  if ∃ L ∈ Ls, L.dest = .file f true then some []
  else if ∃ L ∈ Ls, L.dest = .file f false then some (old.getD []) else old

/-! ## Texts -/

theorem escape_injective {s t : Str} (h : jsonEscape s = jsonEscape t) : s = t := by
  have h1 := Json.parseString_escape s [] []
  have h2 := Json.parseString_escape t [] []
  rw [h, h2] at h1
  simpa using h1.symm

theorem text_eq {x : JVal ℝ} {t : Str} (ht : t ≠ []) (hp : jsonEscape t = t) (h : textOf x = t) :
    x = .str t := by
  cases x with
  | str s => rw [escape_injective (h.trans hp.symm)]
  | _ => exact absurd h.symm ht

theorem levelName_plain (l : LogLevel) : jsonEscape (levelName l) = levelName l := by
  cases l <;> decide +kernel

theorem levelName_ne (l : LogLevel) : levelName l ≠ [] := by cases l <;> decide +kernel

theorem levelName_inj {l l' : LogLevel} (h : levelName l = levelName l') : l = l' := by
  revert h; cases l <;> cases l' <;> decide +kernel

theorem stdout_plain : jsonEscape "stdout".toList = "stdout".toList := by decide +kernel
theorem stderr_plain : jsonEscape "stderr".toList = "stderr".toList := by decide +kernel

theorem absent_or {el : JVal ℝ} {k : Str} (h : hasKey el k ≠ true) : Absent el k := by
  simpa [Absent] using h

/-! ## Reading an entry -/

/-- The level of the text, if it is one. -/
theorem levelOf_value {el x : JVal ℝ} (h : HasValue el "level".toList x) :
    (∃ lev, x = .str (levelName lev) ∧ levelOf el = .ok lev) ∨
    ((∀ lev, x ≠ .str (levelName lev)) ∧ levelOf el = .error .marleyError) := by
  have e : levelOf el =
      if textOf x = levelName .error then .ok .error
      else if textOf x = levelName .warning then .ok .warning
      else if textOf x = levelName .info then .ok .info
      else if textOf x = levelName .debug then .ok .debug
      else if textOf x = levelName .disabled then .ok .disabled
      else .error .marleyError := by
    unfold levelOf
    rw [if_pos h.has, h.at]
    rfl
  have back : ∀ lev, textOf x = levelName lev → x = .str (levelName lev) :=
    fun lev => text_eq (levelName_ne lev) (levelName_plain lev)
  rw [e]
  split_ifs with h1 h2 h3 h4 h5
  · exact .inl ⟨_, back _ h1, rfl⟩
  · exact .inl ⟨_, back _ h2, rfl⟩
  · exact .inl ⟨_, back _ h3, rfl⟩
  · exact .inl ⟨_, back _ h4, rfl⟩
  · exact .inl ⟨_, back _ h5, rfl⟩
  · refine .inr ⟨fun lev hx => ?_, rfl⟩
    have ht : textOf x = levelName lev := by rw [hx]; exact levelName_plain lev
    cases lev
    · exact h5 ht
    · exact h1 ht
    · exact h2 ht
    · exact h3 ht
    · exact h4 ht

theorem levelOf_ok {el : JVal ℝ} {lev : LogLevel} (h : AsksLevel el lev) : levelOf el = .ok lev := by
  rcases h with h | ⟨h, rfl⟩
  · rcases levelOf_value h with ⟨l, e1, e2⟩ | ⟨hn, -⟩
    · rw [JVal.str.injEq] at e1
      rw [e2, levelName_inj e1]
    · exact absurd rfl (hn lev)
  · unfold levelOf
    rw [if_neg (by rw [h]; exact Bool.false_ne_true)]

theorem levelOf_cases (el : JVal ℝ) :
    (∃ lev, AsksLevel el lev ∧ levelOf el = .ok lev) ∨
    ((∀ lev, ¬ AsksLevel el lev) ∧ levelOf el = .error .marleyError) := by
  rcases key_cases el "level".toList with h | ⟨x, h⟩
  · exact .inl ⟨.info, .inr ⟨h, rfl⟩, levelOf_ok (.inr ⟨h, rfl⟩)⟩
  · rcases levelOf_value h with ⟨l, e1, e2⟩ | ⟨hn, e2⟩
    · exact .inl ⟨l, .inl (e1 ▸ h), e2⟩
    · refine .inr ⟨?_, e2⟩
      rintro lev (h' | ⟨h', -⟩)
      · exact hn lev (value_unique h h')
      · exact absent_not h' _ h

/-- The entry asks for the file to be overwritten or not. -/
def AsksMode (el : JVal ℝ) (b : Bool) : Prop :=
  HasValue el "overwrite".toList (.bool b) ∨ (Absent el "overwrite".toList ∧ b = false)

theorem overwriteOf_ok {el : JVal ℝ} {b : Bool} (h : AsksMode el b) : overwriteOf el = .ok b := by
  unfold overwriteOf
  rcases h with h | ⟨h, rfl⟩
  · rw [if_pos h.has, h.at]
  · rw [if_neg (by rw [h]; exact Bool.false_ne_true)]

theorem overwriteOf_cases (el : JVal ℝ) :
    (∃ b, AsksMode el b ∧ overwriteOf el = .ok b) ∨
    ((∀ b, ¬ AsksMode el b) ∧ overwriteOf el = .error .marleyError) := by
  rcases key_cases el "overwrite".toList with h | ⟨x, h⟩
  · exact .inl ⟨false, .inr ⟨h, rfl⟩, overwriteOf_ok (.inr ⟨h, rfl⟩)⟩
  · by_cases hb : ∃ b, x = .bool b
    · obtain ⟨b, rfl⟩ := hb
      exact .inl ⟨b, .inl h, overwriteOf_ok (.inl h)⟩
    · refine .inr ⟨?_, ?_⟩
      · rintro b (h' | ⟨h', -⟩)
        · exact hb ⟨b, value_unique h h'⟩
        · exact absent_not h' _ h
      · unfold overwriteOf
        rw [if_pos h.has, h.at]
        cases x with
        | bool b => exact absurd ⟨b, rfl⟩ hb
        | _ => rfl

/-! ## The configuration of the logger -/

/-- The streams other than the standard ones. -/
def others (l : List (Stream × LogLevel)) : List (Nat × LogLevel) :=
  l.filterMap (fun p => match p.1 with | .other n => some (n, p.2) | _ => none)

/-- The entries for a stream. -/
def forStream (x : Stream) (l : List (Stream × LogLevel)) : List (Stream × LogLevel) :=
  l.filter (fun p => p.1 = x)

theorem forStream_same {x : Stream} {lev : LogLevel} {l : List (Stream × LogLevel)}
    (h : (forStream x l).length ≤ 1) : forStream x (setLevel x lev l) = [(x, lev)] := by
  unfold setLevel
  split_ifs with ha
  · have h1 : forStream x (l.map (fun p => if p.1 = x then (x, lev) else p)) =
        (forStream x l).map (fun _ => (x, lev)) := by
      clear h ha
      induction l with
      | nil => rfl
      | cons p t ih =>
        simp only [forStream, List.map_cons, List.filter_cons] at ih ⊢
        by_cases hp : p.1 = x
        · simp [hp, ih]
        · simp [hp, ih]
    have h2 : (forStream x l) ≠ [] := by
      rw [List.any_eq_true] at ha
      obtain ⟨p, hp, hx⟩ := ha
      exact List.ne_nil_of_mem (List.mem_filter.2 ⟨hp, hx⟩)
    rw [h1]
    match forStream x l, h, h2 with
    | [p], _, _ => rfl
  · have : forStream x l = [] := by
      unfold forStream
      rw [List.filter_eq_nil_iff]
      intro p hp hx
      exact ha (List.any_eq_true.2 ⟨p, hp, hx⟩)
    unfold forStream at this ⊢
    rw [List.filter_append, this]
    simp

theorem forStream_other {x y : Stream} (hxy : y ≠ x) (lev : LogLevel) (l : List (Stream × LogLevel)) :
    forStream y (setLevel x lev l) = forStream y l := by
  unfold setLevel
  split_ifs with ha
  · clear ha
    induction l with
    | nil => rfl
    | cons p t ih =>
      simp only [forStream, List.map_cons, List.filter_cons] at ih ⊢
      rw [ih]
      by_cases hp : p.1 = x
      · simp [hp, hxy.symm]
      · simp [hp]
  · simp [forStream, hxy.symm]

theorem others_std {x : Stream} (hx : x = .cout ∨ x = .cerr) (lev : LogLevel)
    (l : List (Stream × LogLevel)) : others (setLevel x lev l) = others l := by
  unfold setLevel
  split_ifs with ha
  · clear ha
    induction l with
    | nil => rfl
    | cons p t ih =>
      simp only [others, List.map_cons, List.filterMap_cons] at ih ⊢
      rw [ih]
      by_cases hp : p.1 = x
      · rw [if_pos hp, hp]
        rcases hx with rfl | rfl <;> rfl
      · rw [if_neg hp]
  · unfold others
    rw [List.filterMap_append]
    rcases hx with rfl | rfl <;> simp

theorem others_new {n : Nat} (lev : LogLevel) {l : List (Stream × LogLevel)}
    (h : ∀ p ∈ others l, p.1 < n) :
    others (setLevel (.other n) lev l) = others l ++ [(n, lev)] := by
  unfold setLevel
  rw [if_neg]
  · unfold others
    rw [List.filterMap_append]
    rfl
  · rw [List.any_eq_true]
    rintro ⟨⟨x, v⟩, hp, hx⟩
    simp only [decide_eq_true_eq] at hx
    subst hx
    have := h (n, v) (List.mem_filterMap.2 ⟨_, hp, rfl⟩)
    simp at this

/-- The configuration is the one that the list asks for, `opened` being the files opened. -/
structure Shape (c : LogConfig) (opened : List Str) (Ls : List Listing) : Prop where
  bound : ∀ p ∈ others c.streams, p.1 < opened.length
  files : (others c.streams).map (fun p => (opened[p.1]?, p.2)) =
    (fileListings Ls).map (fun p => (some p.1, p.2))
  cerr : forStream .cerr c.streams = [(.cerr, (lastOf .stderr Ls).getD .warning)]
  cout : forStream .cout c.streams = ((lastOf .stdout Ls).map (fun l => (Stream.cout, l))).toList

theorem lastOf_same (L : Listing) (Ls : List Listing) :
    lastOf L.dest (Ls ++ [L]) = some L.level := by
  simp [lastOf, List.filter_append]

theorem lastOf_other {L : Listing} {d : LogDest} (h : L.dest ≠ d) (Ls : List Listing) :
    lastOf d (Ls ++ [L]) = lastOf d Ls := by
  simp [lastOf, List.filter_append, h]

/-- What an entry does to the files. -/
theorem contents_snoc (old : Option Str) (Ls : List Listing) (L : Listing) (f : Str) :
    contents old (Ls ++ [L]) f =
      match L.dest with
      | .file n b => if f = n then some (if b then [] else (contents old Ls f).getD [])
          else contents old Ls f
      | _ => contents old Ls f := by
  obtain ⟨d, lev⟩ := L
  unfold contents
  cases d with
  | stdout => simp
  | stderr => simp
  | file n b =>
    simp only [List.mem_append, List.mem_singleton, or_and_right, exists_or, exists_eq_left,
      LogDest.file.injEq]
    by_cases hf : f = n
    · subst hf
      rw [if_pos rfl]
      cases b
      · simp only [Bool.false_eq_true, and_false, or_false, true_and, or_true, if_true, if_false]
        by_cases h1 : ∃ L ∈ Ls, L.dest = LogDest.file f true
        · simp [h1]
        · rw [if_neg h1, if_neg h1]
          split_ifs <;> rfl
      · simp
    · rw [if_neg hf]
      simp [Ne.symm hf]

theorem shape_entry {c : LogConfig} {opened : List Str} {Ls : List Listing} (h : Shape c opened Ls)
    (L : Listing) :
    match L.dest with
    | .stdout => Shape { c with streams := setLevel .cout L.level c.streams } opened (Ls ++ [L])
    | .stderr => Shape { c with streams := setLevel .cerr L.level c.streams } opened (Ls ++ [L])
    | .file n _ => Shape { c with streams := setLevel (.other opened.length) L.level c.streams }
        (opened ++ [n]) (Ls ++ [L]) := by
  obtain ⟨d, lev⟩ := L
  cases d with
  | stdout =>
    refine ⟨?_, ?_, ?_, ?_⟩
    · dsimp only; rw [others_std (.inl rfl)]; exact h.bound
    · dsimp only; rw [others_std (.inl rfl), h.files]
      simp [fileListings]
    · dsimp only; rw [forStream_other (by simp), h.cerr, lastOf_other (by simp)]
    · dsimp only
      have : lastOf .stdout (Ls ++ [⟨.stdout, lev⟩]) = some lev := lastOf_same ⟨.stdout, lev⟩ Ls
      rw [this, forStream_same]
      · rfl
      · rw [h.cout]; cases lastOf .stdout Ls <;> simp
  | stderr =>
    refine ⟨?_, ?_, ?_, ?_⟩
    · dsimp only; rw [others_std (.inr rfl)]; exact h.bound
    · dsimp only; rw [others_std (.inr rfl), h.files]
      simp [fileListings]
    · dsimp only
      have : lastOf .stderr (Ls ++ [⟨.stderr, lev⟩]) = some lev := lastOf_same ⟨.stderr, lev⟩ Ls
      rw [this, forStream_same]
      · rfl
      · rw [h.cerr]; simp
    · dsimp only; rw [forStream_other (by simp), h.cout, lastOf_other (by simp)]
  | file n b =>
    have hn := others_new (n := opened.length) lev h.bound
    refine ⟨?_, ?_, ?_, ?_⟩
    · dsimp only; rw [hn]
      intro p hp
      rcases List.mem_append.1 hp with hp | hp
      · have := h.bound p hp
        rw [List.length_append]; omega
      · rw [List.mem_singleton] at hp; subst hp; simp
    · dsimp only; rw [hn, List.map_append]
      have e1 : (others c.streams).map (fun p => ((opened ++ [n])[p.1]?, p.2)) =
          (others c.streams).map (fun p => (opened[p.1]?, p.2)) := by
        apply List.map_congr_left
        intro p hp
        rw [List.getElem?_append_left (h.bound p hp)]
      rw [e1, h.files]
      simp [fileListings]
    · dsimp only; rw [forStream_other (by simp), h.cerr, lastOf_other (by simp)]
    · dsimp only; rw [forStream_other (by simp), h.cout, lastOf_other (by simp)]

/-- The state of things after some listings. -/
structure Done (w0 w : LogWorld) (Ls : List Listing) : Prop where
  config : ∃ c, Agrees w.logger c ∧ c.on = true ∧ Shape c w.opened Ls
  openable : w.openable = w0.openable
  files : ∀ f, w.files f = contents (w0.files f) Ls f

theorem add_agrees {w : LogWorld} {c : LogConfig} (h : Agrees w.logger c) {sh : Bool} {x : Stream}
    (hx : sh = false ∨ ∃ n, x = .other n) (lev : LogLevel) :
    ∃ st, w.add sh x lev = ({ w with logger := st }, .ok ()) ∧
      Agrees st { c with streams := setLevel x lev c.streams } := by
  obtain ⟨st, e, ha⟩ := (addStream_agrees h sh x lev).2 (by
    rintro ⟨h1, h2, -⟩
    rcases hx with hx | ⟨n, rfl⟩
    · rw [h1] at hx; cases hx
    · rcases h2 with h2 | h2 <;> cases h2)
  refine ⟨st, ?_, ha⟩
  unfold LogWorld.add
  rw [e]

/-- An entry that is read. -/
theorem entry_name {w : LogWorld} {el : JVal ℝ} {s : Str} (h : HasValue el "file".toList (.str s)) :
    logEntry w el =
      match levelOf el with
      | .error e => (w, .error e)
      | .ok lev =>
        if jsonEscape s = "stdout".toList then w.add false .cout lev
        else if jsonEscape s = "stderr".toList then w.add false .cerr lev
        else
          match overwriteOf el with
          | .error e => (w, .error e)
          | .ok b =>
            if w.openable (jsonEscape s) then
              (w.openFile (jsonEscape s) b).add true (.other w.opened.length) lev
            else (w, .error .marleyError) := by
  unfold logEntry
  rw [if_pos h.has, h.at]
  rfl

theorem plain_eq {el : JVal ℝ} (hp : PlainName el) {s : Str} (h : HasValue el "file".toList (.str s)) :
    jsonEscape s = s := Json.jsonEscape_plain (hp s h)

theorem stderr_ne : "stderr".toList ≠ "stdout".toList := by decide +kernel

theorem entry_done {w0 w : LogWorld} {Ls : List Listing} (hd : Done w0 w Ls) {el : JVal ℝ} {L : Listing}
    (hL : IsListing el L) (hp : PlainName el) (ho : CanOpen w0 L) :
    ∃ w', logEntry w el = (w', .ok ()) ∧ Done w0 w' (Ls ++ [L]) := by
  obtain ⟨⟨c, ha, hon, hs⟩, hop, hf⟩ := hd
  have hsh := shape_entry hs L
  have hcon := fun f => contents_snoc (w0.files f) Ls L f
  obtain ⟨d, lev⟩ := L
  obtain ⟨h1, h2⟩ := hL
  have hl := levelOf_ok h2
  cases d with
  | stdout =>
    rw [entry_name h1, hl]
    dsimp only
    rw [if_pos stdout_plain]
    obtain ⟨st, e, ha'⟩ := add_agrees ha (x := .cout) (sh := false) (.inl rfl) lev
    exact ⟨_, e, ⟨_, ha', hon, hsh⟩, hop, fun f => by rw [hcon f]; exact hf f⟩
  | stderr =>
    rw [entry_name h1, hl]
    dsimp only
    rw [stderr_plain, if_neg stderr_ne, if_pos rfl]
    obtain ⟨st, e, ha'⟩ := add_agrees ha (x := .cerr) (sh := false) (.inl rfl) lev
    exact ⟨_, e, ⟨_, ha', hon, hsh⟩, hop, fun f => by rw [hcon f]; exact hf f⟩
  | file n b =>
    obtain ⟨h1, n1, n2, h3⟩ := h1
    rw [entry_name h1, hl, overwriteOf_ok h3]
    dsimp only
    rw [plain_eq hp h1, if_neg n1, if_neg n2, if_pos (by rw [hop]; exact ho n b rfl)]
    obtain ⟨st, e, ha'⟩ := add_agrees (w := w.openFile n b) ha (sh := true)
      (x := .other w.opened.length) (.inr ⟨_, rfl⟩) lev
    refine ⟨_, e, ⟨_, ha', hon, hsh⟩, hop, fun f => ?_⟩
    rw [hcon f]
    simp only [LogWorld.openFile, hf f]

theorem entries_done {w0 : LogWorld} {els : List (JVal ℝ)} {Ms : List Listing}
    (hL : List.Forall₂ IsListing els Ms) :
    ∀ {w : LogWorld} {Ls : List Listing}, Done w0 w Ls → (∀ el ∈ els, PlainName el) →
      (∀ L ∈ Ms, CanOpen w0 L) →
      ∃ w', logEntries w els = (w', .ok ()) ∧ Done w0 w' (Ls ++ Ms) := by
  induction hL with
  | nil => intro w Ls hd _ _; exact ⟨w, rfl, by simpa using hd⟩
  | @cons el L els Ms h1 _ ih =>
    intro w Ls hd hp ho
    obtain ⟨w', e, hd'⟩ := entry_done hd h1 (hp el (by simp)) (ho L (by simp))
    obtain ⟨w'', e', hd''⟩ := ih hd' (fun x hx => hp x (by simp [hx])) (fun x hx => ho x (by simp [hx]))
    refine ⟨w'', ?_, by simpa using hd''⟩
    rw [logEntries, e]
    exact e'

theorem clear_step (st : State) : clearStreams st = .ok (step st .clear).1 := by
  simp only [step, clearStreams, addStream, hasStream, List.any_nil, Bool.false_and,
    Bool.false_eq_true, if_false]

theorem shape_start (on : Bool) (opened : List Str) : Shape ⟨[(.cerr, .warning)], on⟩ opened [] :=
  ⟨by simp [others], by simp [others, fileListings], by simp [forStream, lastOf],
    by simp [forStream, lastOf]⟩

theorem update_list {w : LogWorld} {j : JVal ℝ} {els : List (JVal ℝ)}
    (hj : HasValue j "log".toList (.arr els)) (hne : els ≠ []) :
    updateLogger w j =
      logEntries { w with logger := enable (step w.logger .clear).1 true } els := by
  unfold updateLogger
  rw [clear_step]
  dsimp only
  rw [if_pos hj.has, hj.at]
  cases els with
  | nil => exact absurd rfl hne
  | cons a t => rfl

theorem start_done {w : LogWorld} {c : LogConfig} (h : Agrees w.logger c) :
    Done w { w with logger := enable (step w.logger .clear).1 true } [] := by
  refine ⟨⟨⟨[(.cerr, .warning)], true⟩, ?_, rfl, shape_start true w.opened⟩, rfl, fun f => ?_⟩
  · exact step_agrees (step_agrees h .clear) (.enable true)
  · simp [contents]

/-! ## What messages do afterwards -/

theorem run_logs {st : State} {c : LogConfig} (h : Agrees st c) (ms : List (LogLevel × Str)) :
    Agrees (run st (logs ms)) c := by
  have := run_agrees h (logs ms)
  have e : (logs ms).foldl LogConfig.step c = c := by
    clear this h
    induction ms with
    | nil => rfl
    | cons m t ih => exact ih
  rwa [e] at this

/-- Every entry, standard output included, is enabled as it should be. -/
def Strict (st : State) : Prop :=
  ∀ s ∈ st.streams, s.enabled = (st.enabled && meantFor st.old (s.stream, s.level))

theorem strict_switch {st : State} (he : st.enabled = true) (lev : LogLevel) :
    Strict { st with streams := st.streams.map (switch lev), old := lev } := by
  intro s hs
  obtain ⟨y, hy, rfl⟩ := List.mem_map.1 hs
  simp only [switch, meantFor, he, Bool.true_and]
  rw [Bool.eq_iff_iff]
  by_cases hc : y.stream = .cout
  · simp only [hc, if_true, Bool.and_eq_true, decide_eq_true_iff, ge_iff_le, gt_iff_lt,
      decide_true, Bool.not_true, Bool.false_or]
    exact and_congr decide_eq_true_iff.symm Iff.rfl
  · simp only [hc, if_false, Bool.and_eq_true, decide_eq_true_iff, ge_iff_le, decide_false,
      Bool.not_false, Bool.true_or, and_true]
    exact decide_eq_true_iff.symm

/-- After messages, either every entry is enabled as it should be, or they all had the level
of the last message. -/
theorem logs_strict (ms : List (LogLevel × Str)) {st : State} (he : st.enabled = true) :
    (Strict st → Strict (run st (logs ms))) ∧
    (Strict (run st (logs ms)) ∨
      ((run st (logs ms)).old = st.old ∧ ∀ m ∈ ms, m.1 = .disabled ∨ m.1 = st.old)) := by
  induction ms generalizing st with
  | nil => exact ⟨id, .inr ⟨rfl, by simp⟩⟩
  | cons m t ih =>
    have hrun : run st (logs (m :: t)) = run (step st (.log m.1 m.2)).1 (logs t) := rfl
    rw [hrun]
    by_cases h0 : m.1 = .disabled
    · have e : (step st (.log m.1 m.2)).1 = st := by simp [step, Logger.log, h0]
      rw [e]
      refine ⟨(ih he).1, ?_⟩
      rcases (ih he).2 with h | ⟨h, h'⟩
      · exact .inl h
      · refine .inr ⟨h, ?_⟩
        intro x hx
        rcases List.mem_cons.1 hx with rfl | hx
        · exact .inl h0
        · exact h' x hx
    · by_cases hl : m.1 = st.old
      · have e : (step st (.log m.1 m.2)).1 = st := by
          simp [step, Logger.log, ← hl, h0, he]
          cases st; simp_all
        rw [e]
        refine ⟨(ih he).1, ?_⟩
        rcases (ih he).2 with h | ⟨h, h'⟩
        · exact .inl h
        · refine .inr ⟨h, ?_⟩
          intro x hx
          rcases List.mem_cons.1 hx with rfl | hx
          · exact .inr hl
          · exact h' x hx
      · have e : (step st (.log m.1 m.2)).1 =
            { st with streams := st.streams.map (switch m.1), old := m.1 } := by
          simp [step, Logger.log, h0, he, hl]
        rw [e]
        have hs := (ih (st := { st with streams := st.streams.map (switch m.1), old := m.1 }) he).1
          (strict_switch he m.1)
        exact ⟨fun _ => hs, .inl hs⟩

theorem strict_output {st : State} {c : LogConfig} (h : Agrees st c) (hs : Strict st)
    {lev : LogLevel} (hl : lev = st.old) (text : Str) : written st lev text = expected c lev text := by
  have := log_output h lev text (fun x => x ≠ .cout) (by simp)
  unfold written
  simp only [step, Logger.log, expected] at this ⊢
  by_cases h0 : lev = .disabled
  · rw [if_pos h0]; simp [h0]
  rw [if_neg h0, ← h.on]
  by_cases he : st.enabled = true
  · have hb : (st.enabled && !decide (lev = LogLevel.disabled)) = true := by simp [he, h0]
    rw [if_pos he, if_pos hb, ← h.streams]
    dsimp only
    rw [if_neg (by rw [hl]; simp)]
    have key := send_eq (ss := st.streams) (p := meantFor lev)
      (text := prefixOf lev ++ text ++ ['\n']) (q := fun _ => true) (fun s hsm _ => by
        rw [hs s hsm, he, hl]; rfl)
    rwa [filter_all, filter_all] at key
  · have hoff : st.enabled = false := by simpa using he
    rw [if_neg he, if_neg (by simp [he])]
    simp only [send, List.map_eq_nil_iff, List.filter_eq_nil_iff]
    intro s hsm
    rw [hs s hsm, hoff]
    simp

theorem rank_zero {l : LogLevel} (h : l ≠ .disabled) : 0 < l.rank := by
  cases l <;> simp_all [LogLevel.rank]

theorem filterMap_others {p : Stream × LogLevel → Bool} {lev : LogLevel} (opened : List Str) (t : Str)
    (hp : ∀ n v, p (.other n, v) = decide (lev.rank ≤ v.rank)) (l : List (Stream × LogLevel)) :
    ((l.filter p).map (fun q => (q.1, t))).filterMap (fileOf opened) =
      (((others l).map (fun q => (opened[q.1]?, q.2))).filter
        (fun q => decide (lev.rank ≤ q.2.rank))).map (fun q => (q.1, t)) := by
  induction l with
  | nil => rfl
  | cons q l ih =>
    obtain ⟨x, v⟩ := q
    rw [List.filter_cons]
    have key : ∀ u, ((((if p (x, v) then (x, v) :: l.filter p else l.filter p)).map
        (fun q : Stream × LogLevel => (q.1, t))).filterMap (fileOf opened)) =
        (if p (x, v) then (fileOf opened (x, u)).toList.map (fun _ =>
          ((fileOf opened (x, t)).getD (none, []))) else []) ++
        ((l.filter p).map (fun q => (q.1, t))).filterMap (fileOf opened) := by
      intro u
      split_ifs
      · rw [List.map_cons, List.filterMap_cons]
        cases x <;> simp [fileOf]
      · simp
    rw [key [], ih]
    cases x with
    | cout => simp [fileOf, others]
    | cerr => simp [fileOf, others]
    | other n =>
      rw [hp]
      by_cases hle : lev.rank ≤ v.rank
      · simp [fileOf, others, hle]
      · simp [fileOf, others, hle]

theorem filter_stream {p : Stream × LogLevel → Bool} (x : Stream) (t : Str)
    (l : List (Stream × LogLevel)) :
    ((l.filter p).map (fun q => (q.1, t))).filter (fun o => o.1 = x) =
      ((forStream x l).filter p).map (fun q => (q.1, t)) := by
  unfold forStream
  rw [List.filter_map, List.filter_filter, List.filter_filter]
  congr 1
  apply List.filter_congr
  intro q _
  simp [Bool.and_comm]

/-- How messages are distributed once the settings have been applied: after messages `ms`,
the message goes to the listed files whose level admits it, in the order of the list, and to
standard error if its level does. -/
structure LogsTo (w : LogWorld) (Ls : List Listing) (ms : List (LogLevel × Str)) (lev : LogLevel)
    (text : Str) : Prop where
  files : (written (run w.logger (logs ms)) lev text).filterMap (fileOf w.opened) =
    ((fileListings Ls).filter (fun p => decide (lev.rank ≤ p.2.rank))).map
      (fun p => (some p.1, line lev text))
  stderr : (written (run w.logger (logs ms)) lev text).filter (fun o => o.1 = .cerr) =
    if lev.rank ≤ ((lastOf .stderr Ls).getD .warning).rank then [(.cerr, line lev text)] else []

/-- A message is written to standard output if it is listed with a level that admits it, and
the message is neither a warning nor an error. -/
def PrintsTo (w : LogWorld) (Ls : List Listing) (ms : List (LogLevel × Str)) (lev : LogLevel)
    (text : Str) : Prop :=
  (written (run w.logger (logs ms)) lev text).filter (fun o => o.1 = .cout) =
    if LogLevel.warning.rank < lev.rank ∧ ∃ l, lastOf .stdout Ls = some l ∧ lev.rank ≤ l.rank then
      [(.cout, line lev text)] else []

theorem done_logs {w0 w : LogWorld} {Ls : List Listing} (hd : Done w0 w Ls)
    (ms : List (LogLevel × Str)) {lev : LogLevel} (hl : lev ≠ .disabled) (text : Str) :
    LogsTo w Ls ms lev text := by
  obtain ⟨⟨c, ha, hon, hs⟩, -, -⟩ := hd
  have hr := run_logs ha ms
  have hout := log_output hr lev text (fun x => x ≠ .cout) (by simp)
  have hex : expected c lev text =
      (c.streams.filter (meantFor lev)).map (fun p => (p.1, line lev text)) := by
    simp [expected, hon, hl, line]
  constructor
  · have e1 : ∀ l : List (Stream × Str), l.filterMap (fileOf w.opened) =
        (l.filter (fun o => decide (o.1 ≠ .cout))).filterMap (fileOf w.opened) := by
      intro l
      rw [List.filterMap_filter]
      apply List.filterMap_congr
      rintro ⟨x, u⟩ _
      cases x <;> simp [fileOf]
    unfold written
    rw [e1, hout, ← e1, hex,
      filterMap_others w.opened (lev := lev) _ (by intro n v; simp [meantFor]), hs.files]
    rw [List.filter_map, List.map_map]
    rfl
  · have e1 : ∀ l : List (Stream × Str), l.filter (fun o => decide (o.1 = .cerr)) =
        (l.filter (fun o => decide (o.1 ≠ .cout))).filter (fun o => decide (o.1 = .cerr)) := by
      intro l
      rw [List.filter_filter]
      apply List.filter_congr
      rintro ⟨x, u⟩ _
      cases x <;> simp
    unfold written
    rw [e1, hout, ← e1, hex, filter_stream, hs.cerr]
    by_cases h : lev.rank ≤ ((lastOf .stderr Ls).getD .warning).rank
    · simp [meantFor, h]
    · simp [meantFor, h]

theorem done_prints {w0 w : LogWorld} {Ls : List Listing} (hd : Done w0 w Ls)
    (ms : List (LogLevel × Str)) {lev : LogLevel} (hl : lev ≠ .disabled) (text : Str)
    (h : LogLevel.warning.rank < lev.rank ∨ ∃ m ∈ ms, m.1 ≠ .disabled ∧ m.1 ≠ lev) :
    PrintsTo w Ls ms lev text := by
  obtain ⟨⟨c, ha, hon, hs⟩, -, -⟩ := hd
  have hr := run_logs ha ms
  have hout : written (run w.logger (logs ms)) lev text = expected c lev text := by
    by_cases hc : LogLevel.warning.rank < lev.rank ∨ lev ≠ (run w.logger (logs ms)).old
    · have := log_output hr lev text (fun _ => true) (fun _ => hc)
      rwa [filter_all, filter_all] at this
    · rw [not_or, not_not] at hc
      refine strict_output hr ?_ hc.2 text
      rcases h with h | ⟨m, hm, h0, hne⟩
      · exact absurd h hc.1
      · have he : w.logger.enabled = true := by rw [ha.on]; exact hon
        rcases (logs_strict ms he).2 with h | ⟨h, h'⟩
        · exact h
        · rcases h' m hm with h1 | h1
          · exact absurd h1 h0
          · exact absurd (h1.trans (h.symm.trans hc.2.symm)) hne
  have hex : expected c lev text =
      (c.streams.filter (meantFor lev)).map (fun p => (p.1, line lev text)) := by
    simp [expected, hon, hl, line]
  unfold PrintsTo
  rw [hout, hex, filter_stream, hs.cout]
  cases lastOf .stdout Ls with
  | none => simp
  | some l =>
    by_cases h1 : lev.rank ≤ l.rank <;> by_cases h2 : LogLevel.warning.rank < lev.rank <;>
      simp [meantFor, h1, h2]

/-! ## Theorems -/

/-- C95: with a list of logs, whatever was logged or configured before, each message goes to
exactly the listed files whose level admits it (once for each listing), to standard error if the
level of its last listing (`warning` if there is none) admits it, and, unless it is a warning or
an error, to standard output if the level of its last listing admits it.  The files that are to
be overwritten are emptied, the others keep their contents, and no other file is touched. -/
theorem C95_listed {on : Bool} {ops : List Op} {w : LogWorld} (hw : LogPast w on ops) {j : JVal ℝ}
    {els : List (JVal ℝ)} {Ls : List Listing} (hj : HasValue j "log".toList (.arr els)) (hne : els ≠ [])
    (hL : List.Forall₂ IsListing els Ls) (hp : ∀ el ∈ els, PlainName el)
    (ho : ∀ L ∈ Ls, CanOpen w L) :
    ∃ w', updateLogger w j = (w', .ok ()) ∧ (∀ f, w'.files f = contents (w.files f) Ls f) ∧
      ∀ ms lev text, lev ≠ .disabled → LogsTo w' Ls ms lev text ∧
        (LogLevel.warning.rank < lev.rank → PrintsTo w' Ls ms lev text) := by
  have ha := after_agrees on ops
  rw [← show w.logger = _ from hw] at ha
  obtain ⟨w', e, hd⟩ := entries_done hL (start_done ha) hp ho
  rw [List.nil_append] at hd
  refine ⟨w', by rw [update_list hj hne]; exact e, hd.files, fun ms lev text hl => ?_⟩
  exact ⟨done_logs hd ms hl text, fun h => done_prints hd ms hl text (.inl h)⟩

/-- C95: warnings and errors do not appear on standard output, provided that a message of
another level has been logged since the settings were applied.  Partial: see
`C95_stdout_violated`. -/
theorem C95_stdout_partial {on : Bool} {ops : List Op} {w : LogWorld} (hw : LogPast w on ops)
    {j : JVal ℝ} {els : List (JVal ℝ)} {Ls : List Listing}
    (hj : HasValue j "log".toList (.arr els)) (hne : els ≠ [])
    (hL : List.Forall₂ IsListing els Ls) (hp : ∀ el ∈ els, PlainName el)
    (ho : ∀ L ∈ Ls, CanOpen w L) {ms : List (LogLevel × Str)} {lev : LogLevel} (text : Str)
    (hl : lev ≠ .disabled) (hm : ∃ m ∈ ms, m.1 ≠ .disabled ∧ m.1 ≠ lev) :
    PrintsTo (updateLogger w j).1 Ls ms lev text := by
  have ha := after_agrees on ops
  rw [← show w.logger = _ from hw] at ha
  obtain ⟨w', e, hd⟩ := entries_done hL (start_done ha) hp ho
  rw [List.nil_append] at hd
  rw [update_list hj hne, e]
  exact done_prints hd ms hl text (.inr hm)

theorem default_done {w : LogWorld} {c : LogConfig} (ha : Agrees w.logger c) {j : JVal ℝ}
    (hj : Absent j "log".toList) :
    ∃ w', updateLogger w j = (w', .ok ()) ∧ w'.opened = w.opened ∧ w'.files = w.files ∧
      Done w w' [⟨.stdout, .info⟩] := by
  have h1 := step_agrees ha .clear
  obtain ⟨st, e, h2⟩ := add_agrees (w := { w with logger := (step w.logger .clear).1 }) h1
    (sh := false) (x := .cout) (.inl rfl) .info
  have h3 := step_agrees h2 (.enable true)
  refine ⟨{ w with logger := enable st true }, ?_, rfl, rfl, ⟨_, h3, rfl, ?_⟩, rfl, ?_⟩
  · unfold updateLogger
    rw [clear_step]
    dsimp only
    rw [if_neg (by rw [hj]; exact Bool.false_ne_true), e]
  · exact shape_entry (shape_start true w.opened) ⟨.stdout, .info⟩
  · intro f; simp [contents]

/-- C95: without log settings, messages go to standard output (information) and standard error
(warnings and errors), and to no file. -/
theorem C95_default {on : Bool} {ops : List Op} {w : LogWorld} (hw : LogPast w on ops) {j : JVal ℝ}
    (hj : Absent j "log".toList) :
    ∃ w', updateLogger w j = (w', .ok ()) ∧ w'.opened = w.opened ∧ w'.files = w.files ∧
      ∀ ms lev text, lev ≠ .disabled → LogsTo w' [⟨.stdout, .info⟩] ms lev text ∧
        ((LogLevel.warning.rank < lev.rank ∨ ∃ m ∈ ms, m.1 ≠ .disabled ∧ m.1 ≠ lev) →
          PrintsTo w' [⟨.stdout, .info⟩] ms lev text) := by
  have ha := after_agrees on ops
  rw [← show w.logger = _ from hw] at ha
  obtain ⟨w', e, h1, h2, hd⟩ := default_done ha hj
  exact ⟨w', e, h1, h2, fun ms lev text hl =>
    ⟨done_logs hd ms hl text, fun h => done_prints hd ms hl text h⟩⟩

theorem off_output {st : State} {c : LogConfig} (h : Agrees st c) (hoff : c.on = false)
    (lev : LogLevel) (text : Str) : written st lev text = [] := by
  have hen : st.enabled = false := by rw [h.on]; exact hoff
  rw [List.eq_nil_iff_forall_not_mem]
  intro o hmem
  simp only [written, step, Logger.log, hen] at hmem
  by_cases h0 : lev = .disabled
  · simp [h0] at hmem
  · simp only [h0, if_false, Bool.false_eq_true, send, List.mem_map, List.mem_filter] at hmem
    obtain ⟨s, ⟨hs, he⟩, -⟩ := hmem
    have := h.entries s hs
    unfold EntryOk at this
    rw [hen] at this
    split_ifs at this
    · exact (this.1 he).1
    · rw [this] at he; simp at he

/-- C95: with an empty list nothing is ever written. -/
theorem C95_empty {on : Bool} {ops : List Op} {w : LogWorld} (hw : LogPast w on ops) {j : JVal ℝ}
    (hj : HasValue j "log".toList (.arr [])) :
    ∃ w', updateLogger w j = (w', .ok ()) ∧ w'.opened = w.opened ∧ w'.files = w.files ∧
      ∀ ms lev text, written (run w'.logger (logs ms)) lev text = [] := by
  have ha := after_agrees on ops
  rw [← show w.logger = _ from hw] at ha
  have h1 := step_agrees (step_agrees ha .clear) (.enable false)
  refine ⟨{ w with logger := enable (step w.logger .clear).1 false }, ?_, rfl, rfl, ?_⟩
  · unfold updateLogger
    rw [clear_step]
    dsimp only
    rw [if_pos hj.has, hj.at]
  · intro ms lev text
    have h2 := run_logs h1 ms
    exact off_output h2 rfl lev text

theorem entry_cases {w0 w : LogWorld} (hop : w.openable = w0.openable) {el : JVal ℝ}
    (hp : PlainName el) :
    (∃ L, IsListing el L ∧ CanOpen w0 L) ∨
    ((∀ L, IsListing el L → ¬ CanOpen w0 L) ∧ logEntry w el = (w, .error .marleyError)) := by
  have named : ∀ {L}, IsListing el L → ∃ s, HasValue el "file".toList (.str s) := by
    rintro ⟨d, lev⟩ ⟨h, -⟩
    cases d with
    | stdout => exact ⟨_, h⟩
    | stderr => exact ⟨_, h⟩
    | file n b => exact ⟨_, h.1⟩
  rcases key_cases el "file".toList with hk | ⟨x, hk⟩
  · refine .inr ⟨fun L hL => ?_, ?_⟩
    · obtain ⟨s, h⟩ := named hL
      exact absurd h (absent_not hk _)
    · unfold logEntry
      rw [if_neg (by rw [hk]; exact Bool.false_ne_true)]
  by_cases hs : ∃ s, x = .str s
  · obtain ⟨s, rfl⟩ := hs
    have hpl := plain_eq hp hk
    rcases levelOf_cases el with ⟨lev, h1, h2⟩ | ⟨hn, h2⟩
    · by_cases e1 : s = "stdout".toList
      · exact .inl ⟨⟨.stdout, lev⟩, ⟨by rw [e1] at hk; exact hk, h1⟩, by intro n b h; cases h⟩
      by_cases e2 : s = "stderr".toList
      · exact .inl ⟨⟨.stderr, lev⟩, ⟨by rw [e2] at hk; exact hk, h1⟩, by intro n b h; cases h⟩
      have file_of : ∀ {L}, IsListing el L → ∃ b, L.dest = .file s b ∧ AsksMode el b := by
        rintro ⟨d, l⟩ ⟨h, -⟩
        cases d with
        | stdout =>
          have := value_unique hk h
          rw [JVal.str.injEq] at this
          exact absurd this e1
        | stderr =>
          have := value_unique hk h
          rw [JVal.str.injEq] at this
          exact absurd this e2
        | file n b =>
          have := value_unique hk h.1
          rw [JVal.str.injEq] at this
          exact ⟨b, by rw [this], h.2.2.2⟩
      rcases overwriteOf_cases el with ⟨b, h3, h4⟩ | ⟨hn, h4⟩
      · by_cases ho : w0.openable s = true
        · refine .inl ⟨⟨.file s b, lev⟩, ⟨⟨hk, e1, e2, h3⟩, h1⟩, ?_⟩
          intro n b' h
          injection h with hn hb
          rw [← hn]; exact ho
        · refine .inr ⟨fun L hL hc => ?_, ?_⟩
          · obtain ⟨b', hd, -⟩ := file_of hL
            exact ho (hc s b' hd)
          · rw [entry_name hk, h2, h4]
            dsimp only
            rw [hpl, if_neg e1, if_neg e2, if_neg (by rw [hop]; exact ho)]
      · refine .inr ⟨fun L hL hc => ?_, ?_⟩
        · obtain ⟨b', -, h⟩ := file_of hL
          exact hn b' h
        · rw [entry_name hk, h2, h4]
          dsimp only
          rw [hpl, if_neg e1, if_neg e2]
    · refine .inr ⟨fun L hL hc => hn _ hL.2, ?_⟩
      rw [entry_name hk, h2]
  · refine .inr ⟨fun L hL => ?_, ?_⟩
    · obtain ⟨s, h⟩ := named hL
      exact absurd ⟨s, value_unique hk h⟩ hs
    · unfold logEntry
      rw [if_pos hk.has, hk.at]
      cases x with
      | str s => exact absurd ⟨s, rfl⟩ hs
      | _ => rfl

theorem entries_cases {w0 : LogWorld} (els : List (JVal ℝ)) :
    ∀ {w : LogWorld} {Ls : List Listing}, Done w0 w Ls → (∀ el ∈ els, PlainName el) →
      (∃ Ms, List.Forall₂ IsListing els Ms ∧ ∀ L ∈ Ms, CanOpen w0 L) ∨
      ((¬ ∃ Ms, List.Forall₂ IsListing els Ms ∧ ∀ L ∈ Ms, CanOpen w0 L) ∧
        (logEntries w els).2 = .error .marleyError) := by
  induction els with
  | nil => intro w Ls _ _; exact .inl ⟨[], .nil, by simp⟩
  | cons el els ih =>
    intro w Ls hd hp
    rcases entry_cases hd.openable (hp el (by simp)) with ⟨L, h1, h2⟩ | ⟨hn, he⟩
    · obtain ⟨w', e, hd'⟩ := entry_done hd h1 (hp el (by simp)) h2
      rcases ih hd' (fun x hx => hp x (by simp [hx])) with ⟨Ms, h3, h4⟩ | ⟨hn, he⟩
      · refine .inl ⟨L :: Ms, .cons h1 h3, ?_⟩
        intro x hx
        rcases List.mem_cons.1 hx with rfl | hx
        · exact h2
        · exact h4 x hx
      · refine .inr ⟨?_, ?_⟩
        · rintro ⟨Ms, h3, h4⟩
          cases h3 with
          | cons _ h3 => exact hn ⟨_, h3, fun x hx => h4 x (by simp [hx])⟩
        · rw [logEntries, e]; exact he
    · refine .inr ⟨?_, ?_⟩
      · rintro ⟨Ms, h3, h4⟩
        cases h3 with
        | @cons _ M _ Ms h3 _ => exact hn M h3 (h4 M (by simp))
      · rw [logEntries, he]

/-- C95: the settings are accepted exactly if they are a list of entries each of which names
its destination and, if it has one, a valid level and (for a file) a valid overwrite setting,
and all the files can be opened; otherwise a `marley::Error` is thrown. -/
theorem C95_rejected {on : Bool} {ops : List Op} {w : LogWorld} (hw : LogPast w on ops) {j x : JVal ℝ}
    (hj : HasValue j "log".toList x) (hp : ∀ els, x = .arr els → ∀ el ∈ els, PlainName el) :
    ((∃ els Ls, x = .arr els ∧ List.Forall₂ IsListing els Ls ∧ ∀ L ∈ Ls, CanOpen w L) ∧
      (updateLogger w j).2 = .ok ()) ∨
    ((¬ ∃ els Ls, x = .arr els ∧ List.Forall₂ IsListing els Ls ∧ ∀ L ∈ Ls, CanOpen w L) ∧
      (updateLogger w j).2 = .error .marleyError) := by
  have ha := after_agrees on ops
  rw [← show w.logger = _ from hw] at ha
  by_cases hx : ∃ els, x = .arr els
  · obtain ⟨els, rfl⟩ := hx
    by_cases hne : els = []
    · subst hne
      obtain ⟨w', e, -⟩ := C95_empty hw hj
      exact .inl ⟨⟨[], [], rfl, .nil, by simp⟩, by rw [e]⟩
    · rcases entries_cases els (start_done ha) (hp els rfl) with ⟨Ms, h1, h2⟩ | ⟨hn, he⟩
      · obtain ⟨w', e, -⟩ := entries_done h1 (start_done ha) (hp els rfl) h2
        exact .inl ⟨⟨els, Ms, rfl, h1, h2⟩, by rw [update_list hj hne, e]⟩
      · refine .inr ⟨?_, by rw [update_list hj hne]; exact he⟩
        rintro ⟨els', Ls, e, h1, h2⟩
        injection e with e
        subst e
        exact hn ⟨Ls, h1, h2⟩
  · refine .inr ⟨?_, ?_⟩
    · rintro ⟨els, _, e, _⟩; exact hx ⟨els, e⟩
    · unfold updateLogger
      rw [clear_step]
      dsimp only
      rw [if_pos hj.has, hj.at]
      cases x with
      | arr els => exact absurd ⟨els, rfl⟩ hx
      | _ => rfl

/-- Nothing but the level of the last message survives from the earlier settings. -/
structure SameBut (w1 w2 : LogWorld) : Prop where
  old : w1.logger.old = w2.logger.old
  opened : w1.opened = w2.opened
  files : w1.files = w2.files
  openable : w1.openable = w2.openable

theorem clear_eq (st : State) : (step st .clear).1 =
    { st with streams := [⟨.cerr, .warning, st.enabled && decide (LogLevel.warning.rank ≥ st.old.rank)⟩] } := by
  simp only [step, clearStreams, addStream, hasStream, List.any_nil, Bool.false_and,
    Bool.false_eq_true, if_false, List.nil_append]

theorem update_same {w1 w2 : LogWorld} (h : SameBut w1 w2) (j : JVal ℝ) :
    (updateLogger w1 j).2 = (updateLogger w2 j).2 ∧
    ((updateLogger w1 j).2 = .ok () → updateLogger w1 j = updateLogger w2 j) := by
  obtain ⟨⟨ss1, en1, old1⟩, o1, f1, a1⟩ := w1
  obtain ⟨⟨ss2, en2, old2⟩, o2, f2, a2⟩ := w2
  obtain ⟨h1, h2, h3, h4⟩ := h
  simp only at h1 h2 h3 h4
  subst h1 h2 h3 h4
  have hb : ∀ b, enable (step ⟨ss1, en1, old1⟩ .clear).1 b = enable (step ⟨ss2, en2, old1⟩ .clear).1 b := by
    intro b
    rw [clear_eq, clear_eq]
    simp [enable]
  by_cases hk : hasKey j "log".toList = true
  · unfold updateLogger
    rw [clear_step, clear_step]
    dsimp only
    rw [if_pos hk, if_pos hk]
    cases at? j "log".toList with
    | error e => exact ⟨rfl, by intro h; cases h⟩
    | ok x =>
      cases x with
      | arr els =>
        cases els with
        | nil => dsimp only; rw [hb]; exact ⟨rfl, fun _ => rfl⟩
        | cons a t => dsimp only; rw [hb]; exact ⟨rfl, fun _ => rfl⟩
      | _ => exact ⟨rfl, by intro h; cases h⟩
  · have e : updateLogger ⟨⟨ss1, en1, old1⟩, o1, f1, a1⟩ j = updateLogger ⟨⟨ss2, en2, old1⟩, o1, f1, a1⟩ j := by
      unfold updateLogger
      rw [clear_step, clear_step]
      dsimp only
      rw [if_neg hk, if_neg hk, clear_eq, clear_eq]
      simp [LogWorld.add, addStream, hasStream, enable]
    exact ⟨by rw [e], fun _ => e⟩

/-- C95: applied settings replace earlier ones; of the past only the level of the last message
matters. -/
theorem C95_history {w1 w2 : LogWorld} (h : SameBut w1 w2) (j : JVal ℝ) :
    (updateLogger w1 j).2 = (updateLogger w2 j).2 ∧
    ((updateLogger w1 j).2 = .ok () → updateLogger w1 j = updateLogger w2 j) := update_same h j

/-- C95: a configuration that is read from a file acts as one that is given directly; if the
file cannot be read, the default settings are in force. -/
theorem C95_from_file {on : Bool} {ops : List Op} {w : LogWorld} (hw : LogPast w on ops) :
    (∀ e, configFromFile w (.error e) = ((updateLogger w .null).1, .error e)) ∧
    ∀ j, (configFromFile w (.ok j)).2 = (updateLogger w j).2 ∧
      ((updateLogger w j).2 = .ok () → configFromFile w (.ok j) = updateLogger w j) := by
  have ha := after_agrees on ops
  rw [← show w.logger = _ from hw] at ha
  obtain ⟨w', e, h1, h2, hd⟩ := default_done ha (j := .null) rfl
  refine ⟨fun ex => ?_, fun j => ?_⟩
  · unfold configFromFile
    rw [e]
  · have e2 : configFromFile w (.ok j) = updateLogger w' j := by
      unfold configFromFile
      rw [e]
    have hold : w'.logger.old = w.logger.old := by
      have : updateLogger w .null = (w', .ok ()) := e
      unfold updateLogger at this
      rw [clear_step] at this
      dsimp only at this
      rw [if_neg (by simp [hasKey]), clear_eq] at this
      simp only [LogWorld.add, addStream] at this
      split_ifs at this <;> simp [enable] at this <;> rw [← this]
    have hs : SameBut w w' := ⟨hold.symm, h1.symm, h2.symm, hd.openable.symm⟩
    rw [e2]
    exact ⟨(update_same hs j).1.symm, fun h => ((update_same hs j).2 h).symm⟩

/-! ## Where the code disagrees -/

/-- A process that has logged a warning. -/
def warned : LogWorld := ⟨loggerAfter true [.log .warning []], [], fun _ => none, fun _ => true⟩

/-- Standard output takes warnings: if the last message before the settings were applied was a
warning, the warnings that follow immediately are written to standard output, too. -/
theorem C95_stdout_violated (text : Str) :
    written (updateLogger warned .null).1.logger .warning text =
      [(.cerr, line .warning text), (.cout, line .warning text)] := rfl

/-- A process that logs to a file. -/
def filing : LogWorld :=
  ⟨loggerAfter true [.add true (.other 0) .debug], [['a']], fun _ => some [], fun _ => true⟩

/-- Settings that are rejected replace the earlier ones nevertheless: the messages are no
longer written to the file they were written to before. -/
theorem C95_rejected_violated (text : Str) :
    (updateLogger filing (.obj [("log".toList, .arr [.null])])).2 = .error .marleyError ∧
    (.other 0, line .info text) ∈ written filing.logger .info text ∧
    (.other 0, line .info text) ∉
      written (updateLogger filing (.obj [("log".toList, .arr [.null])])).1.logger .info text := by
  have hj : HasValue (.obj [("log".toList, .arr [.null])]) "log".toList (.arr [.null]) :=
    ⟨_, rfl, by simp [Json.mapFind]⟩
  rw [update_list hj (by simp)]
  refine ⟨rfl, ?_, ?_⟩
  · show _ ∈ [(Stream.cout, line .info text), (Stream.other 0, line .info text)]
    simp
  · show _ ∉ ([] : List (Stream × Str))
    simp

/-- A name with a quotation mark names another file, with a backslash before it. -/
theorem C95_name_violated {w : LogWorld} (ho : ∀ f, w.openable f = true) {j : JVal ℝ}
    (hj : HasValue j "log".toList (.arr [.obj [("file".toList, .str ['a', '"'])]])) :
    ∃ w', updateLogger w j = (w', .ok ()) ∧ w'.opened = w.opened ++ [['a', '\\', '"']] := by
  have hk : HasValue (.obj [("file".toList, .str ['a', '"'])]) "file".toList (.str ['a', '"']) :=
    ⟨_, rfl, by simp [Json.mapFind]⟩
  have ha : Absent (.obj [("file".toList, (.str ['a', '"'] : JVal ℝ))]) "overwrite".toList :=
    hasKey_cons (by decide +kernel) _ rfl
  have hl : Absent (.obj [("file".toList, (.str ['a', '"'] : JVal ℝ))]) "level".toList :=
    hasKey_cons (by decide +kernel) _ rfl
  rw [update_list hj (by simp), logEntries, entry_name hk, levelOf_ok (.inr ⟨hl, rfl⟩),
    overwriteOf_ok (.inr ⟨ha, rfl⟩)]
  have en : jsonEscape ['a', '"'] = ['a', '\\', '"'] := by decide +kernel
  dsimp only
  rw [en, if_neg (by decide +kernel), if_neg (by decide +kernel), if_pos (ho _)]
  simp only [LogWorld.add, addStream]
  split_ifs <;> simp_all [LogWorld.openFile, logEntries]

/-! ## The hypotheses can be met -/

/-- Standard output at level `debug`, and a file to be overwritten. -/
def logList : List (JVal ℝ) :=
  [.obj [("file".toList, .str "stdout".toList), ("level".toList, .str "debug".toList)],
   .obj [("file".toList, .str ['a']), ("level".toList, .str "error".toList),
     ("overwrite".toList, .bool true)]]

example : List.Forall₂ IsListing logList [⟨.stdout, .debug⟩, ⟨.file ['a'] true, .error⟩] ∧
    (∀ el ∈ logList, PlainName el) ∧ LogPast warned true [.log .warning []] ∧
    HasValue (.obj [("log".toList, .arr logList)]) "log".toList (.arr logList) := by
  have here : ∀ {k : Str} {v : JVal ℝ} {m}, Json.mapFind ((k, v) :: m) k = some v := by
    intro k v m; simp [Json.mapFind]
  have next : ∀ {k k' : Str} {v x : JVal ℝ} {m}, k' ≠ k → Json.mapFind m k' = some x →
      Json.mapFind ((k, v) :: m) k' = some x := by
    intro k k' v x m h1 h2; simp [Json.mapFind, h1, h2]
  refine ⟨.cons ⟨⟨_, rfl, here⟩, .inl ⟨_, rfl, next (by decide +kernel) here⟩⟩
    (.cons ⟨⟨⟨_, rfl, here⟩, by decide +kernel, by decide +kernel,
      .inl ⟨_, rfl, next (by decide +kernel) (next (by decide +kernel) here)⟩⟩,
      .inl ⟨_, rfl, next (by decide +kernel) here⟩⟩ .nil), ?_, rfl, ⟨_, rfl, here⟩⟩
  intro el hel s hs
  simp only [logList, List.mem_cons, List.not_mem_nil, or_false] at hel
  rcases hel with rfl | rfl
  · have := value_unique hs ⟨_, rfl, here⟩
    rw [JVal.str.injEq] at this
    rw [this]
    unfold NeedsEscape
    decide +kernel
  · have := value_unique hs ⟨_, rfl, here⟩
    rw [JVal.str.injEq] at this
    rw [this]
    unfold NeedsEscape
    decide +kernel

example : ∃ m ∈ [(LogLevel.info, ['b'])], m.1 ≠ .disabled ∧ m.1 ≠ LogLevel.warning := by decide
example : SameBut warned ⟨loggerAfter false [.enable true, .log .warning ['b']], [], fun _ => none,
    fun _ => true⟩ := ⟨rfl, rfl, rfl, rfl⟩
example : Absent (.null : JVal ℝ) "log".toList ∧ HasValue (.obj [("log".toList, .arr [])]) "log".toList (.arr []) :=
  ⟨rfl, _, rfl, by simp [Json.mapFind]⟩

end Marley.Props
