import Verif.Model.FileManager
import Mathlib.Data.Nat.Bitwise
import Mathlib.Tactic.SplitIfs

/-!
# C72: file search order
-/

set_option autoImplicit false

namespace Marley.Props
open Marley Marley.Files
open Marley.Json (Str)

/-! ## Specification -/

/-- The file type in a mode: the bits `S_IFMT`. -/
def fileType (mode : Nat) : Nat := mode &&& 0o170000

/-- A regular file. -/
def IsRegular (mode : Nat) : Prop := fileType mode = 0o100000

instance (mode : Nat) : Decidable (IsRegular mode) := inferInstanceAs (Decidable (_ = _))

/-- The directory can be read and has a regular file of that name. -/
def HasFile (fs : FileSys) (dir base : Str) : Prop :=
  (∃ names, fs.readdir dir = some names ∧ base ∈ names) ∧
    ∃ mode, fs.stat (dir ++ '/' :: base) = some mode ∧ IsRegular mode

/-- Everything with a name is a regular file, a directory, a device or a pipe:
there are no sockets. -/
def NoSockets (fs : FileSys) : Prop :=
  ∀ name mode, fs.stat name = some mode →
    fileType mode ∈ [0o100000, 0o040000, 0o020000, 0o060000, 0o010000]

/-! ## Proofs -/

theorem regular_bit {mode : Nat}
    (h : fileType mode ∈ [0o100000, 0o040000, 0o020000, 0o060000, 0o010000]) :
    mode &&& S_IFREG ≠ 0 ↔ IsRegular mode := by
  have e : mode &&& S_IFREG = fileType mode &&& S_IFREG := by
    rw [fileType, Nat.and_assoc]; rfl
  rw [e, IsRegular]
  simp only [List.mem_cons, List.not_mem_nil, or_false] at h
  rcases h with h | h | h | h | h <;> rw [h] <;> decide

/-- The callback of `find_file`. -/
def findBase (base : Str) : Str → Str → Str → Str × Bool :=
  fun st full other => if base = other then (full, true) else (st, false)

theorem entryLoop_find (fs : FileSys) (hfs : NoSockets fs) (dir base : Str) (names : List Str)
    (st : Str) :
    entryLoop fs dir (findBase base) st names =
      if base ∈ names ∧ ∃ mode, fs.stat (dir ++ '/' :: base) = some mode ∧ mode &&& S_IFREG ≠ 0
      then (dir ++ '/' :: base, true) else (st, false) := by
  induction names with
  | nil => simp [entryLoop]
  | cons n t ih =>
    simp only [entryLoop]
    by_cases hb : base = n
    · subst hb
      cases hs : fs.stat (dir ++ '/' :: base) with
      | none => simp only []; rw [ih]; simp [hs]
      | some mode =>
        dsimp only
        by_cases hm : mode &&& S_IFREG ≠ 0
        · rw [if_pos hm]; simp [findBase]
          exact fun h => absurd h hm
        · rw [if_neg hm, ih]; simp only [hs]
          have : ¬ ∃ m, some mode = some m ∧ m &&& S_IFREG ≠ 0 := by
            rintro ⟨m, h1, h2⟩; cases h1; exact hm h2
          rw [if_neg (fun h => this h.2), if_neg (fun h => this h.2)]
    · have hstep : ∀ full, findBase base st full n = (st, false) := by
        intro full; simp [findBase, hb]
      have : (base ∈ n :: t) = (base ∈ t) := by simp [hb]
      simp only [this]
      cases hs : fs.stat (dir ++ '/' :: n) with
      | none => exact ih
      | some mode =>
        dsimp only
        split_ifs <;> first | exact ih | (simp only [hstep]; exact ih) | skip
        all_goals simp_all [hstep]

theorem dirIterate_find (fs : FileSys) (hfs : NoSockets fs) (dir base : Str) (st : Str) :
    (HasFile fs dir base → dirIterate fs dir (findBase base) st = (dir ++ '/' :: base, true)) ∧
    (¬ HasFile fs dir base → dirIterate fs dir (findBase base) st = (st, false)) := by
  have bit : ∀ mode, fs.stat (dir ++ '/' :: base) = some mode →
      (mode &&& S_IFREG ≠ 0 ↔ IsRegular mode) := fun mode hm => regular_bit (hfs _ _ hm)
  constructor
  · rintro ⟨⟨names, h1, h2⟩, mode, h3, h4⟩
    rw [dirIterate, h1]
    dsimp only
    rw [entryLoop_find fs hfs, if_pos ⟨h2, mode, h3, (bit mode h3).2 h4⟩]
  · intro h
    rw [dirIterate]
    cases hr : fs.readdir dir with
    | none => rfl
    | some names =>
      dsimp only
      rw [entryLoop_find fs hfs, if_neg]
      rintro ⟨h2, mode, h3, h4⟩
      exact h ⟨⟨names, hr, h2⟩, mode, h3, (bit mode h3).1 h4⟩

theorem searchDirs_skip (fs : FileSys) (hfs : NoSockets fs) (base : Str) (pre rest : List Str)
    (st : Str) (h : ∀ d ∈ pre, ¬ HasFile fs d base) :
    searchDirs fs base st (pre ++ rest) = searchDirs fs base st rest := by
  induction pre with
  | nil => rfl
  | cons d t ih =>
    have h1 := (dirIterate_find fs hfs d base st).2 (h d (by simp))
    rw [List.cons_append, searchDirs]
    change (if (dirIterate fs d (findBase base) st).2 then _ else _) = _
    have e : dirIterate fs d (fun st full other => if base = other then (full, true) else (st, false))
      st = (st, false) := h1
    rw [e, h1]
    simp only [Bool.false_eq_true, if_false]
    exact ih (fun d hd => h d (by simp [hd]))

/-- C72: a name that exists is returned as it is. -/
theorem C72_existing_name (fs : FileSys) {base : Str} (dirs : List Str)
    (h : fs.stat base ≠ none) : findFile fs base dirs = base := by
  rw [findFile, fileExists, if_pos]
  cases hs : fs.stat base with
  | none => exact absurd hs h
  | some m => rfl

/-- C72: otherwise the result is the path in the first directory holding a
regular file of that name.  Partial: for file systems without sockets, which
the code takes for regular files (`C72_socket_violated`). -/
theorem C72_first_directory_partial (fs : FileSys) (hfs : NoSockets fs) {base : Str}
    (h : fs.stat base = none) (before : List Str) (dir : Str) (after : List Str)
    (hb : ∀ d ∈ before, ¬ HasFile fs d base) (hd : HasFile fs dir base) :
    findFile fs base (before ++ dir :: after) = dir ++ '/' :: base := by
  rw [findFile, fileExists, if_neg (by simp [h]), searchDirs_skip fs hfs base _ _ _ hb, searchDirs]
  have e : dirIterate fs dir (fun st full other => if base = other then (full, true) else (st, false))
    [] = (dir ++ '/' :: base, true) := (dirIterate_find fs hfs dir base []).1 hd
  rw [e]; rfl

/-- C72: without such a directory the result is the empty string. -/
theorem C72_not_found_partial (fs : FileSys) (hfs : NoSockets fs) {base : Str}
    (h : fs.stat base = none) (dirs : List Str) (hb : ∀ d ∈ dirs, ¬ HasFile fs d base) :
    findFile fs base dirs = [] := by
  have := searchDirs_skip fs hfs base dirs [] [] hb
  rw [List.append_nil] at this
  rw [findFile, fileExists, if_neg (by simp [h]), this]
  rfl

theorem splitLoop_join (d : Char) (dirs : List Str) (hne : dirs ≠ []) (hd : ∀ x ∈ dirs, d ∉ x)
    (hl : dirs.getLast hne ≠ []) (n : Nat) (hn : ([d].intercalate dirs).length < n) :
    Utils.splitLoop d n ([d].intercalate dirs) = dirs := by
  induction dirs generalizing n with
  | nil => exact absurd rfl hne
  | cons x t ih =>
    obtain ⟨n, rfl⟩ : ∃ k, n = k + 1 := ⟨n - 1, by omega⟩
    have hx : ∀ c ∈ x, decide (c ≠ d) = true := by
      intro c hc; simp only [decide_eq_true_eq]; rintro rfl; exact hd x (by simp) hc
    have gl : ∀ s : Str, s ≠ [] → Utils.getline s d =
        some (s.takeWhile (· ≠ d), (s.dropWhile (· ≠ d)).drop 1) := by
      intro s hs
      cases s with
      | nil => exact absurd rfl hs
      | cons c s => rfl
    cases t with
    | nil =>
      simp only [List.getLast_singleton] at hl
      have e : [d].intercalate [x] = x := by simp [List.intercalate]
      have tk : x.takeWhile (· ≠ d) = x := by
        simpa using List.takeWhile_append_of_pos (l₂ := []) (p := (· ≠ d)) (by simpa using hx)
      have dk : x.dropWhile (· ≠ d) = [] := by
        simpa using List.dropWhile_append_of_pos (l₂ := []) (p := (· ≠ d)) (by simpa using hx)
      rw [e, Utils.splitLoop, gl x hl, tk,
        dk]
      cases n <;> simp [Utils.splitLoop, Utils.getline]
    | cons y t =>
      have e : [d].intercalate (x :: y :: t) = x ++ d :: [d].intercalate (y :: t) := by
        simp [List.intercalate, List.intersperse]
      rw [e] at hn ⊢
      rw [Utils.splitLoop, gl _ (by simp), List.takeWhile_append_of_pos (by simpa using hx),
        List.dropWhile_append_of_pos (by simpa using hx)]
      simp only [ne_eq, not_true_eq_false, decide_false, Bool.false_eq_true, not_false_eq_true,
        List.takeWhile_cons_of_neg, List.dropWhile_cons_of_neg, List.append_nil, List.drop_succ_cons,
        List.drop_zero]
      rw [ih (by simp) (fun z hz => hd z (by simp [hz])) (by simpa using hl) n
        (by simp at hn; omega)]

/-- C72: a search path means the directories between its colons, in order. -/
theorem C72_search_path (fs : FileSys) (base : Str) {dirs : List Str} (hne : dirs ≠ [])
    (hd : ∀ d ∈ dirs, ':' ∉ d) (hl : dirs.getLast hne ≠ []) :
    findFileIn fs base ([':'].intercalate dirs) = findFile fs base dirs := by
  rw [findFileIn, dirVector, Utils.splitString,
    splitLoop_join ':' dirs hne hd hl _ (Nat.lt_succ_self _)]

/-- With an empty search path nothing is searched. -/
theorem C72_empty_path (fs : FileSys) {base : Str} (h : fs.stat base = none) :
    findFileIn fs base [] = [] := by
  simp [findFileIn, dirVector, Utils.splitString, Utils.splitLoop, Utils.getline, findFile,
    fileExists, h, searchDirs]

/-! ## Listing -/

theorem entryLoop_list (fs : FileSys) (hfs : NoSockets fs) (dir : Str) (names acc : List Str) :
    ∃ l, (entryLoop fs dir (fun st full _ => (st ++ [full], false)) acc names).1 = acc ++ l ∧
      ∀ p, p ∈ l ↔ ∃ base ∈ names, p = dir ++ '/' :: base ∧
        ∃ mode, fs.stat (dir ++ '/' :: base) = some mode ∧ IsRegular mode := by
  induction names generalizing acc with
  | nil => exact ⟨[], by simp [entryLoop], by simp⟩
  | cons n t ih =>
    simp only [entryLoop]
    have key : ∀ l l' : List Str, (∀ p, p ∈ l' ↔ p ∈ l ∨ (p = dir ++ '/' :: n ∧
          ∃ mode, fs.stat (dir ++ '/' :: n) = some mode ∧ IsRegular mode)) →
        (∀ p, p ∈ l ↔ ∃ base ∈ t, p = dir ++ '/' :: base ∧
          ∃ mode, fs.stat (dir ++ '/' :: base) = some mode ∧ IsRegular mode) →
        ∀ p, p ∈ l' ↔ ∃ base ∈ n :: t, p = dir ++ '/' :: base ∧
          ∃ mode, fs.stat (dir ++ '/' :: base) = some mode ∧ IsRegular mode := by
      intro l l' h1 h2 p
      rw [h1, h2]
      constructor
      · rintro (⟨b, hb, h⟩ | h)
        · exact ⟨b, List.mem_cons_of_mem _ hb, h⟩
        · exact ⟨n, by simp, h⟩
      · rintro ⟨b, hb, h⟩
        rcases List.mem_cons.1 hb with rfl | hb
        · exact .inr h
        · exact .inl ⟨b, hb, h⟩
    cases hs : fs.stat (dir ++ '/' :: n) with
    | none =>
      obtain ⟨l, h1, h2⟩ := ih acc
      exact ⟨l, h1, key l l (by simp [hs]) h2⟩
    | some mode =>
      have hbit := regular_bit (hfs _ _ hs)
      dsimp only
      by_cases hm : mode &&& S_IFREG ≠ 0
      · rw [if_pos hm]
        obtain ⟨l, h1, h2⟩ := ih (acc ++ [dir ++ '/' :: n])
        refine ⟨(dir ++ '/' :: n) :: l, by simp [h1], key l _ ?_ h2⟩
        intro p
        simp only [List.mem_cons, hs, Option.some.injEq, exists_eq_left']
        have := hbit.1 hm
        tauto
      · rw [if_neg hm]
        obtain ⟨l, h1, h2⟩ := ih acc
        refine ⟨l, h1, key l l ?_ h2⟩
        intro p
        simp only [hs, Option.some.injEq, exists_eq_left']
        have := fun h => hm (hbit.2 h)
        tauto

theorem listDirs_mem (fs : FileSys) (hfs : NoSockets fs) (dirs acc : List Str) (p : Str) :
    p ∈ listDirs fs acc dirs ↔ p ∈ acc ∨ ∃ d ∈ dirs, ∃ base, p = d ++ '/' :: base ∧
      HasFile fs d base := by
  induction dirs generalizing acc with
  | nil => simp [listDirs]
  | cons d t ih =>
    rw [listDirs, ih]
    have : p ∈ (dirIterate fs d (fun st full _ => (st ++ [full], false)) acc).1 ↔
        p ∈ acc ∨ ∃ base, p = d ++ '/' :: base ∧ HasFile fs d base := by
      rw [dirIterate]
      cases hr : fs.readdir d with
      | none => simp [HasFile, hr]
      | some names =>
        dsimp only
        obtain ⟨l, h1, h2⟩ := entryLoop_list fs hfs d names acc
        rw [h1, List.mem_append, h2]
        simp only [HasFile, hr, Option.some.injEq, exists_eq_left']
        constructor
        · rintro (h | ⟨b, h3, h4, h5⟩)
          · exact .inl h
          · exact .inr ⟨b, h4, h3, h5⟩
        · rintro (h | ⟨b, h4, h3, h5⟩)
          · exact .inl h
          · exact .inr ⟨b, h3, h4, h5⟩
    rw [this]
    constructor
    · rintro ((h | h) | ⟨d', hd', h⟩)
      · exact .inl h
      · exact .inr ⟨d, by simp, h⟩
      · exact .inr ⟨d', by simp [hd'], h⟩
    · rintro (h | ⟨d', hd', h⟩)
      · exact .inl (.inl h)
      · rcases List.mem_cons.1 hd' with rfl | hd'
        · exact .inl (.inr h)
        · exact .inr ⟨d', hd', h⟩

/-- C72: listing gives the paths of exactly the regular files in the
directories. -/
theorem C72_list_partial (fs : FileSys) (hfs : NoSockets fs) (dirs : List Str) (p : Str) :
    p ∈ listAllFiles fs dirs ↔ ∃ d ∈ dirs, ∃ base, p = d ++ '/' :: base ∧ HasFile fs d base := by
  rw [listAllFiles, listDirs_mem fs hfs]; simp

/-- A socket `x` in the directory `d`, before a directory `e` with a regular
file `x`. -/
def socketFs : FileSys where
  stat name := if name = ['d', '/', 'x'] then some 0o140644
    else if name = ['e', '/', 'x'] then some 0o100644 else none
  readdir dir := if dir = ['d'] ∨ dir = ['e'] then some [['x']] else none

/-- C72 does not hold for sockets: the bit tested for regular files is also set
for them, and a socket found first is returned. -/
theorem C72_socket_violated :
    ¬ HasFile socketFs ['d'] ['x'] ∧ HasFile socketFs ['e'] ['x'] ∧
      findFile socketFs ['x'] [['d'], ['e']] = ['d', '/', 'x'] := by
  refine ⟨?_, ?_, by decide⟩
  · rintro ⟨-, mode, h1, h2⟩
    simp only [socketFs] at h1
    cases h1
    exact absurd h2 (by decide)
  · exact ⟨⟨[['x']], rfl, by simp⟩, 0o100644, rfl, by decide⟩

/-- The same without the socket. -/
def plainFs : FileSys where
  stat name := if name = ['e', '/', 'x'] then some 0o100644
    else if name = ['d', '/', 'x'] then some 0o040755 else none
  readdir dir := if dir = ['d'] ∨ dir = ['e'] then some [['.'], ['x']] else none

example : NoSockets plainFs := by
  intro name mode h
  simp only [plainFs] at h
  split_ifs at h <;> cases h <;> decide
example : HasFile plainFs ['e'] ['x'] ∧ ¬ HasFile plainFs ['d'] ['x'] := by
  refine ⟨⟨⟨_, rfl, by simp⟩, 0o100644, rfl, by decide⟩, ?_⟩
  rintro ⟨-, mode, h1, h2⟩
  simp only [plainFs] at h1
  cases h1
  exact absurd h2 (by decide)
example : findFileIn plainFs ['x'] ['d', ':', 'e'] = ['e', '/', 'x'] := by decide

end Marley.Props
