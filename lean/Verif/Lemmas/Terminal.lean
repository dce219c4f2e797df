import Verif.Spec.Terminal
import Verif.Model.Status

/-!
# Lemmas about the terminal and the status lines
-/

set_option autoImplicit false

namespace Marley.Terminal
open Marley Marley.Json Marley.Status

theorem show_append (s : Screen) (a b : Str) : s.show (a ++ b) = (s.show a).show b := by
  simp [Screen.show]

theorem show_nil (s : Screen) : s.show [] = s := rfl

/-- The cursor is behind `pre` in row `r`. -/
structure At (s : Screen) (r : Nat) (pre : Str) : Prop where
  mode : s.mode = .plain
  row : s.row = r
  col : s.col = pre.length
  text : (s.rows r).take pre.length = pre

theorem At.start {s : Screen} {r : Nat} (h1 : s.mode = .plain) (h2 : s.row = r) (h3 : s.col = 0) :
    At s r [] := ⟨h1, h2, h3, by simp⟩

theorem At.le {s : Screen} {r : Nat} {pre : Str} (h : At s r pre) :
    pre.length ≤ (s.rows r).length := by
  have := congrArg List.length h.text
  rw [List.length_take] at this
  omega

theorem recv_char {s : Screen} {r : Nat} {pre : Str} (h : At s r pre) {c : Char} (h1 : c ≠ '\n')
    (h2 : c ≠ '\x1b') :
    At (s.recv c) r (pre ++ [c]) ∧ ∀ i, i ≠ r → (s.recv c).rows i = s.rows i := by
  have hle := h.le
  have e : s.recv c = { s with rows := setRow s.rows s.row (over (s.rows s.row) s.col c), col := s.col + 1 } := by
    simp [Screen.recv, h.mode, h1, h2]
  rw [e]
  refine ⟨⟨h.mode, h.row, by simp [h.col], ?_⟩, fun i hi => ?_⟩
  · have e2 : over (s.rows s.row) s.col c = pre ++ c :: (s.rows r).drop (pre.length + 1) := by
      rw [over, h.row, h.col, h.text]
      simp [Nat.sub_eq_zero_of_le hle]
    show (setRow s.rows s.row _ r).take _ = _
    rw [e2, h.row]
    simp only [setRow, if_true]
    rw [show pre ++ c :: (s.rows r).drop (pre.length + 1)
      = (pre ++ [c]) ++ (s.rows r).drop (pre.length + 1) by simp]
    exact List.take_left' rfl
  · show setRow s.rows s.row _ i = _
    rw [h.row]
    simp [setRow, hi]

theorem show_print (t : Str) : ∀ {s : Screen} {r : Nat} {pre : Str}, At s r pre → Printable t →
    At (s.show t) r (pre ++ t) ∧ ∀ i, i ≠ r → (s.show t).rows i = s.rows i := by
  induction t with
  | nil => intro s r pre h _; simpa [show_nil] using h
  | cons c t ih =>
    intro s r pre h hp
    obtain ⟨h1, h2⟩ := hp c (by simp)
    obtain ⟨a, b⟩ := recv_char h h1 h2
    obtain ⟨a', b'⟩ := ih a (fun x hx => hp x (by simp [hx]))
    refine ⟨by rw [show pre ++ c :: t = pre ++ [c] ++ t by simp]; exact a', fun i hi => ?_⟩
    exact (b' i hi).trans (b i hi)

theorem recv_length {s : Screen} {r : Nat} {pre : Str} (h : At s r pre) {c : Char} (h1 : c ≠ '\n')
    (h2 : c ≠ '\x1b') (hl : (s.rows r).length ≤ pre.length) :
    ((s.recv c).rows r).length ≤ (pre ++ [c]).length := by
  have e : s.recv c = { s with rows := setRow s.rows s.row (over (s.rows s.row) s.col c), col := s.col + 1 } := by
    simp [Screen.recv, h.mode, h1, h2]
  rw [e]
  show (setRow s.rows s.row _ r).length ≤ _
  rw [h.row, h.col]
  simp only [setRow, if_true, over, List.length_append, List.length_take, List.length_replicate,
    List.length_cons, List.length_drop, List.length_nil]
  omega

theorem print_length (t : Str) : ∀ {s : Screen} {r : Nat} {pre : Str}, At s r pre → Printable t →
    (s.rows r).length ≤ pre.length → ((s.show t).rows r).length ≤ (pre ++ t).length := by
  induction t with
  | nil => intro s r pre h _ hl; simpa [show_nil] using hl
  | cons c t ih =>
    intro s r pre h hp hl
    obtain ⟨h1, h2⟩ := hp c (by simp)
    have := ih (recv_char h h1 h2).1 (fun x hx => hp x (by simp [hx])) (recv_length h h1 h2 hl)
    rw [show pre ++ c :: t = pre ++ [c] ++ t by simp]
    exact this

/-- In an empty row there is nothing but what was written. -/
theorem print_empty {t : Str} {s : Screen} {r : Nat} (h : At s r []) (hp : Printable t)
    (he : s.rows r = []) : (s.show t).rows r = t := by
  have h1 := (show_print t h hp).1.text
  have h2 := print_length t h hp (by rw [he])
  rw [List.nil_append] at h1 h2
  rw [List.take_of_length_le h2] at h1
  exact h1

theorem show_erase {s : Screen} {r : Nat} {pre : Str} (h : At s r pre) :
    At (s.show erase) r pre ∧ (s.show erase).rows r = pre ∧
      ∀ i, i ≠ r → (s.show erase).rows i = s.rows i := by
  have e : s.show erase = { s with rows := setRow s.rows s.row ((s.rows s.row).take s.col) } := by
    obtain ⟨rows, row, col, mode⟩ := s
    obtain rfl : mode = .plain := h.mode
    simp [Screen.show, erase, esc, Screen.recv]
  rw [e]
  have e2 : setRow s.rows s.row ((s.rows s.row).take s.col) r = pre := by
    rw [h.row, h.col, h.text]; simp [setRow]
  refine ⟨⟨h.mode, h.row, h.col, ?_⟩, e2, fun i hi => ?_⟩
  · show (setRow _ _ _ r).take _ = _
    rw [e2]; simp
  · show setRow s.rows s.row _ i = _
    rw [h.row]; simp [setRow, hi]

theorem show_erases (k : Nat) : ∀ {s : Screen} {r : Nat} {pre : Str}, At s r pre →
    At (s.show (List.replicate k erase).flatten) r pre ∧
      (0 < k ∨ s.rows r = pre → (s.show (List.replicate k erase).flatten).rows r = pre) ∧
      ∀ i, i ≠ r → (s.show (List.replicate k erase).flatten).rows i = s.rows i := by
  induction k with
  | zero => intro s r pre h; simpa [show_nil] using h
  | succ k ih =>
    intro s r pre h
    rw [List.replicate_succ, List.flatten_cons, show_append]
    obtain ⟨a, b, c⟩ := show_erase h
    obtain ⟨a', b', c'⟩ := ih a
    refine ⟨a', fun _ => ?_, fun i hi => (c' i hi).trans (c i hi)⟩
    exact b' (.inr b)

theorem show_newline {s : Screen} {r : Nat} {pre : Str} (h : At s r pre) :
    At (s.show ['\n']) (r + 1) [] ∧ (s.show ['\n']).rows = s.rows := by
  have e : s.show ['\n'] = { s with row := s.row + 1, col := 0 } := by
    simp [Screen.show, Screen.recv, h.mode]
  rw [e]
  exact ⟨.start h.mode (by simp [h.row]) rfl, rfl⟩

theorem show_up {s : Screen} {r : Nat} {pre : Str} (h : At s r pre) :
    At (s.show up) (r - 1) [] ∧ (s.show up).rows = s.rows := by
  have e : s.show up = { s with row := s.row - 1, col := 0 } := by
    obtain ⟨rows, row, col, mode⟩ := s
    obtain rfl : mode = .plain := h.mode
    simp [Screen.show, up, esc, Screen.recv]
  rw [e]
  exact ⟨.start h.mode (by simp [h.row]) rfl, rfl⟩

theorem show_ups (k : Nat) : ∀ {s : Screen} {r : Nat}, At s r [] →
    At (s.show (List.replicate k up).flatten) (r - k) [] ∧
      (s.show (List.replicate k up).flatten).rows = s.rows := by
  induction k with
  | zero => intro s r h; simpa [show_nil] using h
  | succ k ih =>
    intro s r h
    rw [List.replicate_succ, List.flatten_cons, show_append]
    obtain ⟨a, b⟩ := show_up h
    obtain ⟨a', b'⟩ := ih a
    exact ⟨by rw [show r - (k + 1) = r - 1 - k by omega]; exact a', b'.trans b⟩

/-- Lines, each followed by a number of erase sequences and a newline. -/
def body (ls : List (Str × Nat)) : Str :=
  ls.flatMap fun l => l.1 ++ (List.replicate l.2 erase).flatten ++ ['\n']

theorem show_body (ls : List (Str × Nat)) : ∀ {s : Screen} {r : Nat}, At s r [] →
    (∀ l ∈ ls, Printable l.1) →
    At (s.show (body ls)) (r + ls.length) [] ∧
      (∀ i, i < r ∨ r + ls.length ≤ i → (s.show (body ls)).rows i = s.rows i) ∧
      ∀ i l, ls[i]? = some l → ((s.show (body ls)).rows (r + i)).take l.1.length = l.1 ∧
        (0 < l.2 ∨ s.rows (r + i) = [] → (s.show (body ls)).rows (r + i) = l.1) := by
  induction ls with
  | nil => intro s r h _; simpa [body, show_nil] using h
  | cons l ls ih =>
    intro s r h hp
    rw [show body (l :: ls) = l.1 ++ ((List.replicate l.2 erase).flatten ++ (['\n'] ++ body ls)) by
      simp [body]]
    rw [show_append, show_append, show_append]
    obtain ⟨a1, b1⟩ := show_print l.1 h (hp l (by simp))
    rw [List.nil_append] at a1
    obtain ⟨a2, e2, b2⟩ := show_erases l.2 a1
    obtain ⟨a3, b3⟩ := show_newline a2
    obtain ⟨a4, b4, c4⟩ := ih a3 (fun x hx => hp x (by simp [hx]))
    refine ⟨by rw [List.length_cons, show r + (ls.length + 1) = r + 1 + ls.length by omega]; exact a4,
      fun i hi => ?_, fun i x hx => ?_⟩
    · rw [List.length_cons] at hi
      rw [b4 i (by omega), b3, b2 i (by omega), b1 i (by omega)]
    · cases i with
      | zero =>
        obtain rfl : l = x := by simpa using hx
        rw [Nat.add_zero, b4 r (by omega), b3]
        refine ⟨a2.text, fun h' => e2 (h'.imp_right fun h' => ?_)⟩
        exact print_empty h (hp l (by simp)) h'
      | succ i =>
        have := c4 i x (by simpa using hx)
        rw [show r + 1 + i = r + (i + 1) by omega] at this
        refine ⟨this.1, fun h' => this.2 (h'.imp_right fun h' => ?_)⟩
        rw [b3, b2 _ (by omega), b1 _ (by omega)]; exact h'

/-- Status lines: below the row of the cursor, and back. -/
def block (ls : List (Str × Nat)) : Str :=
  '\n' :: (body ls ++ (List.replicate (ls.length + 1) up).flatten)

theorem show_block {ls : List (Str × Nat)} {s : Screen} {r : Nat} (h : At s r [])
    (hp : ∀ l ∈ ls, Printable l.1) :
    At (s.show (block ls)) r [] ∧
      (∀ i, i ≤ r ∨ r + ls.length < i → (s.show (block ls)).rows i = s.rows i) ∧
      ∀ i l, ls[i]? = some l → ((s.show (block ls)).rows (r + 1 + i)).take l.1.length = l.1 ∧
        (0 < l.2 ∨ s.rows (r + 1 + i) = [] → (s.show (block ls)).rows (r + 1 + i) = l.1) := by
  rw [show block ls = ['\n'] ++ (body ls ++ (List.replicate (ls.length + 1) up).flatten) from rfl,
    show_append, show_append]
  obtain ⟨a1, b1⟩ := show_newline h
  obtain ⟨a2, b2, c2⟩ := show_body ls a1 hp
  obtain ⟨a3, b3⟩ := show_ups (ls.length + 1) a2
  refine ⟨by rw [show r = r + 1 + ls.length - (ls.length + 1) by omega]; exact a3, fun i hi => ?_,
    fun i l hl => ?_⟩
  · rw [b3, b2 i (by omega), b1]
  · rw [b3]
    have := c2 i l hl
    rw [b1] at this
    exact this

/-! ## The inserter -/

/-- Characters as they are sent while no status lines are inserted. -/
def marked (t : Str) : Str := t.flatMap fun c => if c = '\n' then erase ++ [c] else [c]

theorem marked_append (a b : Str) : marked (a ++ b) = marked a ++ marked b := by simp [marked]

theorem marked_printable {t : Str} (h : Printable t) : marked t = t := by
  induction t with
  | nil => rfl
  | cons c t ih =>
    have := (h c (by simp)).1
    rw [show c :: t = [c] ++ t from rfl, marked_append, ih (fun x hx => h x (by simp [hx]))]
    simp [marked, this]

theorem fold_quiet (t : Str) : ∀ (s : Inserter), s.doStatus = false →
    (t.foldl (overflow []) s).sent = s.sent ++ marked t ∧
      (t.foldl (overflow []) s).atStart = (t.getLast?.map (fun c => decide (c = '\n'))).getD s.atStart ∧
      (t.foldl (overflow []) s).doStatus = false := by
  induction t with
  | nil => intro s h; simp [marked, h]
  | cons c t ih =>
    intro s h
    rw [List.foldl_cons]
    obtain ⟨a, b, d⟩ := ih (overflow [] s c) (by simpa [overflow] using h)
    refine ⟨?_, ?_, d⟩
    · rw [a]
      by_cases hc : c = '\n' <;> simp [overflow, h, hc, marked, List.append_assoc]
    · rw [b]
      cases t with
      | nil => simp [overflow]
      | cons d t => simp [List.getLast?_cons]

theorem marked_body (ls : List (Str × Nat)) (hp : ∀ l ∈ ls, Printable l.1) :
    marked (body ls) = body (ls.map fun l => (l.1, l.2 + 1)) := by
  have hk : ∀ k, marked (List.replicate k erase).flatten = (List.replicate k erase).flatten := by
    intro k
    induction k with
    | zero => rfl
    | succ k ih => rw [List.replicate_succ, List.flatten_cons, marked_append, ih]; rfl
  induction ls with
  | nil => rfl
  | cons l ls ih =>
    have e1 : body (l :: ls) = l.1 ++ ((List.replicate l.2 erase).flatten ++ (['\n'] ++ body ls)) := by
      simp [body]
    rw [e1, marked_append, marked_append, marked_append, ih (fun x hx => hp x (by simp [hx])),
      marked_printable (hp l (by simp)), hk]
    rw [List.map_cons, show ∀ (x : Str × Nat) (xs : List (Str × Nat)), body (x :: xs)
      = x.1 ++ ((List.replicate x.2 erase).flatten ++ (['\n'] ++ body xs)) by simp [body]]
    simp [marked, List.replicate_succ', List.append_assoc]

theorem marked_ups (k : Nat) : marked (List.replicate k up).flatten = (List.replicate k up).flatten := by
  induction k with
  | zero => rfl
  | succ k ih => rw [List.replicate_succ, List.flatten_cons, marked_append, ih]; rfl

theorem marked_block (ls : List (Str × Nat)) (hp : ∀ l ∈ ls, Printable l.1) :
    marked (block ls) = erase ++ block (ls.map fun l => (l.1, l.2 + 1)) := by
  rw [show block ls = ['\n'] ++ (body ls ++ (List.replicate (ls.length + 1) up).flatten) from rfl,
    marked_append, marked_append, marked_body ls hp, marked_ups]
  simp [block, marked, List.append_assoc]

/-- What is sent when a text is written while status lines are on: they come at the
start of each line. -/
theorem fold_line (l : List (Char × Str)) : ∀ (s : Inserter), s.doStatus = true → s.atStart = false →
    (∀ x ∈ l, x.1 ≠ '\n') →
    (l.foldl (fun s x => overflow x.2 s x.1) s).sent = s.sent ++ l.map Prod.fst ∧
      (l.foldl (fun s x => overflow x.2 s x.1) s).atStart = false ∧
      (l.foldl (fun s x => overflow x.2 s x.1) s).doStatus = true := by
  induction l with
  | nil => intro s h1 h2 _; simp [h1, h2]
  | cons x l ih =>
    intro s h1 h2 hx
    have hn : x.1 ≠ '\n' := hx x (by simp)
    rw [List.foldl_cons]
    obtain ⟨a, b, c⟩ := ih (overflow x.2 s x.1) (by simpa [overflow] using h1)
      (by simp [overflow, hn]) (fun y hy => hx y (by simp [hy]))
    refine ⟨?_, b, c⟩
    rw [a]
    simp [overflow, h2, hn, List.append_assoc]

end Marley.Terminal
