import Verif.Spec.Reports
import Verif.Lemmas.HauserFeshbach
import Verif.Lemmas.Talys

/-! Lemmas for C111 and C112. -/

set_option autoImplicit false

namespace Marley.Props
open Marley Marley.Reports
open Marley.Json (Str natText intText isDigit)
open Marley.Scheme (Gamma Level Scheme levelAt)

variable {K : Type}

/-! ## Cutting -/

theorem cut_sep (d : Char) (s : Str) : cut d (d :: s) = [] :: cut d s := by
  rw [cut, if_pos rfl]

theorem cut_char {c d : Char} (h : c ≠ d) (s : Str) :
    cut d (c :: s) = (c :: (cut d s).headD []) :: (cut d s).tail := by
  rw [cut, if_neg h]

theorem cut_cons (d : Char) (s : Str) : cut d s = (cut d s).headD [] :: (cut d s).tail := by
  cases s with
  | nil => rfl
  | cons c s =>
    by_cases h : c = d
    · subst h; rw [cut_sep]; rfl
    · rw [cut_char h]; rfl

theorem cut_word {d : Char} {a : Str} (h : d ∉ a) (s : Str) :
    cut d (a ++ s) = (a ++ (cut d s).headD []) :: (cut d s).tail := by
  induction a with
  | nil => exact cut_cons d s
  | cons c a ih =>
    have hc : c ≠ d := fun e => h (by simp [e])
    rw [List.cons_append, cut_char hc, ih (fun hm => h (by simp [hm]))]
    rfl

theorem cut_word_sep {d : Char} {a : Str} (h : d ∉ a) (s : Str) : cut d (a ++ d :: s) = a :: cut d s := by
  rw [cut_word h, cut_sep]; simp

theorem cut_end {d : Char} {a : Str} (h : d ∉ a) : cut d a = [a] := by
  have := cut_word h []
  rw [List.append_nil] at this
  rw [this]
  simp [cut]

/-! ## Spins -/

theorem spin_plain (twoJ : Int) (P : Parity) : PlainText (Utils.spinParityString twoJ P) := by
  have key : ∀ c ∈ Utils.spinParityString twoJ P, isDigit c = true ∨ c = '-' ∨ c = '+' ∨ c = '/' := by
    intro c hc
    have hi : ∀ n : Int, ∀ c ∈ intText n, isDigit c = true ∨ c = '-' := intText_chars
    unfold Utils.spinParityString at hc
    simp only at hc
    rw [List.mem_append] at hc
    have hp : ∀ c ∈ [P.toChar], c = '-' ∨ c = '+' := by
      intro c hc
      rw [List.mem_singleton] at hc
      subst hc
      unfold Parity.toChar
      split_ifs <;> simp
    rcases hc with hc | hc
    · split_ifs at hc
      · rw [List.mem_append] at hc
        rcases hc with hc | hc
        · rcases hi _ c hc with h | h <;> simp [h]
        · simp at hc
          rcases hc with rfl | rfl
          · simp
          · exact .inl (by decide)
      · rcases hi _ c hc with h | h <;> simp [h]
    · rcases hp c hc with h | h <;> simp [h]
  have no : ∀ c, isDigit c = false → c ≠ '-' → c ≠ '+' → c ≠ '/' → c ∉ Utils.spinParityString twoJ P := by
    intro c h1 h2 h3 h4 hc
    rcases key c hc with h | h | h | h
    · rw [h1] at h; cases h
    · exact h2 h
    · exact h3 h
    · exact h4 h
  refine ⟨by unfold Utils.spinParityString; simp, ?_, ?_, ?_, ?_, ?_, ?_⟩ <;>
    exact no _ (by decide) (by decide) (by decide) (by decide)

/-! ## The report -/

theorem levelAt_mem {s : Scheme K} {a : Nat} {l : Level K} (h : levelAt s a = some l) :
    ∃ m ∈ s.levels, m.1 = a ∧ m.2 = l := by
  unfold levelAt at h
  rw [Option.map_eq_some_iff] at h
  obtain ⟨m, h1, h2⟩ := h
  exact ⟨m, List.mem_of_find?_eq_some h1, by simpa using List.find?_some h1, h2⟩

theorem levelAt_some {s : Scheme K} {m : Nat × Level K} (h : m ∈ s.levels) : ∃ l, levelAt s m.1 = some l := by
  unfold levelAt
  cases e : s.levels.find? (fun l => l.1 = m.1) with
  | some x => exact ⟨x.2, rfl⟩
  | none =>
    rw [List.find?_eq_none] at e
    exact absurd (e m h) (by simp)

/-- The first line of a gamma. -/
theorem gamma_line {e x : Str} (he : PlainText e) (hx : PlainText x) :
    cut ' ' (chars%"  has a gamma with energy " ++ (e ++ (chars%" MeV (transition to level at " ++
      (x ++ chars%" MeV)")))) =
    [[], [], chars%"has", chars%"a", chars%"gamma", chars%"with", chars%"energy", e, chars%"MeV",
      chars%"(transition", chars%"to", chars%"level", chars%"at", x, chars%"MeV)"] := by
  simp [cut, cut_word he.2.1, cut_word hx.2.1]

theorem intensity_line {r : Str} (hr : PlainText r) :
    cut ' ' (chars%"    and relative intensity " ++ r) =
    [[], [], [], [], chars%"and", chars%"relative", chars%"intensity", r] := by
  simp [cut, cut_end hr.2.1]

theorem level_line {e j : Str} (he : PlainText e) (hj : PlainText j) :
    cut ' ' (chars%"Level at " ++ (e ++ (chars%" MeV has spin-parity " ++ j))) =
    [chars%"Level", chars%"at", e, chars%"MeV", chars%"has", chars%"spin-parity", j] := by
  simp [cut, cut_word he.2.1, cut_end hj.2.1]

set_option maxRecDepth 4000 in
theorem gamma_lines {e x r : Str} (he : PlainText e) (hx : PlainText x) (hr : PlainText r) (s : Str) :
    cut '\n' (chars%"  has a gamma with energy " ++ (e ++ (chars%" MeV (transition to level at " ++
      (x ++ (chars%" MeV)\n    and relative intensity " ++ (r ++ ['\n']))))) ++ s) =
    (chars%"  has a gamma with energy " ++ (e ++ (chars%" MeV (transition to level at " ++
      (x ++ chars%" MeV)")))) :: (chars%"    and relative intensity " ++ r) :: cut '\n' s := by
  simp [cut, cut_word he.2.2.1, cut_word hx.2.2.1, cut_word hr.2.2.1]

theorem level_lines {e j : Str} (he : PlainText e) (hj : PlainText j) (s : Str) :
    cut '\n' (chars%"Level at " ++ (e ++ (chars%" MeV has spin-parity " ++ (j ++ ['\n']))) ++ s) =
    (chars%"Level at " ++ (e ++ (chars%" MeV has spin-parity " ++ j))) :: cut '\n' s := by
  simp [cut, cut_word he.2.2.1, cut_word hj.2.2.1]

theorem read_gamma {e x r : Str} (he : PlainText e) (hx : PlainText x) (hr : PlainText r) (t : List Str) :
    readReportLines ((chars%"  has a gamma with energy " ++ (e ++ (chars%" MeV (transition to level at " ++
      (x ++ chars%" MeV)")))) :: (chars%"    and relative intensity " ++ r) :: t) =
    ([], (e, x, r) :: (readReportLines t).2.1, (readReportLines t).2.2) := by
  rw [readReportLines, readReportLines]
  simp only [gamma_line he hx, intensity_line hr]
  simp

theorem read_level {e j : Str} (he : PlainText e) (hj : PlainText j) (t : List Str) :
    readReportLines ((chars%"Level at " ++ (e ++ (chars%" MeV has spin-parity " ++ j))) :: t) =
    ([], [], ⟨e, j, (readReportLines t).2.1⟩ :: (readReportLines t).2.2) := by
  rw [readReportLines]
  simp only [level_line he hj]
  simp

theorem read_gammas {p : K → Str} (hp : ∀ x, PlainText (p x)) {s : Scheme K} :
    ∀ {gs : List (Gamma K)} {a : Str}, reportGammas p s gs = .ok a → ∀ b : Str,
      (readReportLines (cut '\n' b)).2.1 = [] →
      ∃ us, List.Forall₂ (fun g u => ∃ m ∈ s.levels, g.dest = some m.1 ∧
          u = (p g.energy, p m.2.energy, p g.ri)) gs us ∧
        (readReportLines (cut '\n' (a ++ b))).2 = (us, (readReportLines (cut '\n' b)).2.2) := by
  intro gs
  induction gs with
  | nil =>
    intro a h b hb
    rw [reportGammas] at h
    cases h
    exact ⟨[], .nil, by rw [List.nil_append]; exact Prod.ext hb rfl⟩
  | cons g t ih =>
    intro a h b hb
    rw [reportGammas] at h
    unfold reportGamma at h
    cases e1 : g.dest.bind (levelAt s) with
    | none => rw [e1] at h; cases h
    | some l =>
      rw [e1] at h
      dsimp only at h
      cases e2 : reportGammas p s t with
      | error e => rw [e2] at h; cases h
      | ok y =>
        rw [e2] at h
        dsimp only at h
        injection h with h
        obtain ⟨us, h1, h2⟩ := ih e2 b hb
        rw [Option.bind_eq_some_iff] at e1
        obtain ⟨a', d1, d2⟩ := e1
        obtain ⟨m, m1, m2, m3⟩ := levelAt_mem d2
        refine ⟨(p g.energy, p l.energy, p g.ri) :: us, .cons ⟨m, m1, by rw [d1, m2], by rw [m3]⟩ h1, ?_⟩
        rw [← h, List.append_assoc, gamma_lines (hp _) (hp _) (hp _), read_gamma (hp _) (hp _) (hp _)]
        have h3 := congrArg Prod.fst h2
        have h4 := congrArg Prod.snd h2
        dsimp only at h3 h4 ⊢
        rw [h3, h4]

theorem read_levels {p : K → Str} (hp : ∀ x, PlainText (p x)) {s : Scheme K} :
    ∀ {ls : List (Nat × Level K)} {a : Str}, reportLevels p s ls = .ok a →
      ∃ facts, List.Forall₂ (fun (l : Nat × Level K) t => t.energy = p l.2.energy ∧
        t.spin = Utils.spinParityString l.2.twoJ l.2.parity ∧
        List.Forall₂ (fun g u => ∃ m ∈ s.levels, g.dest = some m.1 ∧
          u = (p g.energy, p m.2.energy, p g.ri)) l.2.gammas t.gammas) ls facts ∧
        (readReportLines (cut '\n' a)).2 = ([], facts) := by
  intro ls
  induction ls with
  | nil =>
    intro a h
    rw [reportLevels] at h
    cases h
    exact ⟨[], .nil, by simp [cut, readReportLines]⟩
  | cons l t ih =>
    intro a h
    rw [reportLevels] at h
    cases e1 : reportGammas p s l.2.gammas with
    | error e => rw [e1] at h; cases h
    | ok x =>
      rw [e1] at h
      dsimp only at h
      cases e2 : reportLevels p s t with
      | error e => rw [e2] at h; cases h
      | ok y =>
        rw [e2] at h
        dsimp only at h
        injection h with h
        obtain ⟨facts, h1, h2⟩ := ih e2
        obtain ⟨us, h3, h4⟩ := read_gammas hp e1 y (congrArg Prod.fst h2)
        refine ⟨⟨p l.2.energy, Utils.spinParityString l.2.twoJ l.2.parity, us⟩ :: facts,
          .cons ⟨rfl, rfl, h3⟩ h1, ?_⟩
        rw [← h, reportHead, level_lines (hp _) (spin_plain _ _), read_level (hp _) (spin_plain _ _)]
        have h5 := congrArg Prod.fst h4
        have h6 := congrArg Prod.snd h4
        have h7 := congrArg Prod.snd h2
        dsimp only at h5 h6 h7 ⊢
        rw [h5, h6, h7]

theorem reportGammas_ok {p : K → Str} {s : Scheme K} (gs : List (Gamma K)) :
    (∃ a, reportGammas p s gs = .ok a) ∨ reportGammas p s gs = .error .ub := by
  induction gs with
  | nil => exact .inl ⟨[], rfl⟩
  | cons g t ih =>
    rw [reportGammas]
    unfold reportGamma
    cases g.dest.bind (levelAt s) with
    | none => exact .inr rfl
    | some l =>
      dsimp only
      rcases ih with ⟨a, e⟩ | e <;> rw [e]
      · exact .inl ⟨_, rfl⟩
      · exact .inr rfl

theorem bind_levelAt {s : Scheme K} (g : Gamma K) :
    (∃ l, g.dest.bind (levelAt s) = some l) ↔ ∃ m ∈ s.levels, g.dest = some m.1 := by
  constructor
  · rintro ⟨l, h⟩
    rw [Option.bind_eq_some_iff] at h
    obtain ⟨a, h1, h2⟩ := h
    obtain ⟨m, m1, m2, _⟩ := levelAt_mem h2
    exact ⟨m, m1, by rw [h1, m2]⟩
  · rintro ⟨m, h1, h2⟩
    obtain ⟨l, hl⟩ := levelAt_some h1
    exact ⟨l, by rw [h2]; exact hl⟩

theorem reportGammas_iff {p : K → Str} {s : Scheme K} (gs : List (Gamma K)) :
    (∃ a, reportGammas p s gs = .ok a) ↔ ∀ g ∈ gs, ∃ m ∈ s.levels, g.dest = some m.1 := by
  induction gs with
  | nil => simp [reportGammas]
  | cons g t ih =>
    rw [List.forall_mem_cons, ← ih, ← bind_levelAt, reportGammas]
    unfold reportGamma
    cases g.dest.bind (levelAt s) with
    | none => simp
    | some l =>
      cases reportGammas p s t with
      | error e => simp
      | ok y => simp

theorem reportLevels_iff {p : K → Str} {s : Scheme K} (ls : List (Nat × Level K)) :
    (∃ a, reportLevels p s ls = .ok a) ↔ ∀ l ∈ ls, ∀ g ∈ l.2.gammas, ∃ m ∈ s.levels, g.dest = some m.1 := by
  induction ls with
  | nil => simp [reportLevels]
  | cons l t ih =>
    rw [List.forall_mem_cons, ← ih, ← reportGammas_iff (p := p), reportLevels]
    cases reportGammas p s l.2.gammas with
    | error e => simp
    | ok x =>
      cases reportLevels p s t with
      | error e => simp
      | ok y => simp

theorem reportLevels_ub {p : K → Str} {s : Scheme K} (ls : List (Nat × Level K)) :
    (∃ a, reportLevels p s ls = .ok a) ∨ reportLevels p s ls = .error .ub := by
  induction ls with
  | nil => exact .inl ⟨[], rfl⟩
  | cons l t ih =>
    rw [reportLevels]
    rcases reportGammas_ok (p := p) (s := s) l.2.gammas with ⟨a, e⟩ | e <;> rw [e]
    · dsimp only
      rcases ih with ⟨a, e⟩ | e <;> rw [e]
      · exact .inl ⟨_, rfl⟩
      · exact .inr rfl
    · exact .inr rfl

/-! ## The rows of the table -/

/-- The end of a row: nothing, or a row break. -/
def RowEnd (last : Bool) (q : Str) : Prop :=
  if last then q = [] else ∃ r, q = ' ' :: '\\' :: '\\' :: r ∧ '&' ∉ r ∧ '\n' ∉ r

theorem rowEnd_latexEnd (last : Bool) : ∃ q, latexEnd last = q ++ ['\n'] ∧ RowEnd last q := by
  unfold latexEnd RowEnd
  cases last
  · exact ⟨chars%" \\\\ \\addlinespace[\\ExtraRowSpace]", rfl, _, rfl, by decide, by decide⟩
  · exact ⟨[], rfl, rfl⟩

theorem rowEnd_star : RowEnd false chars%" \\\\*" := ⟨['*'], rfl, by decide, by decide⟩

theorem RowEnd.chars {last : Bool} {q : Str} (h : RowEnd last q) : '&' ∉ q ∧ '\n' ∉ q := by
  unfold RowEnd at h
  cases last
  · obtain ⟨r, rfl, h1, h2⟩ := h
    simp [h1, h2]
  · simp only [if_true] at h
    simp [h]

theorem takeWhile_plain {e : Str} (he : PlainText e) (s : Str) (hs : s = [] ∨ ∃ t, s = '\\' :: t) :
    (e ++ s).takeWhile (fun c => decide (c ≠ '\\')) = e := by
  have h1 : ∀ c ∈ e, decide (c ≠ '\\') = true := by
    intro c hc
    simp only [decide_eq_true_eq]
    intro e'
    exact he.2.2.2.2.1 (e' ▸ hc)
  rcases hs with rfl | ⟨t, rfl⟩
  · rw [List.takeWhile_append_of_pos h1, List.takeWhile_nil, List.append_nil]
  · rw [List.takeWhile_append_of_pos h1, List.takeWhile_cons_of_neg (by simp), List.append_nil]

theorem filter_plain {e : Str} (he : PlainText e) : e.filter (fun c => decide (c ≠ ' ')) = e := by
  rw [List.filter_eq_self]
  intro c hc
  simp only [decide_eq_true_eq]
  intro e'
  exact he.2.1 (e' ▸ hc)

theorem cell_mid {e : Str} (he : PlainText e) (a b : Bool) :
    cellText ((if a then [' '] else []) ++ (e ++ (if b then [' '] else []))) = e := by
  unfold cellText
  have h1 := takeWhile_plain he [] (.inl rfl)
  rw [List.append_nil] at h1
  cases a <;> cases b <;> simp only [List.filter_append, filter_plain he] <;> simpa using h1

theorem cell_end {e q : Str} {last : Bool} (he : PlainText e) (hq : RowEnd last q) :
    cellText (' ' :: (e ++ q)) = e := by
  have h0 : cellText (' ' :: (e ++ q)) = cellText (e ++ q) := by simp [cellText]
  rw [h0]
  unfold cellText
  rw [List.filter_append, filter_plain he]
  apply takeWhile_plain he
  unfold RowEnd at hq
  cases last
  · obtain ⟨r, rfl, -, -⟩ := hq
    exact .inr ⟨_, by simp; rfl⟩
  · simp only [if_true] at hq
    exact .inl (by simp [hq])

theorem cell_only_end {q : Str} {last : Bool} (hq : RowEnd last q) : cellText q = [] := by
  unfold RowEnd at hq
  cases last
  · obtain ⟨r, rfl, -, -⟩ := hq
    simp [cellText]
  · simp only [if_true] at hq
    simp [hq, cellText]

/-- The row of a level without gammas. -/
def rowAlone (e j q : Str) : Str := e ++ (chars%" & " ++ (j ++ (chars%" & " ++ (chars%" &  &" ++ q))))

/-- The row of a level with its first gamma. -/
def rowFirst (e j g r x q : Str) : Str :=
  e ++ (chars%" & " ++ (j ++ (chars%" & " ++ (g ++ (chars%" & " ++ (r ++ (chars%" & " ++ (x ++ q))))))))

/-- The row of a further gamma. -/
def rowNext (g r x q : Str) : Str :=
  chars%" & & " ++ (g ++ (chars%" & " ++ (r ++ (chars%" & " ++ (x ++ q)))))

theorem cut_rowAlone {e j q : Str} {last : Bool} (he : PlainText e) (hj : PlainText j) (hq : RowEnd last q) :
    cut '&' (rowAlone e j q) = [e ++ [' '], ' ' :: (j ++ [' ']), chars%"  ", chars%"  ", q] := by
  simp [rowAlone, cut, cut_word he.2.2.2.1, cut_word hj.2.2.2.1, cut_end hq.chars.1]

theorem cut_rowFirst {e j g r x q : Str} {last : Bool} (he : PlainText e) (hj : PlainText j)
    (hg : PlainText g) (hr : PlainText r) (hx : PlainText x) (hq : RowEnd last q) :
    cut '&' (rowFirst e j g r x q) = [e ++ [' '], ' ' :: (j ++ [' ']), ' ' :: (g ++ [' ']),
      ' ' :: (r ++ [' ']), ' ' :: (x ++ q)] := by
  simp [rowFirst, cut, cut_word he.2.2.2.1, cut_word hj.2.2.2.1, cut_word hg.2.2.2.1,
    cut_word hr.2.2.2.1, cut_word hx.2.2.2.1, cut_end hq.chars.1]

theorem cut_rowNext {g r x q : Str} {last : Bool} (hg : PlainText g) (hr : PlainText r)
    (hx : PlainText x) (hq : RowEnd last q) :
    cut '&' (rowNext g r x q) = [[' '], [' '], ' ' :: (g ++ [' ']), ' ' :: (r ++ [' ']), ' ' :: (x ++ q)] := by
  simp [rowNext, cut, cut_word hg.2.2.2.1, cut_word hr.2.2.2.1, cut_word hx.2.2.2.1, cut_end hq.chars.1]

theorem cell_first {e : Str} (he : PlainText e) : cellText (e ++ [' ']) = e := cell_mid he false true
theorem cell_inner {e : Str} (he : PlainText e) : cellText (' ' :: (e ++ [' '])) = e := cell_mid he true true

theorem read_rowAlone {e j q : Str} {last : Bool} (he : PlainText e) (hj : PlainText j)
    (hq : RowEnd last q) (t : List Str) :
    readRows (rowAlone e j q :: t) = ([], ⟨e, j, (readRows t).1⟩ :: (readRows t).2) := by
  rw [readRows]
  simp only [cut_rowAlone he hj hq, List.map_cons, List.map_nil, cell_first he, cell_inner hj,
    cell_only_end hq]
  have h2 : cellText chars%"  " = [] := by decide
  simp [h2, he.1]

theorem read_rowFirst {e j g r x q : Str} {last : Bool} (he : PlainText e) (hj : PlainText j)
    (hg : PlainText g) (hr : PlainText r) (hx : PlainText x) (hq : RowEnd last q) (t : List Str) :
    readRows (rowFirst e j g r x q :: t) =
      ([], ⟨e, j, (g, x, r) :: (readRows t).1⟩ :: (readRows t).2) := by
  rw [readRows]
  simp only [cut_rowFirst he hj hg hr hx hq, List.map_cons, List.map_nil, cell_first he, cell_inner hj,
    cell_inner hg, cell_inner hr, cell_end hx hq]
  simp [he.1, hg.1]

theorem read_rowNext {g r x q : Str} {last : Bool} (hg : PlainText g) (hr : PlainText r)
    (hx : PlainText x) (hq : RowEnd last q) (t : List Str) :
    readRows (rowNext g r x q :: t) = ((g, x, r) :: (readRows t).1, (readRows t).2) := by
  rw [readRows]
  simp only [cut_rowNext hg hr hx hq, List.map_cons, List.map_nil,
    cell_inner hg, cell_inner hr, cell_end hx hq]
  have h2 : cellText [' '] = [] := by decide
  simp [h2, hg.1]

theorem line_rowAlone {e j q : Str} {last : Bool} (he : PlainText e) (hj : PlainText j)
    (hq : RowEnd last q) : '\n' ∉ rowAlone e j q := by
  simp [rowAlone, he.2.2.1, hj.2.2.1, hq.chars.2]

theorem line_rowFirst {e j g r x q : Str} {last : Bool} (he : PlainText e) (hj : PlainText j)
    (hg : PlainText g) (hr : PlainText r) (hx : PlainText x) (hq : RowEnd last q) :
    '\n' ∉ rowFirst e j g r x q := by
  simp [rowFirst, he.2.2.1, hj.2.2.1, hg.2.2.1, hr.2.2.1, hx.2.2.1, hq.chars.2]

theorem line_rowNext {g r x q : Str} {last : Bool} (hg : PlainText g) (hr : PlainText r)
    (hx : PlainText x) (hq : RowEnd last q) : '\n' ∉ rowNext g r x q := by
  simp [rowNext, hg.2.2.1, hr.2.2.1, hx.2.2.1, hq.chars.2]

/-- A row with an end is the last row (`last`), or has a row break. -/
def RowOk (last : Bool) (row : Str) : Prop :=
  (cut '&' row).length = 5 ∧ if last then '\\' ∉ row else ['\\', '\\'] <:+: row

theorem break_infix {a q : Str} (hq : RowEnd false q) : ['\\', '\\'] <:+: a ++ q := by
  obtain ⟨r, rfl, -, -⟩ := hq
  exact ⟨a ++ [' '], r, by simp⟩

theorem rowAlone_ok {e j q : Str} {last : Bool} (he : PlainText e) (hj : PlainText j)
    (hq : RowEnd last q) : RowOk last (rowAlone e j q) := by
  refine ⟨by rw [cut_rowAlone he hj hq]; rfl, ?_⟩
  cases last
  · simp only [Bool.false_eq_true, if_false]
    have : rowAlone e j q = (e ++ (chars%" & " ++ (j ++ (chars%" & " ++ chars%" &  &")))) ++ q := by
      simp [rowAlone]
    rw [this]
    exact break_infix hq
  · have : q = [] := by simpa [RowEnd] using hq
    subst this
    simp [rowAlone, he.2.2.2.2.1, hj.2.2.2.2.1]

theorem rowFirst_ok {e j g r x q : Str} {last : Bool} (he : PlainText e) (hj : PlainText j)
    (hg : PlainText g) (hr : PlainText r) (hx : PlainText x) (hq : RowEnd last q) :
    RowOk last (rowFirst e j g r x q) := by
  refine ⟨by rw [cut_rowFirst he hj hg hr hx hq]; rfl, ?_⟩
  cases last
  · simp only [Bool.false_eq_true, if_false]
    have : rowFirst e j g r x q = (e ++ (chars%" & " ++ (j ++ (chars%" & " ++ (g ++ (chars%" & " ++
        (r ++ (chars%" & " ++ x)))))))) ++ q := by simp [rowFirst]
    rw [this]
    exact break_infix hq
  · have : q = [] := by simpa [RowEnd] using hq
    subst this
    simp [rowFirst, he.2.2.2.2.1, hj.2.2.2.2.1, hg.2.2.2.2.1, hr.2.2.2.2.1, hx.2.2.2.2.1]

theorem rowNext_ok {g r x q : Str} {last : Bool} (hg : PlainText g) (hr : PlainText r)
    (hx : PlainText x) (hq : RowEnd last q) : RowOk last (rowNext g r x q) := by
  refine ⟨by rw [cut_rowNext hg hr hx hq]; rfl, ?_⟩
  cases last
  · simp only [Bool.false_eq_true, if_false]
    have : rowNext g r x q = (chars%" & & " ++ (g ++ (chars%" & " ++ (r ++ (chars%" & " ++ x))))) ++ q := by
      simp [rowNext]
    rw [this]
    exact break_infix hq
  · have : q = [] := by simpa [RowEnd] using hq
    subst this
    simp [rowNext, hg.2.2.2.2.1, hr.2.2.2.2.1, hx.2.2.2.2.1]

/-- All rows but the last have breaks; the last one as given. -/
def RowsOk (last : Bool) : List Str → Prop
  | [] => True
  | [r] => RowOk last r
  | r :: t => RowOk false r ∧ RowsOk last t

theorem rowsOk_cons {last : Bool} {r : Str} {t : List Str} (ht : RowsOk last t)
    (hr : RowOk (if t = [] then last else false) r) : RowsOk last (r :: t) := by
  cases t with
  | nil => simpa [RowsOk] using hr
  | cons a t => exact ⟨by simpa using hr, ht⟩

theorem rowsOk_append {last : Bool} {a b : List Str} (hb : b ≠ []) (ha : RowsOk false a)
    (h : RowsOk last b) : RowsOk last (a ++ b) := by
  induction a with
  | nil => exact h
  | cons r t ih =>
    rw [List.cons_append]
    cases t with
    | nil => exact rowsOk_cons h (by rw [List.nil_append, if_neg hb]; exact ha)
    | cons y t => exact ⟨ha.1, ih ha.2⟩

theorem rowsOk_wellFormed {rows : List Str} (h : RowsOk true rows) : WellFormedRows rows := by
  induction rows with
  | nil => exact ⟨by simp, by simp, by simp⟩
  | cons r t ih =>
    cases t with
    | nil =>
      have h' : RowOk true r := h
      exact ⟨by simpa using h'.1, by simp, by simpa using h'.2⟩
    | cons a t =>
      obtain ⟨i1, i2, i3⟩ := ih h.2
      refine ⟨?_, ?_, ?_⟩
      · rw [List.forall_mem_cons]
        exact ⟨h.1.1, i1⟩
      · rw [List.dropLast_cons_cons, List.forall_mem_cons]
        exact ⟨h.1.2, i2⟩
      · rw [List.getLast?_cons_cons]
        exact i3

theorem next_rows {p : K → Str} (hp : ∀ x, PlainText (p x)) {s : Scheme K} {last : Bool} :
    ∀ {gs : List (Gamma K)} {a : Str}, latexGammas p s last false gs = .ok a →
      ∃ rows us, List.Forall₂ (fun g u => ∃ m ∈ s.levels, g.dest = some m.1 ∧
          u = (p g.energy, p m.2.energy, p g.ri)) gs us ∧
        (∀ b, cut '\n' (a ++ b) = rows ++ cut '\n' b) ∧ RowsOk last rows ∧ (rows = [] ↔ gs = []) ∧
        ∀ t, readRows (rows ++ t) = (us ++ (readRows t).1, (readRows t).2) := by
  intro gs
  induction gs with
  | nil =>
    intro a h
    rw [latexGammas] at h
    cases h
    exact ⟨[], [], .nil, fun b => rfl, trivial, by simp, fun t => rfl⟩
  | cons g t ih =>
    intro a h
    rw [latexGammas] at h
    cases e1 : g.dest.bind (levelAt s) with
    | none => rw [e1] at h; cases h
    | some l =>
      rw [e1] at h
      dsimp only at h
      cases e2 : latexGammas p s last false t with
      | error e => rw [e2] at h; cases h
      | ok y =>
        rw [e2] at h
        dsimp only at h
        injection h with h
        obtain ⟨rows, us, h1, h2, h3, h4, h5⟩ := ih e2
        rw [Option.bind_eq_some_iff] at e1
        obtain ⟨a', d1, d2⟩ := e1
        obtain ⟨m, m1, m2, m3⟩ := levelAt_mem d2
        obtain ⟨q, q1, q2⟩ : ∃ q, (if t = [] then latexEnd last else chars%" \\\\*\n") = q ++ ['\n'] ∧
            RowEnd (if rows = [] then last else false) q := by
          by_cases ht : t = []
          · rw [if_pos ht, if_pos (h4.2 ht)]
            exact rowEnd_latexEnd last
          · rw [if_neg ht, if_neg (fun h => ht (h4.1 h))]
            exact ⟨_, rfl, rowEnd_star⟩
        rw [q1] at h
        refine ⟨rowNext (p g.energy) (p g.ri) (p l.energy) q :: rows,
          (p g.energy, p l.energy, p g.ri) :: us,
          .cons ⟨m, m1, by rw [d1, m2], by rw [m3]⟩ h1, fun b => ?_,
          rowsOk_cons h3 (rowNext_ok (hp _) (hp _) (hp _) q2), by simp, fun z => ?_⟩
        · have : a ++ b = rowNext (p g.energy) (p g.ri) (p l.energy) q ++ '\n' :: (y ++ b) := by
            rw [← h]; simp [rowNext]
          rw [this, cut_word_sep (line_rowNext (hp _) (hp _) (hp _) q2), h2 b, List.cons_append]
        · rw [List.cons_append, read_rowNext (hp _) (hp _) (hp _) q2, h5 z, List.cons_append]

theorem level_rows {p : K → Str} (hp : ∀ x, PlainText (p x)) {s : Scheme K} {last : Bool} {l : Level K}
    {a : Str} (h : latexLevel p s last l = .ok a) :
    ∃ rows us, List.Forall₂ (fun g u => ∃ m ∈ s.levels, g.dest = some m.1 ∧
          u = (p g.energy, p m.2.energy, p g.ri)) l.gammas us ∧
      (∀ b, cut '\n' (a ++ b) = rows ++ cut '\n' b) ∧ RowsOk last rows ∧ rows ≠ [] ∧
      ∀ t, (readRows t).1 = [] → readRows (rows ++ t) =
        ([], ⟨p l.energy, Utils.spinParityString l.twoJ l.parity, us⟩ :: (readRows t).2) := by
  unfold latexLevel at h
  have hj := spin_plain l.twoJ l.parity
  cases hg : l.gammas with
  | nil =>
    rw [hg, latexGammas] at h
    dsimp only at h
    injection h with h
    obtain ⟨q, q1, q2⟩ := rowEnd_latexEnd last
    rw [if_pos rfl, q1, List.append_nil] at h
    refine ⟨[rowAlone (p l.energy) (Utils.spinParityString l.twoJ l.parity) q], [], .nil, fun b => ?_,
      rowAlone_ok (hp _) hj q2, by simp, fun t ht => ?_⟩
    · have : a ++ b = rowAlone (p l.energy) (Utils.spinParityString l.twoJ l.parity) q ++ '\n' :: b := by
        rw [← h]; simp [rowAlone]
      rw [this, cut_word_sep (line_rowAlone (hp _) hj q2)]
      rfl
    · rw [List.singleton_append, read_rowAlone (hp _) hj q2, ht]
  | cons g t =>
    rw [hg, latexGammas] at h
    cases e1 : g.dest.bind (levelAt s) with
    | none => rw [e1] at h; cases h
    | some lv =>
      rw [e1] at h
      dsimp only at h
      cases e2 : latexGammas p s last false t with
      | error e => rw [e2] at h; cases h
      | ok y =>
        rw [e2] at h
        dsimp only at h
        injection h with h
        obtain ⟨rows, us, h1, h2, h3, h4, h5⟩ := next_rows hp e2
        rw [Option.bind_eq_some_iff] at e1
        obtain ⟨a', d1, d2⟩ := e1
        obtain ⟨m, m1, m2, m3⟩ := levelAt_mem d2
        obtain ⟨q, q1, q2⟩ : ∃ q, (if t = [] then latexEnd last else chars%" \\\\*\n") = q ++ ['\n'] ∧
            RowEnd (if rows = [] then last else false) q := by
          by_cases ht : t = []
          · rw [if_pos ht, if_pos (h4.2 ht)]
            exact rowEnd_latexEnd last
          · rw [if_neg ht, if_neg (fun h => ht (h4.1 h))]
            exact ⟨_, rfl, rowEnd_star⟩
        rw [q1, if_neg (by simp)] at h
        refine ⟨rowFirst (p l.energy) (Utils.spinParityString l.twoJ l.parity) (p g.energy) (p g.ri)
          (p lv.energy) q :: rows, (p g.energy, p lv.energy, p g.ri) :: us,
          .cons ⟨m, m1, by rw [d1, m2], by rw [m3]⟩ h1, fun b => ?_,
          rowsOk_cons h3 (rowFirst_ok (hp _) hj (hp _) (hp _) (hp _) q2), by simp, fun z hz => ?_⟩
        · have : a ++ b = rowFirst (p l.energy) (Utils.spinParityString l.twoJ l.parity) (p g.energy)
              (p g.ri) (p lv.energy) q ++ '\n' :: (y ++ b) := by
            rw [← h]; simp [rowFirst]
          rw [this, cut_word_sep (line_rowFirst (hp _) hj (hp _) (hp _) (hp _) q2), h2 b, List.cons_append]
        · rw [List.cons_append, read_rowFirst (hp _) hj (hp _) (hp _) (hp _) q2, h5 z, hz, List.append_nil]

theorem levels_rows {p : K → Str} (hp : ∀ x, PlainText (p x)) {s : Scheme K} :
    ∀ {ls : List (Nat × Level K)} {a : Str}, latexLevels p s ls = .ok a →
      ∃ rows facts, List.Forall₂ (fun (l : Nat × Level K) t => t.energy = p l.2.energy ∧
        t.spin = Utils.spinParityString l.2.twoJ l.2.parity ∧
        List.Forall₂ (fun g u => ∃ m ∈ s.levels, g.dest = some m.1 ∧
          u = (p g.energy, p m.2.energy, p g.ri)) l.2.gammas t.gammas) ls facts ∧
        (∀ b, cut '\n' (a ++ b) = rows ++ cut '\n' b) ∧ RowsOk true rows ∧ (rows = [] ↔ ls = []) ∧
        readRows rows = ([], facts) := by
  intro ls
  induction ls with
  | nil =>
    intro a h
    rw [latexLevels] at h
    cases h
    exact ⟨[], [], .nil, fun b => rfl, trivial, by simp, rfl⟩
  | cons l t ih =>
    intro a h
    rw [latexLevels] at h
    cases e1 : latexLevel p s (t = []) l.2 with
    | error e => rw [e1] at h; cases h
    | ok x =>
      rw [e1] at h
      dsimp only at h
      cases e2 : latexLevels p s t with
      | error e => rw [e2] at h; cases h
      | ok y =>
        rw [e2] at h
        dsimp only at h
        injection h with h
        obtain ⟨rows, facts, h1, h2, h3, h4, h5⟩ := ih e2
        obtain ⟨rows', us, i1, i2, i3, i4, i5⟩ := level_rows hp e1
        refine ⟨rows' ++ rows, ⟨p l.2.energy, Utils.spinParityString l.2.twoJ l.2.parity, us⟩ :: facts,
          .cons ⟨rfl, rfl, i1⟩ h1, fun b => ?_, ?_, by simp [i4], ?_⟩
        · rw [← h, List.append_assoc, i2, h2, List.append_assoc]
        · by_cases ht : t = []
          · rw [h4.2 ht, List.append_nil]
            simpa [ht] using i3
          · exact rowsOk_append (fun h => ht (h4.1 h)) (by simpa [ht] using i3) h3
        · rw [i5 rows (by rw [h5]), h5]

theorem latexGammas_iff {p : K → Str} {s : Scheme K} (last first : Bool) (gs : List (Gamma K)) :
    ((∃ a, latexGammas p s last first gs = .ok a) ↔ ∀ g ∈ gs, ∃ m ∈ s.levels, g.dest = some m.1) ∧
    ((∃ a, latexGammas p s last first gs = .ok a) ∨ latexGammas p s last first gs = .error .ub) := by
  induction gs generalizing first with
  | nil => simp [latexGammas]
  | cons g t ih =>
    obtain ⟨i1, i2⟩ := ih false
    rw [List.forall_mem_cons, ← i1, ← bind_levelAt, latexGammas]
    cases g.dest.bind (levelAt s) with
    | none => simp
    | some l =>
      rcases i2 with ⟨y, e⟩ | e <;> rw [e] <;> simp

theorem latexLevels_iff {p : K → Str} {s : Scheme K} (ls : List (Nat × Level K)) :
    ((∃ a, latexLevels p s ls = .ok a) ↔
      ∀ l ∈ ls, ∀ g ∈ l.2.gammas, ∃ m ∈ s.levels, g.dest = some m.1) ∧
    ((∃ a, latexLevels p s ls = .ok a) ∨ latexLevels p s ls = .error .ub) := by
  induction ls with
  | nil => simp [latexLevels]
  | cons l t ih =>
    obtain ⟨i1, i2⟩ := ih
    obtain ⟨j1, j2⟩ := latexGammas_iff (p := p) (s := s) (decide (t = [])) true l.2.gammas
    rw [List.forall_mem_cons, ← i1, ← j1, latexLevels]
    unfold latexLevel
    rcases j2 with ⟨x, e⟩ | e
    · rw [e]
      rcases i2 with ⟨y, e⟩ | e <;> simp only [e] <;> simp
    · simp [e]

/-! ## Braces and captions -/

theorem depth_open (n : Nat) (s : Str) : depth n ('{' :: s) = depth (n + 1) s := by
  cases n <;> simp [depth]

theorem depth_close (n : Nat) (s : Str) : depth (n + 1) ('}' :: s) = depth n s := by
  simp [depth]

theorem depth_other {c : Char} (h1 : c ≠ '{') (h2 : c ≠ '}') (n : Nat) (s : Str) :
    depth n (c :: s) = depth n s := by
  cases n <;> simp [depth, h1, h2]

theorem depth_append (n : Nat) (a b : Str) : depth n (a ++ b) = (depth n a).bind (fun m => depth m b) := by
  induction a generalizing n with
  | nil => cases n <;> rfl
  | cons c a ih =>
    rw [List.cons_append]
    by_cases h1 : c = '{'
    · subst h1; rw [depth_open, depth_open, ih]
    by_cases h2 : c = '}'
    · subst h2
      cases n with
      | zero => simp [depth]
      | succ k => rw [depth_close, depth_close, ih]
    · rw [depth_other h1 h2, depth_other h1 h2, ih]

theorem depth_none {a : Str} (h1 : '{' ∉ a) (h2 : '}' ∉ a) (n : Nat) : depth n a = some n := by
  induction a with
  | nil => cases n <;> rfl
  | cons c a ih =>
    rw [depth_other (fun e => h1 (by simp [e])) (fun e => h2 (by simp [e]))]
    exact ih (fun h => h1 (by simp [h])) (fun h => h2 (by simp [h]))

theorem depth_1 : depth 0 latexTable1 = some 0 := by decide +kernel
theorem depth_2 : depth 0 latexTable2 = some 0 := by decide +kernel
theorem depth_3 : depth 0 latexTable3 = some 0 := by decide +kernel
theorem depth_4 : depth 0 latexTable4 = some 0 := by decide +kernel

theorem depth_caption {A sym : Str} (hA : '{' ∉ A ∧ '}' ∉ A) (hs : '{' ∉ sym ∧ '}' ∉ sym) :
    depth 0 (captionText A sym) = some 2 := by
  unfold captionText
  rw [depth_append]
  have e1 : depth 0 chars%"{\\textbf{Levels and $\\boldsymbol{\\gamma}$ transitions \n for \\isotope[\\boldsymbol{" =
    some 3 := by decide +kernel
  rw [e1, Option.bind_some, depth_append, depth_none hA.1 hA.2, Option.bind_some, depth_append]
  have e2 : depth 3 chars%"}]{\\textbf{" = some 4 := by decide +kernel
  rw [e2, Option.bind_some, depth_append, depth_none hs.1 hs.2, Option.bind_some]
  decide +kernel

theorem depth_bal {n m : Nat} {a : Str} (h : depth n a = some m) (b : Str) : depth n (a ++ b) = depth m b := by
  rw [depth_append, h, Option.bind_some]

theorem depth_document {A sym rows : Str} (hA : '{' ∉ A ∧ '}' ∉ A) (hs : '{' ∉ sym ∧ '}' ∉ sym)
    (hr : depth 0 rows = some 0) : depth 0 (document A sym rows) = some 0 := by
  have e1 : depth 2 chars%"}}\\\\\n" = some 0 := by decide +kernel
  have e2 : depth 2 chars%" -- \\textit{continued}}} \\\\\n" = some 0 := by decide +kernel
  have e3 : depth 0 ['\n'] = some 0 := by decide +kernel
  unfold document
  rw [depth_bal depth_1, depth_bal (depth_caption hA hs), depth_bal e1, depth_bal depth_2,
    depth_bal (depth_caption hA hs), depth_bal e2, depth_bal depth_3, depth_bal hr, depth_bal depth_4, e3]

theorem mass_trim : ∀ A < 1000, Utils.trim (Utils.nucIdMass A) Utils.whitespace = natText A ∧
    (Utils.nucIdMass A).length = 3 := by
  decide +kernel

theorem symbol_trim : ∀ p ∈ Utils.elementSymbols,
    (let y := if (p.2.map Utils.toUpper).length = 1 then p.2.map Utils.toUpper ++ [' ']
      else p.2.map Utils.toUpper
    y.take 1 ++ Utils.trim (((y.drop 1).take 1).map Utils.toLower) Utils.whitespace = p.2) ∧
    '{' ∉ p.2 ∧ '}' ∉ p.2 ∧ '\n' ∉ p.2 ∧ ' ' ∉ p.2 ∧ p.2.length ≤ 2 ∧ p.2 ≠ [] ∧ '?' ∉ p.2 ∧
    (∀ c ∈ p.2, isDigit c = false) ∧ '+' ∉ p.2 ∧ '*' ∉ p.2 := by
  decide +kernel

theorem latexCaption_eq {Z A : Int} {id : Str} (h : Utils.nucId Z A = .ok id) :
    ∃ sym, Utils.elementSymbol Z = .ok sym ∧ 0 ≤ Z ∧ 1 ≤ A ∧ A ≤ 999 ∧
      latexCaption id = captionText (intText A) sym := by
  unfold Utils.nucId at h
  by_cases h0 : Z < 0 ∨ A < 1 ∨ A > 999
  · rw [if_pos h0] at h; cases h
  rw [if_neg h0] at h
  cases e : Utils.elementSymbol Z with
  | error x => rw [e] at h; cases h
  | ok sym =>
    rw [e] at h
    dsimp only at h
    injection h with h
    refine ⟨sym, rfl, by omega, by omega, by omega, ?_⟩
    obtain ⟨t1, t2⟩ := mass_trim A.toNat (by omega)
    have hs := (symbol_trim _ (symbol_mem e)).1
    dsimp only at hs
    have hA : intText A = natText A.toNat := by
      obtain ⟨n, rfl⟩ := Int.eq_ofNat_of_zero_le (show 0 ≤ A by omega)
      rfl
    have d3 : ∀ y : Str, ((Utils.nucIdMass A.toNat ++ y).drop 4) = y.drop 1 := by
      intro y
      rw [List.drop_append, t2, List.drop_of_length_le (by rw [t2]; omega), List.nil_append]
    unfold latexCaption captionText
    rw [← h, List.take_left' t2, List.drop_left' t2, t1, d3, hA]
    congr 2
    congr 1
    rw [← List.append_assoc, hs]

/-! ## Targets -/

theorem getA_le (pdg : Int) : Pdg.getA pdg ≤ 999 := by
  unfold Pdg.getA
  split_ifs
  · omega
  · omega
  · have : pdg.tmod 10000 = pdg % 10000 := Int.tmod_eq_emod_of_nonneg (by omega)
    rw [this]
    have : (pdg % 10000).tdiv 10 = (pdg % 10000) / 10 := Int.tdiv_eq_ediv_of_nonneg (by omega)
    rw [this]
    omega
  · omega

theorem mass_pad : ∀ A < 1000, (Utils.padLeft (natText A) 3 ' ').length = 3 ∧
    (Utils.padLeft (natText A) 3 ' ').filter (· ≠ ' ') = natText A ∧
    '\n' ∉ Utils.padLeft (natText A) 3 ' ' := by
  decide +kernel

theorem symbol_pad : ∀ p ∈ Utils.elementSymbols, (Utils.padRight p.2 2 ' ').length = 2 ∧
    (Utils.padRight p.2 2 ' ').filter (· ≠ ' ') = p.2 ∧ '\n' ∉ Utils.padRight p.2 2 ' ' := by
  decide +kernel

/-- The symbol shown for a code. -/
def shownSymbol (pdg : Int) : Str :=
  match Utils.elementSymbols.lookup (Pdg.getZ pdg) with
  | some sym => sym
  | none => ['?', '?']

theorem shown_pad (pdg : Int) : (Utils.padRight (shownSymbol pdg) 2 ' ').length = 2 ∧
    (Utils.padRight (shownSymbol pdg) 2 ' ').filter (· ≠ ' ') = shownSymbol pdg ∧
    '\n' ∉ Utils.padRight (shownSymbol pdg) 2 ' ' := by
  unfold shownSymbol
  cases e : Utils.elementSymbols.lookup (Pdg.getZ pdg) with
  | none => decide
  | some sym => exact symbol_pad _ (mem_of_lookup e)

theorem intText_A {pdg : Int} (h : 0 < Pdg.getA pdg) : intText (Pdg.getA pdg) = natText (Pdg.getA pdg).toNat := by
  obtain ⟨n, hn⟩ := Int.eq_ofNat_of_zero_le (show 0 ≤ Pdg.getA pdg by omega)
  rw [hn]; rfl

theorem target_line {p : K → Str} (hp : ∀ x, PlainText (p x)) {e : Int × K} (h : 0 < Pdg.getA e.1) :
    '\n' ∉ targetLine p e ∧ ((targetLine p e).take 3).filter (· ≠ ' ') = intText (Pdg.getA e.1) ∧
    (((targetLine p e).drop 3).take 2).filter (· ≠ ' ') = shownSymbol e.1 ∧ (targetLine p e).drop 8 = p e.2 := by
  have hle := getA_le e.1
  obtain ⟨m1, m2, m3⟩ := mass_pad (Pdg.getA e.1).toNat (by omega)
  obtain ⟨s1, s2, s3⟩ := shown_pad e.1
  have ht : targetLine p e = Utils.padLeft (natText (Pdg.getA e.1).toNat) 3 ' ' ++
      (Utils.padRight (shownSymbol e.1) 2 ' ' ++ (chars%" = " ++ p e.2)) := by
    unfold targetLine
    rw [intText_A h]
    rfl
  rw [ht]
  refine ⟨?_, ?_, ?_, ?_⟩
  · simp only [List.mem_append, not_or]
    exact ⟨m3, s3, by decide, (hp _).2.2.1⟩
  · rw [List.take_left' m1, m2, intText_A h]
  · rw [List.drop_left' m1, List.take_left' s1, s2]
  · rw [show 8 = 3 + 5 from rfl, ← List.drop_drop, List.drop_left' m1, show 5 = 2 + 3 from rfl, ← List.drop_drop,
      List.drop_left' s1]
    rfl

theorem target_read {p : K → Str} (hp : ∀ x, PlainText (p x)) {m : List (Int × K)} (hm : m ≠ [])
    (h : ∀ e ∈ m, 0 < Pdg.getA e.1) :
    readTarget (targetText p m) = m.map (fun e => (intText (Pdg.getA e.1), shownSymbol e.1, p e.2)) := by
  induction m with
  | nil => exact absurd rfl hm
  | cons e t ih =>
    obtain ⟨l1, l2, l3, l4⟩ := target_line hp (h e (by simp))
    cases t with
    | nil =>
      unfold readTarget
      simp only [targetText, if_true, List.append_nil]
      rw [cut_end l1, List.map_singleton, l2, l3, l4]
      rfl
    | cons f t =>
      have i := ih (by simp) (fun x hx => h x (by simp [hx]))
      unfold readTarget at i ⊢
      rw [targetText, if_neg (by simp), List.append_assoc, List.singleton_append, cut_word_sep l1, List.map_cons,
        i, l2, l3, l4]
      rfl

theorem nuclide_codes {Z A : Int} {sym : Str} (hZ : Utils.elementSymbol Z = .ok sym) (hA : 1 ≤ A ∧ A ≤ 999) :
    Pdg.getA (Pdg.nucleusPid Z A) = A ∧ Pdg.getZ (Pdg.nucleusPid Z A) = Z := by
  have hz := symbols_name _ (symbol_mem hZ)
  have h0 : 0 ≤ Z := hz.2.1
  have h1 : Z ≤ 116 := hz.2.2.1
  unfold Pdg.nucleusPid
  split_ifs with c1 c2
  · obtain ⟨rfl, rfl⟩ := c1; decide
  · obtain ⟨rfl, rfl⟩ := c2; decide
  · set n := 10000 * Z + 10 * A + 1000000000 with hn
    unfold Pdg.getA Pdg.getZ Pdg.PROTON Pdg.NEUTRON
    rw [if_neg (by omega), if_neg (by omega), if_pos (by omega), if_neg (by omega), if_neg (by omega),
      if_pos (by omega)]
    rw [Int.tmod_eq_emod_of_nonneg (by omega), Int.tmod_eq_emod_of_nonneg (by omega),
      Int.tdiv_eq_ediv_of_nonneg (by omega), Int.tdiv_eq_ediv_of_nonneg (by omega)]
    omega

theorem shown_symbol {Z A : Int} {sym : Str} (hZ : Utils.elementSymbol Z = .ok sym) (hA : 1 ≤ A ∧ A ≤ 999) :
    shownSymbol (Pdg.nucleusPid Z A) = sym := by
  unfold shownSymbol
  rw [(nuclide_codes hZ hA).2]
  unfold Utils.elementSymbol at hZ
  cases e : Utils.elementSymbols.lookup Z with
  | none => rw [e] at hZ; cases hZ
  | some s => rw [e] at hZ; injection hZ

/-! ## No braces in the rows -/

/-- No braces. -/
def NoBrace (s : Str) : Prop := '{' ∉ s ∧ '}' ∉ s

theorem NoBrace.append {a b : Str} (ha : NoBrace a) (hb : NoBrace b) : NoBrace (a ++ b) :=
  ⟨by simp [ha.1, hb.1], by simp [ha.2, hb.2]⟩

theorem PlainText.noBrace {a : Str} (h : PlainText a) : NoBrace a := h.2.2.2.2.2

theorem latexEnd_noBrace (last : Bool) : NoBrace (latexEnd last) := by
  cases last <;> exact ⟨by decide, by decide⟩

theorem latexGammas_noBrace {p : K → Str} (hp : ∀ x, PlainText (p x)) {s : Scheme K} {last : Bool} :
    ∀ {first : Bool} {gs : List (Gamma K)} {a : Str}, latexGammas p s last first gs = .ok a → NoBrace a := by
  intro first gs
  induction gs generalizing first with
  | nil =>
    intro a h
    rw [latexGammas] at h
    cases h
    exact ⟨by simp, by simp⟩
  | cons g t ih =>
    intro a h
    rw [latexGammas] at h
    cases e1 : g.dest.bind (levelAt s) with
    | none => rw [e1] at h; cases h
    | some l =>
      rw [e1] at h
      dsimp only at h
      cases e2 : latexGammas p s last false t with
      | error e => rw [e2] at h; cases h
      | ok y =>
        rw [e2] at h
        dsimp only at h
        injection h with h
        rw [← h]
        refine NoBrace.append ?_ ((hp _).noBrace.append (NoBrace.append ⟨by decide, by decide⟩
          ((hp _).noBrace.append (NoBrace.append ⟨by decide, by decide⟩ ((hp _).noBrace.append
            (NoBrace.append ?_ (ih e2)))))))
        · split_ifs <;> exact ⟨by decide, by decide⟩
        · split_ifs
          · exact latexEnd_noBrace last
          · exact ⟨by decide, by decide⟩

theorem latexLevels_noBrace {p : K → Str} (hp : ∀ x, PlainText (p x)) {s : Scheme K} :
    ∀ {ls : List (Nat × Level K)} {a : Str}, latexLevels p s ls = .ok a → NoBrace a := by
  intro ls
  induction ls with
  | nil =>
    intro a h
    rw [latexLevels] at h
    cases h
    exact ⟨by simp, by simp⟩
  | cons l t ih =>
    intro a h
    rw [latexLevels] at h
    unfold latexLevel at h
    cases e1 : latexGammas p s (t = []) true l.2.gammas with
    | error e => rw [e1] at h; cases h
    | ok x =>
      rw [e1] at h
      dsimp only at h
      cases e2 : latexLevels p s t with
      | error e => rw [e2] at h; cases h
      | ok y =>
        rw [e2] at h
        dsimp only at h
        injection h with h
        rw [← h]
        refine NoBrace.append ((hp _).noBrace.append (NoBrace.append ⟨by decide, by decide⟩
          ((spin_plain _ _).noBrace.append (NoBrace.append ⟨by decide, by decide⟩ (NoBrace.append ?_
            (latexGammas_noBrace hp e1)))))) (ih e2)
        split_ifs
        · exact NoBrace.append ⟨by decide, by decide⟩ (latexEnd_noBrace _)
        · exact ⟨by simp, by simp⟩

theorem intText_noBrace (n : Int) : NoBrace (intText n) := by
  constructor <;> intro h <;> rcases intText_chars n _ h with h | h <;> revert h <;> decide

/-! ## Decay channels -/

theorem channel_words {name e w : Str} (hn : PlainText name) (he : PlainText e) (hw : PlainText w) :
    cut ' ' (chars%"  " ++ (name ++ (chars%" emission to level at " ++ (e ++ (chars%" MeV width = " ++
      (w ++ chars%" MeV")))))) =
    [[], [], name, chars%"emission", chars%"to", chars%"level", chars%"at", e, chars%"MeV", chars%"width",
      chars%"=", w, chars%"MeV"] := by
  simp [cut, cut_word hn.2.1, cut_word he.2.1, cut_word hw.2.1]

theorem channel_words_cont {name w : Str} (hn : PlainText name) (hw : PlainText w) :
    cut ' ' (chars%"  " ++ (name ++ (chars%" emission to the continuum width = " ++
      (w ++ chars%" MeV")))) =
    [[], [], name, chars%"emission", chars%"to", chars%"the", chars%"continuum", chars%"width",
      chars%"=", w, chars%"MeV"] := by
  simp [cut, cut_word hn.2.1, cut_word hw.2.1]

theorem emitted_plain {k : Decay.Kind} {name : Str} (h : emittedName k = some name) : PlainText name := by
  unfold emittedName at h
  split at h
  · split_ifs at h <;> cases h <;> (unfold PlainText; decide)
  · split_ifs at h <;> cases h <;> (unfold PlainText; decide)
  · cases h; unfold PlainText; decide
  · cases h; unfold PlainText; decide

/-- A channel whose particle has a name has a line, which is read back. -/
theorem channel_read {p : Val → Str} (hp : ∀ x, PlainText (p x)) {x : Decay.Exit} {name : Str}
    (h : emittedName x.kind = some name) :
    ∃ line, channelLine p x = .ok (line ++ ['\n']) ∧ '\n' ∉ line ∧
      readChannel line = (name, (finalLevel x.kind).map (fun e => p (.num e)), p (.num x.width)) := by
  have hn := emitted_plain h
  have hw := hp (.num x.width)
  have key : ∀ f : Int, (if f = 2112 then some ['n'] else if f = 2212 then some ['p']
      else if f = 1000010020 then some ['d'] else if f = 1000010030 then some ['t']
      else if f = 1000020030 then some ['h'] else if f = 1000020040 then some ['α'] else none) = some name →
      symbolAt f = some name := by
    intro f hf
    split_ifs at hf with c1 c2 c3 c4 c5 c6 <;> subst_vars <;> injection hf with hf <;> subst hf <;> decide
  have lev : ∀ (l : Level ℝ), ∃ line, chars%"  " ++ (name ++ ((chars%" emission to level at " ++
        (p (.num l.energy) ++ chars%" MeV width = ")) ++ (p (.num x.width) ++ chars%" MeV\n"))) = line ++ ['\n'] ∧
      '\n' ∉ line ∧ readChannel line = (name, some (p (.num l.energy)), p (.num x.width)) := by
    intro l
    have he := hp (.num l.energy)
    refine ⟨chars%"  " ++ (name ++ (chars%" emission to level at " ++ (p (.num l.energy) ++
      (chars%" MeV width = " ++ (p (.num x.width) ++ chars%" MeV"))))), by simp, ?_, ?_⟩
    · simp [hn.2.2.1, he.2.2.1, hw.2.2.1]
    · unfold readChannel
      rw [channel_words hn he hw]
      rfl
  have con : ∃ line, chars%"  " ++ (name ++ (chars%" emission to the continuum width = " ++
        (p (.num x.width) ++ chars%" MeV\n"))) = line ++ ['\n'] ∧
      '\n' ∉ line ∧ readChannel line = (name, none, p (.num x.width)) := by
    refine ⟨chars%"  " ++ (name ++ (chars%" emission to the continuum width = " ++
      (p (.num x.width) ++ chars%" MeV"))), by simp, ?_, ?_⟩
    · simp [hn.2.2.1, hw.2.2.1]
    · unfold readChannel
      rw [channel_words_cont hn hw]
      rfl
  unfold channelLine
  cases hk : x.kind with
  | fragLevel f l =>
    rw [hk] at h
    have hs := key f h
    dsimp only [Decay.Kind.emitted]
    rw [hs]
    obtain ⟨line, h1, h2, h3⟩ := lev l
    exact ⟨line, congrArg Except.ok h1, h2, h3⟩
  | fragCont f E =>
    rw [hk] at h
    have hs := key f h
    dsimp only [Decay.Kind.emitted]
    rw [hs]
    obtain ⟨line, h1, h2, h3⟩ := con
    exact ⟨line, congrArg Except.ok h1, h2, h3⟩
  | gamLevel l =>
    rw [hk] at h
    injection h with h
    have : symbolAt 22 = some ['γ'] := by decide
    simp only [Decay.Kind.emitted, this, h]
    obtain ⟨line, h1, h2, h3⟩ := lev l
    exact ⟨line, congrArg Except.ok h1, h2, h3⟩
  | gamCont E =>
    rw [hk] at h
    injection h with h
    have : symbolAt 22 = some ['γ'] := by decide
    simp only [Decay.Kind.emitted, this, h]
    obtain ⟨line, h1, h2, h3⟩ := con
    exact ⟨line, congrArg Except.ok h1, h2, h3⟩

theorem channels_read {p : Val → Str} (hp : ∀ x, PlainText (p x)) {xs : List Decay.Exit}
    (h : ∀ x ∈ xs, (emittedName x.kind).isSome = true) :
    ∃ a lines, channelLines p xs = .ok a ∧ (∀ b, cut '\n' (a ++ b) = lines ++ cut '\n' b) ∧
      List.Forall₂ (fun (x : Decay.Exit) line => readChannel line =
        ((emittedName x.kind).getD [], (finalLevel x.kind).map (fun e => p (.num e)), p (.num x.width))) xs lines := by
  induction xs with
  | nil => exact ⟨[], [], rfl, fun b => rfl, .nil⟩
  | cons x t ih =>
    obtain ⟨a, lines, h1, h2, h3⟩ := ih (fun y hy => h y (by simp [hy]))
    obtain ⟨name, hn⟩ := Option.isSome_iff_exists.1 (h x (by simp))
    obtain ⟨line, l1, l2, l3⟩ := channel_read hp hn
    refine ⟨line ++ ['\n'] ++ a, line :: lines, ?_, fun b => ?_, .cons (by rw [l3, hn]; rfl) h3⟩
    · rw [channelLines, l1, h1]
    · have : line ++ ['\n'] ++ a ++ b = line ++ '\n' :: (a ++ b) := by simp
      rw [this, cut_word_sep l2, h2, List.cons_append]

end Marley.Props
