import Verif.Model.Stream
import Verif.Lemmas.Json

/-! Helper lemmas about reading numbers from streams. -/

set_option autoImplicit false

namespace Marley
open Json (Str isDigit digitsVal natText intText isSpace)

theorem isDigit_not_space {c : Char} (h : isDigit c = true) : isSpace c = false := by
  cases hs : isSpace c
  · rfl
  · rcases Json.isSpace_cases hs with rfl | rfl | rfl | rfl | rfl | rfl <;>
      exact absurd h (by decide)

theorem isSpace_not_digit {c : Char} (h : isSpace c = true) : isDigit c = false := by
  cases hd : isDigit c
  · rfl
  · rw [isDigit_not_space hd] at h; cases h

theorem isSpace_not_numStart {c : Char} (h : isSpace c = true) : numStart c = false := by
  rcases Json.isSpace_cases h with rfl | rfl | rfl | rfl | rfl | rfl <;> decide

theorem numStart_not_space {c : Char} (h : numStart c = true) : isSpace c = false := by
  cases hs : isSpace c
  · rfl
  · rw [isSpace_not_numStart hs] at h; cases h

theorem skipBlank_cons {c : Char} (h : isSpace c = false) (t : Str) :
    skipBlank (c :: t) = c :: t := by simp [skipBlank, h]

theorem skipBlank_space {c : Char} (h : isSpace c = true) (t : Str) :
    skipBlank (c :: t) = skipBlank t := by simp [skipBlank, h]

@[simp] theorem skipBlank_nil : skipBlank [] = [] := rfl

theorem skipBlank_head (s : Str) : skipBlank s = [] ∨
    ∃ c t, skipBlank s = c :: t ∧ isSpace c = false := by
  induction s with
  | nil => exact Or.inl rfl
  | cons c t ih =>
    cases h : isSpace c
    · exact Or.inr ⟨c, t, skipBlank_cons h t, h⟩
    · rw [skipBlank_space h]; exact ih

theorem readInt_space {c : Char} (h : isSpace c = true) (t : Str) :
    readInt (c :: t) = readInt t := by
  simp only [readInt, skipBlank_space h]

theorem get_space {K} (f : DblFmt K) {c : Char} (h : isSpace c = true) (t : Str) :
    f.get (c :: t) = f.get t := by
  simp only [DblFmt.get, skipBlank_space h]

theorem digit_ne_plus {c : Char} (h : isDigit c = true) : c ≠ '+' := by
  rintro rfl; revert h; decide

theorem intText_eq (n : Int) : intText n = (if n < 0 then ['-'] else []) ++ natText n.natAbs := by
  cases n with
  | ofNat n => simp [intText]
  | negSucc n => simp [intText, Int.negSucc_lt_zero]

/-- Any integer text followed by a non-digit is read back. -/
theorem readInt_intText {n : Int} (h : intMin ≤ n ∧ n ≤ intMax) {c : Char}
    (hc : isDigit c = false) (t : Str) : readInt (intText n ++ c :: t) = some (n, c :: t) := by
  have hall := natText_digits
  cases n with
  | ofNat n =>
    obtain ⟨d, u, e, hd⟩ := Json.natText_head_ne n
    have hsk : skipBlank (natText n ++ c :: t) = natText n ++ c :: t := by
      rw [e, List.cons_append]; exact skipBlank_cons (isDigit_not_space hd) _
    have hsp : splitSign2 (natText n ++ c :: t) = (false, natText n ++ c :: t) := by
      rw [e, List.cons_append]; simp [splitSign2, Json.isDigit_ne_dash hd, digit_ne_plus hd]
    simp only [readInt, intText, hsk, hsp,
      Json.takeWhile_append_stop (Json.natText_digits n) hc,
      Json.dropWhile_append_stop (Json.natText_digits n) hc, Json.natText_ne_nil,
      Json.digitsVal_natText, if_false]
    exact if_pos h
  | negSucc n =>
    have hsk : skipBlank ('-' :: (natText (n+1) ++ c :: t)) = '-' :: (natText (n+1) ++ c :: t) :=
      skipBlank_cons (by decide) _
    have hsp : splitSign2 ('-' :: (natText (n+1) ++ c :: t)) = (true, natText (n+1) ++ c :: t) := by
      simp [splitSign2]
    simp only [readInt, intText, List.cons_append, hsk, hsp,
      Json.takeWhile_append_stop (Json.natText_digits (n+1)) hc,
      Json.dropWhile_append_stop (Json.natText_digits (n+1)) hc, Json.natText_ne_nil,
      Json.digitsVal_natText, if_false, if_true]
    have : -((n + 1 : Nat) : Int) = Int.negSucc n := rfl
    rw [this]
    exact if_pos h
where
  natText_digits := Json.natText_digits

theorem readInt_natText {n : Nat} (h : (n : Int) ≤ intMax) {c : Char}
    (hc : isDigit c = false) (t : Str) : readInt (natText n ++ c :: t) = some ((n : Int), c :: t) := by
  have := readInt_intText (n := (n : Int)) ⟨by unfold intMin; omega, h⟩ hc t
  simpa [intText] using this

theorem get_print {K} {f : DblFmt K} (hf : f.Lawful) (x : K) {c : Char} (hc : isSpace c = true)
    (t : Str) : f.get (f.print x ++ c :: t) = some (x, c :: t) := by
  obtain ⟨d, u, e, hd⟩ := hf.head x
  have hsk : skipBlank (f.print x ++ c :: t) = f.print x ++ c :: t := by
    rw [e, List.cons_append]
    exact skipBlank_cons (numStart_not_space hd) _
  rw [DblFmt.get, hsk, hf.read_print x c t hc]

/-- Text at which no number can be read: nothing but blanks, or a first visible
character that does not start a number. -/
def NotNumber (s : Str) : Prop :=
  ∃ ws u, s = ws ++ u ∧ (∀ c ∈ ws, isSpace c = true) ∧
    (u = [] ∨ ∃ c t, u = c :: t ∧ isSpace c = false ∧ numStart c = false)

theorem skipBlank_append {ws : Str} (h : ∀ c ∈ ws, isSpace c = true) (u : Str) :
    skipBlank (ws ++ u) = skipBlank u := by
  induction ws with
  | nil => rfl
  | cons c t ih =>
    rw [List.cons_append, skipBlank_space (h c (by simp))]
    exact ih (fun d hd => h d (by simp [hd]))

theorem readInt_notNumber {s : Str} (h : NotNumber s) : readInt s = none := by
  obtain ⟨ws, u, rfl, hws, h⟩ := h
  rcases h with rfl | ⟨c, t, rfl, hs, hn⟩
  · simp only [readInt, skipBlank_append hws]; simp [splitSign2]
  · simp only [numStart, Bool.or_eq_false_iff, decide_eq_false_iff_not] at hn
    simp [readInt, skipBlank_append hws, skipBlank_cons hs, splitSign2, hn]

theorem get_notNumber {K} {f : DblFmt K} (hf : f.Lawful) {s : Str} (h : NotNumber s) :
    f.get s = none := by
  obtain ⟨ws, u, rfl, hws, h⟩ := h
  rw [DblFmt.get, skipBlank_append hws]
  rcases h with rfl | ⟨c, t, rfl, hs, hn⟩
  · exact hf.read_nil
  · rw [skipBlank_cons hs]; exact hf.read_bad c t hn

/-! Existence of a lawful format: rational numbers written `num/den`. -/

/-- Concrete text form of a rational number, used only to show that `Lawful` can
be satisfied. -/
def ratText (q : ℚ) : Str := intText q.num ++ '/' :: natText q.den

open Classical in
/-- Concrete format, used only to show that `Lawful` can be satisfied. -/
noncomputable def ratFmt : DblFmt ℚ where
  print := ratText
  read s :=
    let tok := s.takeWhile (fun c => !isSpace c)
    if tok = ['0', '.'] then some (0, s.dropWhile (fun c => !isSpace c))
    else if h : ∃ q, ratText q = tok then some (h.choose, s.dropWhile (fun c => !isSpace c)) else none

theorem natText_inj {m n : Nat} (h : natText m = natText n) : m = n := by
  rw [← Json.digitsVal_natText m, h, Json.digitsVal_natText]

theorem intText_inj {m n : Int} (h : intText m = intText n) : m = n := by
  have key : ∀ a b : Nat, natText a ≠ '-' :: natText b := by
    intro a b e
    obtain ⟨c, t, e', hc⟩ := Json.natText_head_ne a
    rw [e'] at e
    simp only [List.cons.injEq] at e
    exact Json.isDigit_ne_dash hc e.1
  cases m with
  | ofNat m =>
    cases n with
    | ofNat n => exact congrArg Int.ofNat (natText_inj h)
    | negSucc n => exact absurd h (key _ _)
  | negSucc m =>
    cases n with
    | ofNat n => exact absurd h.symm (key _ _)
    | negSucc n =>
      simp only [intText, List.cons.injEq, true_and] at h
      have := natText_inj h
      congr 1; omega

theorem intText_chars (n : Int) : ∀ c ∈ intText n, isDigit c = true ∨ c = '-' := by
  intro c hc
  cases n with
  | ofNat n => exact Or.inl (Json.natText_digits n c hc)
  | negSucc n =>
    simp only [intText, List.mem_cons] at hc
    rcases hc with h | h
    · exact Or.inr h
    · exact Or.inl (Json.natText_digits _ c h)

theorem ratText_inj {p q : ℚ} (h : ratText p = ratText q) : p = q := by
  have hn : ∀ n : Int, ∀ c ∈ intText n, c ≠ '/' := by
    intro n c hc
    rcases intText_chars n c hc with h | h
    · rintro rfl; revert h; decide
    · subst h; decide
  have h1 := congrArg (List.takeWhile (fun c : Char => decide (c ≠ '/'))) h
  have h2 := congrArg (List.dropWhile (fun c : Char => decide (c ≠ '/'))) h
  simp only [ratText] at h1 h2
  have hn' : ∀ n : Int, ∀ c ∈ intText n, (fun c : Char => decide (c ≠ '/')) c = true := by
    intro n c hc; simpa using hn n c hc
  rw [Json.takeWhile_append_stop (hn' _) (by decide), Json.takeWhile_append_stop (hn' _) (by decide)] at h1
  rw [Json.dropWhile_append_stop (hn' _) (by decide), Json.dropWhile_append_stop (hn' _) (by decide)] at h2
  simp only [List.cons.injEq, true_and] at h2
  exact Rat.ext (intText_inj h1) (natText_inj h2)

theorem ratText_chars (q : ℚ) : ∀ c ∈ ratText q, isSpace c = false := by
  intro c hc
  simp only [ratText, List.mem_append, List.mem_cons] at hc
  rcases hc with h | h | h
  · rcases intText_chars _ c h with h | h
    · exact isDigit_not_space h
    · subst h; decide
  · subst h; decide
  · exact isDigit_not_space (Json.natText_digits _ c h)

theorem ratText_head (q : ℚ) : ∃ c t, ratText q = c :: t ∧ numStart c = true := by
  cases e : intText q.num with
  | nil =>
    have := intText_eq q.num
    rw [e] at this
    exact absurd (List.append_eq_nil_iff.1 this.symm).2 (Json.natText_ne_nil _)
  | cons c t =>
    refine ⟨c, t ++ '/' :: natText q.den, by simp [ratText, e], ?_⟩
    rcases intText_chars q.num c (by simp [e]) with h | h
    · simp [numStart, h]
    · subst h; decide

theorem ratText_ne_zero (q : ℚ) : ratText q ≠ ['0', '.'] := by
  intro h
  have : '/' ∈ ratText q := by simp [ratText]
  rw [h] at this
  revert this; decide

theorem ratFmt_lawful : ratFmt.Lawful where
  head := ratText_head
  read_print := by
    intro x c t hc
    have hs : ∀ d ∈ ratText x, (fun c => !isSpace c) d = true := by
      intro d hd; simp [ratText_chars x d hd]
    have hc' : (fun c => !isSpace c) c = false := by simp [hc]
    have h1 : (ratFmt.print x ++ c :: t).takeWhile (fun c => !isSpace c) = ratText x :=
      Json.takeWhile_append_stop hs hc' t
    have h2 : (ratFmt.print x ++ c :: t).dropWhile (fun c => !isSpace c) = c :: t :=
      Json.dropWhile_append_stop hs hc' t
    simp only [ratFmt] at h1 h2 ⊢
    rw [h2, if_neg (by rw [h1]; exact ratText_ne_zero x)]
    have hex : ∃ q, ratText q = (ratText x ++ c :: t).takeWhile (fun c => !isSpace c) :=
      ⟨x, h1.symm⟩
    rw [dif_pos hex]
    have := hex.choose_spec.trans h1
    rw [ratText_inj this]
  read_nil := by
    simp only [ratFmt]
    rw [if_neg (by simp), dif_neg]
    rintro ⟨q, hq⟩
    obtain ⟨c, t, e, _⟩ := ratText_head q
    rw [e] at hq; simp at hq
  read_bad := by
    intro c t h
    simp only [ratFmt]
    rw [if_neg, dif_neg]
    rotate_left
    · intro hq
      by_cases hc : isSpace c = true
      · simp [List.takeWhile_cons, hc] at hq
      · simp only [List.takeWhile_cons, hc] at hq
        simp at hq
        rw [hq.1] at h; revert h; decide
    rintro ⟨q, hq⟩
    obtain ⟨d, u, e, hd⟩ := ratText_head q
    rw [e] at hq
    by_cases hc : isSpace c = true
    · simp [List.takeWhile_cons, hc] at hq
    · simp only [List.takeWhile_cons, hc] at hq
      simp at hq
      rw [hq.1, h] at hd; cases hd

theorem ratFmt_zero : ratFmt.LawfulZero := by
  intro c t hc
  have hc' : (fun c => !isSpace c) c = false := by simp [hc]
  have hs : ∀ d ∈ (['0', '.'] : Str), (fun c => !isSpace c) d = true := by decide
  have h1 := Json.takeWhile_append_stop hs hc' t
  have h2 := Json.dropWhile_append_stop hs hc' t
  simp only [ratFmt]
  rw [h1, h2, if_pos rfl]

end Marley
