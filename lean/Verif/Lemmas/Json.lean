import Verif.Model.Json
import Mathlib.Tactic.SplitIfs
import Mathlib.Tactic.IntervalCases
import Mathlib.Tactic.Ring
import Mathlib.Tactic.NormNum
import Mathlib.Tactic.Positivity

/-! Helper lemmas about the JSON model. -/

set_option autoImplicit false

namespace Marley.Json
open Marley

/-- All characters are blank. -/
def Blank (s : Str) : Prop := ∀ c ∈ s, isSpace c = true

theorem blank_nil : Blank [] := by simp [Blank]

theorem blank_spaces (n : Nat) : Blank (spaces n) := by
  intro c hc
  simp [spaces] at hc
  simp [hc.2, isSpace]

theorem blank_append {s t : Str} (hs : Blank s) (ht : Blank t) : Blank (s ++ t) := by
  intro c hc
  rcases List.mem_append.1 hc with h | h
  · exact hs c h
  · exact ht c h

theorem blank_nl (p : Bool) : Blank (if p then ['\n'] else []) := by
  cases p <;> simp [Blank, isSpace]

theorem skipWs_space {c : Char} (h : isSpace c = true) (t : Str) :
    skipWs (c :: t) = skipWs t := by
  rw [skipWs.eq_def]; simp [h]

theorem skipWs_blank {ws : Str} (h : Blank ws) (s : Str) : skipWs (ws ++ s) = skipWs s := by
  induction ws with
  | nil => rfl
  | cons c t ih =>
    rw [List.cons_append, skipWs_space (h c (by simp))]
    exact ih (fun d hd => h d (by simp [hd]))

theorem skipWs_char {c : Char} (h1 : isSpace c = false) (h2 : c ≠ '/') (t : Str) :
    skipWs (c :: t) = (some c, t) := by
  rw [skipWs.eq_def]; simp [h1, h2]

theorem skipWs_blank_char {ws : Str} (h : Blank ws) {c : Char} (h1 : isSpace c = false)
    (h2 : c ≠ '/') (t : Str) : skipWs (ws ++ c :: t) = (some c, t) := by
  rw [skipWs_blank h, skipWs_char h1 h2]

theorem consumeWs_blank_char {ws : Str} (h : Blank ws) {c : Char} (h1 : isSpace c = false)
    (h2 : c ≠ '/') (t : Str) : consumeWs (ws ++ c :: t) = c :: t := by
  rw [consumeWs, skipWs_blank_char h h1 h2]

/-- `skipWs` consumes at least the character it returns, and returns none only
at the end. -/
theorem skipWs_length (s : Str) :
    (∀ c t, skipWs s = (some c, t) → t.length < s.length) ∧
    (∀ t, skipWs s = (none, t) → t = []) := by
  fun_induction skipWs s with
  | case1 => simp
  | case2 c t h ih =>
    refine ⟨fun d u hu => ?_, fun u hu => ih.2 u hu⟩
    have := ih.1 d u hu
    simp; omega
  | case3 t' h ih =>
    refine ⟨fun d u hu => ?_, fun u hu => ih.2 u hu⟩
    have := ih.1 d u hu
    have := skipLine_length t'
    simp; omega
  | case4 t' h ih =>
    refine ⟨fun d u hu => ?_, fun u hu => ih.2 u hu⟩
    have := ih.1 d u hu
    have := skipMulti_length t'
    simp; omega
  | case5 => simp
  | case6 => simp

theorem consumeWs_length (s : Str) : (consumeWs s).length ≤ s.length := by
  unfold consumeWs
  have h := skipWs_length s
  split
  · next c t heq => have := h.1 c t heq; simp; omega
  · simp

/-! ### Strings -/

theorem parseString_escape (s : Str) (acc rest : Str) :
    parseString acc (jsonEscape s ++ '"' :: rest) = .ok (acc ++ s) rest := by
  induction s generalizing acc with
  | nil => simp [jsonEscape, parseString]
  | cons c s ih =>
    have e : jsonEscape (c :: s) = escapeChar c ++ jsonEscape s := by simp [jsonEscape]
    rw [e, List.append_assoc]
    have key : ∀ acc, parseString acc (escapeChar c ++ (jsonEscape s ++ '"' :: rest))
        = parseString (acc ++ [c]) (jsonEscape s ++ '"' :: rest) := by
      intro acc
      unfold escapeChar
      split_ifs with h1 h2 h3 h4 h5 h6 h7
      · subst h1; simp [parseString]
      · subst h2; simp [parseString]
      · subst h3; simp [parseString]
      · subst h4; simp [parseString]
      · subst h5; simp [parseString]
      · subst h6; simp [parseString]
      · subst h7; simp [parseString]
      · rw [List.singleton_append, parseString]
        · intro h; exact h1 h
        · intro h; exact h2 h
    rw [key, ih]
    simp

theorem parseString_length (s acc v rest : Str) (h : parseString acc s = .ok v rest) :
    rest.length ≤ s.length := by
  fun_induction parseString acc s <;> simp_all <;> omega

theorem parseString_ne_fuel (s acc : Str) : parseString acc s ≠ .fuel := by
  fun_induction parseString acc s <;> simp_all

/-! ### Integers -/

theorem isDigit_ofNat {n : Nat} (h : n < 10) : isDigit (Char.ofNat (48 + n)) = true := by
  interval_cases n <;> decide

theorem toNat_ofNat_digit {n : Nat} (h : n < 10) : (Char.ofNat (48 + n)).toNat - 48 = n := by
  interval_cases n <;> decide

theorem natText_ne_nil (n : Nat) : natText n ≠ [] := by
  unfold natText; split <;> simp

theorem natText_digits (n : Nat) : ∀ c ∈ natText n, isDigit c = true := by
  induction n using Nat.strongRecOn with
  | ind n ih =>
    unfold natText
    split
    · next h => intro c hc; simp at hc; subst hc; exact isDigit_ofNat h
    · next h =>
      intro c hc
      rcases List.mem_append.1 hc with h' | h'
      · exact ih (n / 10) (by omega) c h'
      · simp at h'; subst h'; exact isDigit_ofNat (by omega)

theorem digitsVal_append (s : Str) (c : Char) :
    digitsVal (s ++ [c]) = 10 * digitsVal s + (c.toNat - 48) := by
  simp [digitsVal]

theorem digitsVal_natText (n : Nat) : digitsVal (natText n) = n := by
  induction n using Nat.strongRecOn with
  | ind n ih =>
    unfold natText
    split
    · next h => simp [digitsVal]; simpa using toNat_ofNat_digit h
    · next h =>
      rw [digitsVal_append, ih (n / 10) (by omega), toNat_ofNat_digit (by omega)]
      omega

theorem takeWhile_all {p : Char → Bool} {s : Str} (h : ∀ c ∈ s, p c = true) :
    s.takeWhile p = s := by
  induction s with
  | nil => rfl
  | cons c t ih =>
    simp [List.takeWhile_cons, h c (by simp), ih (fun d hd => h d (by simp [hd]))]

theorem takeWhile_append_stop {p : Char → Bool} {s : Str} (h : ∀ c ∈ s, p c = true)
    {c : Char} (hc : p c = false) (t : Str) : (s ++ c :: t).takeWhile p = s := by
  induction s with
  | nil => simp [hc]
  | cons d s ih =>
    simp [List.takeWhile_cons, h d (by simp), ih (fun d hd => h d (by simp [hd]))]

theorem dropWhile_append_stop {p : Char → Bool} {s : Str} (h : ∀ c ∈ s, p c = true)
    {c : Char} (hc : p c = false) (t : Str) : (s ++ c :: t).dropWhile p = c :: t := by
  induction s with
  | nil => simp [hc]
  | cons d s ih =>
    simp [List.dropWhile_cons, h d (by simp), ih (fun d hd => h d (by simp [hd]))]

theorem natText_head_ne (n : Nat) : ∃ c t, natText n = c :: t ∧ isDigit c = true := by
  have h := natText_digits n
  cases e : natText n with
  | nil => exact absurd e (natText_ne_nil n)
  | cons c t => exact ⟨c, t, rfl, h c (by simp [e])⟩

theorem isDigit_ne_dash {c : Char} (h : isDigit c = true) : c ≠ '-' := by
  rintro rfl; revert h; decide

theorem stol_intText {n : Int} (h : longMin ≤ n ∧ n ≤ longMax) : stol (intText n) = .ok n := by
  cases n with
  | ofNat n =>
    obtain ⟨c, t, e, hc⟩ := natText_head_ne n
    have hall := takeWhile_all (natText_digits n)
    have hv := digitsVal_natText n
    have hd : c ≠ '-' := isDigit_ne_dash hc
    have hs : splitSign (natText n) = ([], natText n) := by rw [e]; simp [splitSign, hd]
    unfold stol
    simp only [intText, hs, hall, hv, natText_ne_nil, if_false]
    simp only [List.nil_eq, reduceCtorEq, if_false]
    exact if_pos h
  | negSucc n =>
    have hall := takeWhile_all (natText_digits (n + 1))
    have hv := digitsVal_natText (n + 1)
    unfold stol
    simp only [intText, splitSign, if_true, hall, hv, natText_ne_nil, if_false]
    exact if_pos h

theorem isDigit_isNumChar {c : Char} (h : isDigit c = true) : isNumChar c = true := by
  simp [isNumChar, h]

theorem intText_numChars (n : Int) : ∀ c ∈ intText n, isNumChar c = true := by
  cases n with
  | ofNat n => intro c hc; exact isDigit_isNumChar (natText_digits n c hc)
  | negSucc n =>
    intro c hc
    simp only [intText, List.mem_cons] at hc
    rcases hc with rfl | hc
    · decide
    · exact isDigit_isNumChar (natText_digits _ c hc)

theorem intText_no_dot (n : Int) : (intText n).contains '.' = false := by
  have hd : ∀ m, ∀ c ∈ natText m, c ≠ '.' := by
    intro m c hc h
    have := natText_digits m c hc
    subst h; revert this; decide
  cases n with
  | ofNat n =>
    simp only [List.contains_eq_mem, decide_eq_false_iff_not]
    intro h; exact hd n _ h rfl
  | negSucc n =>
    simp only [List.contains_eq_mem, decide_eq_false_iff_not, intText, List.mem_cons]
    rintro (h | h)
    · revert h; decide
    · exact hd _ _ h rfl

theorem isSpace_cases {c : Char} (h : isSpace c = true) :
    c = ' ' ∨ c = '\t' ∨ c = '\n' ∨ c = '\x0b' ∨ c = '\x0c' ∨ c = '\r' := by
  simpa [isSpace, or_assoc] using h

theorem isNumEnd_cases {c : Char} (h : isNumEnd c = true) :
    c = ' ' ∨ c = '\t' ∨ c = '\n' ∨ c = '\x0b' ∨ c = '\x0c' ∨ c = '\r' ∨
    c = ',' ∨ c = ']' ∨ c = '}' := by
  simp [isNumEnd, isSpace, or_assoc] at h
  exact h

theorem isNumEnd_facts {c : Char} (h : isNumEnd c = true) :
    isNumChar c = false ∧ c ≠ 'E' ∧ c ≠ 'e' ∧ isDigit c = false := by
  rcases isNumEnd_cases h with h | h | h | h | h | h | h | h | h <;> subst h <;> decide

theorem parseNumber_int {F} (ops : FloatOps F) {n : Int} (h : longMin ≤ n ∧ n ≤ longMax)
    {c : Char} (hc : isNumEnd c = true) (t : Str) :
    parseNumber ops (intText n ++ c :: t) = .ok (.int n) (c :: t) := by
  obtain ⟨h1, h2, h3, _⟩ := isNumEnd_facts hc
  unfold parseNumber
  rw [takeWhile_append_stop (intText_numChars n) h1, dropWhile_append_stop (intText_numChars n) h1]
  simp only [h2, h3, or_self, if_false, hc, if_true]
  have hd := intText_no_dot n
  unfold finishNumber
  rw [hd]
  simp [stol_intText h]

/-! ### Maps -/

theorem keyLt_irrefl (s : Str) : keyLt s s = false := by
  induction s with
  | nil => rfl
  | cons c t ih => simp [keyLt, ih]

theorem keyLt_asymm (s t : Str) (h : keyLt s t = true) : keyLt t s = false := by
  induction s generalizing t with
  | nil => cases t <;> simp_all [keyLt]
  | cons a s ih =>
    cases t with
    | nil => simp [keyLt] at h
    | cons b t =>
      simp only [keyLt] at h ⊢
      split_ifs at h ⊢ <;> first | rfl | omega | (exact ih t h) | simp_all

theorem mapSet_append {F} (m : List (Str × JVal F)) (k : Str) (v : JVal F)
    (h : ∀ p ∈ m, keyLt p.1 k = true) : mapSet m k v = m ++ [(k, v)] := by
  induction m with
  | nil => rfl
  | cons p m ih =>
    obtain ⟨k', v'⟩ := p
    have hk : keyLt k' k = true := h (k', v') (by simp)
    have hne : k ≠ k' := by
      rintro rfl; rw [keyLt_irrefl] at hk; exact absurd hk (by simp)
    have hn : keyLt k k' = false := keyLt_asymm _ _ hk
    simp only [mapSet, hne, if_false, hn, List.cons_append]
    rw [ih (fun p hp => h p (by simp [hp]))]
    simp

/-! ### Termination and monotonicity in the recursion bound -/

theorem stol_eq_or (s : Str) : ∃ r : Res Int, stol s = r := ⟨_, rfl⟩

theorem finishNumber_spec {F} (ops : FloatOps F) (val e : Str) (x : Int) (rest : Str) :
    finishNumber ops val e x rest ≠ .fuel ∧
    ∀ v r, finishNumber ops val e x rest = .ok v r → r = rest := by
  unfold finishNumber
  refine ⟨?_, ?_⟩
  · split_ifs <;> split <;> simp
  · intro v r
    split_ifs <;> split <;> simp_all

theorem dropWhile_length (p : Char → Bool) (s : Str) : (s.dropWhile p).length ≤ s.length :=
  (List.dropWhile_suffix p).length_le

theorem parseNumber_spec {F} (ops : FloatOps F) (s : Str) :
    parseNumber ops s ≠ .fuel ∧
    ∀ v r, parseNumber ops s = .ok v r → r.length ≤ (s.dropWhile isNumChar).length := by
  unfold parseNumber
  cases hd : s.dropWhile isNumChar with
  | nil => simp
  | cons c t =>
    simp only
    split_ifs with h1 h2
    · unfold parseExponent
      have hl : (splitSign t).2.length ≤ t.length := by
        cases t with
        | nil => simp [splitSign]
        | cons d u => simp only [splitSign]; split <;> simp
      generalize splitSign t = p at hl ⊢
      obtain ⟨sign, s'⟩ := p
      simp only at hl ⊢
      have hdl := dropWhile_length isDigit s'
      cases hd2 : s'.dropWhile isDigit with
      | nil => simp
      | cons c2 t2 =>
        rw [hd2] at hdl
        simp only
        split_ifs
        · cases stol (sign ++ s'.takeWhile isDigit) with
          | ok e =>
            simp only
            have := finishNumber_spec ops (s.takeWhile isNumChar)
              (sign ++ s'.takeWhile isDigit) e (c2 :: t2)
            refine ⟨this.1, fun v r h => ?_⟩
            rw [this.2 v r h]
            simp only [List.length_cons] at *; omega
          | error e => simp
        · simp
    · have := finishNumber_spec ops (s.takeWhile isNumChar) [] 0 (c :: t)
      refine ⟨this.1, fun v r h => ?_⟩
      rw [this.2 v r h]
    · simp

theorem parseNumber_length {F} (ops : FloatOps F) (c : Char) (t : Str)
    (hc : isNumChar c = true) {v r} (h : parseNumber ops (c :: t) = .ok v r) :
    r.length ≤ t.length := by
  have := (parseNumber_spec ops (c :: t)).2 v r h
  rw [List.dropWhile_cons] at this
  simp only [hc, if_true] at this
  exact this.trans (dropWhile_length _ _)

theorem parseBool_spec {F} (c : Char) (t : Str) :
    (parseBool c t : PR (JVal F)) ≠ .fuel ∧
    ∀ v r, (parseBool c t : PR (JVal F)) = .ok v r → r.length ≤ t.length := by
  unfold parseBool
  constructor
  · split_ifs <;> simp
  · intro v r h
    split_ifs at h <;> simp at h
    · rw [← h.2]; simp
    · rw [← h.2]; simp

theorem parseNull_spec {F} (t : Str) :
    (parseNull t : PR (JVal F)) ≠ .fuel ∧
    ∀ v r, (parseNull t : PR (JVal F)) = .ok v r → r.length ≤ t.length := by
  unfold parseNull
  constructor
  · split_ifs <;> simp
  · intro v r h
    split_ifs at h
    simp at h
    rw [← h.2]; simp

theorem parseKey_spec (s : Str) :
    parseKey s ≠ .fuel ∧ ∀ v r, parseKey s = .ok v r → r.length ≤ s.length := by
  unfold parseKey
  split
  · next t =>
    refine ⟨parseString_ne_fuel _ _, fun v r h => ?_⟩
    have := parseString_length _ _ _ _ h
    simp; omega
  · refine ⟨by simp, fun v r h => ?_⟩
    simp at h
    rw [← h.2]; exact dropWhile_length _ _

theorem parse_fuel {F} (ops : FloatOps F) (n : Nat) :
    (∀ s, 2 * s.length + 1 ≤ n → parseNext ops n s ≠ .fuel) ∧
    (∀ acc s, 2 * s.length + 2 ≤ n → parseArray ops n acc s ≠ .fuel) ∧
    (∀ acc s, 2 * s.length + 2 ≤ n → parseObject ops n acc s ≠ .fuel) ∧
    (∀ s v r, parseNext ops n s = .ok v r → r.length < s.length) ∧
    (∀ acc s v r, parseArray ops n acc s = .ok v r → r.length < s.length) ∧
    (∀ acc s v r, parseObject ops n acc s = .ok v r → r.length < s.length) := by
  induction n with
  | zero => simp [parseNext, parseArray, parseObject]
  | succ n ih =>
    obtain ⟨ih1, ih2, ih3, ih4, ih5, ih6⟩ := ih
    refine ⟨?_, ?_, ?_, ?_, ?_, ?_⟩
    · intro s hs
      have hl := skipWs_length s
      rw [parseNext]
      split
      · simp
      · next c t heq =>
        have hlt := hl.1 c t heq
        split_ifs
        · exact ih2 _ _ (by omega)
        · exact ih3 _ _ (by omega)
        · have := parseString_ne_fuel t []
          split <;> simp_all
        · exact (parseBool_spec c t).1
        · exact (parseNull_spec t).1
        · exact (parseNumber_spec ops (c :: t)).1
        · simp
    · intro acc s hs
      have hc := consumeWs_length s
      rw [parseArray]
      split
      · simp
      · split
        · simp
        · next h => exact absurd h (ih1 _ (by omega))
        · next v s2 h =>
          have h2 := ih4 _ _ _ h
          have hc2 := consumeWs_length s2
          split
          · next t heq =>
            rw [heq] at hc2; simp at hc2
            exact ih2 _ _ (by omega)
          · simp
          · simp
    · intro acc s hs
      have hc := consumeWs_length s
      rw [parseObject]
      split
      · simp
      · have hk := parseKey_spec (consumeWs s)
        split
        · simp
        · next h => exact absurd h hk.1
        · next key s2 h =>
          have h2 := hk.2 _ _ h
          have hw2 := skipWs_length s2
          split
          · next s3 heq =>
            have h3 := hw2.1 _ _ heq
            have hc3 := consumeWs_length s3
            split
            · simp
            · next hf => exact absurd hf (ih1 _ (by omega))
            · next v s4 h4 =>
              have h4' := ih4 _ _ _ h4
              have hw4 := skipWs_length s4
              split
              · next t heq4 =>
                have := hw4.1 _ _ heq4
                exact ih3 _ _ (by omega)
              · simp
              · simp
          · simp
    · intro s v r h
      have hl := skipWs_length s
      rw [parseNext] at h
      split at h
      · simp at h
      · next c t heq =>
        have hlt := hl.1 c t heq
        split_ifs at h with h1 h2 h3 h4 h5 h6
        · have := ih5 _ _ _ _ h; omega
        · have := ih6 _ _ _ _ h; omega
        · split at h
          · next w rest hw =>
            have := parseString_length _ _ _ _ hw
            simp at h; rw [← h.2]; omega
          · simp at h
          · simp at h
        · have := (parseBool_spec c t).2 v r h; omega
        · have := (parseNull_spec t).2 v r h; omega
        · have hnc : isNumChar c = true := by
            simp [isNumChar] at h6 ⊢; tauto
          have := parseNumber_length ops c t hnc h; omega
    · intro acc s v r h
      have hc := consumeWs_length s
      rw [parseArray] at h
      split at h
      · next t heq => rw [heq] at hc; simp at hc h; rw [← h.2]; omega
      · split at h
        · simp at h
        · simp at h
        · next w s2 h2 =>
          have h2' := ih4 _ _ _ h2
          have hc2 := consumeWs_length s2
          split at h
          · next t heq =>
            rw [heq] at hc2; simp at hc2
            have := ih5 _ _ _ _ h; omega
          · next t heq =>
            rw [heq] at hc2; simp at hc2 h; rw [← h.2]; omega
          · simp at h
    · intro acc s v r h
      have hc := consumeWs_length s
      rw [parseObject] at h
      split at h
      · next t heq => rw [heq] at hc; simp at hc h; rw [← h.2]; omega
      · have hk := parseKey_spec (consumeWs s)
        split at h
        · simp at h
        · simp at h
        · next key s2 h2 =>
          have h2' := hk.2 _ _ h2
          have hw2 := skipWs_length s2
          split at h
          · next s3 heq =>
            have h3 := hw2.1 _ _ heq
            have hc3 := consumeWs_length s3
            split at h
            · simp at h
            · simp at h
            · next w s4 h4 =>
              have h4' := ih4 _ _ _ h4
              have hw4 := skipWs_length s4
              split at h
              · next t heq4 =>
                have := hw4.1 _ _ heq4
                have := ih6 _ _ _ _ h; omega
              · next t heq4 =>
                have := hw4.1 _ _ heq4
                simp at h; rw [← h.2]; omega
              · simp at h
          · simp at h

/-- A result other than "out of fuel" does not change with more fuel. -/
theorem parse_mono {F} (ops : FloatOps F) (n : Nat) :
    (∀ s, parseNext ops n s ≠ .fuel → parseNext ops (n + 1) s = parseNext ops n s) ∧
    (∀ acc s, parseArray ops n acc s ≠ .fuel →
      parseArray ops (n + 1) acc s = parseArray ops n acc s) ∧
    (∀ acc s, parseObject ops n acc s ≠ .fuel →
      parseObject ops (n + 1) acc s = parseObject ops n acc s) := by
  induction n with
  | zero => simp [parseNext, parseArray, parseObject]
  | succ n ih =>
    obtain ⟨ih1, ih2, ih3⟩ := ih
    refine ⟨?_, ?_, ?_⟩
    · intro s h
      rw [parseNext] at h
      rw [parseNext, parseNext]
      split
      · rfl
      · next c t heq =>
        rw [heq] at h
        simp only at h ⊢
        split_ifs at h ⊢
        · exact ih2 _ _ h
        · exact ih3 _ _ h
        all_goals rfl
    · intro acc s h
      rw [parseArray] at h
      rw [parseArray, parseArray]
      split
      · rfl
      · next hne =>
        split at h
        · next t heq => exact absurd heq (hne t)
        · have h1 : parseNext ops n (consumeWs s) ≠ .fuel := by
            intro hf; rw [hf] at h; simp at h
          rw [ih1 _ h1]
          split
          · rfl
          · rfl
          · next v s2 heq =>
            rw [heq] at h
            simp only at h
            split
            · next t heq2 => rw [heq2] at h; exact ih2 _ _ h
            · rfl
            · rfl
    · intro acc s h
      rw [parseObject] at h
      rw [parseObject, parseObject]
      split
      · rfl
      · next hne =>
        split at h
        · next t heq => exact absurd heq (hne t)
        · split
          · rfl
          · rfl
          · next key s2 heq =>
            rw [heq] at h
            simp only at h
            split
            · next s3 heq3 =>
              rw [heq3] at h
              simp only at h
              have h1 : parseNext ops n (consumeWs s3) ≠ .fuel := by
                intro hf; rw [hf] at h; simp at h
              rw [ih1 _ h1]
              split
              · rfl
              · rfl
              · next v s4 heq4 =>
                rw [heq4] at h
                simp only at h
                split
                · next t heq5 => rw [heq5] at h; exact ih3 _ _ h
                · rfl
                · rfl
            · rfl

theorem parseNext_mono {F} (ops : FloatOps F) {n m : Nat} (h : n ≤ m) (s : Str)
    (hn : parseNext ops n s ≠ .fuel) : parseNext ops m s = parseNext ops n s := by
  induction m, h using Nat.le_induction with
  | base => rfl
  | succ m _ ih =>
    rw [← ih]
    exact (parse_mono ops m).1 s (by rw [ih]; exact hn)

end Marley.Json
