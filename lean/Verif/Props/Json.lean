import Verif.Lemmas.JsonRoundTrip
import Verif.Lemmas.JsonParse

/-!
# C01–C05: properties of `marley::JSON`

The specification vocabulary (`Holdable`, `PlainKeys`, `Trivia`, `NumText`) is in
`Verif/Spec/Json.lean`.
-/

set_option autoImplicit false

namespace Marley.Props
open Marley Marley.Json

/-- A concrete set of floating-point conversions, used only in examples: the
doubles are the texts themselves. -/
def textFloats : FloatOps Str where
  print := id
  stodPow v _ := .ok v
  longPow _ _ := []

/-! ## C01 dump / load round trip -/

/-- C01, for documents whose keys contain no quote, backslash or control
character with a short escape: writing a document (compact or with any indent
step) and loading it gives the same document back, whatever follows in the
text.  String *values* are arbitrary.  Missing from the full claim: keys that
need escaping, see `C01_dump_load_fails`. -/
theorem C01_dump_load_partial {F} (ops : FloatOps F) (step : Int) (m : List (Str × JVal F))
    (h : Holdable (FloatOk ops) (.obj m)) (hk : PlainKeys (.obj m)) (rest : Str) :
    load ops (dumpString ops step (.obj m) ++ rest) = some (.ok (.obj m)) := by
  have := loadStream_dump ops step m h rest
  rw [reload_plain ops _ h hk] at this
  simp [load, this]

example : Holdable (FloatOk textFloats)
    (.obj [("a".toList, .arr [.int (-5), .str "q\"\\\n".toList, .obj []]),
           ("b".toList, .bool true)]) ∧
    PlainKeys (F := Str)
    (.obj [("a".toList, .arr [.int (-5), .str "q\"\\\n".toList, .obj []]),
           ("b".toList, .bool true)]) := by
  constructor
  · refine .obj _ ?_ ?_
    · simp [keyLt]
    · intro p hp
      simp at hp
      rcases hp with rfl | rfl
      · refine .arr _ ?_
        intro v hv
        simp at hv
        rcases hv with rfl | rfl | rfl
        · exact .int _ (by decide) (by decide)
        · exact .str _
        · exact .obj _ (by simp) (by simp)
      · exact .bool _
  · refine .obj _ ?_ ?_
    · simp [NeedsEscape]
    · intro p hp
      simp at hp
      rcases hp with rfl | rfl
      · refine .arr _ ?_
        intro v hv
        simp at hv
        rcases hv with rfl | rfl | rfl
        · exact .int _
        · exact .str _
        · exact .obj _ (by simp) (by simp)
      · exact .bool _

/-- C01 as stated is false: a key with a quote in it comes back with an extra
backslash. -/
theorem C01_dump_load_fails :
    ∃ m : List (Str × JVal Str), Holdable (FloatOk textFloats) (.obj m) ∧
      load textFloats (dumpString textFloats (-1) (.obj m)) ≠ some (.ok (.obj m)) := by
  refine ⟨[("a\"".toList, .null)], .obj _ (by simp) (by intro p hp; simp at hp; rw [hp]; exact .null), ?_⟩
  have h : Holdable (FloatOk textFloats) (.obj [("a\"".toList, .null)]) :=
    .obj _ (by simp) (by intro p hp; simp at hp; rw [hp]; exact .null)
  have := loadStream_dump textFloats (-1) _ h []
  rw [List.append_nil] at this
  rw [load, this]
  simp [reload, reloadMap, mapSet, jsonEscape, escapeChar]

/-- Every document that `load` returns can be held, so the first hypothesis of
`C01_dump_load_partial` only excludes doubles that do not survive text. -/
theorem C01_loaded_is_holdable {F} (ops : FloatOps F) (s : Str) (v : JVal F)
    (h : load ops s = some (.ok v)) : Holdable (fun _ => True) v := by
  unfold load at h
  split at h <;> simp at h
  next w r h' =>
    subst h
    unfold loadStream at h'
    split at h'
    · exact (parse_holdable ops _).1 _ _ _ h'
    · simp at h'

example : ∃ v, load textFloats "{a:1}".toList = some (.ok v) := by
  refine ⟨.obj [("a".toList, .int 1)], ?_⟩
  have h : Holdable (FloatOk textFloats) (.obj []) := .obj _ (by simp) (by simp)
  simp [load, loadStream, skipWs, isSpace, parseNext, parseObject, consumeWs, parseKey,
    List.takeWhile, List.dropWhile, isKeyChar, isDigit, parseNumber, isNumChar, isNumEnd,
    finishNumber, stol, splitSign, digitsVal, longMin, longMax, mapSet, jsonEscape, escapeChar]

/-! ## C02 escaping -/

/-- C02: an escaped string between quotes is read back exactly, and exactly the
quoted text is consumed. -/
theorem C02_escape_roundtrip {F} (ops : FloatOps F) (s rest : Str) (n : Nat) :
    parseString [] (jsonEscape s ++ '"' :: rest) = .ok s rest ∧
    parseNext ops (n + 1) ('"' :: (jsonEscape s ++ '"' :: rest)) = .ok (.str s) rest := by
  have h := parseString_escape s [] rest
  simp only [List.nil_append] at h
  refine ⟨h, ?_⟩
  rw [parseNext, skipWs_char (by decide) (by decide)]
  simp [h]

example : jsonEscape "a\"b\\c\nd".toList = "a\\\"b\\\\c\\nd".toList := by decide

/-- C02: different strings have different escaped texts. -/
theorem C02_escape_injective (s t : Str) (h : jsonEscape s = jsonEscape t) : s = t := by
  have h1 := parseString_escape s [] []
  rw [h, parseString_escape] at h1
  simpa using h1.symm

example : ∃ s t : Str, jsonEscape s = jsonEscape t := ⟨['"'], ['"'], rfl⟩

/-! ## C03 totality -/

/-- C03: `load` terminates on every text: the model's recursion bound is never
exhausted, and any larger bound gives the same result. -/
theorem C03_load_total {F} (ops : FloatOps F) (s : Str) :
    load ops s ≠ none ∧
    ∀ t n, skipWs s = (some '{', t) → 2 * s.length + 3 ≤ n →
      parseNext ops n ('{' :: t) = loadStream ops s := by
  have hlen : ∀ t, skipWs s = (some '{', t) → ('{' :: t).length ≤ s.length := by
    intro t ht
    exact (skipWs_length s).1 _ _ ht
  constructor
  · unfold load
    split
    · simp
    · simp
    · next h =>
      unfold loadStream at h
      split at h
      · next t ht =>
        have := hlen t ht
        exact absurd h ((parse_fuel ops _).1 _ (by omega))
      · simp at h
  · intro t n ht hn
    unfold loadStream
    rw [ht]
    have := hlen t ht
    exact parseNext_mono ops hn _ ((parse_fuel ops _).1 _ (by omega))

example : skipWs "  {a:1}".toList = (some '{', "a:1}".toList) := by
  simp [skipWs, isSpace]

/-- C03: a successful load returns an object, and the text starts, after blanks
and complete comments, with an opening brace. -/
theorem C03_load_accepts_only_objects {F} (ops : FloatOps F) (s : Str) (v : JVal F)
    (h : load ops s = some (.ok v)) :
    (∃ m, v = .obj m) ∧ ∃ pre t, Trivia pre ∧ s = pre ++ '{' :: t := by
  unfold load at h
  split at h <;> simp at h
  next w r h' =>
    subst h
    unfold loadStream at h'
    split at h'
    · next t ht =>
      refine ⟨?_, ?_⟩
      · rw [parseNext, skipWs_char (by decide) (by decide)] at h'
        simp only [Char.reduceEq, if_false, if_true] at h'
        exact ((parse_holdable ops _).2.2 _ _ _ _ (.obj _ (by simp) (by simp)) h').2
      · obtain ⟨pre, hp, e⟩ := skipWs_trivia s _ _ ht
        exact ⟨pre, t, hp, e⟩
    · simp at h'

/-- C03: a text whose first character after blanks and comments is not an
opening brace, and a text of blanks and comments only, are rejected with
`marley::Error`. -/
theorem C03_load_rejects_non_objects {F} (ops : FloatOps F) (pre : Str) (hp : Trivia pre) :
    load ops pre = some (.error .marleyError) ∧
    ∀ c t, isSpace c = false → c ≠ '/' → c ≠ '{' →
      load ops (pre ++ c :: t) = some (.error .marleyError) := by
  constructor
  · have := skipWs_of_trivia hp []
    rw [List.append_nil] at this
    simp [load, loadStream, this, skipWs]
  · intro c t h1 h2 h3
    have := skipWs_of_trivia hp (c :: t)
    rw [skipWs_char h1 h2] at this
    simp [load, loadStream, this, h3]

example : Trivia (' ' :: '/' :: '/' :: ("note".toList ++ '\n' ::
    ('/' :: '*' :: ("x*".toList ++ '*' :: '/' :: ['\t'])))) := by
  refine .blank _ _ (by simp) (.line _ _ (by decide) (.block _ _ ?_ (.blank _ _ (by simp) .nil)))
  decide

/-- C03, kinds of exception: whatever the text, the only exceptions are
`marley::Error` and the two exceptions of `std::stol`/`std::stod`; in
particular no undefined behaviour.  Missing from the full claim: the two
standard exceptions do occur, see `C03_only_marley_error_fails`. -/
theorem C03_load_exceptions_partial {F} (ops : FloatOps F)
    (hops : ∀ v e x, ops.stodPow v e = .error x → x = .invalidArgument ∨ x = .outOfRange)
    (s : Str) (e : Exc) (h : load ops s = some (.error e)) :
    e = .marleyError ∨ e = .invalidArgument ∨ e = .outOfRange := by
  have hops' : ∀ v e x, ops.stodPow v e = .error x → LoadExc x :=
    fun v e x hx => Or.inr (hops v e x hx)
  unfold load at h
  split at h <;> simp at h
  next w h' =>
    subst h
    unfold loadStream at h'
    split at h'
    · exact (parse_exc ops hops' _).1 _ _ h'
    · simp at h'; left; exact h'.symm

example : ∀ v e x, textFloats.stodPow v e = .error x → x = .invalidArgument ∨ x = .outOfRange := by
  intro v e x h; simp [textFloats] at h

/-- C03 as stated is false: a lone minus sign, an empty exponent, or an integer
too large for `long` make exceptions other than `marley::Error` escape. -/
theorem C03_only_marley_error_fails {F} (ops : FloatOps F) :
    load ops "{a:-}".toList = some (.error .invalidArgument) ∧
    load ops "{a:1e}".toList = some (.error .invalidArgument) ∧
    load ops "{a:9223372036854775808}".toList = some (.error .outOfRange) := by
  refine ⟨?_, ?_, ?_⟩ <;>
  simp [load, loadStream, skipWs, isSpace, parseNext, parseObject, consumeWs, parseKey,
    List.takeWhile, List.dropWhile, isKeyChar, isDigit, parseNumber, isNumChar, isNumEnd,
    finishNumber, parseExponent, stol, splitSign, digitsVal, longMin, longMax]

/-! ## C04 numbers -/

theorem numText_mantissa_numChars (d : NumText) (hd : d.Valid) :
    ∀ c ∈ d.mantissa, isNumChar c = true := by
  obtain ⟨_, h2, h3, _⟩ := hd
  intro c hc
  simp only [NumText.mantissa, List.mem_append] at hc
  rcases hc with (hc | hc) | hc
  · split at hc <;> simp at hc; subst hc; decide
  · exact isDigit_isNumChar (h2 c hc)
  · split at hc
    · simp at hc
    · next f hf =>
      rcases List.mem_cons.1 hc with rfl | hc
      · decide
      · exact isDigit_isNumChar ((h3 f hf).2 c hc)

/-- C04 is false for large numbers: every number text with a positive exponent
(the form C++ uses from 1e+17 on) is rejected, whatever follows it. -/
theorem C04_positive_exponent_fails {F} (ops : FloatOps F) (d : NumText) (hd : d.Valid)
    (e : Str) (he : d.ex = some (true, e)) (rest : Str) :
    parseNumber ops (d.text ++ rest) = .exc .marleyError ∧
    load ops ("{\"x\":".toList ++ (d.text ++ rest)) = some (.error .marleyError) := by
  have ht : d.text ++ rest = d.mantissa ++ 'e' :: ('+' :: (e ++ rest)) := by
    simp [NumText.text, he]
  have h1 : parseNumber ops (d.text ++ rest) = .exc .marleyError := by
    rw [ht]
    unfold parseNumber
    rw [dropWhile_append_stop (numText_mantissa_numChars d hd) (by decide)]
    simp [parseExponent, splitSign, isDigit, isNumEnd, isSpace]
  refine ⟨h1, ?_⟩
  have hhead : ∃ c t, d.text ++ rest = c :: t ∧ (isDigit c = true ∨ c = '-') := by
    obtain ⟨h0, h2, _, _⟩ := hd
    rw [ht]
    simp only [NumText.mantissa]
    cases hn : d.neg
    · cases hi : d.ip with
      | nil => exact absurd hi h0
      | cons c t => exact ⟨c, _, by simp only [Bool.false_eq_true, if_false, List.nil_append, List.cons_append]; rfl,
          Or.inl (h2 c (by simp [hi]))⟩
    · exact ⟨'-', _, by simp only [if_true, List.cons_append]; rfl, Or.inr rfl⟩
  obtain ⟨c, t, e1, hc⟩ := hhead
  rw [e1] at h1 ⊢
  have hnum : ∀ n, parseNext ops (n + 1) (c :: t) = .exc .marleyError := by
    intro n
    have := parseNext_number ops n blank_nil hc t
    rw [List.nil_append] at this
    rw [this, h1]
  obtain ⟨hs, hsl, _⟩ := digit_not_space hc
  have hcw : consumeWs (c :: t) = c :: t := consumeWs_blank_char blank_nil hs hsl t
  simp only [load, loadStream]
  simp [skipWs_char, isSpace]
  have hq := fun n => parseObject_quoted ops n [] blank_nil "x".toList (':' :: c :: t)
  simp [jsonEscape, escapeChar] at hq
  rw [parseNext, skipWs_char (by decide) (by decide)]
  simp
  rw [show ∀ k, 2 * (k + 1 + 1 + 1 + 1 + 1 + 1) + 2 = (2 * k + 12) + 1 + 1 by intro k; ring]
  rw [hq]
  simp [skipWs_char, isSpace, hcw, hnum]

example : (NumText.mk false "1".toList none (some (true, "17".toList))).Valid ∧
    (NumText.mk false "1".toList none (some (true, "17".toList))).text = "1e+17".toList := by
  constructor
  · simp [NumText.Valid, isDigit]
  · simp [NumText.text, NumText.mantissa]

/-- C04, partial: number texts without exponent or with a negative exponent are
accepted as numbers, provided the conversions of the C++ standard library
succeed (`std::stod` on the digits, the exponent and an integer text fit in a
`long`).  Missing from the full claim: texts with a positive exponent, see
`C04_positive_exponent_fails`. -/
theorem C04_number_reread_partial {F} (ops : FloatOps F) (d : NumText) (hd : d.Valid)
    (hex : ∀ s e, d.ex = some (s, e) → s = false ∧ digitsVal e ≤ 9223372036854775808)
    (hint : d.fp = none → digitsVal d.ip ≤ 9223372036854775807)
    (hstod : ∀ x, ∃ y, ops.stodPow d.mantissa x = .ok y)
    (c : Char) (hc : isNumEnd c = true) (rest : Str) :
    ∃ v, parseNumber ops (d.text ++ c :: rest) = .ok v (c :: rest) ∧
      ((∃ x, v = .float x) ∨
        (d.fp = none ∧ d.ex = none ∧
          v = .int (if d.neg then -(digitsVal d.ip : Int) else digitsVal d.ip))) := by
  have hm := numText_mantissa_numChars d hd
  obtain ⟨h1, h2, h3, h4⟩ := hd
  have hnondash : ∀ c t, d.ip = c :: t → c ≠ '-' := fun c t e =>
    isDigit_ne_dash (h2 c (by simp [e]))
  -- the integer conversion when there is no decimal point
  have hstol : d.fp = none → stol d.mantissa =
      .ok (if d.neg then -(digitsVal d.ip : Int) else digitsVal d.ip) := by
    intro hf
    have hb := hint hf
    have hmant : d.mantissa = (if d.neg then ['-'] else []) ++ d.ip := by
      simp [NumText.mantissa, hf]
    rw [hmant]
    have htw := takeWhile_all h2
    unfold stol
    cases hn : d.neg
    · cases hi : d.ip with
      | nil => exact absurd hi h1
      | cons c t =>
        have hs : splitSign (c :: t) = ([], c :: t) := by simp [splitSign, hnondash c t hi]
        simp only [Bool.false_eq_true, if_false, List.nil_append, hs]
        rw [hi] at htw hb
        rw [htw]
        simp only [reduceCtorEq, if_false, List.nil_eq]
        rw [if_pos]
        simp only [longMin, longMax]; omega
    · simp only [if_true, List.cons_append, List.nil_append, splitSign, htw, h1, if_false]
      rw [if_pos]
      simp only [longMin, longMax]; omega
  have hdot : d.mantissa.contains '.' = d.fp.isSome := by
    have hnd : ∀ s : Str, (∀ c ∈ s, isDigit c = true) → '.' ∉ s := by
      intro s hs hin
      have := hs _ hin
      revert this; decide
    cases hf : d.fp with
    | none =>
      have : '.' ∉ d.mantissa := by
        simp only [NumText.mantissa, hf, List.append_nil, List.mem_append, not_or]
        exact ⟨by cases d.neg <;> simp, hnd _ h2⟩
      simpa [List.contains_eq_mem] using this
    | some f => simp [NumText.mantissa, hf, List.contains_eq_mem]
  obtain ⟨hn1, hn2, hn3, hn4⟩ := isNumEnd_facts hc
  -- the value once the exponent text is known
  have hfinal : ∀ (ex : Str) (x : Int), (d.ex = none → ex = []) →
      ∃ v, finishNumber ops d.mantissa ex x (c :: rest) = .ok v (c :: rest) ∧
      ((∃ x, v = .float x) ∨
        (d.fp = none ∧ ex = [] ∧
          v = .int (if d.neg then -(digitsVal d.ip : Int) else digitsVal d.ip))) := by
    intro ex x _
    unfold finishNumber
    rw [hdot]
    cases hf : d.fp with
    | some f =>
      obtain ⟨y, hy⟩ := hstod x
      exact ⟨.float y, by simp [hy], Or.inl ⟨y, rfl⟩⟩
    | none =>
      have := hstol hf
      by_cases he : ex = []
      · exact ⟨.int _, by simp [this, he], Or.inr ⟨rfl, he, rfl⟩⟩
      · exact ⟨.float (ops.longPow
          (if d.neg then -(digitsVal d.ip : Int) else digitsVal d.ip) x),
          by simp [this, he], Or.inl ⟨_, rfl⟩⟩
  cases hx : d.ex with
  | none =>
    obtain ⟨v, hv, hv'⟩ := hfinal [] 0 (fun _ => rfl)
    refine ⟨v, ?_, ?_⟩
    · simp only [NumText.text, hx, List.append_nil]
      unfold parseNumber
      rw [takeWhile_append_stop hm hn1, dropWhile_append_stop hm hn1]
      simp only [hn2, hn3, or_self, if_false, hc, if_true]
      exact hv
    · rcases hv' with h | ⟨a, _, b⟩
      · exact Or.inl h
      · exact Or.inr ⟨a, rfl, b⟩
  | some p =>
    obtain ⟨sg, e⟩ := p
    obtain ⟨hsg, hev⟩ := hex sg e hx
    subst hsg
    obtain ⟨he0, hed⟩ := h4 false e hx
    obtain ⟨v, hv, hv'⟩ := hfinal ('-' :: e) (-(digitsVal e : Int)) (by simp [hx])
    refine ⟨v, ?_, ?_⟩
    · have : d.text ++ c :: rest = d.mantissa ++ 'e' :: ('-' :: (e ++ c :: rest)) := by
        simp [NumText.text, hx]
      rw [this]
      unfold parseNumber
      rw [takeWhile_append_stop hm (by decide), dropWhile_append_stop hm (by decide)]
      simp only [or_true, if_true]
      unfold parseExponent
      simp only [splitSign, if_true]
      rw [takeWhile_append_stop hed hn4, dropWhile_append_stop hed hn4]
      simp only [hc, if_true]
      have hst : stol (['-'] ++ e) = .ok (-(digitsVal e : Int)) := by
        unfold stol
        simp only [List.cons_append, List.nil_append, splitSign, if_true, takeWhile_all hed, he0,
          if_false]
        rw [if_pos]
        simp only [longMin, longMax]; omega
      rw [hst]
      exact hv
    · rcases hv' with h | ⟨_, b, _⟩
      · exact Or.inl h
      · exact absurd b (by simp)

example : (NumText.mk true "1".toList (some "25".toList) (some (false, "07".toList))).Valid ∧
    (NumText.mk true "1".toList (some "25".toList) (some (false, "07".toList))).text
      = "-1.25e-07".toList := by
  constructor
  · simp [NumText.Valid, isDigit]
  · simp [NumText.text, NumText.mantissa]

/-- C04: infinities and NaN are written as text that is rejected. -/
theorem C04_nonfinite_rejected {F} (ops : FloatOps F) (n : Nat) (rest : Str) :
    parseNext ops (n + 1) ("inf".toList ++ rest) = .exc .marleyError ∧
    parseNext ops (n + 1) ("-inf".toList ++ rest) = .exc .marleyError ∧
    parseNext ops (n + 1) ("nan".toList ++ rest) = .exc .marleyError := by
  refine ⟨?_, ?_, ?_⟩
  · simp [parseNext, skipWs_char, isSpace, isDigit]
  · simp [parseNext, skipWs_char, isSpace, isDigit, parseNumber, isNumChar, isNumEnd]
  · simp [parseNext, skipWs_char, isSpace, parseNull]

/-! ## C05 typed getters -/

/-- C05 (storing): after `object[k] = v` the member `k` is `v` (also when there
was one before) and all other members are unchanged. -/
theorem C05_assign_then_lookup {F} (m : List (Str × JVal F)) (k : Str) (v : JVal F) :
    (mapSet m k v).lookup k = some v ∧
    ∀ k', k' ≠ k → (mapSet m k v).lookup k' = m.lookup k' := by
  have ne : ∀ {a b : Str}, a ≠ b → (a == b) = false := fun h => beq_eq_false_iff_ne.2 h
  induction m with
  | nil =>
    refine ⟨by simp [mapSet], fun k' h => ?_⟩
    simp [mapSet, List.lookup_cons, ne h]
  | cons p m ih =>
    obtain ⟨a, w⟩ := p
    simp only [mapSet]
    split_ifs with h1 h2
    · subst h1
      exact ⟨by simp, fun k' h => by simp [List.lookup_cons, ne h]⟩
    · exact ⟨by simp, fun k' h => by simp [List.lookup_cons, ne h]⟩
    · refine ⟨by simp [List.lookup_cons, ne h1, ih.1], fun k' h => ?_⟩
      simp only [List.lookup_cons]
      split
      · rfl
      · exact ih.2 k' h

example : (mapSet [("a".toList, (JVal.int 1 : JVal Str))] "a".toList (.int 2)).lookup "a".toList =
    some (.int 2) := by rfl

/-- C05: on a value that is not an object every getter throws. -/
theorem C05_getters_non_object {F} (j : JVal F) (hj : ∀ m, j ≠ .obj m) (k : Str)
    (dl : Int) (dd : F ⊕ Int) (db : Bool) (ds : Str) (b : Bool) :
    getDouble j k = .error .marleyError ∧ getLong j k = .error .marleyError ∧
    getBool j k = .error .marleyError ∧ getString j k = .error .marleyError ∧
    getDoubleD j k dd = .error .marleyError ∧ getLongD j k dl = .error .marleyError ∧
    getBoolD j k db = .error .marleyError ∧ getStringD j k ds = .error .marleyError ∧
    getObject j k b = .error .marleyError := by
  cases j <;> simp_all [getDouble, getLong, getBool, getString, getDoubleD, getLongD, getBoolD,
    getStringD, getObject, getWith, getWithDefault]

example : ∀ m, (JVal.int 3 : JVal Str) ≠ .obj m := by simp

/-- C05: with a missing key the getters without default throw `marley::Error`
and the getters with a default return the default. -/
theorem C05_getters_missing_key {F} (m : List (Str × JVal F)) (k : Str) (h : m.lookup k = none)
    (dl : Int) (dd : F ⊕ Int) (db : Bool) (ds : Str) :
    getDouble (.obj m) k = .error .marleyError ∧ getLong (.obj m) k = .error .marleyError ∧
    getBool (.obj m) k = .error .marleyError ∧ getString (.obj m) k = .error .marleyError ∧
    getDoubleD (.obj m) k dd = .ok dd ∧ getLongD (.obj m) k dl = .ok dl ∧
    getBoolD (.obj m) k db = .ok db ∧ getStringD (.obj m) k ds = .ok ds := by
  simp [getDouble, getLong, getBool, getString, getDoubleD, getLongD, getBoolD, getStringD,
    getWith, getWithDefault, mapFind_eq_lookup, h]

example : (List.lookup "b".toList [("a".toList, (JVal.int 1 : JVal Str))]) = none := by decide

/-- C05: with a key that is present, the variants with a default behave as the
variants without, and a value of the wrong type gives `marley::Error`. -/
theorem C05_getters_wrong_type {F} (m : List (Str × JVal F)) (k : Str) (v : JVal F)
    (h : m.lookup k = some v) (dl : Int) (dd : F ⊕ Int) (db : Bool) (ds : Str) :
    getDoubleD (.obj m) k dd = getDouble (.obj m) k ∧ getLongD (.obj m) k dl = getLong (.obj m) k ∧
    getBoolD (.obj m) k db = getBool (.obj m) k ∧ getStringD (.obj m) k ds = getString (.obj m) k ∧
    ((∀ b, v ≠ .bool b) → getBool (.obj m) k = .error .marleyError) ∧
    ((∀ s, v ≠ .str s) → getString (.obj m) k = .error .marleyError) ∧
    ((∀ n, v ≠ .int n) → getLong (.obj m) k = .error .marleyError) ∧
    ((∀ n, v ≠ .int n) → (∀ x, v ≠ .float x) → getDouble (.obj m) k = .error .marleyError) := by
  simp only [getDouble, getLong, getBool, getString, getDoubleD, getLongD, getBoolD, getStringD,
    getWith, getWithDefault, mapFind_eq_lookup, h, true_and]
  cases v <;> simp [toBoolOrThrow, toStringOrThrow, toLongOrThrow, toDoubleOrThrow]

example : (List.lookup "a".toList [("a".toList, (JVal.null : JVal Str))]) = some .null := by
  rfl

/-- C05: `get_bool` and, for stored doubles, `get_double` return exactly the
stored value. -/
theorem C05_get_bool_get_double {F} (m : List (Str × JVal F)) (k : Str) :
    (∀ b, m.lookup k = some (.bool b) → getBool (.obj m) k = .ok b) ∧
    (∀ x, m.lookup k = some (.float x) → getDouble (.obj m) k = .ok (.inl x)) := by
  constructor
  · intro b h; simp [getBool, getWith, mapFind_eq_lookup, h, toBoolOrThrow]
  · intro x h; simp [getDouble, getWith, mapFind_eq_lookup, h, toDoubleOrThrow]

example : (List.lookup "a".toList [("a".toList, (JVal.bool true : JVal Str))])
    = some (.bool true) := by rfl

/-- C05, `get_long` and `get_double` on a stored integer, partial: exact for
every `long` whose magnitude is an integer of at most 53 bits times a power of
two (in particular all `|n| ≤ 2^53`).  Missing from the full claim: the other
integers, see `C05_get_long_fails`. -/
theorem C05_get_long_partial {F} (m : List (Str × JVal F)) (k : Str) (n : Int)
    (h : m.lookup k = some (.int n)) (hr : longMin ≤ n ∧ n ≤ longMax)
    (a b : Nat) (ha : a ≤ 2 ^ 53) (hab : n.natAbs = a * 2 ^ b) :
    getLong (.obj m) k = .ok n ∧ getDouble (.obj m) k = .ok (.inr n) := by
  have hd : longToDouble n = n := by
    cases n with
    | ofNat n =>
      simp only [Int.natAbs, Int.ofNat_eq_natCast, Int.natAbs_natCast] at hab
      simp only [longToDouble]
      rw [hab, natToDouble_exact a b ha]
      rfl
    | negSucc n =>
      simp only [Int.natAbs] at hab
      simp only [longToDouble]
      have : n + 1 = a * 2 ^ b := hab
      rw [this, natToDouble_exact a b ha, ← this]
      rfl
  simp [getLong, getDouble, getWith, mapFind_eq_lookup, h, toLongOrThrow, toDoubleOrThrow, hd, hr]

example : (List.lookup "s".toList [("s".toList, (JVal.int (-123456) : JVal Str))])
    = some (.int (-123456)) ∧ ((-123456 : Int).natAbs = 123456 * 2 ^ 0) := by
  exact ⟨rfl, rfl⟩

/-- C05 as stated is false for large integers: `get_long` goes through a
`double`, so 2^53 + 1 comes back as 2^53, and the largest `long` becomes 2^63,
whose conversion back is undefined. -/
theorem C05_get_long_fails {F} :
    getLong (.obj [("n".toList, .int 9007199254740993)] : JVal F) "n".toList
      = .ok 9007199254740992 ∧
    getLong (.obj [("n".toList, .int 9223372036854775807)] : JVal F) "n".toList
      = .error .ub := by
  constructor <;>
  simp [getLong, getWith, mapFind, toLongOrThrow, longToDouble, natToDouble, roundDiv, longMin,
    longMax, Nat.log2]

/-- C05, `get_string`, partial: exact for strings without characters that need
escaping; in general the *escaped* text is returned. -/
theorem C05_get_string_partial {F} (m : List (Str × JVal F)) (k s : Str)
    (h : m.lookup k = some (.str s)) :
    getString (.obj m) k = .ok (jsonEscape s) ∧
    ((∀ c ∈ s, ¬ NeedsEscape c) → getString (.obj m) k = .ok s) := by
  have h1 : getString (.obj m) k = .ok (jsonEscape s) := by
    simp [getString, getWith, mapFind_eq_lookup, h, toStringOrThrow]
  exact ⟨h1, fun hp => by rw [h1, jsonEscape_plain hp]⟩

example : ∀ c ∈ "40Ar".toList, ¬ NeedsEscape c := by simp [NeedsEscape]

/-- C05 as stated is false for strings: `get_string` does not return a stored
string that contains a backslash. -/
theorem C05_get_string_fails {F} :
    getString (.obj [("f".toList, .str "C:\\x".toList)] : JVal F) "f".toList
      = .ok "C:\\\\x".toList := by
  simp [getString, getWith, mapFind, toStringOrThrow, jsonEscape, escapeChar]

/-- C05, `get_object`, partial: a stored object is returned as it is. -/
theorem C05_get_object_partial {F} (m : List (Str × JVal F)) (k : Str) (v : JVal F) (b : Bool)
    (h : m.lookup k = some v) : getObject (.obj m) k b = .ok v := by
  simp [getObject, mapFind_eq_lookup, h]

example : (List.lookup "o".toList [("o".toList, (JVal.obj [] : JVal Str))])
    = some (.obj []) := by rfl

/-- C05 as stated is false for `get_object`: a missing key never throws (the
error object is built but not thrown), and a value that is not an object is
returned without complaint. -/
theorem C05_get_object_fails {F} (k : Str) :
    getObject (.obj [] : JVal F) k true = .ok (.obj []) ∧
    getObject (.obj [(k, .null)] : JVal F) k true = .ok .null := by
  simp [getObject, mapFind]

end Marley.Props
