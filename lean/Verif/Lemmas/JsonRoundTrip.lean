import Verif.Lemmas.Json
import Verif.Spec.Json

/-! Printer/parser inversion for the JSON model. -/

set_option autoImplicit false

namespace Marley.Json
open Marley

/-- Documents whose doubles all survive text. -/
abbrev WF {F} (ops : FloatOps F) (v : JVal F) : Prop := Holdable (FloatOk ops) v

mutual
/-- What a value becomes after being written and read: every object is rebuilt
with each key escaped once more. -/
def reload {F} : JVal F → JVal F
  | .arr l => .arr (reloadList l)
  | .obj m => .obj (reloadMap [] m)
  | v => v
/-- Elements of an array. -/
def reloadList {F} : List (JVal F) → List (JVal F)
  | [] => []
  | v :: l => reload v :: reloadList l
/-- Entries of an object, added to the map read so far. -/
def reloadMap {F} (acc : List (Str × JVal F)) : List (Str × JVal F) → List (Str × JVal F)
  | [] => acc
  | (k, v) :: m => reloadMap (mapSet acc (jsonEscape k) (reload v)) m
end

/-- The stream continues with a character that may follow a number. -/
def Delim (rest : Str) : Prop := ∃ d t, rest = d :: t ∧ isNumEnd d = true

theorem digit_not_space {c : Char} (h : isDigit c = true ∨ c = '-') :
    isSpace c = false ∧ c ≠ '/' ∧ c ≠ '[' ∧ c ≠ '{' ∧ c ≠ '"' ∧ c ≠ 't' ∧ c ≠ 'f' ∧ c ≠ 'n'
      ∧ c ≠ ']' ∧ c ≠ '}' := by
  have hs : isSpace c = false := by
    by_contra hc
    have hc : isSpace c = true := by simpa using hc
    rcases isSpace_cases hc with rfl | rfl | rfl | rfl | rfl | rfl <;> revert h <;> decide
  refine ⟨hs, ?_, ?_, ?_, ?_, ?_, ?_, ?_, ?_, ?_⟩ <;> (rintro rfl; revert h; decide)

/-- `parseNext` on a text that starts (after blanks) with a number. -/
theorem parseNext_number {F} (ops : FloatOps F) (n : Nat) {ws : Str} (hws : Blank ws) {c : Char}
    (h : isDigit c = true ∨ c = '-') (t : Str) :
    parseNext ops (n + 1) (ws ++ c :: t) = parseNumber ops (c :: t) := by
  obtain ⟨h0, h1, h2, h3, h4, h5, h6, h7, _, _⟩ := digit_not_space h
  rw [parseNext, skipWs_blank_char hws h0 h1]
  have : (isDigit c || decide (c = '-')) = true := by simpa using h
  simp [h2, h3, h4, h5, h6, h7]
  intro ha hb
  rcases h with h | h
  · rw [h] at ha; simp at ha
  · exact absurd h hb

/-- First character of a printed value. -/
theorem print_head {F} (ops : FloatOps F) (step : Nat) (p : Bool) (ind : Nat) (v : JVal F)
    (h : WF ops v) : ∃ c t, print ops step p ind v = c :: t ∧ isSpace c = false ∧ c ≠ '/' ∧
      c ≠ ']' := by
  cases h with
  | null => exact ⟨'n', "ull".toList, by simp [print], by decide⟩
  | bool b => cases b
              · exact ⟨'f', "alse".toList, by simp [print], by decide⟩
              · exact ⟨'t', "rue".toList, by simp [print], by decide⟩
  | int n _ _ =>
    cases n with
    | ofNat n =>
      obtain ⟨c, t, e, hc⟩ := natText_head_ne n
      obtain ⟨h0, h1, _, _, _, _, _, _, h8, _⟩ := digit_not_space (Or.inl hc)
      exact ⟨c, t, by simp [print, intText, e], h0, h1, h8⟩
    | negSucc n => exact ⟨'-', _, by simp only [print, intText]; rfl, by decide⟩
  | float x hx =>
    obtain ⟨⟨c, t, e, hc⟩, _⟩ := hx
    obtain ⟨h0, h1, _, _, _, _, _, _, h8, _⟩ := digit_not_space hc
    exact ⟨c, t, by simp [print, e], h0, h1, h8⟩
  | str s => exact ⟨'"', _, by simp only [print]; rfl, by decide⟩
  | arr l _ => exact ⟨'[', _, by simp only [print, List.cons_append]; rfl, by decide⟩
  | obj m _ _ => exact ⟨'{', _, by simp only [print, List.cons_append]; rfl, by decide⟩

/-- The statement proved by induction for every value. -/
def RT {F} (ops : FloatOps F) (step : Nat) (p : Bool) (v : JVal F) : Prop :=
  ∀ ind ws rest, Blank ws → Delim rest →
    ∃ N, ∀ n, N ≤ n →
      parseNext ops n (ws ++ (print ops step p ind v ++ rest)) = .ok (reload v) rest

theorem delim_blank_close {ws : Str} (hws : Blank ws) {c : Char} (hc : isNumEnd c = true)
    (rest : Str) : Delim (ws ++ c :: rest) := by
  cases ws with
  | nil => exact ⟨c, rest, rfl, hc⟩
  | cons d t => exact ⟨d, t ++ c :: rest, rfl, by simp [isNumEnd, hws d (by simp)]⟩

/-- Array loop: one element and the remaining ones. -/
theorem parseArray_print {F} (ops : FloatOps F) (step : Nat) (p : Bool) (ind : Nat)
    (l : List (JVal F)) :
    ∀ (v : JVal F), WF ops v → RT ops step p v → (∀ w ∈ l, WF ops w) → (∀ w ∈ l, RT ops step p w) →
    ∀ (acc : List (JVal F)) (ws ws2 rest : Str), Blank ws → Blank ws2 →
    ∃ N, ∀ n, N ≤ n →
      parseArray ops n acc (ws ++ (print ops step p ind v ++
        (printList ops step p ind false l ++ (ws2 ++ ']' :: rest))))
      = .ok (.arr (acc ++ reload v :: reloadList l)) rest := by
  induction l with
  | nil =>
    intro v hv hrt _ _ acc ws ws2 rest hws hws2
    obtain ⟨N, hN⟩ := hrt ind [] (ws2 ++ ']' :: rest) blank_nil
      (delim_blank_close hws2 (by decide) rest)
    refine ⟨N + 1, fun n hn => ?_⟩
    obtain ⟨n, rfl⟩ : ∃ m, n = m + 1 := ⟨n - 1, by omega⟩
    obtain ⟨c, t, e, h0, h1, h2⟩ := print_head ops step p ind v hv
    have hN' := hN n (by omega)
    simp only [printList, List.nil_append] at hN' ⊢
    rw [e] at hN' ⊢
    simp only [List.cons_append] at hN' ⊢
    rw [parseArray, consumeWs_blank_char hws h0 h1]
    split
    · next t' heq => cases heq; exact absurd rfl h2
    · rw [hN']
      simp only
      rw [consumeWs_blank_char hws2 (by decide) (by decide)]
      simp [reloadList]
  | cons w l ih =>
    intro v hv hrt hwf hrts acc ws ws2 rest hws hws2
    obtain ⟨N1, hN1⟩ := ih w (hwf w (by simp)) (hrts w (by simp))
      (fun x hx => hwf x (by simp [hx])) (fun x hx => hrts x (by simp [hx]))
      (acc ++ [reload v]) ((if p then ['\n'] else []) ++ spaces ind) ws2 rest
      (blank_append (blank_nl p) (blank_spaces ind)) hws2
    obtain ⟨N, hN⟩ := hrt ind [] (',' :: ((if p then ['\n'] else []) ++ spaces ind ++
      (print ops step p ind w ++ (printList ops step p ind false l ++ (ws2 ++ ']' :: rest)))))
      blank_nil ⟨_, _, rfl, by decide⟩
    refine ⟨max N N1 + 1, fun n hn => ?_⟩
    obtain ⟨n, rfl⟩ : ∃ m, n = m + 1 := ⟨n - 1, by omega⟩
    obtain ⟨c, t, e, h0, h1, h2⟩ := print_head ops step p ind v hv
    have hN' := hN n (by omega)
    have hN1' := hN1 n (by omega)
    simp only [printList, List.nil_append] at hN' ⊢
    rw [e] at hN' ⊢
    simp only [List.cons_append, List.append_assoc, Bool.false_eq_true, if_false] at hN' hN1' ⊢
    rw [parseArray, consumeWs_blank_char hws h0 h1]
    split
    · next t' heq => cases heq; exact absurd rfl h2
    · rw [hN']
      simp only
      have : ∀ u, consumeWs (',' :: u) = ',' :: u := fun u =>
        consumeWs_blank_char blank_nil (by decide) (by decide) u
      rw [this]
      simp only
      rw [hN1']
      simp [reloadList]

/-- One step of the object loop on a quoted, escaped key. -/
theorem parseObject_quoted {F} (ops : FloatOps F) (n : Nat) (acc : List (Str × JVal F))
    {ws : Str} (hws : Blank ws) (k u : Str) :
    parseObject ops (n + 1) acc (ws ++ '"' :: (jsonEscape k ++ '"' :: u)) =
      match skipWs u with
        | (some ':', s3) =>
          match parseNext ops n (consumeWs s3) with
          | .exc e => .exc e
          | .fuel => .fuel
          | .ok v s4 =>
            match skipWs s4 with
            | (some ',', t) => parseObject ops n (mapSet acc (jsonEscape k) v) t
            | (some '}', t) => .ok (.obj (mapSet acc (jsonEscape k) v)) t
            | _ => .exc .marleyError
        | _ => .exc .marleyError := by
  rw [parseObject, consumeWs_blank_char hws (by decide) (by decide)]
  split
  · next t heq => simp at heq
  · have : parseKey ('"' :: (jsonEscape k ++ '"' :: u)) = .ok k u := by
      simp [parseKey, parseString_escape]
    rw [this]
    rfl

/-- Object loop: one entry and the remaining ones. -/
theorem parseObject_print {F} (ops : FloatOps F) (step : Nat) (p : Bool) (ind : Nat)
    (m : List (Str × JVal F)) :
    ∀ (k : Str) (v : JVal F), WF ops v → RT ops step p v →
      (∀ q ∈ m, WF ops q.2) → (∀ q ∈ m, RT ops step p q.2) →
    ∀ (acc : List (Str × JVal F)) (ws ws2 rest : Str), Blank ws → Blank ws2 →
    ∃ N, ∀ n, N ≤ n →
      parseObject ops n acc (ws ++ ('"' :: (jsonEscape k ++ ('"' ::
        ((if p then " : ".toList else [':']) ++ (print ops step p ind v ++
        (printMap ops step p ind false m ++ (ws2 ++ '}' :: rest))))))))
      = .ok (.obj (reloadMap (mapSet acc (jsonEscape k) (reload v)) m)) rest := by
  induction m with
  | nil =>
    intro k v hv hrt _ _ acc ws ws2 rest hws hws2
    obtain ⟨N, hN⟩ := hrt ind [] (ws2 ++ '}' :: rest) blank_nil
      (delim_blank_close hws2 (by decide) rest)
    refine ⟨N + 1, fun n hn => ?_⟩
    obtain ⟨n, rfl⟩ : ∃ m, n = m + 1 := ⟨n - 1, by omega⟩
    obtain ⟨c, t, e, h0, h1, h2⟩ := print_head ops step p ind v hv
    have hN' := hN n (by omega)
    simp only [printMap, List.nil_append] at hN' ⊢
    rw [e] at hN' ⊢
    simp only [List.cons_append] at hN' ⊢
    rw [parseObject_quoted ops n acc hws]
    have hcolon : ∀ u, skipWs ((if p then " : ".toList else [':']) ++ u) =
        (some ':', (if p then [' '] else []) ++ u) := by
      intro u
      cases p
      · simpa using skipWs_char (c := ':') (by decide) (by decide) u
      · have : Blank [' '] := by simp [Blank, isSpace]
        simpa using skipWs_blank_char this (c := ':') (by decide) (by decide) (' ' :: u)
    have hsp : Blank (if p then [' '] else []) := by cases p <;> simp [Blank, isSpace]
    rw [hcolon]
    simp only
    rw [consumeWs_blank_char hsp h0 h1, hN']
    simp only
    rw [skipWs_blank_char hws2 (by decide) (by decide)]
    simp [reloadMap]
  | cons q m ih =>
    obtain ⟨k2, w⟩ := q
    intro k v hv hrt hwf hrts acc ws ws2 rest hws hws2
    obtain ⟨N1, hN1⟩ := ih k2 w (hwf _ (List.mem_cons_self)) (hrts _ (List.mem_cons_self))
      (fun x hx => hwf x (by simp [hx])) (fun x hx => hrts x (by simp [hx]))
      (mapSet acc (jsonEscape k) (reload v)) ((if p then ['\n'] else []) ++ spaces ind) ws2 rest
      (blank_append (blank_nl p) (blank_spaces ind)) hws2
    obtain ⟨N, hN⟩ := hrt ind [] (',' :: ((if p then ['\n'] else []) ++ spaces ind ++
      ('"' :: (jsonEscape k2 ++ ('"' ::
        ((if p then " : ".toList else [':']) ++ (print ops step p ind w ++
        (printMap ops step p ind false m ++ (ws2 ++ '}' :: rest)))))))))
      blank_nil ⟨_, _, rfl, by decide⟩
    refine ⟨max N N1 + 1, fun n hn => ?_⟩
    obtain ⟨n, rfl⟩ : ∃ m, n = m + 1 := ⟨n - 1, by omega⟩
    obtain ⟨c, t, e, h0, h1, h2⟩ := print_head ops step p ind v hv
    have hN' := hN n (by omega)
    have hN1' := hN1 n (by omega)
    simp only [printMap, List.nil_append] at hN' ⊢
    rw [e] at hN' ⊢
    simp only [List.cons_append, List.append_assoc, Bool.false_eq_true, if_false,
      List.nil_append] at hN' hN1' ⊢
    rw [parseObject_quoted ops n acc hws]
    have hcolon : ∀ u, skipWs ((if p then " : ".toList else [':']) ++ u) =
        (some ':', (if p then [' '] else []) ++ u) := by
      intro u
      cases p
      · simpa using skipWs_char (c := ':') (by decide) (by decide) u
      · have : Blank [' '] := by simp [Blank, isSpace]
        simpa using skipWs_blank_char this (c := ':') (by decide) (by decide) (' ' :: u)
    have hsp : Blank (if p then [' '] else []) := by cases p <;> simp [Blank, isSpace]
    rw [hcolon]
    simp only
    rw [consumeWs_blank_char hsp h0 h1, hN']
    simp only
    have : ∀ u, skipWs (',' :: u) = (some ',', u) := fun u =>
      skipWs_char (by decide) (by decide) u
    rw [this]
    simp only
    rw [hN1']
    simp [reloadMap]

theorem parse_obj_text {F} (ops : FloatOps F) (step : Nat) (p : Bool) (ind : Nat)
    (m : List (Str × JVal F)) (hwf : ∀ q ∈ m, WF ops q.2) (hrt : ∀ q ∈ m, RT ops step p q.2)
    (ws rest : Str) (hws : Blank ws) :
    ∃ N, ∀ n, N ≤ n →
      parseNext ops n (ws ++ (print ops step p ind (.obj m) ++ rest)) = .ok (reload (.obj m)) rest := by
  have hstep : ∀ n u, parseNext ops (n + 1) (ws ++ '{' :: u) = parseObject ops n [] u := by
    intro n u
    rw [parseNext, skipWs_blank_char hws (by decide) (by decide)]
    simp
  cases m with
  | nil =>
    refine ⟨2, fun n hn => ?_⟩
    obtain ⟨n, rfl⟩ : ∃ m, n = m + 1 + 1 := ⟨n - 2, by omega⟩
    simp only [print, printMap, List.append_nil, List.cons_append, List.append_assoc]
    rw [hstep]
    have hb : Blank ((if p then ['\n'] else []) ++ ((if p then ['\n'] else []) ++ spaces ind)) :=
      blank_append (blank_nl p) (blank_append (blank_nl p) (blank_spaces ind))
    rw [parseObject]
    have := consumeWs_blank_char hb (c := '}') (by decide) (by decide) rest
    simp only [List.append_assoc, List.nil_append] at this ⊢
    rw [this]
    simp [reload, reloadMap]
  | cons q m =>
    obtain ⟨k, v⟩ := q
    obtain ⟨N, hN⟩ := parseObject_print ops step p (if p then ind + step else ind) m k v
      (hwf _ List.mem_cons_self) (hrt _ List.mem_cons_self)
      (fun x hx => hwf x (by simp [hx])) (fun x hx => hrt x (by simp [hx])) []
      ((if p then ['\n'] else []) ++ spaces (if p then ind + step else ind))
      ((if p then ['\n'] else []) ++ spaces ind) rest
      (blank_append (blank_nl p) (blank_spaces _)) (blank_append (blank_nl p) (blank_spaces _))
    refine ⟨N + 1, fun n hn => ?_⟩
    obtain ⟨n, rfl⟩ : ∃ m, n = m + 1 := ⟨n - 1, by omega⟩
    have := hN n (by omega)
    simp only [print, printMap, if_true, List.cons_append, List.append_assoc, List.nil_append]
      at this ⊢
    rw [hstep, this]
    simp [reload, reloadMap]

theorem roundtrip {F} (ops : FloatOps F) (step : Nat) (p : Bool) (v : JVal F) (h : WF ops v) :
    RT ops step p v := by
  induction h with
  | null =>
    intro ind ws rest hws _
    refine ⟨1, fun n hn => ?_⟩
    obtain ⟨n, rfl⟩ : ∃ m, n = m + 1 := ⟨n - 1, by omega⟩
    rw [parseNext]
    have := skipWs_blank_char hws (c := 'n') (by decide) (by decide) ('u' :: 'l' :: 'l' :: rest)
    simp [print] at this ⊢
    rw [this]
    simp [parseNull, reload]
  | bool b =>
    intro ind ws rest hws _
    refine ⟨1, fun n hn => ?_⟩
    obtain ⟨n, rfl⟩ : ∃ m, n = m + 1 := ⟨n - 1, by omega⟩
    rw [parseNext]
    cases b
    · have := skipWs_blank_char hws (c := 'f') (by decide) (by decide)
        ('a' :: 'l' :: 's' :: 'e' :: rest)
      simp [print] at this ⊢
      rw [this]
      simp [parseBool, reload]
    · have := skipWs_blank_char hws (c := 't') (by decide) (by decide)
        ('r' :: 'u' :: 'e' :: rest)
      simp [print] at this ⊢
      rw [this]
      simp [parseBool, reload]
  | int i h1 h2 =>
    intro ind ws rest hws hd
    obtain ⟨d, t, rfl, hd⟩ := hd
    refine ⟨1, fun n hn => ?_⟩
    obtain ⟨n, rfl⟩ : ∃ m, n = m + 1 := ⟨n - 1, by omega⟩
    have hp := parseNumber_int ops ⟨h1, h2⟩ hd t
    simp only [print, reload]
    have : ∃ c u, intText i = c :: u ∧ (isDigit c = true ∨ c = '-') := by
      cases i with
      | ofNat n => obtain ⟨c, u, e, hc⟩ := natText_head_ne n; exact ⟨c, u, e, Or.inl hc⟩
      | negSucc n => exact ⟨'-', _, rfl, Or.inr rfl⟩
    obtain ⟨c, u, e, hc⟩ := this
    rw [e] at hp ⊢
    rw [List.cons_append] at hp ⊢
    rw [parseNext_number ops n hws hc, hp]
  | float x hx =>
    intro ind ws rest hws hd
    obtain ⟨d, t, rfl, hd⟩ := hd
    obtain ⟨⟨c, u, e, hc⟩, hp⟩ := hx
    refine ⟨1, fun n hn => ?_⟩
    obtain ⟨n, rfl⟩ : ∃ m, n = m + 1 := ⟨n - 1, by omega⟩
    have hp := hp d t hd
    simp only [print, reload]
    rw [e] at hp ⊢
    rw [List.cons_append] at hp ⊢
    rw [parseNext_number ops n hws hc, hp]
  | str s =>
    intro ind ws rest hws _
    refine ⟨1, fun n hn => ?_⟩
    obtain ⟨n, rfl⟩ : ∃ m, n = m + 1 := ⟨n - 1, by omega⟩
    simp only [print, List.cons_append, List.append_assoc, List.nil_append]
    rw [parseNext, skipWs_blank_char hws (by decide) (by decide)]
    simp [parseString_escape, reload]
  | arr l hl ih =>
    intro ind ws rest hws _
    have hstep : ∀ n u, parseNext ops (n + 1) (ws ++ '[' :: u) = parseArray ops n [] u := by
      intro n u
      rw [parseNext, skipWs_blank_char hws (by decide) (by decide)]
      simp
    cases l with
    | nil =>
      refine ⟨2, fun n hn => ?_⟩
      obtain ⟨n, rfl⟩ : ∃ m, n = m + 1 + 1 := ⟨n - 2, by omega⟩
      simp only [print, printList, List.append_nil, List.cons_append, List.append_assoc]
      rw [hstep]
      have hb : Blank ((if p then ['\n'] else []) ++ ((if p then ['\n'] else []) ++ spaces ind)) :=
        blank_append (blank_nl p) (blank_append (blank_nl p) (blank_spaces ind))
      rw [parseArray]
      have := consumeWs_blank_char hb (c := ']') (by decide) (by decide) rest
      simp only [List.append_assoc, List.nil_append] at this ⊢
      rw [this]
      simp [reload, reloadList]
    | cons v l =>
      obtain ⟨N, hN⟩ := parseArray_print ops step p (if p then ind + step else ind) l v
        (hl _ List.mem_cons_self) (ih _ List.mem_cons_self)
        (fun x hx => hl x (by simp [hx])) (fun x hx => ih x (by simp [hx])) []
        ((if p then ['\n'] else []) ++ spaces (if p then ind + step else ind))
        ((if p then ['\n'] else []) ++ spaces ind) rest
        (blank_append (blank_nl p) (blank_spaces _)) (blank_append (blank_nl p) (blank_spaces _))
      refine ⟨N + 1, fun n hn => ?_⟩
      obtain ⟨n, rfl⟩ : ∃ m, n = m + 1 := ⟨n - 1, by omega⟩
      have := hN n (by omega)
      simp only [print, printList, if_true, List.cons_append, List.append_assoc, List.nil_append]
        at this ⊢
      rw [hstep, this]
      simp [reload, reloadList]
  | obj m hs hm ih =>
    intro ind ws rest hws _
    exact parse_obj_text ops step p ind m hm ih ws rest hws

theorem jsonEscape_plain {s : Str} (h : ∀ c ∈ s, ¬ NeedsEscape c) : jsonEscape s = s := by
  induction s with
  | nil => rfl
  | cons c s ih =>
    have hc := h c (by simp)
    simp only [NeedsEscape, List.mem_cons, List.not_mem_nil, or_false, not_or] at hc
    have : escapeChar c = [c] := by simp [escapeChar, hc]
    have ih := ih (fun d hd => h d (by simp [hd]))
    simp only [jsonEscape, List.flatMap_cons, this] at ih ⊢
    simp [ih]

theorem reload_plain {F} (ops : FloatOps F) (v : JVal F) (hw : WF ops v) (hp : PlainKeys v) :
    reload v = v := by
  induction hw with
  | null | bool | int | float | str => simp [reload]
  | arr l hl ih =>
    cases hp with
    | arr _ hpl =>
      simp only [reload, JVal.arr.injEq]
      clear hl
      induction l with
      | nil => rfl
      | cons v l ihl =>
        simp only [reloadList]
        rw [ih v (by simp) (hpl v (by simp)),
          ihl (fun x hx => ih x (by simp [hx])) (fun x hx => hpl x (by simp [hx]))]
  | obj m hs hm ih =>
    cases hp with
    | obj _ hk hv =>
      simp only [reload, JVal.obj.injEq]
      have gen : ∀ (acc : List (Str × JVal F)), (acc ++ m).Pairwise (fun p q => keyLt p.1 q.1 = true) →
          reloadMap acc m = acc ++ m := by
        clear hs hm
        induction m with
        | nil => intro acc _; simp [reloadMap]
        | cons q m ihm =>
          intro acc hacc
          obtain ⟨k, v⟩ := q
          simp only [reloadMap]
          rw [ih _ List.mem_cons_self (hv _ List.mem_cons_self)]
          have hke : jsonEscape k = k := jsonEscape_plain (hk (k, v) List.mem_cons_self)
          rw [hke]
          have hlast : ∀ p ∈ acc, keyLt p.1 k = true := by
            intro p hp
            exact (List.pairwise_append.1 hacc).2.2 p hp (k, v) List.mem_cons_self
          rw [mapSet_append acc k v hlast]
          rw [ihm (fun x hx => ih x (by simp [hx])) (fun x hx => hk x (by simp [hx]))
            (fun x hx => hv x (by simp [hx])) (acc ++ [(k, v)]) (by simpa using hacc)]
          simp
      simpa using gen [] (by simpa using hs)

/-- Reading back the dump of an object, whatever follows it in the stream. -/
theorem loadStream_dump {F} (ops : FloatOps F) (step : Int) (m : List (Str × JVal F))
    (h : WF ops (.obj m)) (rest : Str) :
    loadStream ops (dumpString ops step (.obj m) ++ rest) = .ok (reload (.obj m)) rest := by
  have hwf : ∀ q ∈ m, WF ops q.2 := by cases h; assumption
  have key : ∀ (st : Nat) (p : Bool),
      loadStream ops (print ops st p 0 (.obj m) ++ rest) = .ok (reload (.obj m)) rest := by
    intro st p
    obtain ⟨N, hN⟩ := parse_obj_text ops st p 0 m hwf
      (fun q hq => roundtrip ops st p q.2 (hwf q hq)) [] rest blank_nil
    simp only [List.nil_append] at hN
    have hhead : ∃ u, print ops st p 0 (.obj m) ++ rest = '{' :: u := by
      simp only [print, List.cons_append]
      exact ⟨_, rfl⟩
    obtain ⟨u, hu⟩ := hhead
    rw [hu] at hN ⊢
    unfold loadStream
    rw [skipWs_char (by decide) (by decide)]
    simp only
    have hf := (parse_fuel ops (2 * ('{' :: u).length + 3)).1 ('{' :: u) (by omega)
    have hmono := parseNext_mono ops (Nat.le_max_left (2 * ('{' :: u).length + 3) N) ('{' :: u) hf
    rw [← hmono]
    exact hN _ (Nat.le_max_right _ _)
  unfold dumpString
  split
  · exact key _ _
  · exact key _ _

end Marley.Json
