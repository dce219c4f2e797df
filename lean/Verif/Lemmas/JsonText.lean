import Verif.Spec.JsonText
import Verif.Lemmas.JsonExtend
import Verif.Lemmas.JsonRoundTrip
import Mathlib.Data.List.Sort

/-! The JSON parser reads the texts of the grammar. -/

set_option autoImplicit false

namespace Marley.Json
open Marley

variable {F : Type}

theorem parseString_text {v t : Str} (h : StringText v t) (acc rest : Str) :
    parseString acc (t ++ '"' :: rest) = .ok (acc ++ v) rest := by
  induction h generalizing acc with
  | nil => simp [parseString]
  | plain c v t h1 h2 _ ih =>
    rw [List.cons_append, parseString, ih]
    · simp
    · exact h1
    · exact h2
  | escape l c v t h _ ih =>
    simp only [escapes, List.mem_cons, Prod.mk.injEq, List.not_mem_nil, or_false] at h
    rcases h with ⟨rfl, rfl⟩ | ⟨rfl, rfl⟩ | ⟨rfl, rfl⟩ | ⟨rfl, rfl⟩ | ⟨rfl, rfl⟩ | ⟨rfl, rfl⟩ | ⟨rfl, rfl⟩ | ⟨rfl, rfl⟩ <;>
      simp [parseString, ih]

theorem isDigit_of {c : Char} (h : IsDigit c) : isDigit c = true := by
  simp only [IsDigit, List.mem_cons, List.not_mem_nil, or_false] at h
  rcases h with rfl | rfl | rfl | rfl | rfl | rfl | rfl | rfl | rfl | rfl <;> decide

/-- What a whole number consists of. -/
theorem whole_shape {n : Int} {t : Str} (h : Whole n t) :
    stol t = .ok n ∧ (∀ c ∈ t, isNumChar c = true) ∧ '.' ∉ t ∧ (∃ c u, t = c :: u ∧ (isDigit c = true ∨ c = '-')) ∧
    (splitSign t).1 ++ (splitSign t).2 = t ∧ (splitSign t).2 ≠ [] ∧ ∀ c ∈ (splitSign t).2, isDigit c = true := by
  have hdot : ∀ ds : Str, (∀ c ∈ ds, IsDigit c) → '.' ∉ ds := by
    intro ds h hm
    have := isDigit_of (h _ hm)
    revert this; decide
  cases h with
  | pos _ hd hr =>
    obtain ⟨hne, hall⟩ := hd
    cases t with
    | nil => exact absurd rfl hne
    | cons c u =>
      have hc := isDigit_of (hall c (by simp))
      have hs : splitSign (c :: u) = ([], c :: u) := by simp [splitSign, isDigit_ne_dash hc]
      have htw : (c :: u).takeWhile isDigit = c :: u := takeWhile_all (fun d hd => isDigit_of (hall d hd))
      refine ⟨?_, fun d hd => isDigit_isNumChar (isDigit_of (hall d hd)), hdot _ hall, ⟨c, u, rfl, .inl hc⟩, by rw [hs]; rfl,
        by rw [hs]; simp, by rw [hs]; exact fun d hd => isDigit_of (hall d hd)⟩
      unfold stol
      rw [hs]
      simp only [htw]
      rw [if_neg (by simp)]
      have : digitsVal (c :: u) = decimal (c :: u) := rfl
      rw [this]
      simp only [List.nil_eq, reduceCtorEq, if_false]
      rw [if_pos ⟨by simp only [longMin]; omega, hr⟩]
  | neg ds hd hr =>
    obtain ⟨hne, hall⟩ := hd
    have hs : splitSign ('-' :: ds) = (['-'], ds) := by simp [splitSign]
    have htw : ds.takeWhile isDigit = ds := takeWhile_all (fun d hd => isDigit_of (hall d hd))
    refine ⟨?_, ?_, ?_, ⟨'-', ds, rfl, .inr rfl⟩, by rw [hs]; rfl, by rw [hs]; exact hne,
      by rw [hs]; exact fun d hd => isDigit_of (hall d hd)⟩
    · unfold stol
      rw [hs]
      simp only [htw]
      rw [if_neg hne]
      have : digitsVal ds = decimal ds := rfl
      rw [this]
      simp only [if_true]
      rw [if_pos ⟨hr, by simp only [longMax]; omega⟩]
    · intro d hd
      rcases List.mem_cons.1 hd with rfl | hd
      · decide
      · exact isDigit_isNumChar (isDigit_of (hall d hd))
    · intro hm
      rcases List.mem_cons.1 hm with h | h
      · revert h; decide
      · exact hdot _ hall h

theorem fraction_shape {t : Str} (h : Fraction t) :
    (∀ c ∈ t, isNumChar c = true) ∧ '.' ∈ t ∧ (∃ c u, t = c :: u ∧ (isDigit c = true ∨ c = '-')) := by
  have key : ∀ ds fs : Str, Digits ds → (∀ c ∈ fs, IsDigit c) →
      (∀ c ∈ ds ++ '.' :: fs, isNumChar c = true) ∧ '.' ∈ ds ++ '.' :: fs ∧
      ∃ c u, ds ++ '.' :: fs = c :: u ∧ (isDigit c = true ∨ c = '-') := by
    intro ds fs hd hf
    refine ⟨?_, by simp, ?_⟩
    · intro c hc
      rcases List.mem_append.1 hc with hc | hc
      · exact isDigit_isNumChar (isDigit_of (hd.2 c hc))
      · rcases List.mem_cons.1 hc with rfl | hc
        · decide
        · exact isDigit_isNumChar (isDigit_of (hf c hc))
    · obtain ⟨hne, hall⟩ := hd
      cases ds with
      | nil => exact absurd rfl hne
      | cons c u => exact ⟨c, u ++ '.' :: fs, rfl, .inl (isDigit_of (hall c (by simp)))⟩
  cases h with
  | pos ds fs hd hf => exact key ds fs hd hf
  | neg ds fs hd hf =>
    obtain ⟨h1, h2, _⟩ := key ds fs hd hf
    refine ⟨?_, by simp, ⟨'-', _, rfl, .inr rfl⟩⟩
    intro c hc
    rcases List.mem_cons.1 hc with rfl | hc
    · decide
    · exact h1 c hc

theorem parseExponent_text (ops : FloatOps F) {e : Int} {u : Str} (hu : Whole e u) (val : Str) {c : Char} (hc : isNumEnd c = true)
    (rest : Str) : parseExponent ops val (u ++ c :: rest) = finishNumber ops val u e (c :: rest) := by
  obtain ⟨h1, _, _, ⟨d, w, hw, hd⟩, h2, h3, h4⟩ := whole_shape hu
  obtain ⟨_, _, _, hn⟩ := isNumEnd_facts hc
  have hs : splitSign (u ++ c :: rest) = ((splitSign u).1, (splitSign u).2 ++ c :: rest) := by
    subst hw
    simp only [splitSign, List.cons_append]
    split <;> simp
  unfold parseExponent
  rw [hs]
  simp only [takeWhile_append_stop h4 hn, dropWhile_append_stop h4 hn, hc, if_true, h2, h1]

/-- The parser reads numbers. -/
theorem parseNumber_text (ops : FloatOps F) {v : JVal F} {t : Str} (h : NumberText ops v t) {c : Char} (hc : isNumEnd c = true)
    (rest : Str) : parseNumber ops (t ++ c :: rest) = .ok v (c :: rest) ∧ ∃ d u, t = d :: u ∧ (isDigit d = true ∨ d = '-') := by
  obtain ⟨n1, n2, n3, n4⟩ := isNumEnd_facts hc
  have hne : ∀ {e : Int} {u : Str}, Whole e u → u ≠ [] := by
    intro e u hu
    obtain ⟨_, _, _, ⟨d, w, hw, _⟩, _⟩ := whole_shape hu
    rw [hw]; simp
  have hexp : ∀ (w : Str) (l : Char) (u : Str) (e : Int), (∀ c ∈ w, isNumChar c = true) → l = 'e' ∨ l = 'E' → Whole e u →
      parseNumber ops ((w ++ l :: u) ++ c :: rest) = finishNumber ops w u e (c :: rest) := by
    intro w l u e hw hl hu
    have hln : isNumChar l = false := by rcases hl with rfl | rfl <;> decide
    have hlE : l = 'E' ∨ l = 'e' := hl.symm
    unfold parseNumber
    rw [List.append_assoc, List.cons_append, takeWhile_append_stop hw hln, dropWhile_append_stop hw hln]
    simp only [hlE, if_true]
    exact parseExponent_text ops hu w hc rest
  have hhead : ∀ (w : Str) (x : Str), (∃ d u, w = d :: u ∧ (isDigit d = true ∨ d = '-')) →
      ∃ d u, w ++ x = d :: u ∧ (isDigit d = true ∨ d = '-') := by
    rintro w x ⟨d, u, rfl, hd⟩
    exact ⟨d, u ++ x, rfl, hd⟩
  cases h with
  | whole n _ hw =>
    obtain ⟨h1, h2, h3, h4, _⟩ := whole_shape hw
    refine ⟨?_, h4⟩
    unfold parseNumber
    rw [takeWhile_append_stop h2 n1, dropWhile_append_stop h2 n1]
    simp only [n2, n3, or_self, if_false, hc, if_true, finishNumber]
    rw [if_neg (by simpa [List.contains_eq_mem] using h3)]
    simp [h1]
  | fraction _ x hf hx =>
    obtain ⟨h1, h2, h3⟩ := fraction_shape hf
    refine ⟨?_, h3⟩
    unfold parseNumber
    rw [takeWhile_append_stop h1 n1, dropWhile_append_stop h1 n1]
    simp only [n2, n3, or_self, if_false, hc, if_true, finishNumber]
    rw [if_pos (by simpa [List.contains_eq_mem] using h2), hx]
  | wholeExp n e w l u hw hl hu =>
    obtain ⟨h1, h2, h3, h4, _⟩ := whole_shape hw
    refine ⟨?_, hhead _ _ h4⟩
    rw [hexp w l u e h2 hl hu, finishNumber, if_neg (by simpa [List.contains_eq_mem] using h3), if_pos (hne hu), h1]
  | fractionExp e x w l u hf hl hu hx =>
    obtain ⟨h1, h2, h3⟩ := fraction_shape hf
    refine ⟨?_, hhead _ _ h3⟩
    rw [hexp w l u e h1 hl hu, finishNumber, if_pos (by simpa [List.contains_eq_mem] using h2), hx]

/-! ### Maps -/

/-- The map that results from setting one member after the other. -/
def mapOf (ms : List (Str × JVal F)) : List (Str × JVal F) := ms.foldl (fun m p => mapSet m p.1 p.2) []

theorem mem_mapSet_iff {m : List (Str × JVal F)} (hs : m.Pairwise (fun p q => keyLt p.1 q.1 = true)) (k : Str) (v : JVal F)
    (p : Str × JVal F) : p ∈ mapSet m k v ↔ p = (k, v) ∨ (p ∈ m ∧ p.1 ≠ k) := by
  induction m with
  | nil => simp [mapSet]
  | cons q m ih =>
    obtain ⟨k', v'⟩ := q
    rw [List.pairwise_cons] at hs
    have ih := ih hs.2
    simp only [mapSet]
    split_ifs with h1 h2
    · subst h1
      have hne : ∀ p ∈ m, p.1 ≠ k := by
        intro p hp h
        have := hs.1 p hp
        simp only [h, keyLt_irrefl] at this
        cases this
      simp only [List.mem_cons]
      constructor
      · rintro (h | h)
        · exact .inl h
        · exact .inr ⟨.inr h, hne p h⟩
      · rintro (h | ⟨h | h, h'⟩)
        · exact .inl h
        · exact absurd (by rw [h]) h'
        · exact .inr h
    · have hne : ∀ p ∈ (k', v') :: m, p.1 ≠ k := by
        intro p hp h
        rcases List.mem_cons.1 hp with rfl | hp
        · exact h1 h.symm
        · have := keyLt_trans _ _ _ h2 (hs.1 p hp)
          rw [h, keyLt_irrefl] at this
          cases this
      rw [List.mem_cons]
      constructor
      · rintro (h | h)
        · exact .inl h
        · exact .inr ⟨h, hne p h⟩
      · rintro (h | ⟨h, _⟩)
        · exact .inl h
        · exact .inr h
    · rw [List.mem_cons, ih, List.mem_cons]
      constructor
      · rintro (h | h | ⟨h, h'⟩)
        · exact .inr ⟨.inl h, by rw [h]; exact fun h => h1 h.symm⟩
        · exact .inl h
        · exact .inr ⟨.inr h, h'⟩
      · rintro (h | ⟨h | h, h'⟩)
        · exact .inr (.inl h)
        · exact .inl h
        · exact .inr (.inr ⟨h, h'⟩)

theorem mapOf_isMapOf (ms : List (Str × JVal F)) : IsMapOf (mapOf ms) ms := by
  induction ms using List.reverseRecOn with
  | nil => exact ⟨by simp [mapOf], by simp [mapOf]⟩
  | append_singleton ms p ih =>
    obtain ⟨k0, v0⟩ := p
    have he : mapOf (ms ++ [(k0, v0)]) = mapSet (mapOf ms) k0 v0 := by simp [mapOf]
    rw [he]
    refine ⟨mapSet_sorted _ _ _ ih.1, fun k v => ?_⟩
    rw [mem_mapSet_iff ih.1, ih.2]
    constructor
    · rintro (h | ⟨⟨l, r, rfl, hr⟩, hk⟩)
      · cases h
        exact ⟨ms, [], rfl, by simp⟩
      · refine ⟨l, r ++ [(k0, v0)], by simp, ?_⟩
        intro p hp
        rcases List.mem_append.1 hp with hp | hp
        · exact hr p hp
        · simp only [List.mem_singleton] at hp
          rw [hp]
          exact fun h => hk h.symm
    · rintro ⟨l, r, he, hr⟩
      rcases List.eq_nil_or_concat r with rfl | ⟨r', q, rfl⟩
      · have := List.append_inj' he rfl
        exact .inl (by simpa using this.2.symm)
      · have he' : ms ++ [(k0, v0)] = (l ++ (k, v) :: r') ++ [q] := by simpa using he
        obtain ⟨h1, h2⟩ := List.append_inj' he' rfl
        have hq : q = (k0, v0) := by simpa using h2.symm
        refine .inr ⟨⟨l, r', h1, fun p hp => hr p (by simp [hp])⟩, ?_⟩
        have := hr q (by simp)
        rw [hq] at this
        exact fun h => this h.symm

theorem isMapOf_unique {m ms : List (Str × JVal F)} (h : IsMapOf m ms) : m = mapOf ms := by
  have h' := mapOf_isMapOf ms
  have hnd : ∀ l : List (Str × JVal F), l.Pairwise (fun p q => keyLt p.1 q.1 = true) → l.Nodup := by
    intro l hl
    refine hl.imp ?_
    rintro p q hpq rfl
    rw [keyLt_irrefl] at hpq
    cases hpq
  have hp : List.Perm m (mapOf ms) := by
    rw [List.perm_ext_iff_of_nodup (hnd _ h.1) (hnd _ h'.1)]
    rintro ⟨k, v⟩
    rw [h.2, h'.2]
  refine hp.eq_of_pairwise ?_ h.1 h'.1
  intro p q _ _ h1 h2
  have := keyLt_asymm _ _ h1
  rw [h2] at this
  cases this

/-! ### Values -/

/-- The beginning of a value is not mistaken for something else. -/
def Starts (t : Str) : Prop := ∃ c u, t = c :: u ∧ isSpace c = false ∧ c ≠ '/' ∧ c ≠ ']' ∧ c ≠ '}'

/-- What may follow the text of a value. -/
def Follows (v : JVal F) (rest : Str) : Prop :=
  ((∃ n, v = .int n) ∨ ∃ x, v = .float x) → ∃ c u, rest = c :: u ∧ isNumEnd c = true

theorem consumeWs_starts {g : Str} (hg : Trivia g) {t : Str} (ht : Starts t) (rest : Str) :
    consumeWs (g ++ (t ++ rest)) = t ++ rest := by
  obtain ⟨c, u, rfl, h1, h2, _⟩ := ht
  rw [consumeWs, skipWs_of_trivia hg, List.cons_append, skipWs_char h1 h2]

theorem gap_follows {v : JVal F} {g : Str} (hg : Gap v g) {c : Char} (hc : isNumEnd c = true) (rest : Str) :
    Follows v (g ++ c :: rest) := by
  obtain ⟨ht, h1, h2⟩ := hg
  intro hv
  have hh : g.head? ≠ some '/' := by
    rcases hv with ⟨n, rfl⟩ | ⟨x, rfl⟩
    · exact h1 n rfl
    · exact h2 x rfl
  cases ht with
  | nil => exact ⟨c, rest, rfl, hc⟩
  | blank d p hd _ =>
    refine ⟨d, p ++ c :: rest, rfl, ?_⟩
    simp only [List.mem_cons, List.not_mem_nil, or_false] at hd
    rcases hd with rfl | rfl | rfl | rfl | rfl | rfl <;> decide
  | line body p _ _ => simp at hh
  | block body p _ _ => simp at hh

theorem needsEscape_iff (c : Char) (h : ¬ NeedsEscape c) : escapeChar c = [c] := by
  simp only [NeedsEscape, List.mem_cons, List.not_mem_nil, or_false, not_or] at h
  obtain ⟨h1, h2, h3, h4, h5, h6, h7⟩ := h
  simp [escapeChar, h1, h2, h3, h4, h5, h6, h7]

/-- Reading a key. -/
theorem key_text {k kt g1 : Str} (h : KeyText k kt g1) {g : Str} (hg : Trivia g) (rest : Str) :
    ∃ s2, parseKey (consumeWs (g ++ (kt ++ (g1 ++ ':' :: rest)))) = .ok k s2 ∧ skipWs s2 = (some ':', rest) ∧
      jsonEscape k = k ∧ ∀ t, consumeWs (g ++ (kt ++ (g1 ++ ':' :: rest))) ≠ '}' :: t := by
  have hcolon : ∀ {p : Str}, Trivia p → skipWs (p ++ ':' :: rest) = (some ':', rest) := by
    intro p hp
    rw [skipWs_of_trivia hp, skipWs_char (by decide) (by decide)]
  cases h with
  | quoted t _ hk ht hg1 =>
    have hw : consumeWs (g ++ ('"' :: (t ++ ['"']) ++ (g1 ++ ':' :: rest))) = '"' :: (t ++ '"' :: (g1 ++ ':' :: rest)) := by
      rw [consumeWs, skipWs_of_trivia hg, List.cons_append, skipWs_char (by decide) (by decide)]
      simp
    rw [hw]
    refine ⟨g1 ++ ':' :: rest, ?_, hcolon hg1, jsonEscape_plain hk, by intro t h; cases h⟩
    rw [parseKey, parseString_text ht]
    rfl
  | bare _ hne hk h1 h2 h3 hg1 hh =>
    have hkc : ∀ c ∈ k, isKeyChar c = true := by
      intro c hc
      obtain ⟨a, b⟩ := hk c hc
      simp only [NeedsEscape, List.mem_cons, List.not_mem_nil, or_false, not_or] at a b
      simp [isKeyChar, isSpace, a, b]
    cases k with
    | nil => exact absurd rfl hne
    | cons c u =>
      have hcs : isSpace c = false := by
        have := hkc c (by simp)
        simp only [isKeyChar, Bool.not_eq_true', Bool.or_eq_false_iff] at this
        exact this.2
      have hsk : skipWs (c :: (u ++ (g1 ++ ':' :: rest))) = (some c, u ++ (g1 ++ ':' :: rest)) := by
        by_cases hc : c = '/'
        · subst hc
          rw [skipWs.eq_def]
          simp only [hcs, Bool.false_eq_true, if_false, if_true]
          cases u with
          | nil =>
            cases hg1 with
            | nil => rfl
            | blank d p hd _ =>
              simp only [List.mem_cons, List.not_mem_nil, or_false] at hd
              rcases hd with rfl | rfl | rfl | rfl | rfl | rfl <;> rfl
            | line body p _ _ => simp at hh
            | block body p _ _ => simp at hh
          | cons d w =>
            have e1 : d ≠ '/' := by rintro rfl; exact h2 rfl
            have e2 : d ≠ '*' := by rintro rfl; exact h3 rfl
            simp only [List.cons_append]
            split
            · next heq => cases heq; exact absurd rfl e1
            · next heq => cases heq; exact absurd rfl e2
            · rfl
        · exact skipWs_char hcs hc _
      have hw : consumeWs (g ++ (c :: u ++ (g1 ++ ':' :: rest))) = c :: (u ++ (g1 ++ ':' :: rest)) := by
        rw [consumeWs, skipWs_of_trivia hg, List.cons_append, hsk]
      rw [hw]
      have hstop : ∀ x : Str, ∃ d y, g1 ++ ':' :: x = d :: y ∧ isKeyChar d = false := by
        intro x
        cases hg1 with
        | nil => exact ⟨':', x, rfl, by decide⟩
        | blank d p hd _ =>
          refine ⟨d, _, rfl, ?_⟩
          simp only [List.mem_cons, List.not_mem_nil, or_false] at hd
          rcases hd with rfl | rfl | rfl | rfl | rfl | rfl <;> decide
        | line body p _ _ => simp at hh
        | block body p _ _ => simp at hh
      obtain ⟨d, y, hd, hdk⟩ := hstop rest
      refine ⟨g1 ++ ':' :: rest, ?_, hcolon hg1, jsonEscape_plain (fun c hc => (hk c hc).1), ?_⟩
      · have hq : c ≠ '"' := by
          rintro rfl
          exact (hk '"' (by simp)).1 (by simp [NeedsEscape])
        rw [parseKey]
        · rw [hd, ← List.cons_append, takeWhile_append_stop hkc hdk, dropWhile_append_stop hkc hdk]
        · intro t h
          cases h
          exact hq rfl
      · intro t h
        cases h
        exact h1 rfl

mutual
theorem value_text (ops : FloatOps F) : ∀ {v : JVal F} {t : Str}, ValueText ops v t →
    Starts t ∧ ∃ N, ∀ n, N ≤ n → ∀ rest, Follows v rest → parseNext ops n (t ++ rest) = .ok v rest
  | _, _, .null => by
    refine ⟨⟨_, _, rfl, by decide, by decide, by decide, by decide⟩, 1, fun n hn rest _ => ?_⟩
    obtain ⟨n, rfl⟩ : ∃ k, n = k + 1 := ⟨n - 1, by omega⟩
    rw [List.cons_append, parseNext, skipWs_char (by decide) (by decide)]
    simp [parseNull]
  | _, _, .yes => by
    refine ⟨⟨_, _, rfl, by decide, by decide, by decide, by decide⟩, 1, fun n hn rest _ => ?_⟩
    obtain ⟨n, rfl⟩ : ∃ k, n = k + 1 := ⟨n - 1, by omega⟩
    rw [List.cons_append, parseNext, skipWs_char (by decide) (by decide)]
    simp [parseBool]
  | _, _, .no => by
    refine ⟨⟨_, _, rfl, by decide, by decide, by decide, by decide⟩, 1, fun n hn rest _ => ?_⟩
    obtain ⟨n, rfl⟩ : ∃ k, n = k + 1 := ⟨n - 1, by omega⟩
    rw [List.cons_append, parseNext, skipWs_char (by decide) (by decide)]
    simp [parseBool]
  | _, _, .string v t h => by
    refine ⟨⟨_, _, rfl, by decide, by decide, by decide, by decide⟩, 1, fun n hn rest _ => ?_⟩
    obtain ⟨n, rfl⟩ : ∃ k, n = k + 1 := ⟨n - 1, by omega⟩
    rw [List.cons_append, parseNext, skipWs_char (by decide) (by decide)]
    have := parseString_text h [] rest
    simp [this]
  | _, _, .number v t h => by
    have hnum : (∃ n, v = .int n) ∨ ∃ x, v = .float x := by cases h <;> simp
    obtain ⟨_, d, u, ht, hd⟩ := parseNumber_text ops h (c := ' ') (by decide) []
    obtain ⟨h0, h1, _, _, _, _, _, _, h2, h3⟩ := digit_not_space hd
    refine ⟨⟨d, u, ht, h0, h1, h2, h3⟩, 1, fun n hn rest hf => ?_⟩
    obtain ⟨n, rfl⟩ : ∃ k, n = k + 1 := ⟨n - 1, by omega⟩
    obtain ⟨c, w, rfl, hc⟩ := hf hnum
    have hp := (parseNumber_text ops h hc w).1
    rw [ht] at hp ⊢
    have := parseNext_number ops n blank_nil hd (u ++ c :: w)
    rw [List.nil_append] at this
    rw [List.cons_append, this, ← List.cons_append, hp]
  | _, _, .array vs t h => by
    obtain ⟨N, hN⟩ := items_text ops h
    refine ⟨⟨_, _, rfl, by decide, by decide, by decide, by decide⟩, N + 1, fun n hn rest _ => ?_⟩
    obtain ⟨n, rfl⟩ : ∃ k, n = k + 1 := ⟨n - 1, by omega⟩
    rw [List.cons_append, parseNext, skipWs_char (by decide) (by decide)]
    have := hN n (by omega) [] rest
    simpa using this
  | _, _, .object m ms t h hm => by
    obtain ⟨N, hN⟩ := members_text ops h
    refine ⟨⟨_, _, rfl, by decide, by decide, by decide, by decide⟩, N + 1, fun n hn rest _ => ?_⟩
    obtain ⟨n, rfl⟩ : ∃ k, n = k + 1 := ⟨n - 1, by omega⟩
    rw [List.cons_append, parseNext, skipWs_char (by decide) (by decide)]
    have := hN n (by omega) [] rest
    rw [isMapOf_unique hm]
    simpa [mapOf] using this

theorem items_text (ops : FloatOps F) : ∀ {vs : List (JVal F)} {t : Str}, ItemsText ops vs t →
    ∃ N, ∀ n, N ≤ n → ∀ acc rest, parseArray ops n acc (t ++ rest) = .ok (.arr (acc ++ vs)) rest
  | _, _, .close g hg => by
    refine ⟨1, fun n hn acc rest => ?_⟩
    obtain ⟨n, rfl⟩ : ∃ k, n = k + 1 := ⟨n - 1, by omega⟩
    have : consumeWs (g ++ [']'] ++ rest) = ']' :: rest := by
      rw [List.append_assoc, consumeWs, skipWs_of_trivia hg, List.singleton_append, skipWs_char (by decide) (by decide)]
    rw [parseArray, this]
    simp
  | _, _, .last g v t g' hg hv hg' => by
    obtain ⟨hs, N, hN⟩ := value_text ops hv
    refine ⟨N + 1, fun n hn acc rest => ?_⟩
    obtain ⟨n, rfl⟩ : ∃ k, n = k + 1 := ⟨n - 1, by omega⟩
    have e : g ++ (t ++ (g' ++ [']'])) ++ rest = g ++ (t ++ (g' ++ ']' :: rest)) := by simp
    have hnb : ∀ u, t ++ (g' ++ ']' :: rest) ≠ ']' :: u := by
      obtain ⟨c, w, rfl, _, _, h, _⟩ := hs
      intro u hu
      cases hu
      exact h rfl
    have hend : consumeWs (g' ++ ']' :: rest) = ']' :: rest := by
      rw [consumeWs, skipWs_of_trivia hg'.1, skipWs_char (by decide) (by decide)]
    rw [parseArray, e, consumeWs_starts hg hs]
    split
    · next u hu => exact absurd hu (hnb u)
    · rw [hN n (by omega) _ (gap_follows hg' (by decide) rest)]
      dsimp only
      rw [hend]
      rfl
  | _, _, .more g v t g' vs u hg hv hg' hvs => by
    obtain ⟨hs, N, hN⟩ := value_text ops hv
    obtain ⟨M, hM⟩ := items_text ops hvs
    refine ⟨N + M + 1, fun n hn acc rest => ?_⟩
    obtain ⟨n, rfl⟩ : ∃ k, n = k + 1 := ⟨n - 1, by omega⟩
    have e : g ++ (t ++ (g' ++ ',' :: u)) ++ rest = g ++ (t ++ (g' ++ ',' :: (u ++ rest))) := by simp
    have hnb : ∀ w, t ++ (g' ++ ',' :: (u ++ rest)) ≠ ']' :: w := by
      obtain ⟨c, w, rfl, _, _, h, _⟩ := hs
      intro u hu
      cases hu
      exact h rfl
    have hend : consumeWs (g' ++ ',' :: (u ++ rest)) = ',' :: (u ++ rest) := by
      rw [consumeWs, skipWs_of_trivia hg'.1, skipWs_char (by decide) (by decide)]
    rw [parseArray, e, consumeWs_starts hg hs]
    split
    · next u hu => exact absurd hu (hnb u)
    · rw [hN n (by omega) _ (gap_follows hg' (by decide) _)]
      dsimp only
      rw [hend]
      have := hM n (by omega) (acc ++ [v]) rest
      simpa using this

theorem members_text (ops : FloatOps F) : ∀ {ms : List (Str × JVal F)} {t : Str}, MembersText ops ms t →
    ∃ N, ∀ n, N ≤ n → ∀ acc rest, parseObject ops n acc (t ++ rest) =
      .ok (.obj (ms.foldl (fun m p => mapSet m p.1 p.2) acc)) rest
  | _, _, .close g hg => by
    refine ⟨1, fun n hn acc rest => ?_⟩
    obtain ⟨n, rfl⟩ : ∃ k, n = k + 1 := ⟨n - 1, by omega⟩
    have : consumeWs (g ++ ['}'] ++ rest) = '}' :: rest := by
      rw [List.append_assoc, consumeWs, skipWs_of_trivia hg, List.singleton_append, skipWs_char (by decide) (by decide)]
    rw [parseObject, this]
    simp
  | _, _, .last g k kt g1 g2 v t g3 hg hk hg2 hv hg3 => by
    obtain ⟨hs, N, hN⟩ := value_text ops hv
    refine ⟨N + 1, fun n hn acc rest => ?_⟩
    obtain ⟨n, rfl⟩ : ∃ k, n = k + 1 := ⟨n - 1, by omega⟩
    have e : g ++ (kt ++ (g1 ++ ':' :: (g2 ++ (t ++ (g3 ++ ['}']))))) ++ rest =
        g ++ (kt ++ (g1 ++ ':' :: (g2 ++ (t ++ (g3 ++ '}' :: rest))))) := by simp
    obtain ⟨s2, h1, h2, h3, h4⟩ := key_text hk hg (g2 ++ (t ++ (g3 ++ '}' :: rest)))
    have hend : skipWs (g3 ++ '}' :: rest) = (some '}', rest) := by
      rw [skipWs_of_trivia hg3.1, skipWs_char (by decide) (by decide)]
    rw [parseObject, e]
    split
    · next u hu => exact absurd hu (h4 u)
    · rw [h1]
      dsimp only
      rw [h2]
      change (match parseNext ops n (consumeWs (g2 ++ (t ++ (g3 ++ '}' :: rest)))) with
        | PR.exc e => PR.exc e
        | PR.fuel => PR.fuel
        | PR.ok v s4 =>
          match skipWs s4 with
          | (some ',', t) => parseObject ops n (mapSet acc (jsonEscape k) v) t
          | (some '}', t) => PR.ok (.obj (mapSet acc (jsonEscape k) v)) t
          | _ => PR.exc .marleyError) = _
      rw [consumeWs_starts hg2 hs, hN n (by omega) _ (gap_follows hg3 (by decide) rest)]
      dsimp only
      rw [hend, h3]
      rfl
  | _, _, .more g k kt g1 g2 v t g3 ms u hg hk hg2 hv hg3 hms => by
    obtain ⟨hs, N, hN⟩ := value_text ops hv
    obtain ⟨M, hM⟩ := members_text ops hms
    refine ⟨N + M + 1, fun n hn acc rest => ?_⟩
    obtain ⟨n, rfl⟩ : ∃ k, n = k + 1 := ⟨n - 1, by omega⟩
    have e : g ++ (kt ++ (g1 ++ ':' :: (g2 ++ (t ++ (g3 ++ ',' :: u))))) ++ rest =
        g ++ (kt ++ (g1 ++ ':' :: (g2 ++ (t ++ (g3 ++ ',' :: (u ++ rest)))))) := by simp
    obtain ⟨s2, h1, h2, h3, h4⟩ := key_text hk hg (g2 ++ (t ++ (g3 ++ ',' :: (u ++ rest))))
    have hend : skipWs (g3 ++ ',' :: (u ++ rest)) = (some ',', u ++ rest) := by
      rw [skipWs_of_trivia hg3.1, skipWs_char (by decide) (by decide)]
    rw [parseObject, e]
    split
    · next u hu => exact absurd hu (h4 u)
    · rw [h1]
      dsimp only
      rw [h2]
      change (match parseNext ops n (consumeWs (g2 ++ (t ++ (g3 ++ ',' :: (u ++ rest))))) with
        | PR.exc e => PR.exc e
        | PR.fuel => PR.fuel
        | PR.ok v s4 =>
          match skipWs s4 with
          | (some ',', t) => parseObject ops n (mapSet acc (jsonEscape k) v) t
          | (some '}', t) => PR.ok (.obj (mapSet acc (jsonEscape k) v)) t
          | _ => PR.exc .marleyError) = _
      rw [consumeWs_starts hg2 hs, hN n (by omega) _ (gap_follows hg3 (by decide) _)]
      dsimp only
      rw [hend, h3]
      exact hM n (by omega) _ rest
end

end Marley.Json
