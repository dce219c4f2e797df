import Verif.Lemmas.JsonText
import Verif.Props.Json

/-!
# C120: JSON texts as people write them
-/

set_option autoImplicit false

namespace Marley.Props
open Marley Marley.Json

variable {F : Type}

/-- C120: an object with whatever layout, comments, keys with or without quotes, escapes and commas is read as what it stands for;
what follows is left in the stream.  Missing from the full claim: keys with characters that need escaping (C01_dump_load_fails),
comments directly behind a number or a key without quotes (C120_comment_violated), and escapes with a character number. -/
theorem C120_load_partial (ops : FloatOps F) (g t rest : Str) (m : List (Str × JVal F)) (hg : Trivia g)
    (h : ValueText ops (.obj m) t) :
    load ops (g ++ (t ++ rest)) = some (.ok (.obj m)) ∧ loadStream ops (g ++ (t ++ rest)) = .ok (.obj m) rest := by
  have hl : loadStream ops (g ++ (t ++ rest)) = .ok (.obj m) rest := by
    obtain ⟨_, N, hN⟩ := value_text ops h
    have ht : ∃ u, t = '{' :: u := by
      cases h with
      | number _ _ hn => cases hn
      | object _ _ u _ _ => exact ⟨u, rfl⟩
    obtain ⟨u, rfl⟩ := ht
    have hs : skipWs (g ++ ('{' :: u ++ rest)) = (some '{', u ++ rest) := by
      rw [skipWs_of_trivia hg, List.cons_append, skipWs_char (by decide) (by decide)]
    rw [← (C03_load_total ops _).2 _ (N + (2 * (g ++ ('{' :: u ++ rest)).length + 3)) hs (by omega)]
    refine hN _ (by omega) rest ?_
    rintro (⟨n, hn⟩ | ⟨x, hx⟩)
    · cases hn
    · cases hx
  exact ⟨by rw [load, hl], hl⟩

/-- C120: a text stands for one object at most. -/
theorem C120_unique (ops : FloatOps F) (t : Str) (m m' : List (Str × JVal F)) (h : ValueText ops (.obj m) t)
    (h' : ValueText ops (.obj m') t) : m = m' := by
  have e := (C120_load_partial ops [] t [] m .nil h).1
  rw [(C120_load_partial ops [] t [] m' .nil h').1] at e
  cases e
  rfl

/-- C120: the members of an object may be given in any number and order, each with its last value. -/
theorem C120_members (ops : FloatOps F) (ms : List (Str × JVal F)) (t : Str) (h : MembersText ops ms t) (g rest : Str)
    (hg : Trivia g) : ∃ m, load ops (g ++ ('{' :: t ++ rest)) = some (.ok (.obj m)) ∧ IsMapOf m ms ∧
      ∀ k, mapFind m k = (ms.reverse.find? (fun p => p.1 == k)).map (·.2) := by
  refine ⟨mapOf ms, (C120_load_partial ops g _ rest _ hg (.object _ ms t h (mapOf_isMapOf ms))).1, mapOf_isMapOf ms, fun k => ?_⟩
  have hm := mapOf_isMapOf ms
  have hfind : ∀ (m : List (Str × JVal F)) v, mapFind m k = some v → (k, v) ∈ m := by
    intro m v hv
    induction m with
    | nil => simp [mapFind] at hv
    | cons p m ih =>
      obtain ⟨k', v'⟩ := p
      simp only [mapFind] at hv
      split_ifs at hv with hk
      · cases hv; simp [hk]
      · exact List.mem_cons_of_mem _ (ih hv)
  have hnone : ∀ (m : List (Str × JVal F)), mapFind m k = none → ∀ v, (k, v) ∉ m := by
    intro m hv v
    induction m with
    | nil => simp
    | cons p m ih =>
      obtain ⟨k', v'⟩ := p
      simp only [mapFind] at hv
      split_ifs at hv with hk
      intro hin
      rcases List.mem_cons.1 hin with he | hin
      · cases he; exact hk rfl
      · exact ih hv hin
  cases hf : ms.reverse.find? (fun p => p.1 == k) with
  | none =>
    cases hv : mapFind (mapOf ms) k with
    | none => rfl
    | some v =>
      obtain ⟨l, r, he, _⟩ := (hm.2 k v).1 (hfind _ v hv)
      rw [List.find?_eq_none] at hf
      exact absurd (hf (k, v) (by rw [he]; simp)) (by simp)
  | some p =>
    obtain ⟨k', w⟩ := p
    obtain ⟨hk, as, bs, he, hno⟩ := List.find?_eq_some_iff_append.1 hf
    have hk : k' = k := by simpa using hk
    subst hk
    have hin : (k', w) ∈ mapOf ms := by
      refine (hm.2 k' w).2 ⟨bs.reverse, as.reverse, ?_, ?_⟩
      · have := congrArg List.reverse he
        simpa using this
      · intro p hp
        have := hno p (by simpa using hp)
        simpa using this
    cases hv : mapFind (mapOf ms) k' with
    | none => exact absurd hin (hnone _ hv w)
    | some v =>
      have hin' := hfind _ v hv
      obtain ⟨l, r, e1, n1⟩ := (hm.2 k' v).1 hin'
      have hv' : v = w := by
        have e2 : ms = bs.reverse ++ (k', w) :: as.reverse := by simpa using congrArg List.reverse he
        have h1 : ms.reverse.find? (fun p => p.1 == k') = some (k', v) := by
          rw [List.find?_eq_some_iff_append]
          refine ⟨by simp, r.reverse, l.reverse, by rw [e1]; simp, ?_⟩
          intro p hp
          have := n1 p (by simpa using hp)
          simpa using this
        rw [h1] at hf
        cases hf
        rfl
      rw [hv']
      rfl

/-- C120 is false where a comment begins directly behind a number, which is an error, or behind a key without quotes, of which it
becomes part. -/
theorem C120_comment_violated (ops : FloatOps F) :
    load ops "{a:1/**/}".toList = some (.error .marleyError) ∧
    load ops "{a/**/:1}".toList = some (.ok (.obj [("a/**/".toList, .int 1)])) := by
  constructor <;>
  simp [load, loadStream, skipWs, isSpace, parseNext, parseObject, consumeWs, parseKey, skipMulti,
    List.takeWhile, List.dropWhile, isKeyChar, isDigit, parseNumber, isNumChar, isNumEnd,
    finishNumber, stol, splitSign, digitsVal, longMin, longMax, jsonEscape, escapeChar, mapSet]

/-- Minus signs within a number end it without a message: `{a:1-2}` is read like `{a:1}`. -/
theorem C120_number_violated (ops : FloatOps F) :
    load ops "{a:1-2}".toList = some (.ok (.obj [("a".toList, .int 1)])) := by
  simp [load, loadStream, skipWs, isSpace, parseNext, parseObject, consumeWs, parseKey,
    List.takeWhile, List.dropWhile, isKeyChar, isDigit, parseNumber, isNumChar, isNumEnd,
    finishNumber, stol, splitSign, digitsVal, longMin, longMax, jsonEscape, escapeChar, mapSet]

/-! ## An example: `{a:-12, "a" : ["\t",] /**/,}` -/

theorem exItems (ops : FloatOps F) : ItemsText ops [.str ['\t']] ['"', '\\', 't', '"', ',', ']'] :=
  .more [] (.str ['\t']) ['"', '\\', 't', '"'] [] [] [']'] .nil
    (.string _ _ (.escape 't' '\t' [] [] (by decide) .nil)) ⟨.nil, nofun, nofun⟩ (.close [] .nil)

theorem exMembers (ops : FloatOps F) : MembersText ops [(['a'], .int (-12)), (['a'], .arr [.str ['\t']])]
    "a:-12, \"a\" : [\"\\t\",] /**/,}".toList := by
  refine .more [] ['a'] ['a'] [] [] (.int (-12)) ['-', '1', '2'] [] _ " \"a\" : [\"\\t\",] /**/,}".toList .nil ?_ .nil
    (.number _ _ (.whole _ _ (.neg ['1', '2'] ⟨by simp, by simp [IsDigit]⟩ (by decide)))) ⟨.nil, by simp, by simp⟩ ?_
  · exact .bare ['a'] [] (by simp) (by simp [NeedsEscape]) (by simp) (by simp) (by simp) .nil (by simp)
  · refine .more [' '] ['a'] ['"', 'a', '"'] [' '] [' '] (.arr [.str ['\t']]) _ " /**/".toList [] ['}']
      (.blank ' ' [] (by simp) .nil) ?_ (.blank ' ' [] (by simp) .nil) (.array _ _ (exItems ops)) ⟨?_, nofun, nofun⟩ (.close [] .nil)
    · exact .quoted ['a'] ['a'] [' '] (by simp [NeedsEscape]) (.plain 'a' [] [] (by decide) (by decide) .nil)
        (.blank ' ' [] (by simp) .nil)
    · exact .blank ' ' _ (by simp) (.block [] [] (by decide) .nil)

example (ops : FloatOps F) (rest : Str) : ∃ m,
    load ops ('{' :: "a:-12, \"a\" : [\"\\t\",] /**/,}".toList ++ rest) = some (.ok (.obj m)) ∧
    mapFind m ['a'] = some (.arr [.str ['\t']]) := by
  obtain ⟨m, h1, _, h2⟩ := C120_members ops _ _ (exMembers ops) [] rest .nil
  exact ⟨m, h1, by rw [h2]; rfl⟩

example (ops : FloatOps F) (rest : Str) :
    load ops ([' '] ++ ('{' :: "a:-12, \"a\" : [\"\\t\",] /**/,}".toList ++ rest)) =
      some (.ok (.obj [(['a'], .arr [.str ['\t']])])) :=
  (C120_load_partial ops [' '] _ rest [(['a'], .arr [.str ['\t']])] (.blank ' ' [] (by simp) .nil)
    (.object _ _ _ (exMembers ops) (by
      have : mapOf [(['a'], JVal.int (-12)), (['a'], JVal.arr [.str ['\t']])] = [(['a'], (JVal.arr [.str ['\t']] : JVal F))] := by
        simp [mapOf, mapSet]
      rw [← this]
      exact mapOf_isMapOf _))).1

end Marley.Props
