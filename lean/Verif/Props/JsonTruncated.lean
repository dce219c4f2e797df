import Verif.Lemmas.JsonExtend
import Verif.Props.Json
import Verif.Props.OutputFile

/-!
# C119: incomplete JSON documents
-/

set_option autoImplicit false

namespace Marley.Props
open Marley Marley.Json

/-- C119: a text in which a document ends is read in the same way whatever is written behind it, and what is left in the stream
begins with what was left. -/
theorem C119_continued {F} (ops : FloatOps F) (s : Str) (v : JVal F) (h : load ops s = some (.ok v)) (more : Str) :
    load ops (s ++ more) = some (.ok v) ∧
    ∀ rest, loadStream ops s = .ok v rest → loadStream ops (s ++ more) = .ok v (rest ++ more) := by
  refine ⟨?_, fun rest hr => loadStream_extend ops hr more⟩
  unfold load at h
  split at h
  · next w rest hw =>
    cases h
    rw [load, loadStream_extend ops hw more]
  · cases h
  · cases h

/-- C119: a text that is cut off before the end of the document it begins with is rejected with a `marley::Error`, wherever it is
cut off; `rest` is what `load` leaves in the stream behind the document. -/
theorem C119_truncated {F} (ops : FloatOps F) (s : Str) (v : JVal F) (rest : Str) (h : loadStream ops s = .ok v rest)
    (q m : Str) (hs : s = q ++ m) (hm : rest.length < m.length) : load ops q = some (.error .marleyError) := by
  unfold load
  split
  · next w r hw =>
    have := loadStream_extend ops hw m
    rw [← hs, h] at this
    have hl := congrArg List.length (PR.ok.inj this).2
    simp at hl
    omega
  · next e he =>
    by_cases hm : e = .marleyError
    · rw [hm]
    · have := loadStream_extend_exc ops he hm m
      rw [← hs, h] at this
      cases this
  · next hf =>
    have := (C03_load_total ops q).1
    rw [load, hf] at this
    exact absurd rfl this

/-- C119: no proper beginning of what `dump_string` writes for an object is accepted, whatever is in the object and however it is
indented. -/
theorem C119_dump {F} (ops : FloatOps F) (step : Int) (m : List (Str × JVal F)) (h : Holdable (FloatOk ops) (.obj m))
    (q r : Str) (hq : dumpString ops step (.obj m) = q ++ r) (hr : r ≠ []) : load ops q = some (.error .marleyError) := by
  have hl := loadStream_dump ops step m h []
  rw [List.append_nil] at hl
  exact C119_truncated ops _ _ _ hl q r hq (List.length_pos_iff.2 hr)

/-- C119: a job that is to be resumed from a file of events that was cut off is rejected with a `marley::Error`, and the
file is left as it is. -/
theorem C119_resume {K γ : Type} (G : Out.GenOps K γ) (F : Out.TextFmt K) (f : Out.OutFile K)
    (s : Str) (v : JVal K) (rest : Str) (h : loadStream F.json s = .ok v rest)
    (m : Str) (hs : s = f.text ++ m) (hm : rest.length < m.length) :
    Out.resume G F f = (f, .error .marleyError) := by
  have hl := C119_truncated F.json s v rest h f.text m hs hm
  have he : loadStream F.json f.text = .exc .marleyError := by
    unfold load at hl
    split at hl
    · cases hl
    · next e he => cases hl; exact he
    · cases hl
  unfold Out.resume
  rw [he]
  split_ifs <;> rfl

/-- An object with a comment, a trailing comma and something behind it is read, and something is left. -/
theorem exText_loaded {F} (ops : FloatOps F) : loadStream ops ("{a:1,/*}*/} b").toList = .ok (.obj [("a".toList, .int 1)]) " b".toList := by
  simp [loadStream, skipWs, isSpace, parseNext, parseObject, consumeWs, parseKey, skipMulti,
    List.takeWhile, List.dropWhile, isKeyChar, isDigit, parseNumber, isNumChar, isNumEnd,
    finishNumber, stol, splitSign, digitsVal, longMin, longMax, jsonEscape, escapeChar, mapSet]

example : load textFloats ("{a:1,/*}".toList) = some (.error .marleyError) :=
  C119_truncated textFloats _ _ _ (exText_loaded _) "{a:1,/*}".toList "*/} b".toList (by rfl) (by decide)

example : load textFloats ("{a:1,/*}*/} b".toList ++ "]".toList) = some (.ok (.obj [("a".toList, .int 1)])) :=
  (C119_continued textFloats _ _ (by rw [load, exText_loaded]) _).1

example {K γ : Type} (G : Out.GenOps K γ) (F : Out.TextFmt K) (f : Out.OutFile K) (hf : f.text = "{a:1".toList) :
    Out.resume G F f = (f, .error .marleyError) :=
  C119_resume G F f _ _ _ (exText_loaded _) ",/*}*/} b".toList (by rw [hf]; rfl) (by decide)

example (step : Int) (q r : Str) (hq : dumpString textFloats step
    (.obj [("a".toList, .arr [.int (-5), .str "q\"\\\n".toList, .obj []])]) = q ++ r) (hr : r ≠ []) :
    load textFloats q = some (.error .marleyError) := by
  refine C119_dump textFloats step _ ?_ q r hq hr
  refine .obj _ (by simp) ?_
  intro p hp
  simp at hp
  subst hp
  refine .arr _ ?_
  intro x hx
  simp at hx
  rcases hx with rfl | rfl | rfl
  · exact .int _ (by decide) (by decide)
  · exact .str _
  · exact .obj _ (by simp) (by simp)

end Marley.Props
