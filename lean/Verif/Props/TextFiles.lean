import Verif.Spec.TextFiles

/-!
# C118: lines of text files
-/

set_option autoImplicit false

namespace Marley.Props
open Marley Marley.Json Marley.TextFile
open Marley.Reaction (FileIn getLine)

theorem parts_ne (s : Str) : parts s ≠ [] := by
  cases s with
  | nil => simp [parts]
  | cons c s =>
    rw [parts]
    split_ifs
    · simp
    · split <;> simp

theorem parts_line {l : Str} (hl : '\n' ∉ l) (s : Str) : parts (l ++ '\n' :: s) = l :: parts s := by
  induction l with
  | nil => rw [List.nil_append, parts, if_pos rfl]
  | cons c l ih =>
    rw [List.cons_append, parts, if_neg (fun h => hl (by simp [h])), ih (fun h => hl (by simp [h]))]

theorem parts_last {l : Str} (hl : '\n' ∉ l) : parts l = [l] := by
  induction l with
  | nil => rfl
  | cons c l ih =>
    rw [parts, if_neg (fun h => hl (by simp [h])), ih (fun h => hl (by simp [h]))]

/-- One line is taken off. -/
theorem getLine_ahead (s : Str) : parts s = (getLine s).1 :: ahead (getLine s).2 := by
  rw [getLine]
  by_cases h : '\n' ∈ s
  · rw [if_pos h]
    have hd : ∀ {s : Str}, '\n' ∈ s → ∃ a b, s = a ++ '\n' :: b ∧ '\n' ∉ a ∧ s.takeWhile (· ≠ '\n') = a ∧
        (s.dropWhile (· ≠ '\n')).drop 1 = b := by
      intro s h
      induction s with
      | nil => cases h
      | cons c s ih =>
        by_cases hc : c = '\n'
        · exact ⟨[], s, by rw [hc]; rfl, by simp, by simp [hc], by simp [hc]⟩
        · obtain ⟨a, b, h1, h2, h3, h4⟩ := ih (by simpa [Ne.symm hc] using h)
          exact ⟨c :: a, b, by rw [h1]; rfl, by simp [Ne.symm hc, h2], by simpa [hc] using h3, by simpa [hc] using h4⟩
    obtain ⟨a, b, h1, h2, h3, h4⟩ := hd h
    rw [h3, h4, h1, parts_line h2]
    rfl
  · rw [if_neg h, parts_last h]
    rfl

theorem getLine_length {s : Str} (h : (getLine s).2.good = true) : (getLine s).2.rest.length < s.length := by
  rw [getLine] at h ⊢
  split_ifs at h ⊢ with h1
  · have h2 : (s.dropWhile (· ≠ '\n')).length ≤ s.length := (List.dropWhile_sublist _).length_le
    have : s ≠ [] := fun h0 => by rw [h0] at h1; cases h1
    have : 0 < s.length := List.length_pos_iff.2 this
    simp only [List.length_drop]
    omega

/-- The loop with the count. -/
theorem countLoop_run (rx : Str → Bool) (wanted : Bool) (n : Nat) (f : FileIn) (k : Nat)
    (hn : (if f.good then f.rest.length + 1 else 0) < n) :
    ∃ l f' j, countLoop rx wanted n f k = (l, f', k + j) ∧ nextLineLoop rx wanted n f = (l, f') ∧
      ((∃ skipped, ahead f = skipped ++ l :: ahead f' ∧ (∀ x ∈ skipped, rx x ≠ wanted) ∧ rx l = wanted ∧ j = skipped.length + 1) ∨
       ((∀ x ∈ ahead f, rx x ≠ wanted) ∧ l = [] ∧ ahead f' = [] ∧ j = (ahead f).length)) := by
  induction n generalizing f k with
  | zero => omega
  | succ n ih =>
    rw [countLoop, nextLineLoop]
    by_cases hg : f.good = true
    · rw [if_pos hg, if_pos hg]
      have ha : ahead f = (getLine f.rest).1 :: ahead (getLine f.rest).2 := by rw [ahead, if_pos hg, getLine_ahead]
      rw [if_pos hg] at hn
      dsimp only
      by_cases hw : rx (getLine f.rest).1 = wanted
      · rw [if_pos (by simpa using hw), if_pos (by simpa using hw)]
        exact ⟨_, _, 1, rfl, rfl, .inl ⟨[], ha, by simp, hw, rfl⟩⟩
      · rw [if_neg (by simpa using hw), if_neg (by simpa using hw)]
        obtain ⟨l, f', j, h1, h2, h3⟩ := ih (getLine f.rest).2 (k + 1) (by
          split_ifs with h0
          · have := getLine_length h0; omega
          · omega)
        refine ⟨l, f', 1 + j, by rw [h1, Nat.add_assoc], h2, ?_⟩
        rcases h3 with ⟨sk, e1, e2, e3, e4⟩ | ⟨e1, e2, e3, e4⟩
        · refine .inl ⟨(getLine f.rest).1 :: sk, by rw [ha, e1]; rfl, ?_, e3, by rw [e4]; simp; omega⟩
          intro x hx
          rcases List.mem_cons.1 hx with rfl | hx
          · exact hw
          · exact e2 x hx
        · refine .inr ⟨?_, e2, e3, by rw [e4, ha]; simp; omega⟩
          rw [ha]
          intro x hx
          rcases List.mem_cons.1 hx with rfl | hx
          · exact hw
          · exact e1 x hx
    · rw [if_neg hg, if_neg hg]
      have ha : ahead f = [] := by rw [ahead, if_neg hg]
      exact ⟨[], f, 0, rfl, rfl, .inr ⟨by simp [ha], rfl, ha, by simp [ha]⟩⟩

/-- C118: the first line ahead that is wanted is given, with the number of lines read for it, and the lines after it are still ahead.
If there is none, the result is empty and all lines have been read. -/
theorem C118_next (rx : Str → Bool) (wanted : Bool) (f : FileIn) :
    ∃ l f' j, nextLineCount rx wanted f = (l, f', j) ∧ nextLine rx wanted f = (l, f') ∧
      ((∃ skipped, ahead f = skipped ++ l :: ahead f' ∧ (∀ x ∈ skipped, rx x ≠ wanted) ∧ rx l = wanted ∧ j = skipped.length + 1) ∨
       ((∀ x ∈ ahead f, rx x ≠ wanted) ∧ l = [] ∧ ahead f' = [] ∧ j = (ahead f).length)) := by
  have h := countLoop_run rx wanted (f.rest.length + 2) f 0 (by split_ifs <;> omega)
  simpa only [Nat.zero_add, nextLineCount, nextLine] using h

/-- C118: called again and again, it gives all wanted lines, in order and each once, and then nothing but empty texts. -/
theorem C118_all (rx : Str → Bool) (wanted : Bool) (f : FileIn) (n : Nat) :
    (calls (nextLine rx wanted) n f).1 =
      ((ahead f).filter (fun l => rx l == wanted) ++ List.replicate n []).take n := by
  induction n generalizing f with
  | zero => rfl
  | succ n ih =>
    obtain ⟨l, f', j, -, h2, h3⟩ := C118_next rx wanted f
    rw [calls, h2]
    simp only
    rw [ih f']
    rcases h3 with ⟨sk, e1, e2, e3, -⟩ | ⟨e1, e2, e3, -⟩
    · have hs : sk.filter (fun l => rx l == wanted) = [] := by
        rw [List.filter_eq_nil_iff]
        intro x hx
        simpa using e2 x hx
      rw [e1, List.filter_append, hs, List.nil_append, List.filter_cons_of_pos (by simpa using e3), List.cons_append,
        List.take_succ_cons, List.replicate_succ', ← List.append_assoc]
      congr 1
      refine (List.take_append_of_le_length ?_).symm
      simp
    · have hs : (ahead f).filter (fun l => rx l == wanted) = [] := by
        rw [List.filter_eq_nil_iff]
        intro x hx
        simpa using e1 x hx
      rw [hs, e2, e3]
      simp [List.replicate_succ]

/-- C118: the lines are those of the text. -/
theorem C118_lines (l : List Str) (last : Str) (hl : ∀ x ∈ l, '\n' ∉ x) (h : '\n' ∉ last) :
    ahead ⟨l.flatMap (· ++ ['\n']) ++ last, true⟩ = l ++ [last] := by
  rw [ahead, if_pos rfl]
  induction l with
  | nil => exact parts_last h
  | cons x l ih =>
    have := ih (fun y hy => hl y (by simp [hy]))
    simp only [List.flatMap_cons, List.append_assoc, List.cons_append, List.nil_append] at this ⊢
    rw [parts_line (hl x (by simp)), this]

/-- C118: what the model of reaction files uses is this function with the pattern of comments. -/
theorem C118_reaction_files (f : FileIn) : Reaction.getNextLine f = nextLine Reaction.isComment false f := by
  have h : ∀ (n : Nat) (f : FileIn), Reaction.nextLine n f = nextLineLoop Reaction.isComment false n f := by
    intro n
    induction n with
    | zero => intro f; rfl
    | succ n ih =>
      intro f
      rw [Reaction.nextLine, nextLineLoop]
      split_ifs with h1
      · dsimp only
        cases h2 : Reaction.isComment (getLine f.rest).1
        · rfl
        · exact ih _
      · rfl
  exact h _ _

/-- C118: an empty result may also be an empty line, and a file that ends with a line break has an empty line at its end. -/
theorem C118_empty_lines : ∃ (rx : Str → Bool) (f g : FileIn), rx [] = true ∧
    (nextLine rx true f).1 = [] ∧ (nextLine rx true g).1 = [] ∧ ahead (nextLine rx true f).2 ≠ [] ∧
    ahead g = [['a'], []] ∧ g.rest = ['a', '\n'] :=
  ⟨fun l => l.isEmpty, ⟨['\n', 'b'], true⟩, ⟨['a', '\n'], true⟩, rfl, by decide, by decide, by decide, by decide, rfl⟩

/-- A file with comments. -/
def exFile : FileIn := ⟨"#x\n1 2\n#y\n\n3".toList, true⟩

example : (calls (nextLine Reaction.isComment false) 5 exFile).1 = [['1', ' ', '2'], [], ['3'], [], []] := by decide +kernel

example : (nextLineCount Reaction.isComment false exFile).2.2 = 2 := by decide +kernel

end Marley.Props
