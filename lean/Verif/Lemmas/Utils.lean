import Verif.Model.Utils
import Verif.Lemmas.Json

/-! Helper lemmas about the string utilities. -/

set_option autoImplicit false

namespace Marley.Utils
open Json (Str natText intText)

theorem findFirstNotOf_some {s d : Str} {k : Nat} (h : findFirstNotOf s d = some k) :
    ∃ l c r, s = l ++ c :: r ∧ l.length = k ∧ (∀ x ∈ l, x ∈ d) ∧ c ∉ d := by
  induction s generalizing k with
  | nil => simp [findFirstNotOf] at h
  | cons a s ih =>
    rw [findFirstNotOf] at h
    split at h
    · rename_i ha
      cases hk : findFirstNotOf s d with
      | none => simp [hk] at h
      | some j =>
        rw [hk] at h
        obtain ⟨l, c, r, e1, e2, e3, e4⟩ := ih hk
        refine ⟨a :: l, c, r, by rw [e1]; rfl, ?_, ?_, e4⟩
        · simp only [Option.map_some, Option.some.injEq] at h; simp [e2, h]
        · intro x hx; rcases List.mem_cons.1 hx with rfl | hx
          · exact ha
          · exact e3 x hx
    · rename_i ha
      simp only [Option.some.injEq] at h
      exact ⟨[], a, s, rfl, h, by simp, ha⟩

theorem findFirstNotOf_none {s d : Str} (h : findFirstNotOf s d = none) : ∀ x ∈ s, x ∈ d := by
  induction s with
  | nil => simp
  | cons a s ih =>
    rw [findFirstNotOf] at h
    split at h
    · rename_i ha
      intro x hx; rcases List.mem_cons.1 hx with rfl | hx
      · exact ha
      · exact ih (by simpa using h) x hx
    · simp at h

theorem trimLeft_spec (s d : Str) :
    ∃ l, s = l ++ trimLeft s d ∧ (∀ x ∈ l, x ∈ d) ∧ ∀ c, (trimLeft s d).head? = some c → c ∉ d := by
  rw [trimLeft]
  cases h : findFirstNotOf s d with
  | none => exact ⟨s, by simp, findFirstNotOf_none h, by simp⟩
  | some k =>
    obtain ⟨l, c, r, e1, e2, e3, e4⟩ := findFirstNotOf_some h
    refine ⟨l, ?_, e3, ?_⟩
    · simp [e1, ← e2]
    · simp [e1, ← e2, e4]

theorem trimRight_spec (s d : Str) :
    ∃ r, s = trimRight s d ++ r ∧ (∀ x ∈ r, x ∈ d) ∧
      ∀ c, (trimRight s d).getLast? = some c → c ∉ d := by
  rw [trimRight, findLastNotOf]
  cases h : findFirstNotOf s.reverse d with
  | none => exact ⟨s, by simp, by simpa using findFirstNotOf_none h, by simp⟩
  | some k =>
    obtain ⟨l, c, r, e1, e2, e3, e4⟩ := findFirstNotOf_some h
    have e5 : s = r.reverse ++ [c] ++ l.reverse := by
      have := congrArg List.reverse e1; simpa using this
    have e6 : s.length - 1 - k + 1 = (r.reverse ++ [c]).length := by
      rw [e5]; simp; omega
    refine ⟨l.reverse, ?_, by simpa using e3, ?_⟩
    · simp only [e6]
      conv_rhs => rw [e5]
      rw [List.take_left', ← e5]; rfl
    · simp only [e6]
      rw [e5, List.take_left' rfl]
      simpa using e4

theorem takeWhile_ne_spec (d : Char) (s : Str) :
    (d ∉ s.takeWhile (· ≠ d)) ∧
    ((d ∉ s ∧ s.takeWhile (· ≠ d) = s ∧ s.dropWhile (· ≠ d) = []) ∨
      ∃ t, s.dropWhile (· ≠ d) = d :: t ∧ s = s.takeWhile (· ≠ d) ++ d :: t) := by
  induction s with
  | nil => simp
  | cons c s ih =>
    by_cases h : c = d
    · subst h; simp
    · obtain ⟨h1, h2⟩ := ih
      simp only [ne_eq, decide_not] at h1 h2
      refine ⟨by simp [h, h1]; exact fun e => h e.symm, ?_⟩
      rcases h2 with ⟨a, b, e⟩ | ⟨t, a, b⟩
      · exact .inl ⟨by simp [a]; exact fun e => h e.symm, by simp [h, b], by simp [h, e]⟩
      · exact .inr ⟨t, by simp [h, a], by simp [h, ← b]⟩

/-- What splitting computes: the pieces contain no delimiter, and depend on
whether the text ends with one. -/
theorem splitLoop_spec (d : Char) (n : Nat) (s : Str) (hn : s.length < n) :
    (∀ p ∈ splitLoop d n s, d ∉ p) ∧
    ((s = [] ∧ splitLoop d n s = []) ∨
      (splitLoop d n s ≠ [] ∧ s.getLast? = some d ∧ s = [d].intercalate (splitLoop d n s) ++ [d]) ∨
      (splitLoop d n s ≠ [] ∧ s ≠ [] ∧ s.getLast? ≠ some d ∧
        s = [d].intercalate (splitLoop d n s))) := by
  induction n generalizing s with
  | zero => omega
  | succ n ih =>
    cases s with
    | nil => simp [splitLoop, getline]
    | cons c s =>
      obtain ⟨h1, h2⟩ := takeWhile_ne_spec d (c :: s)
      rw [splitLoop, getline]
      generalize hT : (c :: s).takeWhile (· ≠ d) = T at *
      rcases h2 with ⟨a, b, e⟩ | ⟨t, a, b⟩
      · rw [e]
        subst b
        have : splitLoop d n (List.drop 1 []) = [] := by cases n <;> rfl
        simp only [this]
        refine ⟨by simpa using h1, .inr (.inr ⟨by simp, by simp, ?_, by simp⟩)⟩
        intro hl
        exact a (List.mem_of_getLast? hl)
      · rw [a]
        have hl : t.length < n := by
          have := congrArg List.length b
          simp at this hn; omega
        obtain ⟨i1, i2⟩ := ih t hl
        simp only [List.drop_one, List.tail_cons]
        refine ⟨?_, ?_⟩
        · intro p hp; rcases List.mem_cons.1 hp with rfl | hp
          · exact h1
          · exact i1 p hp
        · right
          rcases i2 with ⟨rfl, j⟩ | ⟨j1, j2, j3⟩ | ⟨j1, j2, j3, j4⟩
          · left
            rw [j, b]; simp
          · left
            refine ⟨by simp, ?_, ?_⟩
            · rw [b]; simp [j2, List.getLast?_cons]
            · rw [b]
              conv_lhs => rw [j3]
              cases hL : splitLoop d n t with
              | nil => exact absurd hL j1
              | cons p q => simp [List.intercalate, List.intersperse_cons₂]
          · right
            refine ⟨by simp, by simp, ?_, ?_⟩
            · rw [b]
              rw [List.getLast?_append]
              have : (d :: t).getLast? = t.getLast? := by
                cases t with
                | nil => exact absurd rfl j2
                | cons x y => simp
              rw [this]
              cases ht : t.getLast? with
              | none => exact absurd (List.getLast?_eq_none_iff.1 ht) j2
              | some z => rw [ht] at j3; simpa using j3
            · rw [b]
              conv_lhs => rw [j4]
              cases hL : splitLoop d n t with
              | nil => exact absurd hL j1
              | cons p q => simp [List.intercalate, List.intersperse_cons₂]

end Marley.Utils
