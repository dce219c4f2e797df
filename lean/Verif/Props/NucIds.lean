import Verif.Props.Utils

/-!
# C29: nuclides in error messages
-/

set_option autoImplicit false

namespace Marley.Props
open Marley Marley.Json Marley.Utils

theorem dropWhile_known {d l w r : Str} (hl : ∀ x ∈ l, x ∈ d) (hw : w ≠ []) (hh : ∀ c, w.head? = some c → c ∉ d) :
    (l ++ w ++ r).dropWhile (· ∈ d) = w ++ r := by
  induction l with
  | nil =>
    cases w with
    | nil => exact absurd rfl hw
    | cons c w => simp [hh c rfl]
  | cons x l ih =>
    simp only [List.cons_append, List.dropWhile_cons, hl x (by simp), decide_true, if_true]
    exact ih (fun y hy => hl y (by simp [hy]))

/-- What is left by trimming is determined. -/
theorem trim_known {d l w r : Str} (hl : ∀ x ∈ l, x ∈ d) (hr : ∀ x ∈ r, x ∈ d) (hw : w ≠ [])
    (hh : ∀ c, w.head? = some c → c ∉ d) (ht : ∀ c, w.getLast? = some c → c ∉ d) : trim (l ++ w ++ r) d = w := by
  obtain ⟨⟨l', r', e, l2, r2⟩, h1, h2, -⟩ := C30_trim (l ++ w ++ r) d
  have hne : trim (l ++ w ++ r) d ≠ [] := by
    intro h0
    rw [h0, List.append_nil] at e
    obtain ⟨c, w', rfl⟩ := List.exists_cons_of_ne_nil hw
    have hc : c ∈ l' ++ r' := by rw [← e]; simp
    rcases List.mem_append.1 hc with hc | hc
    · exact hh c rfl (l2 c hc)
    · exact hh c rfl (r2 c hc)
  revert e h1 h2 hne
  generalize trim (l ++ w ++ r) d = t
  intro e h1 h2 hne
  have e1 : w ++ r = t ++ r' := by
    rw [← dropWhile_known (r := r) hl hw hh, ← dropWhile_known (r := r') l2 hne h1, e]
  have e2 := congrArg List.reverse e1
  rw [List.reverse_append, List.reverse_append] at e2
  have a := dropWhile_known (d := d) (l := r.reverse) (w := w.reverse) (r := []) (fun x hx => hr x (by simpa using hx))
    (by simpa using hw) (by simpa using ht)
  have b := dropWhile_known (d := d) (l := r'.reverse) (w := t.reverse) (r := []) (fun x hx => r2 x (by simpa using hx))
    (by simpa using hne) (by simpa using h2)
  rw [List.append_nil] at a b
  rw [e2, b] at a
  exact List.reverse_injective (by simpa using a)

theorem nucIdMass_shape : ∀ A < 1000, nucIdMass A = List.replicate (3 - (natText A).length) ' ' ++ natText A ∧
    (natText A).length ≤ 3 ∧ natText A ≠ [] ∧ ∀ c ∈ natText A, c ∉ whitespace := by
  decide +kernel

theorem symbol_shape : ∀ p ∈ elementSymbols,
    (let u := p.2.map toUpper
     let b := if u.length = 1 then u ++ [' '] else u
     (lowerLast b = p.2 ∨ lowerLast b = p.2 ++ [' ']) ∧ b.length = 2 ∧ lowerLast (lowerLast b) = lowerLast b ∧ p.2 ≠ [] ∧
     (if u.length > 1 then lowerLast u else u) = p.2 ∧ (∀ c ∈ p.2, c ∉ whitespace) ∧ (∀ c ∈ u, isDigit c = false) ∧ u ≠ []) := by
  decide +kernel

theorem lowerLast_behind (x : Str) {y : Str} (h : y ≠ []) : lowerLast (x ++ y) = x ++ lowerLast y := by
  obtain ⟨y', c, rfl⟩ := (List.eq_nil_or_concat y).resolve_left h
  rw [List.concat_eq_append, ← List.append_assoc, lowerLast_append, lowerLast_append, List.append_assoc]

theorem digits_split {a u : Str} (ha : a ≠ []) (had : ∀ c ∈ a, isDigit c = true) (hu : ∀ c ∈ u, isDigit c = false) :
    firstDigits (a ++ u) = a ∧ afterDigits (a ++ u) = u := by
  have h0 : (a ++ u).dropWhile (fun c => !isDigit c) = a ++ u := by
    obtain ⟨c, a', rfl⟩ := List.exists_cons_of_ne_nil ha
    simp [had c (by simp)]
  rw [firstDigits, afterDigits, h0]
  clear h0 ha
  induction a with
  | nil =>
    cases u with
    | nil => exact ⟨rfl, rfl⟩
    | cons c u => simp [hu c (by simp)]
  | cons c a ih =>
    obtain ⟨i1, i2⟩ := ih (fun x hx => had x (by simp [hx]))
    simp [had c (by simp), i1, i2]

/-- C29: every identifier, with the last letter as it is or in lower case, is shown as the mass number followed by the usual
symbol, and so is the short form without blanks. -/
theorem C29_nucid_symbol (Z A : Int) (id : Str) (h : nucId Z A = .ok id) :
    ∃ sym, elementSymbol Z = .ok sym ∧ nucidToSymbol id = intText A ++ sym ∧ nucidToSymbol (lowerLast id) = intText A ++ sym ∧
      nucidToSymbol (intText A ++ sym.map toUpper) = intText A ++ sym := by
  rw [nucId] at h
  split_ifs at h with hr
  cases hs : elementSymbol Z with
  | error e => rw [hs] at h; cases h
  | ok s =>
    rw [hs] at h
    have hmem : (Z, s) ∈ elementSymbols := by
      rw [elementSymbol] at hs
      split at hs
      · rename_i t ht; cases hs; exact mem_of_lookup ht
      · cases hs
    obtain ⟨m1, m2, m3, m4⟩ := nucIdMass_shape A.toNat (by omega)
    have hA : intText A = natText A.toNat := by
      obtain ⟨n, rfl⟩ := Int.eq_ofNat_of_zero_le (show 0 ≤ A by omega)
      rfl
    have hd := natText_digits A.toNat
    obtain ⟨s1, s2, s3, s4, s5, s6, s7, s8⟩ := symbol_shape _ hmem
    dsimp only at s1 s2 s3 s4 s5 s6 s7 s8 h
    rw [hA]
    refine ⟨s, rfl, ?_⟩
    generalize natText A.toNat = a at *
    generalize s.map toUpper = u at *
    generalize (if u.length = 1 then u ++ [' '] else u) = b at *
    cases h
    have hlen3 : (nucIdMass A.toNat).length = 3 := by rw [m1]; simp; omega
    have hb : b ≠ [] := fun h0 => by rw [h0] at s2; cases s2
    have key : ∀ l r : Str, (∀ x ∈ l, x = ' ') → (∀ x ∈ r, x = ' ') → trim (l ++ (a ++ s) ++ r) whitespace = a ++ s := by
      intro l r hl hr
      refine trim_known (fun x hx => by rw [hl x hx]; decide) (fun x hx => by rw [hr x hx]; decide) (by simp [m3]) ?_ ?_
      · intro c hc
        obtain ⟨x, a', rfl⟩ := List.exists_cons_of_ne_nil m3
        exact m4 c (by cases hc; simp)
      · intro c hc
        rw [List.getLast?_append_of_ne_nil _ s4] at hc
        exact s6 c (List.mem_of_getLast? hc)
    have low : trim (nucIdMass A.toNat ++ lowerLast b) whitespace = a ++ s := by
      rw [m1]
      rcases s1 with e | e
      · rw [e]
        have := key (List.replicate (3 - a.length) ' ') [] (fun x hx => List.eq_of_mem_replicate hx) (by simp)
        simpa using this
      · rw [e]
        have := key (List.replicate (3 - a.length) ' ') [' '] (fun x hx => List.eq_of_mem_replicate hx) (by simp)
        simpa using this
    have hl2 : (lowerLast b).length = 2 := by
      obtain ⟨x, y, rfl⟩ := List.length_eq_two.1 s2
      rfl
    have hlb : lowerLast b ≠ [] := fun h0 => by rw [h0] at hl2; cases hl2
    refine ⟨?_, ?_, ?_⟩
    · rw [nucidToSymbol, if_neg (by simp [hlen3, s2]), lowerLast_behind _ hb, low]
    · rw [lowerLast_behind _ hb, nucidToSymbol, if_neg (by simp [hlen3, hl2]), lowerLast_behind _ hlb, s3, low]
    · rw [nucidToSymbol]
      by_cases h5 : (a ++ u).length ≠ 5
      · rw [if_pos h5]
        obtain ⟨d1, d2⟩ := digits_split m3 hd s7
        simp only [d1, d2, s5]
      · rw [if_neg h5, lowerLast_behind _ s8]
        have : u.length > 1 := by simp at h5; omega
        rw [if_pos this] at s5
        rw [s5]
        simpa using key [] [] (by simp) (by simp)

example : nucidToSymbol " 40AR".toList = "40Ar".toList ∧ nucidToSymbol "  9K ".toList = "9K".toList ∧
    nucidToSymbol "208PB".toList = "208Pb".toList ∧ nucidToSymbol "40AR".toList = "40Ar".toList := by decide +kernel

end Marley.Props
