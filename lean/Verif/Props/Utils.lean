import Verif.Lemmas.Utils
import Verif.Lemmas.Stream
import Mathlib.Tactic.Linarith
import Mathlib.Tactic.FieldSimp
import Mathlib.Tactic.NormNum
import Mathlib.Tactic.Ring

/-!
# C27 to C30 and C76: codes, names, strings and small numerics
-/

set_option autoImplicit false

namespace Marley.Props
open Marley Marley.Utils
open Marley.Json (Str natText intText isDigit natText_digits)

/-! ## C27 spin-parity strings -/

/-- The notation of the property: an integer spin as an integer, a half-integer
spin as an odd numerator over two, then the sign. -/
def spinParityNotation (twoJ : Nat) (positive : Bool) : Str :=
  (if twoJ % 2 = 0 then natText (twoJ / 2) else natText twoJ ++ ['/', '2']) ++
    [if positive then '+' else '-']

/-- C27 as stated: every level's string is its notation. -/
def SpinParityStringsCorrect : Prop :=
  ∀ (twoJ : Nat) (b : Bool), spinParityString twoJ ⟨b⟩ = spinParityNotation twoJ b

theorem spinParity_eq (twoJ : Nat) (b : Bool) :
    spinParityString twoJ ⟨b⟩ =
      natText (twoJ / 2) ++ ((if twoJ % 2 = 0 then [] else ['/', '2']) ++
        [if b then '+' else '-']) := by
  have h1 : (twoJ : Int).tdiv 2 = ((twoJ / 2 : Nat) : Int) := rfl
  have h2 : (twoJ : Int).tmod 2 = ((twoJ % 2 : Nat) : Int) := rfl
  have h3 : intText ((twoJ / 2 : Nat) : Int) = natText (twoJ / 2) := rfl
  simp only [spinParityString, h1, h2, h3]
  rcases Nat.mod_two_eq_zero_or_one twoJ with h | h <;> cases b <;>
    simp [h, Parity.toChar]

/-- C27 fails: a level with spin 3/2 and positive parity is reported as `1/2+`,
the notation for spin 1/2. -/
theorem C27_spin_parity_string_fails :
    ¬ SpinParityStringsCorrect ∧
    spinParityString 3 ⟨true⟩ = spinParityNotation 1 true := by
  have h : spinParityString 3 ⟨true⟩ = spinParityNotation 1 true := by decide +kernel
  refine ⟨fun H => ?_, h⟩
  have := H 3 true
  rw [show ((3 : Nat) : Int) = 3 from rfl, h] at this
  exact absurd this (by decide +kernel)

/-- C27 fails for every half-integer spin, not only for one value. -/
theorem C27_every_half_integer_spin_wrong (twoJ : Nat) (b : Bool) (h : twoJ % 2 = 1) :
    spinParityString twoJ ⟨b⟩ ≠ spinParityNotation twoJ b := by
  have h0 : ¬ twoJ % 2 = 0 := by omega
  rw [spinParity_eq, spinParityNotation, if_neg h0]
  intro e
  rw [if_neg h0, ← List.append_assoc] at e
  have := natText_inj (List.append_cancel_right (List.append_cancel_right e))
  omega

example : (5 : Nat) % 2 = 1 ∧ spinParityString 5 ⟨true⟩ = ['2', '/', '2', '+'] := by decide +kernel

/-- C27, the part that holds: integer spins are denoted correctly. -/
theorem C27_integer_spin_partial (twoJ : Nat) (b : Bool) (h : twoJ % 2 = 0) :
    spinParityString twoJ ⟨b⟩ = spinParityNotation twoJ b := by
  rw [spinParity_eq, spinParityNotation, if_pos h, if_pos h, List.nil_append]

example : (4 : Nat) % 2 = 0 ∧ spinParityNotation 4 false = ['2', '-'] := by decide +kernel

/-- C27, the part that holds: different spin-parities give different strings. -/
theorem C27_strings_distinct (m n : Nat) (b c : Bool)
    (h : spinParityString m ⟨b⟩ = spinParityString n ⟨c⟩) : m = n ∧ b = c := by
  rw [spinParity_eq, spinParity_eq] at h
  have hl : ∀ k : Nat, ∀ x ∈ natText k, isDigit x = true := natText_digits
  have key : ∀ (s t u v : Str), (∀ x ∈ s, isDigit x = true) → (∀ x ∈ t, isDigit x = true) →
      (∀ x, u.head? = some x → isDigit x = false) → (∀ x, v.head? = some x → isDigit x = false) →
      u ≠ [] → v ≠ [] → s ++ u = t ++ v → s = t ∧ u = v := by
    intro s
    induction s with
    | nil =>
      intro t u v _ ht hu _ hu0 _ e
      cases t with
      | nil => exact ⟨rfl, e⟩
      | cons x t =>
        have := hu x (by rw [show u = x :: (t ++ v) from e]; rfl)
        rw [ht x (by simp)] at this; cases this
    | cons y s ih =>
      intro t u v hs ht hu hv hu0 hv0 e
      cases t with
      | nil =>
        have := hv y (by rw [show v = y :: (s ++ u) from e.symm]; rfl)
        rw [hs y (by simp)] at this; cases this
      | cons x t =>
        simp only [List.cons_append, List.cons.injEq] at e
        obtain ⟨i1, i2⟩ := ih t u v (fun a ha => hs a (by simp [ha]))
          (fun a ha => ht a (by simp [ha])) hu hv hu0 hv0 e.2
        exact ⟨by rw [e.1, i1], i2⟩
  have hd : ∀ (k : Nat) (b : Bool) (x : Char),
      (((if k % 2 = 0 then [] else ['/', '2']) ++ [if b then '+' else '-'] : Str)).head? = some x →
        isDigit x = false := by
    intro k b x
    split_ifs <;> simp <;> rintro rfl <;> decide
  obtain ⟨h1, h2⟩ := key _ _ _ _ (hl _) (hl _) (hd m b) (hd n c) (by simp) (by simp) h
  have h3 := natText_inj h1
  rcases Nat.mod_two_eq_zero_or_one m with hm | hm <;>
    rcases Nat.mod_two_eq_zero_or_one n with hn | hn <;> cases b <;> cases c <;>
    simp [hm, hn] at h2 <;> exact ⟨by omega, rfl⟩

example : spinParityString 3 ⟨true⟩ ≠ spinParityString 2 ⟨true⟩ := by decide +kernel

/-! ## C28 nuclear codes -/

open Pdg

theorem tmod_tdiv {n : Int} (h : 0 ≤ n) (a b : Int) (ha : 0 < a) :
    (n.tmod a).tdiv b = n % a / b := by
  rw [Int.tmod_eq_emod_of_nonneg h, Int.tdiv_eq_ediv_of_nonneg (Int.emod_nonneg _ (by omega))]

/-- C28: the atomic and mass numbers are recovered from the code of every
nuclide, the code fits a 32-bit `int`, neutron and proton have their own codes,
and exactly the composite nuclides (mass number at least two) are ions. -/
theorem C28_nucleus_code (Z A : Int) (hZ : 0 ≤ Z) (hZA : Z ≤ A) (hA : A < 1000) :
    getZ (nucleusPid Z A) = Z ∧ getA (nucleusPid Z A) = A ∧
    nucleusPid Z A < 2 ^ 31 ∧
    (isIon (nucleusPid Z A) = true ↔ 2 ≤ A) ∧
    nucleusPid 0 1 = 2112 ∧ nucleusPid 1 1 = 2212 := by
  refine ⟨?_, ?_, ?_, ?_, by decide, by decide⟩
  · simp only [nucleusPid, getZ, PROTON, NEUTRON]
    split_ifs <;> first | omega | (rw [tmod_tdiv (by omega) _ _ (by omega)]; omega)
  · simp only [nucleusPid, getA, PROTON, NEUTRON]
    split_ifs <;> first | omega | (rw [tmod_tdiv (by omega) _ _ (by omega)]; omega)
  · simp only [nucleusPid, PROTON, NEUTRON]
    split_ifs <;> omega
  · simp only [nucleusPid, isIon, PROTON, NEUTRON, Bool.and_eq_true]
    split_ifs <;> simp only [decide_eq_true_eq] <;> omega

example : getZ (nucleusPid 18 40) = 18 ∧ nucleusPid 18 40 = 1000180400 := by decide +kernel

/-- C28: different nuclides have different codes. -/
theorem C28_nucleus_code_injective (Z A Z' A' : Int) (hZ : 0 ≤ Z) (hZA : Z ≤ A) (hA : A < 1000)
    (hZ' : 0 ≤ Z') (hZA' : Z' ≤ A') (hA' : A' < 1000)
    (h : nucleusPid Z A = nucleusPid Z' A') : Z = Z' ∧ A = A' := by
  obtain ⟨a, b, -⟩ := C28_nucleus_code Z A hZ hZA hA
  obtain ⟨c, d, -⟩ := C28_nucleus_code Z' A' hZ' hZA' hA'
  rw [h] at a b
  exact ⟨a.symm.trans c, b.symm.trans d⟩

example : (0 : Int) ≤ 18 ∧ (18 : Int) ≤ 40 ∧ nucleusPid 18 40 ≠ nucleusPid 18 41 := by decide +kernel

/-! ## C29 name tables -/

/-- The six neutrino names and their PDG codes. -/
def neutrinoNames : List (String × Int) :=
  [("ve", 12), ("vebar", -12), ("vu", 14), ("vubar", -14), ("vt", 16), ("vtbar", -16)]

/-- C29 (neutrinos): the six names and codes convert into each other, every
other text is rejected, and every other code yields a text that is no name. -/
theorem C29_neutrino_names :
    (∀ p ∈ neutrinoNames, stringToNeutrinoPdg p.1.toList = (true, p.2) ∧
      neutrinoPdgToString p.2 = p.1.toList) ∧
    (∀ s : Str, (stringToNeutrinoPdg s).1 = true → ∃ p ∈ neutrinoNames, s = p.1.toList) ∧
    (∀ s : Str, (∀ p ∈ neutrinoNames, s ≠ p.1.toList) → stringToNeutrinoPdg s = (false, 0)) ∧
    (∀ i : Int, (∀ p ∈ neutrinoNames, i ≠ p.2) → neutrinoPdgToString i = ['?'] ∧
      (stringToNeutrinoPdg (neutrinoPdgToString i)).1 = false) := by
  refine ⟨by decide, ?_, ?_, ?_⟩
  · intro s h
    simp only [stringToNeutrinoPdg] at h
    split_ifs at h with h1 h2 h3 h4 h5 h6
    · exact ⟨("ve", 12), by decide, h1.trans (by decide)⟩
    · exact ⟨("vebar", -12), by decide, h2.trans (by decide)⟩
    · exact ⟨("vu", 14), by decide, h3.trans (by decide)⟩
    · exact ⟨("vubar", -14), by decide, h4.trans (by decide)⟩
    · exact ⟨("vt", 16), by decide, h5.trans (by decide)⟩
    · exact ⟨("vtbar", -16), by decide, h6.trans (by decide)⟩
  · intro s h
    simp only [neutrinoNames, List.forall_mem_cons] at h
    obtain ⟨h1, h2, h3, h4, h5, h6, -⟩ := h
    have c : "ve".toList = ['v', 'e'] ∧ "vebar".toList = ['v', 'e', 'b', 'a', 'r'] ∧
        "vu".toList = ['v', 'u'] ∧ "vubar".toList = ['v', 'u', 'b', 'a', 'r'] ∧
        "vt".toList = ['v', 't'] ∧ "vtbar".toList = ['v', 't', 'b', 'a', 'r'] := by decide
    rw [c.1] at h1; rw [c.2.1] at h2; rw [c.2.2.1] at h3; rw [c.2.2.2.1] at h4
    rw [c.2.2.2.2.1] at h5; rw [c.2.2.2.2.2] at h6
    rw [stringToNeutrinoPdg, if_neg h1, if_neg h2, if_neg h3, if_neg h4, if_neg h5, if_neg h6]
  · intro i h
    have : neutrinoPdgToString i = ['?'] := by
      simp only [neutrinoNames, List.forall_mem_cons] at h
      obtain ⟨h1, h2, h3, h4, h5, h6, -⟩ := h
      rw [neutrinoPdgToString, if_neg h1, if_neg h2, if_neg h3, if_neg h4, if_neg h5, if_neg h6]
    exact ⟨this, by rw [this]; decide⟩

example : (∀ p ∈ neutrinoNames, (11 : Int) ≠ p.2) ∧ (∀ p ∈ neutrinoNames, ['e'] ≠ p.1.toList) := by
  decide +kernel

/-- C29 (Coulomb modes): the name of every mode is converted back to it, every
accepted name is the name of the mode it gives, and every other text is
rejected with the library's exception. -/
theorem C29_coulomb_mode_names :
    (∀ m : CoulombMode, ∃ s, stringFromCoulombMode m = .ok s ∧ coulombModeFromString s = .ok m) ∧
    (∀ (s : Str) (m : CoulombMode), coulombModeFromString s = .ok m →
      stringFromCoulombMode m = .ok s) ∧
    (∀ s : Str, (∀ m, stringFromCoulombMode m ≠ .ok s) →
      coulombModeFromString s = .error .marleyError) := by
  have h2 : ∀ (s : Str) (m : CoulombMode), coulombModeFromString s = .ok m →
      stringFromCoulombMode m = .ok s := by
    intro s m h
    rw [coulombModeFromString] at h
    split at h
    · rename_i p hp
      have h1 := List.mem_of_find?_eq_some hp
      have h2 := List.find?_some hp
      simp only [decide_eq_true_eq] at h2
      cases h
      subst h2
      revert h1
      revert p
      have : ∀ p ∈ coulombModeMap, stringFromCoulombMode p.1 = .ok p.2 := by decide +kernel
      exact fun p _ hp => this p hp
    · cases h
  refine ⟨by intro m; cases m <;> exact ⟨_, rfl, by decide⟩, h2, ?_⟩
  intro s h
  cases hc : coulombModeFromString s with
  | ok m => exact absurd (h2 s m hc) (h m)
  | error e =>
    rw [coulombModeFromString] at hc
    split at hc
    · cases hc
    · cases hc; rfl

example : coulombModeFromString "MEMA".toList = .ok .mema ∧
    coulombModeFromString "mema".toList = .error .marleyError := by decide +kernel

theorem mem_of_lookup {α β : Type} [BEq α] [LawfulBEq α] {l : List (α × β)} {a : α} {b : β}
    (h : l.lookup a = some b) : (a, b) ∈ l := by
  induction l with
  | nil => cases h
  | cons p l ih =>
    obtain ⟨c, e⟩ := p
    rw [List.lookup_cons] at h
    by_cases hac : (a == c) = true
    · rw [hac] at h; simp only [Option.some.injEq] at h; rw [beq_iff_eq.1 hac, h]; simp
    · rw [Bool.eq_false_iff.2 hac] at h
      exact List.mem_cons_of_mem _ (ih h)

/-- C29 (elements): a symbol and an atomic number belong together in one
direction exactly when they do in the other, and anything outside the table is
rejected. -/
theorem C29_element_symbols :
    (∀ (Z : Int) (s : Str), elementSymbol Z = .ok s ↔ atomicNumber s = .ok Z) ∧
    (∀ Z : Int, 0 ≤ Z → Z ≤ 112 → ∃ s, elementSymbol Z = .ok s) ∧
    (∀ Z : Int, (Z < 0 ∨ 116 < Z) → elementSymbol Z = .error .outOfRange) ∧
    (∀ s : Str, (∀ Z, elementSymbol Z ≠ .ok s) → atomicNumber s = .error .outOfRange) := by
  have hA : ∀ p ∈ elementSymbols, atomicNumber p.2 = .ok p.1 := by decide +kernel
  have hB : ∀ p ∈ atomicNumbers, elementSymbol p.2 = .ok p.1 := by decide +kernel
  have hR : ∀ p ∈ elementSymbols, 0 ≤ p.1 ∧ p.1 ≤ 116 := by decide +kernel
  have h1 : ∀ (Z : Int) (s : Str), elementSymbol Z = .ok s ↔ atomicNumber s = .ok Z := by
    intro Z s
    constructor
    · intro h
      rw [elementSymbol] at h
      split at h
      · rename_i t ht; cases h; exact hA _ (mem_of_lookup ht)
      · cases h
    · intro h
      rw [atomicNumber] at h
      split at h
      · rename_i t ht; cases h; exact hB _ (mem_of_lookup ht)
      · cases h
  refine ⟨h1, ?_, ?_, ?_⟩
  · intro Z h0 h112
    have : ∀ n < 113, ∃ p ∈ elementSymbols, elementSymbol ((n : Nat) : Int) = .ok p.2 := by
      decide +kernel
    obtain ⟨p, -, hp⟩ := this Z.toNat (by omega)
    exact ⟨p.2, by rwa [Int.toNat_of_nonneg h0] at hp⟩
  · intro Z h
    rw [elementSymbol]
    split
    · rename_i s hs
      have := hR _ (mem_of_lookup hs)
      simp at this; omega
    · rfl
  · intro s h
    cases hc : atomicNumber s with
    | ok Z => exact absurd ((h1 Z s).2 hc) (h Z)
    | error e =>
      rw [atomicNumber] at hc
      split at hc
      · cases hc
      · cases hc; rfl

example : elementSymbol 18 = .ok "Ar".toList ∧ atomicNumber "Ar".toList = .ok 18 ∧
    elementSymbol 113 = .error .outOfRange := by decide +kernel

theorem nucIdMass_length (A : Nat) (h : 1 ≤ A ∧ A ≤ 999) : (nucIdMass A).length = 3 := by
  have : ∀ n < 1000, (nucIdMass n).length = 3 := by decide +kernel
  exact this A (by omega)

theorem lowerLast_append (s : Str) (c : Char) : lowerLast (s ++ [c]) = s ++ [toLower c] := by
  induction s with
  | nil => rfl
  | cons a s ih => cases s <;> simp_all [lowerLast]

/-- C29 (ENSDF identifiers): the atomic number is recovered from the identifier
of every nuclide whose element is in the table. -/
theorem C29_nucid_roundtrip (Z A : Int) (id : Str) (h : nucId Z A = .ok id) :
    nucidToZ id = .ok Z ∧ id.length = 5 := by
  rw [nucId] at h
  split_ifs at h with hr
  cases hs : elementSymbol Z with
  | error e => rw [hs] at h; cases h
  | ok s =>
    rw [hs] at h
    have hmem : (Z, s) ∈ elementSymbols := by
      rw [elementSymbol] at hs
      split at hs
      · rename_i t ht; cases hs; exact mem_of_lookup ht
      · cases hs
    have tab : ∀ p ∈ elementSymbols, ∃ a ∈ [p.2.map toUpper], ∃ b ∈
        [if a.length = 1 then a ++ [' '] else a],
        b.length = 2 ∧ atomicNumber (trimRight (lowerLast b) whitespace) = .ok p.1 := by
      decide +kernel
    obtain ⟨a, ha, b, hb, h1, h2⟩ := tab _ hmem
    simp only [List.mem_singleton] at ha hb
    subst ha
    simp only [← hb] at h
    cases h
    have h3 := nucIdMass_length A.toNat ⟨by omega, by omega⟩
    have h4 : (nucIdMass A.toNat ++ b).length = 5 := by simp [h3, h1]
    refine ⟨?_, h4⟩
    rw [nucidToZ, if_neg (by simp [h4])]
    obtain ⟨x, y, rfl⟩ : ∃ x y, b = [x, y] := List.length_eq_two.1 h1
    have h5 : lowerLast (nucIdMass A.toNat ++ [x, y]) = nucIdMass A.toNat ++ [x, toLower y] := by
      rw [show nucIdMass A.toNat ++ [x, y] = (nucIdMass A.toNat ++ [x]) ++ [y] by simp,
        lowerLast_append]; simp
    have h6 : lowerLast [x, y] = [x, toLower y] := rfl
    simp only [h5]
    rw [h6] at h2
    rw [show (nucIdMass A.toNat ++ [x, toLower y]).length - 2 = (nucIdMass A.toNat).length by
      simp, List.drop_left]
    exact h2

example : nucId 18 40 = .ok " 40AR".toList ∧ nucId 19 9 = .ok "  9K ".toList := by decide +kernel

/-! ## C30 strings -/

/-- C30 (splitting): no piece contains the delimiter.  The empty text has no
pieces.  Otherwise there is at least one piece; joining them with the delimiter
gives the text, without its last character when that is a delimiter. -/
theorem C30_split_string (s : Str) (d : Char) :
    (∀ p ∈ splitString s d, d ∉ p) ∧
    (s = [] → splitString s d = []) ∧
    (s ≠ [] → splitString s d ≠ []) ∧
    (s.getLast? ≠ some d → [d].intercalate (splitString s d) = s) ∧
    (s.getLast? = some d → [d].intercalate (splitString s d) ++ [d] = s) := by
  obtain ⟨h1, h2⟩ := splitLoop_spec d (s.length + 1) s (Nat.lt_succ_self _)
  change (∀ p ∈ splitString s d, d ∉ p) at h1
  refine ⟨h1, ?_⟩
  change _ ∧ splitString s d = [] ∨ splitString s d ≠ [] ∧ _ ∧ s = [d].intercalate (splitString s d) ++ [d] ∨
    splitString s d ≠ [] ∧ _ ∧ _ ∧ s = [d].intercalate (splitString s d) at h2
  rcases h2 with ⟨a, b⟩ | ⟨a, b, c⟩ | ⟨a, b, c, e⟩
  · subst a; simp [b]
  · refine ⟨fun h => ?_, fun _ => a, fun h => absurd b h, fun _ => c.symm⟩
    subst h; simp at b
  · exact ⟨fun h => absurd h b, fun _ => a, fun _ => e.symm, fun h => absurd h c⟩

example : splitString "a,,b,".toList ',' = ["a".toList, [], "b".toList] ∧
    "a,,b,".toList.getLast? = some ',' := by decide +kernel

/-- C30 (trimming): what is removed on either side is blank, and neither end of
the result is.  Trimming again changes nothing.  The one-sided variants remove
on one side only. -/
theorem C30_trim (s d : Str) :
    (∃ l r, s = l ++ trim s d ++ r ∧ (∀ x ∈ l, x ∈ d) ∧ (∀ x ∈ r, x ∈ d)) ∧
    (∀ c, (trim s d).head? = some c → c ∉ d) ∧
    (∀ c, (trim s d).getLast? = some c → c ∉ d) ∧
    trim (trim s d) d = trim s d ∧
    (∃ r, s = trimRight s d ++ r ∧ (∀ x ∈ r, x ∈ d)) ∧
    (∀ c, (trimRight s d).getLast? = some c → c ∉ d) ∧
    (∃ l, s = l ++ trimLeft s d ∧ (∀ x ∈ l, x ∈ d)) ∧
    (∀ c, (trimLeft s d).head? = some c → c ∉ d) := by
  obtain ⟨r, r1, r2, r3⟩ := trimRight_spec s d
  obtain ⟨l, l1, l2, l3⟩ := trimLeft_spec (trimRight s d) d
  obtain ⟨l', l1', l2', l3'⟩ := trimLeft_spec s d
  have hlast : ∀ c, (trim s d).getLast? = some c → c ∉ d := by
    intro c hc
    refine r3 c ?_
    rw [l1, List.getLast?_append]
    change (trimLeft (trimRight s d) d).getLast? = some c at hc
    simp [hc]
  have hhead : ∀ c, (trim s d).head? = some c → c ∉ d := l3
  have hid : trim (trim s d) d = trim s d := by
    generalize trim s d = t at hlast hhead
    obtain ⟨r, a1, a2, a3⟩ := trimRight_spec t d
    have hr : r = [] := by
      rcases List.eq_nil_or_concat r with h | ⟨r', x, h⟩
      · exact h
      · exfalso
        subst h
        exact hlast x (by rw [a1]; simp) (a2 x (by simp))
    rw [hr, List.append_nil] at a1
    rw [trim, ← a1]
    obtain ⟨l, b1, b2, b3⟩ := trimLeft_spec t d
    have hl : l = [] := by
      cases l with
      | nil => rfl
      | cons x l' => exact absurd (b2 x (by simp)) (hhead x (by rw [b1]; rfl))
    rw [hl, List.nil_append] at b1
    exact b1.symm
  exact ⟨⟨l, r, by rw [trim, ← l1, ← r1], l2, r2⟩, hhead, hlast, hid, ⟨r, r1, r2⟩, r3,
    ⟨l', l1', l2'⟩, l3'⟩

example : trim " a b\t\n".toList whitespace = "a b".toList ∧ trim "  ".toList whitespace = [] := by
  decide +kernel

/-- C30 (padding): the result has the larger of the two widths; it is the text
with copies of the padding character in front (or behind). -/
theorem C30_pad (s : Str) (n : Nat) (c : Char) :
    (padLeft s n c).length = max n s.length ∧
    (∃ p, padLeft s n c = p ++ s ∧ ∀ x ∈ p, x = c) ∧
    (padRight s n c).length = max n s.length ∧
    (∃ p, padRight s n c = s ++ p ∧ ∀ x ∈ p, x = c) := by
  rw [padLeft, padRight]
  split_ifs with h
  · refine ⟨by simp; omega, ⟨_, rfl, fun x hx => (List.mem_replicate.1 hx).2⟩, by simp; omega,
      ⟨_, rfl, fun x hx => (List.mem_replicate.1 hx).2⟩⟩
  · exact ⟨by omega, ⟨[], rfl, by simp⟩, by omega, ⟨[], by simp, by simp⟩⟩

example : padLeft "7".toList 3 '0' = "007".toList ∧ padRight "abcd".toList 2 ' ' = "abcd".toList := by
  decide +kernel

/-! ## C76 numerics -/

/-- C76, `ipow`: the mathematical power for exponents below 32. -/
theorem C76_ipow_partial {T : Type} [Ring T] (x : T) (n : Nat) (h : n < 32) :
    ipow x n = x ^ n := by
  induction n with
  | zero => simp [ipow]
  | succ n ih => rw [ipow, if_neg (by omega), ih (by omega), pow_succ']

example : (10 : Nat) < 32 ∧ ipow (2 : Int) 10 = 1024 := by decide +kernel

/-- C76 fails for `ipow` with exponents of 32 and more: the result is zero. -/
theorem C76_ipow_fails :
    (∀ (T : Type) [Ring T] (x : T) (n : Nat), 32 ≤ n → ipow x n = 0) ∧
    ipow (1 : ℝ) 32 ≠ 1 ^ 32 := by
  have h : ∀ (T : Type) [Ring T] (x : T) (n : Nat), 32 ≤ n → ipow x n = 0 := by
    intro T _ x n hn
    cases n with
    | zero => omega
    | succ n => rw [ipow, if_pos hn]
  exact ⟨h, by rw [h ℝ 1 32 (Nat.le_refl _)]; norm_num⟩

/-- C76, `real_sqrt`: a square root of nonnegative arguments and zero otherwise. -/
theorem C76_real_sqrt (x : ℝ) :
    0 ≤ realSqrt x ∧ (0 ≤ x → realSqrt x * realSqrt x = x) ∧ (x < 0 → realSqrt x = 0) := by
  rw [realSqrt]
  split_ifs with h
  · exact ⟨le_refl _, fun h' => absurd h (not_lt.2 h'), fun _ => rfl⟩
  · exact ⟨Real.sqrt_nonneg x, fun h' => Real.mul_self_sqrt h', fun h' => absurd h' h⟩

example : realSqrt 4 = 2 ∧ realSqrt (-4) = 0 := by
  constructor
  · rw [realSqrt, if_neg (by norm_num), show (4 : ℝ) = 2 ^ 2 by norm_num]
    exact Real.sqrt_sq (by norm_num)
  · rw [realSqrt, if_pos (by norm_num)]

theorem fdiv_ok (a : ℝ) {b : ℝ} (h : b ≠ 0) : fdiv a b = some (a / b) := by rw [fdiv, if_neg h]

/-- C76, `solve_quadratic_equation`: with a nonzero leading coefficient, a
nonnegative discriminant and not both other coefficients zero, the two values
returned are exactly the real roots, the first not smaller than the second. -/
theorem C76_quadratic_partial (A B C : ℝ) (hA : A ≠ 0) (hD : 0 ≤ B ^ 2 - 4 * A * C)
    (hBC : B ≠ 0 ∨ C ≠ 0) :
    ∃ p m, solveQuadratic A B C = some (p, m) ∧ m ≤ p ∧
      ∀ x, A * x ^ 2 + B * x + C = 0 ↔ x = p ∨ x = m := by
  set c := C / A with hc
  set b := B / (2 * A) with hb
  have hC : C = A * c := by rw [hc]; field_simp
  have hB : B = 2 * A * b := by rw [hb]; field_simp
  have hd : 0 ≤ b * b - c := by
    have : B ^ 2 - 4 * A * C = 4 * A ^ 2 * (b * b - c) := by rw [hC, hB]; ring
    rw [this] at hD
    have h4 : 0 < 4 * A ^ 2 := by positivity
    exact nonneg_of_mul_nonneg_right hD h4
  obtain ⟨s0, s1, -⟩ := C76_real_sqrt (b * b - c)
  have s2 := s1 hd
  set s := realSqrt (b * b - c) with hs
  -- any pair with the right sum and product is the pair of roots
  have roots : ∀ p m : ℝ, p + m = -(2 * b) → p * m = c →
      ∀ x, A * x ^ 2 + B * x + C = 0 ↔ x = p ∨ x = m := by
    intro p m h1 h2 x
    have : A * x ^ 2 + B * x + C = A * ((x - p) * (x - m)) := by
      rw [hC, hB, ← h2]
      have : (2 * b) = -(p + m) := by linarith
      calc A * x ^ 2 + 2 * A * b * x + A * (p * m)
          = A * x ^ 2 + A * (2 * b) * x + A * (p * m) := by ring
        _ = _ := by rw [this]; ring
    rw [this]
    constructor
    · intro h
      rcases mul_eq_zero.1 h with h | h
      · exact absurd h hA
      · rcases mul_eq_zero.1 h with h | h
        · left; linarith
        · right; linarith
    · rintro (rfl | rfl) <;> simp
  have prod : (-b - s) * (-b + s) = c := by nlinarith
  by_cases hpos : b > 0
  · have hne : -b - s ≠ 0 := by intro h; linarith
    have hq : c / (-b - s) = -b + s := by rw [← prod]; field_simp
    refine ⟨-b + s, -b - s, ?_, by linarith, roots _ _ (by ring) (by rw [← prod]; ring)⟩
    simp only [solveQuadratic, fdiv_ok C hA, fdiv_ok B (mul_ne_zero two_ne_zero hA),
      Option.bind_eq_bind, Option.bind_some, ← hc, ← hb, if_pos hpos, ← hs, fdiv_ok c hne, hq]
    rfl
  · have hne : -b + s ≠ 0 := by
      intro h
      have hb0 : b = 0 := by linarith
      have hs0 : s = 0 := by linarith
      have : c = 0 := by rw [← prod, hb0, hs0]; ring
      rcases hBC with h' | h'
      · exact h' (by rw [hB, hb0]; ring)
      · exact h' (by rw [hC, this]; ring)
    have hq : c / (-b + s) = -b - s := by rw [← prod]; field_simp
    refine ⟨-b + s, -b - s, ?_, by linarith, roots _ _ (by ring) (by rw [← prod]; ring)⟩
    simp only [solveQuadratic, fdiv_ok C hA, fdiv_ok B (mul_ne_zero two_ne_zero hA),
      Option.bind_eq_bind, Option.bind_some, ← hc, ← hb, if_neg hpos, ← hs, fdiv_ok c hne, hq]
    rfl

example : (1 : ℝ) ≠ 0 ∧ (0 : ℝ) ≤ (-3) ^ 2 - 4 * 1 * 2 ∧ ((-3 : ℝ) ≠ 0 ∨ (2 : ℝ) ≠ 0) := by norm_num

/-- C76 fails for `solve_quadratic_equation` when both roots are zero: the
second one is computed as 0/0. -/
theorem C76_quadratic_fails (A : ℝ) : solveQuadratic A 0 0 = none := by
  by_cases hA : A = 0
  · simp [solveQuadratic, fdiv, hA]
  · have : realSqrt 0 = 0 := by rw [realSqrt, if_neg (lt_irrefl _), Real.sqrt_zero]
    simp [solveQuadratic, fdiv, hA, this]

/-- C76 fails for `solve_quadratic_equation` without real roots: values are
returned all the same, and they are no roots. -/
theorem C76_quadratic_no_roots_fails :
    ∃ p m, solveQuadratic 1 2 2 = some (p, m) ∧ ∀ x : ℝ, 1 * x ^ 2 + 2 * x + 2 ≠ 0 := by
  have h : realSqrt (-1) = 0 := by rw [realSqrt, if_pos (by norm_num)]
  refine ⟨-2, -1, ?_, ?_⟩
  · have e : realSqrt (1 * 1 - 2) = 0 := by rw [show (1 * 1 - 2 : ℝ) = -1 by norm_num, h]
    norm_num [solveQuadratic, fdiv, h]
  · intro x hx; nlinarith [sq_nonneg (x + 1)]

end Marley.Props
