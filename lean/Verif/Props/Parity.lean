import Verif.Model.Parity

/-!
# C73: parity algebra and conversions

Specification: parities are the two signs `+1` and `-1`; `sign` below gives the
meaning of a parity object as an integer sign, independently of the model's
conversions.
-/

set_option autoImplicit false

namespace Marley.Props
open Marley

/-- Meaning of a parity as an integer, spelled out on the stored boolean. -/
def paritySign : Parity → Int
  | ⟨true⟩ => 1
  | ⟨false⟩ => -1

/-- C73 (algebra): the product means multiplication of signs, both negations
mean changing the sign, and multiplying an integer by a parity multiplies it by
the sign. -/
theorem C73_parity_algebra (p q : Parity) (i : Int) :
    paritySign (p.mul q) = paritySign p * paritySign q ∧
    paritySign p.neg = - paritySign p ∧
    paritySign p.flip = - paritySign p ∧
    p.mulInt i = paritySign p * i ∧
    p.toInt = paritySign p ∧
    (p.toBool = true ↔ paritySign p = 1) ∧
    paritySign Parity.default = 1 := by
  rcases p with ⟨_ | _⟩ <;> rcases q with ⟨_ | _⟩ <;>
    simp [paritySign, Parity.mul, Parity.neg, Parity.flip, Parity.mulInt, Parity.toInt,
      Parity.toBool, Parity.default]

example : paritySign (Parity.mul ⟨false⟩ ⟨false⟩) = 1 := by decide

/-- C73 (group): the parities form the two-element group under `*`. -/
theorem C73_parity_group (p q r : Parity) :
    (p.mul q).mul r = p.mul (q.mul r) ∧ p.mul q = q.mul p ∧
    Parity.default.mul p = p ∧ p.mul p = Parity.default := by
  rcases p with ⟨_ | _⟩ <;> rcases q with ⟨_ | _⟩ <;> rcases r with ⟨_ | _⟩ <;> decide

/-- C73 (integers): conversion from an integer succeeds exactly for the two
signs, and then yields the parity with that sign; everything else throws
`marley::Error`.  The same holds for assignment. -/
theorem C73_parity_ofInt (i : Int) (old : Parity) :
    (∀ p, Parity.ofInt i = .ok p ↔ paritySign p = i) ∧
    (Parity.ofInt i = .error .marleyError ↔ i ≠ 1 ∧ i ≠ -1) ∧
    Parity.assignInt old i = Parity.ofInt i := by
  refine ⟨?_, ?_, rfl⟩
  · rintro ⟨_ | _⟩ <;> unfold Parity.ofInt paritySign <;> split <;> rename_i h1
    · subst h1; simp
    · split <;> rename_i h2
      · subst h2; simp
      · simp; omega
    · subst h1; simp
    · split <;> rename_i h2
      · subst h2; simp
      · simp; omega
  · unfold Parity.ofInt
    split
    · simp [*]
    · split <;> simp [*]

example : Parity.ofInt (-1) = .ok ⟨false⟩ ∧ Parity.ofInt 0 = .error .marleyError := by decide

/-- C73 (characters): conversion from a character succeeds exactly for `+` and
`-` and inverts `to_char`; every other character throws `marley::Error`. -/
theorem C73_parity_ofChar (c : Char) :
    (∀ p, Parity.ofChar c = .ok p ↔ p.toChar = c) ∧
    (Parity.ofChar c = .error .marleyError ↔ c ≠ '+' ∧ c ≠ '-') := by
  refine ⟨?_, ?_⟩
  · rintro ⟨_ | _⟩ <;> unfold Parity.ofChar Parity.toChar <;> split <;> rename_i h1
    · subst h1; simp
    · split <;> rename_i h2
      · subst h2; simp
      · simpa using fun h => h2 h.symm
    · subst h1; simp
    · split <;> rename_i h2
      · subst h2; simp
      · simpa using fun h => h1 h.symm
  · unfold Parity.ofChar
    split
    · simp [*]
    · split <;> simp [*]

example : Parity.ofChar '+' = .ok ⟨true⟩ ∧ Parity.ofChar '1' = .error .marleyError := by decide

/-- C73 (streams): reading after printing gives the parity back and leaves the
rest of the stream untouched, whatever white space precedes it. -/
theorem C73_parity_stream (p : Parity) (ws rest : List Char)
    (hws : ∀ c ∈ ws, Parity.isSpace c = true) :
    Parity.read (ws ++ p.print ++ rest) = .ok (some p, rest) := by
  have h : (ws ++ p.print ++ rest).dropWhile Parity.isSpace = p.toChar :: rest := by
    induction ws with
    | nil =>
      rcases p with ⟨_ | _⟩ <;>
        simp [Parity.print, Parity.toChar, Parity.isSpace]
    | cons c ws ih =>
      have hc := hws c (by simp)
      have := ih (fun d hd => hws d (by simp [hd]))
      simpa [List.dropWhile_cons, hc] using this
  unfold Parity.read
  rw [h]
  rcases p with ⟨_ | _⟩ <;> simp [Parity.ofChar, Parity.toChar]

example : Parity.read " \n- 3".toList = .ok (some ⟨false⟩, " 3".toList) := by decide

end Marley.Props
