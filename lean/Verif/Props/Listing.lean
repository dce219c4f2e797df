import Verif.Spec.Listing
import Verif.Lemmas.Stream

/-!
# C117: the listing of an event
-/

set_option autoImplicit false

namespace Marley.Props
open Marley Marley.Json Marley.Listing

variable {K : Type}

/-- A word ends at the first blank. -/
theorem word_end {c : Char} {a b s t : Str} (ha : c ∉ a) (hb : c ∉ b) (h : a ++ c :: s = b ++ c :: t) : a = b ∧ s = t := by
  induction a generalizing b with
  | nil =>
    cases b with
    | nil => exact ⟨rfl, (List.cons.inj h).2⟩
    | cons y b => exact absurd (List.cons.inj h).1 (fun hh => hb (by simp [hh]))
  | cons x a ih =>
    cases b with
    | nil => exact absurd (List.cons.inj h).1 (fun hh => ha (by simp [hh]))
    | cons y b =>
      obtain ⟨h1, h2⟩ := List.cons.inj h
      obtain ⟨h3, h4⟩ := ih (fun hh => ha (by simp [hh])) (fun hh => hb (by simp [hh])) h2
      exact ⟨by rw [h1, h3], h4⟩

theorem natText_no {c : Char} (hc : isDigit c = false) (n : Nat) : c ∉ natText n := by
  intro h
  rw [natText_digits n c h] at hc
  cases hc

theorem intText_no {c : Char} (hc : isDigit c = false) (hm : c ≠ '-') (n : Int) : c ∉ intText n := by
  rw [intText_eq]
  split_ifs
  · simpa [hm] using natText_no hc n.natAbs
  · simpa using natText_no hc n.natAbs

set_option maxRecDepth 4000 in
theorem particleInfo_inj {num : K → Str} (hn : Plainly num) {p q : Particle K} {s t : Str}
    (h : particleInfo num p ++ s = particleInfo num q ++ t) : p = q ∧ s = t := by
  obtain ⟨a1, a2, a3, a4, a5, a6, a7⟩ := p
  obtain ⟨b1, b2, b3, b4, b5, b6, b7⟩ := q
  have hi : ∀ k : Int, ' ' ∉ intText k := intText_no rfl (by decide)
  simp only [particleInfo, List.cons_append, List.append_assoc, List.nil_append, List.cons.injEq, true_and] at h
  obtain ⟨h1, h⟩ := word_end (hi _) (hi _) h
  simp only [List.cons.injEq, true_and] at h
  obtain ⟨h2, h⟩ := word_end (hn.blank _) (hn.blank _) h
  simp only [List.cons.injEq, true_and] at h
  obtain ⟨h3, h⟩ := word_end (hn.blank _) (hn.blank _) h
  simp only [List.cons.injEq, true_and] at h
  obtain ⟨h4, h⟩ := word_end (hn.blank _) (hn.blank _) h
  simp only [List.cons.injEq, true_and] at h
  obtain ⟨h5, h⟩ := word_end (hn.blank _) (hn.blank _) h
  simp only [List.cons.injEq, true_and] at h
  obtain ⟨h6, h⟩ := word_end (hn.blank _) (hn.blank _) h
  simp only [List.cons.injEq, true_and] at h
  obtain ⟨h7, h⟩ := word_end (hi _) (hi _) h
  simp only [List.cons.injEq, true_and] at h
  rw [intText_inj h1, hn.inj h2, hn.inj h3, hn.inj h4, hn.inj h5, hn.inj h6, intText_inj h7]
  exact ⟨rfl, h⟩

theorem particles_inj {num : K → Str} (hn : Plainly num) {l m : List (Particle K)} (hl : l.length = m.length) {s t : Str}
    (h : l.flatMap (particleInfo num) ++ s = m.flatMap (particleInfo num) ++ t) : l = m ∧ s = t := by
  induction l generalizing m with
  | nil =>
    cases m with
    | nil => exact ⟨rfl, h⟩
    | cons q m => cases hl
  | cons p l ih =>
    cases m with
    | nil => cases hl
    | cons q m =>
      simp only [List.flatMap_cons, List.append_assoc] at h
      obtain ⟨h1, h2⟩ := particleInfo_inj hn h
      obtain ⟨h3, h4⟩ := ih (by simpa using hl) h2
      exact ⟨by rw [h1, h3], h4⟩

theorem spin_no (k : Int) : '\n' ∉ spin k := by
  rw [spin]
  split_ifs
  · simpa using intText_no (c := '\n') rfl (by decide) k
  · exact intText_no rfl (by decide) _

theorem spin_inj {j k : Int} (hj : 0 ≤ j) (hk : 0 ≤ k) (h : spin j = spin k) : j = k := by
  have hs : ∀ m : Int, '/' ∉ intText m := intText_no rfl (by decide)
  rw [spin, spin] at h
  split_ifs at h with h1 h2 h2
  · exact intText_inj (List.append_cancel_right h)
  · exact absurd (by rw [← h]; simp) (hs (k.tdiv 2))
  · exact absurd (by rw [h]; simp) (hs (j.tdiv 2))
  · have := intText_inj h
    rw [Int.tdiv_eq_ediv_of_nonneg hj, Int.tdiv_eq_ediv_of_nonneg hk] at this
    rw [Int.tmod_eq_emod_of_nonneg hj] at h1
    rw [Int.tmod_eq_emod_of_nonneg hk] at h2
    omega

theorem toChar_inj {a b : Parity} (h : a.toChar = b.toChar) : a = b := by
  obtain ⟨a⟩ := a
  obtain ⟨b⟩ := b
  cases a <;> cases b <;> first | rfl | (revert h; decide)

theorem spinParity_inj {j k : Int} (hj : 0 ≤ j) (hk : 0 ≤ k) {a b : Parity} {s t : Str}
    (h : spin j ++ a.toChar :: '\n' :: s = spin k ++ b.toChar :: '\n' :: t) : j = k ∧ a = b ∧ s = t := by
  have hp : ∀ (k : Int) (b : Parity), '\n' ∉ spin k ++ [b.toChar] := by
    intro k b
    simp only [List.mem_append, List.mem_singleton, not_or]
    refine ⟨spin_no _, ?_⟩
    obtain ⟨b⟩ := b
    cases b <;> decide
  have h' : (spin j ++ [a.toChar]) ++ '\n' :: s = (spin k ++ [b.toChar]) ++ '\n' :: t := by simpa using h
  obtain ⟨h4, h⟩ := word_end (hp j a) (hp k b) h'
  obtain ⟨h5, h6⟩ := List.append_inj' h4 rfl
  exact ⟨spin_inj hj hk h5, toChar_inj (List.cons.inj h6).1, h⟩

/-- The header of the listing. -/
theorem number_inj {n m : Int} {s t : Str} (h : (if 0 ≤ n then intText n ++ [' '] else []) ++ (chars%"has " ++ s) =
    (if 0 ≤ m then intText m ++ [' '] else []) ++ (chars%"has " ++ t)) : shown n = shown m ∧ s = t := by
  have hi : ∀ k : Int, ' ' ∉ intText k := intText_no rfl (by decide)
  have hh : ∀ k : Int, intText k ≠ chars%"has" := by
    intro k hk
    exact intText_no (c := 'h') rfl (by decide) k (by rw [hk]; simp)
  have hw : ' ' ∉ chars%"has" := by decide
  by_cases hn : 0 ≤ n <;> by_cases hm : 0 ≤ m
  · rw [if_pos hn, if_pos hm, List.append_assoc, List.append_assoc] at h
    obtain ⟨h1, h2⟩ := word_end (hi _) (hi _) h
    rw [intText_inj h1]
    exact ⟨rfl, List.append_cancel_left h2⟩
  · rw [if_pos hn, if_neg hm, List.append_assoc] at h
    exact absurd (word_end (b := chars%"has") (hi _) hw h).1 (hh n)
  · rw [if_neg hn, if_pos hm, List.append_assoc] at h
    exact absurd (word_end (a := chars%"has") hw (hi _) h).1.symm (hh m)
  · rw [if_neg hn, if_neg hm] at h
    exact ⟨by rw [shown, shown, if_pos (by omega), if_pos (by omega)], List.append_cancel_left (List.append_cancel_left h)⟩

set_option maxRecDepth 4000 in
theorem printHuman_inj {num : K → Str} (hn : Plainly num) {e f : Event K} (he : 0 ≤ e.twoJ) (hf : 0 ≤ f.twoJ) {n m : Int} {s t : Str}
    (h : printHuman num e n ++ s = printHuman num f m ++ t) : e = f ∧ shown n = shown m ∧ s = t := by
  obtain ⟨a1, a2, a3, a4, a5⟩ := e
  obtain ⟨b1, b2, b3, b4, b5⟩ := f
  simp only at he hf
  have hN : ∀ k : Nat, ' ' ∉ natText k := natText_no rfl
  simp only [printHuman, List.append_assoc] at h
  have h := List.append_cancel_left h
  obtain ⟨h0, h⟩ := number_inj h
  simp only [List.cons_append, List.append_assoc, List.nil_append] at h
  obtain ⟨h1, h⟩ := word_end (hN _) (hN _) h
  simp only [List.cons.injEq, true_and] at h
  obtain ⟨h2, h⟩ := word_end (hN _) (hN _) h
  simp only [List.cons.injEq, true_and] at h
  obtain ⟨h3, h⟩ := word_end (hn.blank _) (hn.blank _) h
  simp only [List.cons.injEq, true_and] at h
  obtain ⟨h5, h6, h⟩ := spinParity_inj he hf h
  simp only [List.cons.injEq, true_and] at h
  obtain ⟨h7, h⟩ := particles_inj hn (natText_inj h1) h
  simp only [List.cons.injEq, true_and] at h
  obtain ⟨h8, h⟩ := particles_inj hn (natText_inj h2) h
  rw [h7, h8, hn.inj h3, h5, h6]
  exact ⟨rfl, h0, h⟩

set_option maxRecDepth 4000 in
/-- C117: the listing of an event has lines for everything in it.

Partial: for spins that are not negative (see `C117_spin_violated`). -/
theorem C117_lines_partial (num : K → Str) (e : Event K) (he : 0 ≤ e.twoJ) (n : Int) :
    printHuman num e n = eventRows num e (shown n) := by
  have hs : ∀ s, spin e.twoJ ++ e.parity.toChar :: s = spinParity e.twoJ e.parity.isPositive ++ s := by
    intro s
    have h1 : spin e.twoJ = if 2 ∣ e.twoJ then intText (e.twoJ / 2) else intText e.twoJ ++ ['/', '2'] := by
      rw [spin, Int.tmod_eq_emod_of_nonneg he, Int.tdiv_eq_ediv_of_nonneg he]
      by_cases h2 : 2 ∣ e.twoJ
      · rw [if_neg (by omega), if_pos h2]
      · rw [if_pos (by omega), if_neg h2]
    rw [spinParity, ← h1, Parity.toChar, List.append_assoc]
    rfl
  have hnum : ∀ s, (if 0 ≤ n then intText n ++ [' '] else []) ++ s =
      number (shown n) ++ s := by
    intro s
    rw [shown]
    by_cases hn : n < 0
    · rw [if_pos hn, if_neg (by omega)]
      rfl
    · rw [if_neg hn, if_pos (by omega)]
      obtain ⟨k, rfl⟩ := Int.eq_ofNat_of_zero_le (by omega : 0 ≤ n)
      rfl
  have hp : particleInfo num = particleRows num := by
    funext p
    simp only [particleInfo, particleRows, row, List.flatten_cons, List.flatten_nil, List.append_nil, List.append_assoc,
      List.cons_append, List.nil_append]
  rw [printHuman, hnum, hp]
  rw [eventRows]
  simp only [row, List.flatten_cons, List.flatten_nil, List.append_nil, List.append_assoc,
      List.cons_append, List.nil_append, hs, List.flatMap_def]

/-- C117: if several events are listed one after the other, the listing shows which events these are, in which order, and which
numbers they were given.

Partial: for spins that are not negative, and for numbers that are printed with all their digits. -/
theorem C117_distinct_partial {num : K → Str} (hn : Plainly num) (l m : List (Event K × Int)) (hl : ∀ p ∈ l, 0 ≤ p.1.twoJ)
    (hm : ∀ p ∈ m, 0 ≤ p.1.twoJ)
    (h : l.flatMap (fun p => printHuman num p.1 p.2) = m.flatMap (fun p => printHuman num p.1 p.2)) :
    l.map (fun p => (p.1, shown p.2)) = m.map (fun p => (p.1, shown p.2)) := by
  induction l generalizing m with
  | nil =>
    cases m with
    | nil => rfl
    | cons q m => cases h
  | cons p l ih =>
    cases m with
    | nil => cases h
    | cons q m =>
      simp only [List.flatMap_cons] at h
      obtain ⟨h1, h2, h3⟩ := printHuman_inj hn (hl p (by simp)) (hm q (by simp)) h
      simp only [List.map_cons, h1, h2]
      rw [ih m (fun p hp => hl p (by simp [hp])) (fun p hp => hm p (by simp [hp])) h3]

/-- C117: a negative half-integer spin is shown as another one, so that different events have the same listing. -/
theorem C117_spin_violated (num : K → Str) (e : Event K) (n : Int) :
    printHuman num { e with twoJ := -1 } n = printHuman num { e with twoJ := 0 } n := rfl

/-- How whole numbers are printed satisfies the assumption. -/
theorem intText_plainly : Plainly intText := ⟨fun _ _ h => intText_inj h, intText_no rfl (by decide)⟩

/-- An event. -/
def exListed (px : Int) : Event Int :=
  ⟨[⟨12, 10, 0, 0, 10, 0, 0⟩, ⟨1000180400, 37000, 0, 0, 0, 37000, 0⟩],
   [⟨11, 8, px, 0, 5, 1, -1⟩, ⟨1000190400, 37002, -px, 0, 5, 37001, 1⟩, ⟨22, 1, 0, 1, 0, 0, 0⟩], 3, 7, ⟨false⟩⟩

example : printHuman intText (exListed 1) 4 ≠ printHuman intText (exListed 2) 4 := by
  intro h
  have := C117_distinct_partial intText_plainly [(exListed 1, 4)] [(exListed 2, 4)] (by decide) (by decide) (by simpa using h)
  revert this
  decide

end Marley.Props
