import Mathlib.Data.Rat.Floor
import Verif.Lemmas.Status
import Verif.Props.OutputFile

/-!
# C100-C103: the status display, the amounts and times it shows, and the exit status

The terminal is described in `Verif/Spec/Terminal.lean`.
-/

set_option autoImplicit false

namespace Marley.Props
open Marley Marley.Json Marley.Out Marley.Status Marley.Terminal

variable {K γ : Type}

/-! ## C100: durations -/

/-- Two decimal digits. -/
def twoDigits (n : Nat) : Str := [Char.ofNat (48 + n / 10), Char.ofNat (48 + n % 10)]

/-- The number of days, if it is not zero. -/
def dayPart (d : Nat) : Str :=
  if d = 0 then [] else if d = 1 then ['1', ' ', 'd', 'a', 'y', ' ']
  else natText d ++ [' ', 'd', 'a', 'y', 's', ' ']

/-- How a number of seconds is to be shown: days, then hours, minutes and seconds with
two digits each. -/
def clockFace (n : Nat) : Str :=
  dayPart (n / 86400) ++ (twoDigits (n / 3600 % 24) ++ ':' :: (twoDigits (n / 60 % 60) ++
    ':' :: twoDigits (n % 60)))

theorem padded_two : ∀ n < 60, padded (n : Nat) = twoDigits n := by decide +kernel

theorem twoDigits_val : ∀ n < 60, digitsVal (twoDigits n) = n := by decide +kernel

theorem clockText_face (n : Nat) :
    clockText ⟨(n / 86400 : Nat), (n / 3600 % 24 : Nat), (n / 60 % 60 : Nat), (n % 60 : Nat)⟩ =
      clockFace n := by
  have h1 := padded_two (n / 3600 % 24) (by omega)
  have h2 := padded_two (n / 60 % 60) (by omega)
  have h3 := padded_two (n % 60) (by omega)
  simp only [clockText, clockFace, h1, h2, h3, List.append_assoc]
  rw [← List.append_assoc]
  congr 1
  rw [dayPart]
  by_cases h0 : n / 86400 = 0
  · simp [h0]
  · by_cases h1 : n / 86400 = 1
    · have e : intText 1 = ['1'] := by decide +kernel
      simp [h1, e]
    · have h2 : ((n / 86400 : Nat) : Int) > 1 := by omega
      have h3 : ((n / 86400 : Nat) : Int) ≠ 1 := by omega
      rw [if_pos h2, if_neg h3, if_neg h0, if_neg h1, List.append_nil]
      rfl

theorem dayPart_digits (d : Nat) :
    (dayPart d).takeWhile isDigit = if d = 0 then [] else natText d := by
  rw [dayPart]
  by_cases h0 : d = 0
  · simp [h0]
  · by_cases h1 : d = 1
    · subst h1; decide +kernel
    · rw [if_neg h0, if_neg h1, if_neg h0]
      have hsp : isDigit ' ' = false := by decide
      exact takeWhile_append_stop (natText_digits d) hsp _

/-- **C100**, elapsed times: the text for a time that is not negative shows its whole
seconds, in days, hours, minutes and seconds. -/
theorem C100_elapsed (t : Int) (h0 : 0 ≤ t) (h : t ≤ longMax) :
    clockText (tickClock t) = clockFace (t / 1000000000).toNat := by
  rw [tickClock_spec h0 h, ← clockText_face]
  congr 2 <;> omega

-- Two hours, three minutes and four and a half seconds on the second day.
example : clockText (tickClock 93784500000000) = "1 day 02:03:04".toList := by decide +kernel
example : (0 : Int) ≤ 93784500000000 ∧ (93784500000000 : Int) ≤ longMax := by decide

/-- **C100**, estimated times: as for elapsed times, for a time in seconds with a
fraction, if the number of days fits into an `int`.  Missing from the full claim: the
rounding of the divisions and subtractions. -/
theorem C100_estimated_partial [Field K] [LinearOrder K] [IsStrictOrderedRing K] [FloorRing K]
    (t : K) (h0 : 0 ≤ t) (h : t < 2147483648 * 86400) :
    ∃ c, secClock t = .ok c ∧ clockText c = clockFace ⌊t⌋.toNat := by
  refine ⟨_, secClock_spec h0 h, ?_⟩
  have hf : 0 ≤ ⌊t⌋ := Int.floor_nonneg.2 h0
  rw [← clockText_face]
  congr 2 <;> omega

example : (0 : ℚ) ≤ 100000 ∧ (100000 : ℚ) < 2147483648 * 86400 := by norm_num

/-- **C100**, no two different numbers of seconds are shown in the same way. -/
theorem C100_unambiguous (m n : Nat) (h : clockFace m = clockFace n) : m = n := by
  have hl : ∀ x : Nat, (twoDigits (x / 3600 % 24) ++ ':' :: (twoDigits (x / 60 % 60) ++
    ':' :: twoDigits (x % 60))).length = 8 := fun x => by simp [twoDigits]
  obtain ⟨h1, h2⟩ := List.append_inj' h (by rw [hl, hl])
  have hd : m / 86400 = n / 86400 := by
    have := congrArg (List.takeWhile isDigit) h1
    rw [dayPart_digits, dayPart_digits] at this
    split_ifs at this with a b b
    · omega
    · exact absurd this.symm (natText_ne_nil _)
    · exact absurd this (natText_ne_nil _)
    · exact natText_inj this
  obtain ⟨h3, h4⟩ := List.append_inj h2 (by simp [twoDigits])
  rw [List.cons.injEq] at h4
  obtain ⟨h5, h6⟩ := List.append_inj h4.2 (by simp [twoDigits])
  rw [List.cons.injEq] at h6
  have e1 := congrArg digitsVal h3
  have e2 := congrArg digitsVal h5
  have e3 := congrArg digitsVal h6.2
  rw [twoDigits_val _ (by omega), twoDigits_val _ (by omega)] at e1
  rw [twoDigits_val _ (by omega), twoDigits_val _ (by omega)] at e2
  rw [twoDigits_val _ (by omega), twoDigits_val _ (by omega)] at e3
  omega

/-- **C100** fails for negative times, which occur if the clock is set back during the
run: the minus signs appear between the digits, and the days are left out, so that
different times look alike. -/
theorem C100_negative_violated :
    clockText (tickClock (-90000000000)) = "00:0-1:0-30".toList ∧
      clockText (tickClock (-86490000000000)) = "00:0-1:0-30".toList := by
  constructor <;> decide +kernel

/-! ## C101: amounts of data -/

/-- The prefixes and their powers of ten. -/
def siPrefixes : List (Char × Nat) := [('k', 3), ('M', 6), ('G', 9), ('T', 12)]

/-- **C101**, small amounts are shown as they are. -/
theorem C101_small [Field K] [LinearOrder K] [IsStrictOrderedRing K] [FloorRing K] (n : Int)
    (h0 : 0 ≤ n) (h : n < 1000) (p : Nat) :
    bytesText (n : K) p = .ok (intText n ++ [' ', 'B']) := by
  have h1 : (n : K) < 10 ^ 3 := by
    have : (n : K) < (1000 : Int) := by exact_mod_cast h
    norm_num at this ⊢; exact this
  have hc : cut (n : K) = .ok n := by
    rw [cut_spec (by exact_mod_cast h0) (by norm_num at h1 ⊢; linarith), Int.floor_intCast]
  rw [bytesText, if_pos h1, hc]
  rfl

/-- **C101**, larger amounts are shown in the largest unit that is not larger (up to TB),
with `p` decimals, and the number shown is as close as `p` decimals allow.  Missing from
the full claim: the rounding of the number of bytes and of the quotient to doubles. -/
theorem C101_amount_partial [Field K] [LinearOrder K] [IsStrictOrderedRing K] [FloorRing K] (n : Int)
    (h : 1000 ≤ n) (p : Nat) (hp : 0 < p) :
    ∃ (q : Nat) (d : Str) (u : Char) (e : Nat),
      bytesText (n : K) p = .ok (natText q ++ '.' :: d ++ [' ', u, 'B']) ∧ (u, e) ∈ siPrefixes ∧
      10 ^ e ≤ n ∧ (n < 10 ^ (e + 3) ∨ u = 'T') ∧ d.length = p ∧ (∀ c ∈ d, isDigit c = true) ∧
      |((q : K) + digitsVal d / 10 ^ p) * 10 ^ e - n| ≤ 10 ^ e / 2 / 10 ^ p := by
  have hb : ¬ (n : K) < 10 ^ 3 := by
    have : ((1000 : Int) : K) ≤ n := by exact_mod_cast h
    norm_num at this ⊢; exact this
  have hlt : ∀ k : Nat, (n : K) < 10 ^ k ↔ n < 10 ^ k := by
    intro k
    rw [show ((10 : K) ^ k) = (((10 : Int) ^ k : Int) : K) by push_cast; rfl]
    exact Int.cast_lt
  have hpos : (0 : K) ≤ n := by
    have : (0 : Int) ≤ n := by omega
    exact_mod_cast this
  have main : ∀ (u : Char) (e : Nat), byteUnit (n : K) = (10 ^ e, u) → (u, e) ∈ siPrefixes →
      10 ^ e ≤ n → (n < 10 ^ (e + 3) ∨ u = 'T') →
      ∃ (q : Nat) (d : Str) (u : Char) (e : Nat),
      bytesText (n : K) p = .ok (natText q ++ '.' :: d ++ [' ', u, 'B']) ∧ (u, e) ∈ siPrefixes ∧
      10 ^ e ≤ n ∧ (n < 10 ^ (e + 3) ∨ u = 'T') ∧ d.length = p ∧ (∀ c ∈ d, isDigit c = true) ∧
      |((q : K) + digitsVal d / 10 ^ p) * 10 ^ e - n| ≤ 10 ^ e / 2 / 10 ^ p := by
    intro u e hu hm h1 h2
    have he : (0 : K) < 10 ^ e := by positivity
    obtain ⟨q, r, d, a1, a2, a3, a4, a5⟩ := fixedText_spec (p := p) (x := (n : K) / 10 ^ e) hp (by positivity)
    refine ⟨q, d, u, e, ?_, hm, h1, h2, a2, a3, ?_⟩
    · rw [bytesText, if_neg hb, hu, a1]
    · rw [a4]
      have : ((q : K) + r / 10 ^ p) * 10 ^ e - n = ((q : K) + r / 10 ^ p - n / 10 ^ e) * 10 ^ e := by
        field_simp
      rw [this, abs_mul, abs_of_pos he]
      calc |(q : K) + r / 10 ^ p - n / 10 ^ e| * 10 ^ e ≤ 1 / 2 / 10 ^ p * 10 ^ e :=
            mul_le_mul_of_nonneg_right a5 he.le
        _ = _ := by ring
  by_cases h6 : n < 10 ^ 6
  · exact main 'k' 3 (by rw [byteUnit, if_pos ((hlt 6).2 h6)]) (by decide) (by omega) (.inl (by omega))
  · by_cases h9 : n < 10 ^ 9
    · exact main 'M' 6 (by rw [byteUnit, if_neg (mt (hlt 6).1 h6), if_pos ((hlt 9).2 h9)]) (by decide)
        (by omega) (.inl (by omega))
    · by_cases h12 : n < 10 ^ 12
      · exact main 'G' 9 (by rw [byteUnit, if_neg (mt (hlt 6).1 h6), if_neg (mt (hlt 9).1 h9),
          if_pos ((hlt 12).2 h12)]) (by decide) (by omega) (.inl (by omega))
      · exact main 'T' 12 (by rw [byteUnit, if_neg (mt (hlt 6).1 h6), if_neg (mt (hlt 9).1 h9),
          if_neg (mt (hlt 12).1 h12)]) (by decide) (by omega) (.inr rfl)

theorem byteExample (n : Nat) (k : Int) (hk : nearest ((n : ℚ) / 10 ^ 3 * 10 ^ 2) = k) (h1 : 1000 ≤ n)
    (h2 : n < 1000000) :
    bytesText (n : ℚ) 2 = .ok (natText (k.toNat / 100) ++ '.' :: decimals 2 (k.toNat % 100) ++ " kB".toList) := by
  have a : ¬ (n : ℚ) < 10 ^ 3 := by
    have : ((1000 : Nat) : ℚ) ≤ n := by exact_mod_cast h1
    norm_num at this ⊢; exact this
  have b : (n : ℚ) < 10 ^ 6 := by
    have : (n : ℚ) < ((1000000 : Nat) : ℚ) := by exact_mod_cast h2
    norm_num at this ⊢; exact this
  have c : byteUnit (n : ℚ) = (10 ^ 3, 'k') := by rw [byteUnit, if_pos b]
  have d : (0 : ℚ) ≤ n / 10 ^ 3 := by positivity
  rw [bytesText, if_neg a, c]
  simp only [fixedText, if_neg (not_lt.2 d), abs_of_nonneg d, hk]
  simp

-- 123456 bytes are shown as 123.46 kB.
example : bytesText (123456 : ℚ) 2 = .ok "123.46 kB".toList := by
  have := byteExample 123456 12346 (by
    have : ⌊((123456 : Nat) : ℚ) / 10 ^ 3 * 10 ^ 2⌋ = 12345 := by norm_num [Int.floor_eq_iff]
    simp only [nearest, this]; norm_num) (by norm_num) (by norm_num)
  refine Eq.trans ?_ (this.trans (by decide +kernel))
  norm_num

/-- **C101** fails in that a number shown with a unit need not be below one thousand:
rounding takes place after the unit was chosen. -/
theorem C101_thousand_violated : bytesText (999999 : ℚ) 2 = .ok "1000.00 kB".toList := by
  have := byteExample 999999 100000 (by
    have : ⌊((999999 : Nat) : ℚ) / 10 ^ 3 * 10 ^ 2⌋ = 99999 := by norm_num [Int.floor_eq_iff]
    simp only [nearest, this]; norm_num) (by norm_num) (by norm_num)
  refine Eq.trans ?_ (this.trans (by decide +kernel))
  norm_num

/-- **C101**, while the run goes on: the amount shown for a file is its size. -/
theorem C101_running (m : Meter K) (ho : m.isOpen = true) (hg : m.file.good = true) :
    (bytesWritten m).1 = m.file.text.length ∧ (bytesWritten m).2.file = m.file := by
  simp [bytesWritten, ho, hg]

/-- **C101** fails for a file whose stream has failed, for example because the disk is
full: the amount shown is `-1 B`, whatever the size of the file. -/
theorem C101_failed_violated [Field K] [LinearOrder K] [IsStrictOrderedRing K] [FloorRing K] (m : Meter K) (ho : m.isOpen = true) (hg : m.file.good = false) :
    (bytesWritten m).1 = -1 ∧ bytesText (((bytesWritten m).1 : Int) : K) 2 = .ok "-1 B".toList := by
  have h : (bytesWritten m).1 = -1 := by simp [bytesWritten, ho, hg]
  refine ⟨h, ?_⟩
  have h1 : (((-1 : Int) : K)) < 10 ^ 3 := by push_cast; linarith [pow_pos (by norm_num : (0 : K) < 10) 3]
  have h2 : cut (((-1 : Int) : K)) = .ok (-1) := by
    have e : ¬ (0 : K) ≤ ((-1 : Int) : K) := by push_cast; linarith [zero_lt_one (α := K)]
    simp only [cut, if_neg e, Int.ceil_intCast]
    rfl
  rw [h, bytesText, if_pos h1, h2]
  decide +kernel

example : bytesText (((bytesWritten (K := ℚ)
    ⟨⟨['f'], .json, .overwrite, none, false, 0, false, ['{']⟩, true, 0⟩).1 : Int) : ℚ) 2 =
      .ok "-1 B".toList :=
  (C101_failed_violated _ rfl rfl).2

/-- **C101** fails at the end of a run for every JSON file: what is shown after the file
was closed is less than its size, even if the amount was last shown after the last
event, because the generator state is written when the file is closed and the amount is
then not determined again. -/
theorem C101_final_violated (G : GenOps K γ) (F : TextFmt K) (m : Meter K) (cfg : JVal K) (g : γ)
    (n : Int) (ho : m.isOpen = true) (hg : m.file.good = true) (hf : m.file.format = .json) :
    let m' := closeMeter G F (bytesWritten m).2 cfg g n
    (bytesWritten m').1 < m'.file.text.length := by
  simp only [bytesWritten, closeMeter, ho, hg, if_true, closeFile, hf, OutFile.put]
  simp only [Bool.false_eq_true, if_false, List.length_append, List.length_cons]
  push_cast
  omega

/-- **C101**, the end of a run for the other formats: what is shown is the size of the
file if the amount was last shown after the last event, as is the case in a run that is
not interrupted and has at least one event.  Missing from the full claim: JSON files and
interrupted runs. -/
theorem C101_final_partial (G : GenOps K γ) (F : TextFmt K) (m : Meter K) (cfg : JVal K) (g : γ)
    (n : Int) (ho : m.isOpen = true) (hg : m.file.good = true) (hf : m.file.format ≠ .json) :
    let m' := closeMeter G F (bytesWritten m).2 cfg g n
    (bytesWritten m').1 = m'.file.text.length := by
  simp [bytesWritten, closeMeter, ho, hg, closeFile, hf]

example : ∃ m : Meter ℚ, m.isOpen = true ∧ m.file.good = true ∧ m.file.format = .json ∧
    m.file.text ≠ [] :=
  ⟨⟨⟨['f'], .json, .overwrite, none, false, 0, true, ['{']⟩, true, 0⟩, rfl, rfl, rfl, by simp⟩

/-! ## C102: the status display -/

section field
variable [Field K] [LinearOrder K] [FloorRing K]

/-- What is to be read in the status display.  The amounts are given as text. -/
def statusRows (K : Type) [Field K] [LinearOrder K] [FloorRing K] (ev num old elapsed : Int)
    (total : Str) (files : List (Str × Str)) (endTime : Str) : List Str :=
  ("Event Count = ".toList ++ intText ev ++ '/' :: intText num ++ " (".toList ++
    ratioText (K := K) ev num 100 ++ "% complete, ".toList ++
    ratioText (K := K) (ev - old) elapsed 1000000000 ++ " events / s)".toList) ::
  ("Elapsed time: ".toList ++ clockText (tickClock elapsed) ++ " (Estimated total run time: ".toList ++
    total ++ [')']) ::
  (files.map (fun f => "Data written to ".toList ++ f.1 ++ ' ' :: f.2) ++
    ["MARLEY is estimated to terminate on ".toList ++ endTime])

/-- `t` shows the rows `rows`: `makeStatusLines` returned it in some situation. -/
def IsStatus (K : Type) [Field K] [LinearOrder K] [FloorRing K] (t : Str) (rows : List Str) : Prop :=
  ∃ (ev num old elapsed : Int) (files : List (Str × Int)) (endTime : Str) (c : Clock) (sizes : List Str),
    statusLines (K := K) ev num old elapsed files endTime = .ok t ∧
    (∀ f ∈ files, Printable f.1) ∧ Printable endTime ∧
    secClock (estimate ev num old elapsed : K) = .ok c ∧
    List.Forall₂ (fun f s => bytesText ((f.2 : Int) : K) 2 = .ok s) files sizes ∧
    rows = statusRows K ev num old elapsed (clockText c) ((files.map Prod.fst).zip sizes) endTime

/-- **C102**, the rate and the fraction done, shown with one decimal, are as close to the
quotient as this allows, and the estimated total time is the elapsed time times the
number of events asked for over the number of events done.  Missing from the full claim: the
rounding of the division. -/
theorem C102_numbers_partial [IsStrictOrderedRing K] (a b c : Int) (ha : 0 ≤ a) (hb : 0 < b)
    (hc : 0 ≤ c) :
    (∃ (q : Nat) (d : Char), ratioText (K := K) a b c = natText q ++ ['.', d] ∧ isDigit d = true ∧
      |(q : K) + digitsVal [d] / 10 - a * c / b| ≤ 1 / 20) ∧
    (∀ ev num old elapsed : Int, old < ev →
      (estimate ev num old elapsed : K) * 10 ^ 9 * ((ev : K) - old) = elapsed * ((num : K) - old)) := by
  have ha' : (0 : K) ≤ a := by exact_mod_cast ha
  have hb' : (0 : K) < b := by exact_mod_cast hb
  have hc' : (0 : K) ≤ c := by exact_mod_cast hc
  refine ⟨?_, fun ev num old elapsed h => ?_⟩
  · obtain ⟨q, r, d, h1, h2, h3, h4, h5⟩ :=
      fixedText_spec (p := 1) (x := (a : K) / b * c) Nat.one_pos (by positivity)
    obtain ⟨d, rfl⟩ := List.length_eq_one_iff.1 h2
    refine ⟨q, d, by rw [ratioText, if_neg (by omega), h1], h3 d (by simp), ?_⟩
    rw [h4, show (a : K) * c / b = a / b * c by ring]
    rw [pow_one] at h5
    exact h5.trans (by norm_num)
  · have : ((ev : K) - old) ≠ 0 := by
      have : ((ev - old : Int) : K) ≠ 0 := by exact_mod_cast (by omega : ev - old ≠ 0)
      push_cast at this; exact this
    rw [estimate]
    push_cast
    field_simp

example : (0 : Int) ≤ 3 ∧ (0 : Int) < 7 ∧ (0 : Int) ≤ 100 := by decide

theorem fileLines_spec (files : List (Str × Int)) : ∀ {t : Str}, fileLines (K := K) files = .ok t →
    ∃ sizes, List.Forall₂ (fun f s => bytesText ((f.2 : Int) : K) 2 = .ok s) files sizes ∧
      t = body ((((files.map Prod.fst).zip sizes).map
        (fun f => "Data written to ".toList ++ f.1 ++ ' ' :: f.2)).map (fun l => (l, 1))) := by
  generalize hD : "Data written to ".toList = D
  induction files with
  | nil =>
    intro t h
    simp only [fileLines, Except.ok.injEq] at h
    exact ⟨[], .nil, by simp [body, ← h]⟩
  | cons f files ih =>
    obtain ⟨name, b⟩ := f
    intro t h
    simp only [fileLines, bind, Except.bind] at h
    split at h
    · cases h
    · rename_i x hx
      split at h
      · cases h
      · rename_i r hr
        injection h with h
        obtain ⟨sizes, h1, h2⟩ := ih hr
        refine ⟨x :: sizes, .cons hx h1, ?_⟩
        rw [← h, h2, hD]
        simp [body, erase, List.append_assoc]

/-- The status lines as rows. -/
theorem statusLines_spec {ev num old elapsed : Int} {files : List (Str × Int)} {endTime t : Str}
    (h : statusLines (K := K) ev num old elapsed files endTime = .ok t) :
    ∃ c sizes, secClock (estimate ev num old elapsed : K) = .ok c ∧
      List.Forall₂ (fun f s => bytesText ((f.2 : Int) : K) 2 = .ok s) files sizes ∧
      ∃ rows last, statusRows K ev num old elapsed (clockText c) ((files.map Prod.fst).zip sizes) endTime
          = rows ++ [last] ∧ t = block (rows.map (fun l => (l, 1)) ++ [(last, 0)]) := by
  rw [statusLines] at h
  split at h
  · cases h
  · simp only [bind, Except.bind] at h
    split at h
    · cases h
    · rename_i c hc
      split at h
      · cases h
      · rename_i fs hfs
        injection h with h
        obtain ⟨sizes, h1, h2⟩ := fileLines_spec files hfs
        refine ⟨c, sizes, hc, h1, _ :: _ :: _, _, rfl, ?_⟩
        rw [← h, h2]
        have hlen : sizes.length = files.length := h1.length_eq.symm
        generalize "Event Count = ".toList = D1
        generalize " (".toList = D2
        generalize "% complete, ".toList = D3
        generalize " events / s)".toList = D4
        generalize "Elapsed time: ".toList = D5
        generalize " (Estimated total run time: ".toList = D6
        generalize "MARLEY is estimated to terminate on ".toList = D7
        generalize "Data written to ".toList = D8
        have hn : (List.replicate files.length up).flatten ++ (up ++ (up ++ (up ++ up)))
            = (List.replicate (files.length + 1 + 1 + 1 + 1) up).flatten := by
          simp only [List.replicate_succ', List.flatten_append, List.append_assoc, List.flatten_cons,
            List.flatten_nil, List.append_nil]
        simp only [block, body, List.map_cons, List.cons_append, List.flatMap_cons, List.flatMap_append,
          List.flatMap_nil, List.length_cons, List.length_append, List.length_map, List.length_zip,
          List.length_nil, hlen, min_self, List.replicate_zero, List.flatten_nil, List.append_nil,
          List.replicate_one, List.flatten_cons, List.append_assoc, List.nil_append, List.map_map] at hn ⊢
        rw [hn]

/-- **C102**, when the display can be shown: always after at least one event, if the
estimated time is not negative and below two billion days and the sizes of the files
are known (a size that is not known is given as -1). -/
theorem C102_shown [IsStrictOrderedRing K] (ev num old elapsed : Int) (files : List (Str × Int))
    (endTime : Str) (h1 : old < ev) (h2 : old ≤ num) (h3 : 0 ≤ elapsed)
    (h4 : (estimate ev num old elapsed : K) < 2147483648 * 86400) (h5 : ∀ f ∈ files, -1 ≤ f.2) :
    ∃ t, statusLines (K := K) ev num old elapsed files endTime = .ok t := by
  have he : (0 : K) ≤ estimate ev num old elapsed := by
    have a : (0 : K) ≤ ((num - old : Int) : K) := by exact_mod_cast (by omega : (0 : Int) ≤ num - old)
    have b : (0 : K) ≤ ((ev - old : Int) : K) := by exact_mod_cast (by omega : (0 : Int) ≤ ev - old)
    have c : (0 : K) ≤ ((elapsed : Int) : K) := by exact_mod_cast h3
    rw [estimate]; positivity
  have hf : ∃ r, fileLines (K := K) files = .ok r := by
    induction files with
    | nil => exact ⟨_, rfl⟩
    | cons f files ih =>
      obtain ⟨name, b⟩ := f
      obtain ⟨r, hr⟩ := ih (fun x hx => h5 x (by simp [hx]))
      have : ∃ x, bytesText ((b : Int) : K) 2 = .ok x := by
        rw [bytesText]
        split
        · rename_i hb
          have hb' : b < 1000 := by
            have : (b : K) < ((1000 : Int) : K) := by norm_num at hb ⊢; exact hb
            exact_mod_cast this
          have hm : -1 ≤ b := h5 (name, b) (by simp)
          have hc : cut (b : K) = .ok b := by
            simp only [cut, Int.floor_intCast, Int.ceil_intCast, ite_self]
            rw [if_pos ⟨by rw [intMin]; omega, by rw [intMax]; omega⟩]
          rw [hc]; exact ⟨_, rfl⟩
        · exact ⟨_, rfl⟩
      obtain ⟨x, hx⟩ := this
      simp only [fileLines, bind, Except.bind, hx, hr]
      exact ⟨_, rfl⟩
  obtain ⟨r, hr⟩ := hf
  rw [statusLines, if_neg (by omega), secClock_spec he h4]
  simp only [bind, Except.bind, hr]
  exact ⟨_, rfl⟩

theorem statusRows_printable {ev num old elapsed : Int} {c : Clock} {files : List (Str × Int)}
    {sizes : List Str} {endTime : Str}
    (hs : List.Forall₂ (fun f s => bytesText ((f.2 : Int) : K) 2 = .ok s) files sizes)
    (hn : ∀ f ∈ files, Printable f.1) (he : Printable endTime) :
    ∀ l ∈ statusRows K ev num old elapsed (clockText c) ((files.map Prod.fst).zip sizes) endTime,
      Printable l := by
  have p1 : Printable "Event Count = ".toList := by unfold Printable; decide +kernel
  have p2 : Printable " (".toList := by unfold Printable; decide +kernel
  have p3 : Printable "% complete, ".toList := by unfold Printable; decide +kernel
  have p4 : Printable " events / s)".toList := by unfold Printable; decide +kernel
  have p5 : Printable "Elapsed time: ".toList := by unfold Printable; decide +kernel
  have p6 : Printable " (Estimated total run time: ".toList := by unfold Printable; decide +kernel
  have p7 : Printable "MARLEY is estimated to terminate on ".toList := by
    unfold Printable; decide +kernel
  have p8 : Printable "Data written to ".toList := by unfold Printable; decide +kernel
  intro l hl
  rw [statusRows] at hl
  revert p1 p2 p3 p4 p5 p6 p7 p8 hl
  generalize "Event Count = ".toList = D1
  generalize " (".toList = D2
  generalize "% complete, ".toList = D3
  generalize " events / s)".toList = D4
  generalize "Elapsed time: ".toList = D5
  generalize " (Estimated total run time: ".toList = D6
  generalize "MARLEY is estimated to terminate on ".toList = D7
  generalize "Data written to ".toList = D8
  intro p1 p2 p3 p4 p5 p6 p7 p8 hl
  rcases List.mem_cons.1 hl with rfl | hl
  · exact ((((((p1.append (intText_printable _)).append (.cons (by decide) (by decide)
      (intText_printable _))).append p2).append (ratioText_printable _ _ _)).append p3).append
      (ratioText_printable _ _ _)).append p4
  rcases List.mem_cons.1 hl with rfl | hl
  · exact (((p5.append (clockText_printable _)).append p6).append (clockText_printable _)).append
      (by unfold Printable; decide)
  rcases List.mem_append.1 hl with hl | hl
  · obtain ⟨f, hf, rfl⟩ := List.mem_map.1 hl
    have key : Printable f.1 ∧ Printable f.2 := by
      clear * - hs hn hf
      induction hs with
      | nil => simp at hf
      | cons h1 _ ih =>
        rw [List.map_cons, List.zip_cons_cons] at hf
        rcases List.mem_cons.1 hf with rfl | hf
        · exact ⟨hn _ (by simp), bytesText_printable h1⟩
        · exact ih (fun x hx => hn x (by simp [hx])) hf
    exact (p8.append key.1).append (.cons (by decide) (by decide) key.2)
  · rw [List.mem_singleton] at hl
    rw [hl]; exact p7.append he

/-- The status lines as they reach the terminal. -/
theorem isStatus_block {t : Str} {rows : List Str} (h : IsStatus K t rows) :
    ∃ ls : List (Str × Nat), t = block ls ∧ ls.map Prod.fst = rows ∧ (∀ l ∈ ls, Printable l.1) ∧
      ∀ i l, ls[i]? = some l → i + 1 < rows.length → 0 < l.2 := by
  obtain ⟨ev, num, old, elapsed, files, endTime, c, sizes, h1, h2, h3, h4, h5, h6⟩ := h
  obtain ⟨c', sizes', h4', h5', rs, last, e, ht⟩ := statusLines_spec h1
  obtain rfl : c = c' := by rw [h4] at h4'; injection h4'
  obtain rfl : sizes = sizes' := by
    clear h1 ht e h6 h4 h4' h2
    induction h5 generalizing sizes' with
    | nil => cases h5'; rfl
    | cons a _ ih =>
      cases h5' with
      | cons b hb =>
        rw [a] at b
        injection b with b
        rw [b, ih _ hb]
  have hp := statusRows_printable (K := K) (ev := ev) (num := num) (old := old) (elapsed := elapsed)
    (c := c) h5 h2 h3
  rw [← h6] at hp e
  refine ⟨_, ht, ?_, ?_, ?_⟩
  · rw [e]; simp [Function.comp_def]
  · intro l hl
    apply hp
    rw [e]
    rcases List.mem_append.1 hl with hl | hl
    · obtain ⟨x, hx, rfl⟩ := List.mem_map.1 hl
      exact List.mem_append_left _ hx
    · rw [List.mem_singleton] at hl; rw [hl]; simp
  · intro i l hl hi
    rw [e, List.length_append, List.length_singleton] at hi
    rw [List.getElem?_append_left (by simp; omega)] at hl
    rw [List.getElem?_map] at hl
    obtain ⟨x, _, rfl⟩ := Option.map_eq_some_iff.1 hl
    exact Nat.one_pos

end field

/-- What the program writes, and what the person at the terminal is to see of it: whole
lines of text, or a new status display.  The status lines at the start of a line are
those that are inserted before it. -/
inductive Written where
  | line (text : Str) (status : List Str)
  | update (rows : List Str)

/-- `a` is the action for the entry. -/
def Does (K : Type) [Field K] [LinearOrder K] [FloorRing K] : Written → Act → Prop
  | .line text rows, .put l => l.map Prod.fst = text ++ ['\n'] ∧ Printable text ∧
      ∀ x ∈ l.head?, IsStatus K x.2 rows
  | .update rows, .update t => IsStatus K t rows
  | _, _ => False

/-- The lines of text among the entries. -/
def logLines : List Written → List Str
  | [] => []
  | .line text _ :: t => text :: logLines t
  | .update _ :: t => logLines t

theorem forall₂_snoc {α β : Type} {R : α → β → Prop} {x : α} : ∀ {l : List α} {m : List β},
    List.Forall₂ R (l ++ [x]) m → ∃ m' y, m = m' ++ [y] ∧ List.Forall₂ R l m' ∧ R x y
  | [], _, h => by
    cases h with
    | cons h1 h2 => cases h2; exact ⟨[], _, rfl, .nil, h1⟩
  | a :: l, _, h => by
    cases h with
    | cons h1 h2 =>
      obtain ⟨m', y, rfl, h3, h4⟩ := forall₂_snoc h2
      exact ⟨_ :: m', y, rfl, .cons h1 h3, h4⟩

/-- The status lines of an entry. -/
def Written.rows : Written → List Str
  | .line _ rows => rows
  | .update rows => rows

/-- Does the entry end with a newline? -/
def Written.isLine : Written → Bool
  | .line _ _ => true
  | .update _ => false

theorem logLines_append (a b : List Written) : logLines (a ++ b) = logLines a ++ logLines b := by
  induction a with
  | nil => rfl
  | cons x a ih => cases x <;> simp [logLines, ih]

section field
variable [Field K] [LinearOrder K] [FloorRing K]

/-- Effect of one action on the terminal. -/
theorem act_spec {e : Written} {a : Act} (h : Does K e a) {s : Inserter} (hd : s.doStatus = true)
    {z : Screen} {r : Nat} (hz : At (z.show s.sent) r []) :
    (s.act a).doStatus = true ∧
    (match e with
    | .line text rows => (s.act a).atStart = true ∧ At (z.show (s.act a).sent) (r + 1) [] ∧
        (z.show (s.act a).sent).rows r = text ∧
        (s.atStart = true → ∀ i l, rows[i]? = some l →
          (i + 1 < rows.length ∨ (z.show s.sent).rows (r + 1 + i) = []) →
          (z.show (s.act a).sent).rows (r + 1 + i) = l) ∧
        (s.atStart = false → ∀ i, r < i → (z.show (s.act a).sent).rows i = (z.show s.sent).rows i)
    | .update rows => (s.act a).atStart = false ∧ At (z.show (s.act a).sent) r [] ∧
        (z.show (s.act a).sent).rows r = [] ∧
        ∀ i l, rows[i]? = some l → (z.show (s.act a).sent).rows (r + 1 + i) = l) ∧
    ∀ i, i < r ∨ r + e.rows.length < i →
      (z.show (s.act a).sent).rows i = (z.show s.sent).rows i := by
  cases e with
  | line text rows =>
    cases a with
    | update t => exact h.elim
    | put l =>
      obtain ⟨h1, h2, h3⟩ := h
      -- what is sent
      have sent : ∃ (st : Str), (st = [] ∧ s.atStart = false ∨ IsStatus K st rows ∧ s.atStart = true) ∧
          ((s.act (.put l)).sent = s.sent ++ (st ++ (text ++ (erase ++ ['\n'])))) ∧
          (s.act (.put l)).atStart = true ∧ (s.act (.put l)).doStatus = true := by
        rcases List.eq_nil_or_concat l with rfl | ⟨l0, x, rfl⟩
        · simp at h1
        have hl : l0.map Prod.fst = text ∧ x.1 = '\n' := by
          rw [List.concat_eq_append, List.map_append] at h1
          have := List.append_inj' h1 (by simp)
          exact ⟨this.1, by simpa using this.2⟩
        have hn : ∀ y ∈ l0, y.1 ≠ '\n' := fun y hy =>
          (h2 y.1 (by rw [← hl.1]; exact List.mem_map_of_mem hy)).1
        cases l0 with
        | nil =>
          have ht : text = [] := by simpa using hl.1.symm
          have hx : IsStatus K x.2 rows := h3 x (by simp)
          by_cases hs : s.atStart = true
          · refine ⟨x.2, .inr ⟨hx, hs⟩, ?_⟩
            simp [Inserter.act, overflow, hd, hs, hl.2, ht]
          · refine ⟨[], .inl ⟨rfl, by simpa using hs⟩, ?_⟩
            simp [Inserter.act, overflow, hd, hs, hl.2, ht]
        | cons y l0 =>
          have hy : IsStatus K y.2 rows := h3 y (by simp)
          have hyn : y.1 ≠ '\n' := hn y (by simp)
          have ht : text = y.1 :: l0.map Prod.fst := by rw [← hl.1]; rfl
          obtain ⟨b1, b2, b3⟩ := fold_line l0 (overflow y.2 s y.1) (by simpa [overflow] using hd)
            (by simp [overflow, hyn]) (fun w hw => hn w (by simp [hw]))
          have hw : s.act (.put ((y :: l0).concat x)) = overflow x.2
              (l0.foldl (fun s x => overflow x.2 s x.1) (overflow y.2 s y.1)) x.1 := by
            simp only [Inserter.act, List.concat_eq_append, List.cons_append, List.foldl_cons,
              List.foldl_append, List.foldl_nil]
          rw [hw]
          generalize l0.foldl (fun s x => overflow x.2 s x.1) (overflow y.2 s y.1) = w at b1 b2 b3
          have hend : (overflow x.2 w x.1).sent = w.sent ++ (erase ++ ['\n']) ∧
              (overflow x.2 w x.1).atStart = true ∧ (overflow x.2 w x.1).doStatus = true := by
            simp [overflow, hl.2, b2, b3]
          rw [hend.1, hend.2.1, hend.2.2, b1, ht]
          by_cases hs : s.atStart = true
          · refine ⟨y.2, .inr ⟨hy, hs⟩, ?_, by trivial, by trivial⟩
            simp [overflow, hd, hs, hyn]
          · refine ⟨[], .inl ⟨rfl, by simpa using hs⟩, ?_, by trivial, by trivial⟩
            simp [overflow, hs, hyn]
      obtain ⟨st, hst, e1, e2, e3⟩ := sent
      refine ⟨e3, ?_⟩
      rw [e1]
      simp only [show_append]
      have base : At ((z.show s.sent).show st) r [] ∧
          (∀ i, i ≤ r ∨ r + rows.length < i → ((z.show s.sent).show st).rows i = (z.show s.sent).rows i) ∧
          (s.atStart = true → ∀ i l, rows[i]? = some l →
            (i + 1 < rows.length ∨ (z.show s.sent).rows (r + 1 + i) = []) →
            ((z.show s.sent).show st).rows (r + 1 + i) = l) ∧
          (s.atStart = false → ∀ i, ((z.show s.sent).show st).rows i = (z.show s.sent).rows i) := by
        rcases hst with ⟨rfl, hs⟩ | ⟨hst, hs⟩
        · simp only [show_nil, hs]
          exact ⟨hz, fun _ _ => by trivial, fun h => by simp at h, fun _ _ => by trivial⟩
        · obtain ⟨ls, rfl, hr, hp, hk⟩ := isStatus_block hst
          obtain ⟨a1, a2, a3⟩ := show_block hz hp
          have hlen : ls.length = rows.length := by rw [← hr, List.length_map]
          refine ⟨a1, fun i hi => a2 i (by omega), fun _ i l hl hor => ?_, fun h => by simp [hs] at h⟩
          rw [← hr, List.getElem?_map] at hl
          obtain ⟨x, hx, rfl⟩ := Option.map_eq_some_iff.1 hl
          exact (a3 i x hx).2 (hor.imp_left (hk i x hx))
      obtain ⟨base1, base2, base3, base4⟩ := base
      obtain ⟨c1, c2⟩ := show_print text base1 h2
      rw [List.nil_append] at c1
      obtain ⟨d1, d2, d3⟩ := show_erase c1
      obtain ⟨f1, f2⟩ := show_newline d1
      refine ⟨⟨e2, f1, by rw [f2]; exact d2, fun hs i l hl hor => ?_, fun hs i hi => ?_⟩,
        fun i hi => ?_⟩
      · rw [f2, d3 _ (by omega), c2 _ (by omega)]
        exact base3 hs i l hl hor
      · rw [f2, d3 _ (by omega), c2 _ (by omega)]
        exact base4 hs i
      · have hi : i < r ∨ r + rows.length < i := hi
        rw [f2, d3 i (by omega), c2 i (by omega), base2 i (by omega)]
  | update rows =>
    cases a with
    | put l => exact h.elim
    | update t =>
      obtain ⟨ls, rfl, hr, hp, -⟩ := isStatus_block (K := K) h
      obtain ⟨b1, b2, -⟩ := fold_quiet (block ls) { s with doStatus := false } rfl
      have e1 : (s.act (.update (block ls))).sent
          = s.sent ++ (erase ++ block (ls.map fun l => (l.1, l.2 + 1))) := by
        rw [← marked_block ls hp]; exact b1
      have hlast : (block ls).getLast? = some 'F' := by
        rw [block, List.replicate_succ', List.flatten_append]
        simp [up, List.getLast?_cons, List.getLast?_append]
      have e2 : (s.act (.update (block ls))).atStart = false := by
        refine b2.trans ?_
        rw [hlast]; rfl
      refine ⟨rfl, ?_⟩
      rw [e1]
      simp only [show_append]
      obtain ⟨a1, a2, a3⟩ := show_erase hz
      obtain ⟨c1, c2, c3⟩ := show_block a1 (ls := ls.map fun l => (l.1, l.2 + 1)) (fun l hl => by
        obtain ⟨x, hx, rfl⟩ := List.mem_map.1 hl
        exact hp x hx)
      refine ⟨⟨e2, c1, by rw [c2 r (.inl le_rfl)]; exact a2, fun i l hl => ?_⟩, fun i hi => ?_⟩
      · rw [← hr, List.getElem?_map] at hl
        obtain ⟨x, hx, rfl⟩ := Option.map_eq_some_iff.1 hl
        exact (c3 i (x.1, x.2 + 1) (by rw [List.getElem?_map, hx]; rfl)).2 (.inl (Nat.succ_pos _))
      · have hi : i < r ∨ r + rows.length < i := hi
        have hlen : ls.length = rows.length := by rw [← hr, List.length_map]
        rw [c2 i (by rw [List.length_map]; omega), a3 i (by omega)]

/-- All that is known after a sequence of entries. -/
theorem run_spec (z : Screen) (hm : z.mode = .plain) (hc : z.col = 0) (es : List Written) :
    ∀ (as : List Act), List.Forall₂ (Does K) es as →
      (Inserter.run as).doStatus = true ∧
      At (z.show (Inserter.run as).sent) (z.row + (logLines es).length) [] ∧
      (∀ i, i < z.row → (z.show (Inserter.run as).sent).rows i = z.rows i) ∧
      (∀ i l, (logLines es)[i]? = some l → (z.show (Inserter.run as).sent).rows (z.row + i) = l) ∧
      ((Inserter.run as).atStart = true ↔ ∀ e ∈ es.getLast?, e.isLine = true) ∧
      ∀ k, (∀ i, z.row ≤ i → z.rows i = []) → (∀ e ∈ es, e.rows.length = k) →
        ∀ i, z.row + (logLines es).length + k < i ∨ (Inserter.run as).atStart = true ∧
          z.row + (logLines es).length + k ≤ i → (z.show (Inserter.run as).sent).rows i = [] := by
  induction es using List.reverseRecOn with
  | nil =>
    intro as h
    cases h
    refine ⟨rfl, .start hm (by simp [Inserter.run, Inserter.start, Screen.show, logLines]) hc,
      fun _ _ => rfl, by simp [logLines], by simp [Inserter.run, Inserter.start], fun k hz _ i hi => ?_⟩
    exact hz i (by omega)
  | append_singleton es e ih =>
    intro as h
    obtain ⟨as', b, rfl, hab, hb⟩ := forall₂_snoc h
    obtain ⟨g1, g2, g3, g4, g5, g6⟩ := ih as' hab
    have hrun : Inserter.run (as' ++ [b]) = (Inserter.run as').act b := by simp [Inserter.run]
    obtain ⟨k1, k2, k3⟩ := act_spec hb g1 g2
    rw [hrun, logLines_append]
    refine ⟨k1, ?_, fun i hi => (k3 i (by omega)).trans (g3 i hi), fun i l hl => ?_, ?_,
      fun k hz hk i hi => ?_⟩
    · cases e with
      | line text rows => simpa [logLines, Nat.add_assoc] using k2.2.1
      | update rows => simpa [logLines] using k2.2.1
    · by_cases hi : i < (logLines es).length
      · rw [List.getElem?_append_left hi] at hl
        rw [k3 _ (by omega)]
        exact g4 i l hl
      · rw [List.getElem?_append_right (by omega)] at hl
        cases e with
        | line text rows =>
          have : i = (logLines es).length := by
            have := (List.getElem?_eq_some_iff.1 hl).1
            simp [logLines] at this; omega
          subst this
          obtain rfl : text = l := by simpa [logLines] using hl
          exact k2.2.2.1
        | update rows => simp [logLines] at hl
    · cases e with
      | line text rows => simp [k2.1, Written.isLine]
      | update rows => simp [k2.1, Written.isLine]
    · have hk' : e.rows.length = k := hk e (by simp)
      have hlow := g6 k hz (fun x hx => hk x (by simp [hx]))
      cases e with
      | line text rows =>
        simp only [logLines, List.length_append, List.length_singleton] at hi
        have hi' : z.row + (logLines es).length + k < i := by omega
        rw [k3 i (.inr (by rw [hk']; exact hi'))]
        exact hlow i (.inl hi')
      | update rows =>
        simp only [logLines, List.append_nil, k2.1, Bool.false_eq_true, false_and, or_false] at hi
        rw [k3 i (.inr (by rw [hk']; exact hi))]
        exact hlow i (.inl hi)

/-- **C102**, the log is not disturbed: whatever lines of text and status displays the
program writes, in any order, the finished lines of text are on the screen one below the
other, exactly as written, what was there before is unchanged, and the cursor is in the
row below.  Missing from the full claim: lines that are too long for the screen, text
with control characters, and status displays in the middle of a line. -/
theorem C102_log_partial (es : List Written) (as : List Act) (h : List.Forall₂ (Does K) es as)
    (z : Screen) (hm : z.mode = .plain) (hc : z.col = 0) :
    let z' := z.show (Inserter.run as).sent
    z'.mode = .plain ∧ z'.col = 0 ∧ z'.row = z.row + (logLines es).length ∧
      (∀ i, i < z.row → z'.rows i = z.rows i) ∧
      ∀ i l, (logLines es)[i]? = some l → z'.rows (z.row + i) = l := by
  obtain ⟨-, h2, h3, h4, -⟩ := run_spec z hm hc es as h
  exact ⟨h2.mode, h2.col, h2.row, h3, h4⟩

/-- **C102**, a display shown by the event loop is complete and up to date: the row of the
cursor is empty, and below it are exactly the rows of the display. -/
theorem C102_update_partial (es : List Written) (rows : List Str) (as : List Act)
    (h : List.Forall₂ (Does K) (es ++ [.update rows]) as)
    (z : Screen) (hm : z.mode = .plain) (hc : z.col = 0) :
    let z' := z.show (Inserter.run as).sent
    z'.rows z'.row = [] ∧ ∀ i l, rows[i]? = some l → z'.rows (z'.row + 1 + i) = l := by
  obtain ⟨as', b, rfl, hab, hb⟩ := forall₂_snoc h
  obtain ⟨g1, g2, -⟩ := run_spec z hm hc es as' hab
  have hrun : Inserter.run (as' ++ [b]) = (Inserter.run as').act b := by simp [Inserter.run]
  obtain ⟨-, k2, -⟩ := act_spec hb g1 g2
  rw [hrun]
  have hrow := k2.2.1.row
  simp only at hrow ⊢
  rw [hrow]
  exact ⟨k2.2.2.1, k2.2.2.2⟩

/-- **C102**, a display that is inserted before a line of text is complete and up to date
when the line is finished: it starts in the row below the line.  This is so on a screen
that was empty from the row of the cursor on, if all displays have the same number of
rows, as they do in a run, and unless the entry before was a display of the event loop
(then none is inserted). -/
theorem C102_inserted_partial (es : List Written) (text : Str) (rows : List Str) (as : List Act)
    (h : List.Forall₂ (Does K) (es ++ [.line text rows]) as)
    (hl : ∀ e ∈ es.getLast?, e.isLine = true) (hk : ∀ e ∈ es, e.rows.length = rows.length)
    (z : Screen) (hm : z.mode = .plain) (hc : z.col = 0) (hz : ∀ i, z.row ≤ i → z.rows i = []) :
    let z' := z.show (Inserter.run as).sent
    ∀ i l, rows[i]? = some l → z'.rows (z'.row + i) = l := by
  obtain ⟨as', b, rfl, hab, hb⟩ := forall₂_snoc h
  obtain ⟨g1, g2, -, -, g5, g6⟩ := run_spec z hm hc es as' hab
  have hrun : Inserter.run (as' ++ [b]) = (Inserter.run as').act b := by simp [Inserter.run]
  obtain ⟨-, k2, -⟩ := act_spec hb g1 g2
  rw [hrun]
  have hrow := k2.2.1.row
  simp only at hrow ⊢
  intro i l hil
  rw [hrow]
  refine k2.2.2.2.1 (g5.2 hl) i l hil ?_
  by_cases hi : i + 1 < rows.length
  · exact .inl hi
  · have := (List.getElem?_eq_some_iff.1 hil).1
    exact .inr (g6 _ hz hk _ (.inr ⟨g5.2 hl, by omega⟩))

end field

/-- A display as it is made in a run of ten events over one second each, without files. -/
def exStatus (ev : Int) (endTime : Str) : Str :=
  match statusLines (K := ℚ) ev 10 0 (ev * 1000000000) [] endTime with
  | .ok t => t
  | .error _ => []

theorem exStatus_is (ev : Int) (h : 0 < ev) (endTime : Str) (he : Printable endTime) :
    ∃ rows, IsStatus ℚ (exStatus ev endTime) rows ∧ rows.length = 3 := by
  have e10 : (estimate ev 10 0 (ev * 1000000000) : ℚ) = 10 := by
    have : (ev : ℚ) ≠ 0 := by exact_mod_cast h.ne'
    rw [estimate]; push_cast; field_simp; ring
  obtain ⟨t, ht⟩ := C102_shown (K := ℚ) ev 10 0 (ev * 1000000000) [] endTime h (by omega) (by omega)
    (by rw [e10]; norm_num) (by simp)
  obtain ⟨c, sizes, h1, h2, -⟩ := statusLines_spec ht
  refine ⟨_, ⟨ev, 10, 0, ev * 1000000000, [], endTime, c, sizes, ?_, by simp, he, h1, h2, rfl⟩, ?_⟩
  · rw [exStatus, ht]
  · simp [statusRows]

-- Two lines of text, the display of the event loop, and another line; the second line is
-- preceded by a display, and both displays have three rows.
example : ∃ es as, List.Forall₂ (Does ℚ) es as ∧
    logLines es = ["Hello".toList, "World".toList, "Bye".toList] ∧
    (es[2]?.map Written.isLine) = some false ∧ (es[0]?.map Written.isLine) = some true ∧
    ∀ e ∈ es, e.rows.length = 3 := by
  obtain ⟨r1, h1, h3⟩ := exStatus_is 1 (by decide) "noon".toList (by unfold Printable; decide +kernel)
  have line : ∀ l : Str, Printable l → Does ℚ (.line l r1) (.put ((l ++ ['\n']).map (·, exStatus 1 "noon".toList))) := by
    intro l hl
    refine ⟨by simp [Function.comp_def], hl, fun x hx => ?_⟩
    have := List.mem_of_mem_head? hx
    obtain ⟨y, -, rfl⟩ := List.mem_map.1 this
    exact h1
  exact ⟨[.line "Hello".toList r1, .line "World".toList r1, .update r1, .line "Bye".toList r1], _,
    .cons (line _ (by unfold Printable; decide +kernel)) (.cons (line _ (by unfold Printable; decide +kernel))
      (.cons (show Does ℚ (.update r1) (.update (exStatus 1 "noon".toList)) from h1)
        (.cons (line _ (by unfold Printable; decide +kernel)) .nil))), rfl, rfl, rfl, by simp [Written.rows, h3]⟩

/-- **C102**, when the event loop shows the display: after the first event of the run,
then every `interval` events, and after the last one. -/
theorem C102_when (ev num old interval : Int) (hi : 0 < interval) (he : old < ev) :
    statusDue ev num old interval = true ↔ (ev - old - 1) % interval = 0 ∨ ev = num := by
  have e : (ev - old).tmod interval = (ev - old) % interval :=
    Int.tmod_eq_emod_of_nonneg (by omega)
  simp only [statusDue, e, Bool.or_eq_true, decide_eq_true_eq]
  by_cases h1 : interval = 1
  · subst h1; simp
  · have h2 : (ev - old) % interval = 1 ↔ (ev - old - 1) % interval = 0 := by
      have : (1 : Int) % interval = 1 := Int.emod_eq_of_lt (by omega) (by omega)
      constructor
      · intro h
        rw [Int.sub_emod, h, this]; simp
      · intro h
        have h3 := Int.emod_add_emod (ev - old - 1) interval 1
        rw [h, show ev - old - 1 + 1 = ev - old by omega, zero_add, this] at h3
        exact h3.symm
    simp [h1, h2]

/-! ## C103: the exit status -/

/-- **C103**, a job: the exit status is 0 if and only if the configuration could be read
and used and the run ended without an exception, and 1 if and only if there was one. -/
theorem C103_job [DivisionRing K] (load : Str → Res (JVal K)) (setup : JVal K → Res Unit)
    (G : GenOps K γ) (F : TextFmt K) (stop : Nat → Bool) (disks : List Disk) (name file : Str)
    (rest : List Str) (hf : file.head? ≠ some '-') :
    (exitStatus load setup G F stop disks (name :: file :: rest) = some 0 ↔
      ∃ cfg settings fs n, load file = .ok cfg ∧ setup cfg = .ok () ∧
        getObject cfg "executable_settings".toList true = .ok settings ∧
        run G F cfg settings stop disks = some (fs, .ok n)) ∧
    (exitStatus load setup G F stop disks (name :: file :: rest) = some 1 ↔
      ∃ e, e ≠ .ub ∧ (load file = .error e ∨ ∃ cfg, load file = .ok cfg ∧ (setup cfg = .error e ∨
        setup cfg = .ok () ∧ (getObject cfg "executable_settings".toList true = .error e ∨
        ∃ settings fs, getObject cfg "executable_settings".toList true = .ok settings ∧
          run G F cfg settings stop disks = some (fs, .error e))))) := by
  have hc : command (name :: file :: rest) = .job file := by
    cases file with
    | nil => simp [command]
    | cons c t =>
      have : c ≠ '-' := by simpa using hf
      simp [command, this]
  rw [exitStatus, hc]
  simp only [job]
  generalize "executable_settings".toList = E
  cases load file with
  | error e => cases e <;> simp
  | ok cfg =>
    simp only
    rcases hs : setup cfg with e | u
    · cases e <;> simp [hs]
    · simp only
      rcases hg : getObject cfg E true with e | st
      · cases e <;> simp [hs, hg]
      · simp only
        rcases hr : run G F cfg st stop disks with _ | ⟨fs, e | n⟩
        · simp [hs, hg, hr]
        · cases e <;> simp [hs, hg, hr]
        · simp [hs, hg, hr]

example : ("config.js".toList).head? ≠ some '-' := by decide +kernel

/-- **C103**, requests for information: without arguments, and with an option that is
known, the exit status is 0 and nothing else happens. -/
theorem C103_info [DivisionRing K] (load : Str → Res (JVal K)) (setup : JVal K → Res Unit)
    (G : GenOps K γ) (F : TextFmt K) (stop : Nat → Bool) (disks : List Disk) (argv : List Str)
    (h : argv.length ≤ 1 ∨ ∃ name o rest, argv = name :: o :: rest ∧
      o ∈ ["-h".toList, "--help".toList, "-v".toList, "--version".toList, "--marley".toList]) :
    exitStatus load setup G F stop disks argv = some 0 ∧ ∀ file, command argv ≠ .job file := by
  have key : (command argv = .help ∨ command argv = .version ∨ command argv = .picture) := by
    rcases h with h | ⟨name, o, rest, rfl, ho⟩
    · match argv, h with
      | [], _ => exact .inl rfl
      | [_], _ => exact .inl rfl
    · simp only [List.mem_cons, List.not_mem_nil, or_false] at ho
      have c : ∀ o : Str, command (name :: o :: rest) = command [[], o] := fun _ => rfl
      rcases ho with rfl | rfl | rfl | rfl | rfl <;> rw [c] <;> decide +kernel
  rw [exitStatus]
  rcases key with e | e | e <;> simp [e]

/-- **C103** fails for an option that is not known: although nothing was done, the exit
status is 0. -/
theorem C103_option_violated [DivisionRing K] (load : Str → Res (JVal K))
    (setup : JVal K → Res Unit) (G : GenOps K γ) (F : TextFmt K) (stop : Nat → Bool)
    (disks : List Disk) (name : Str) (rest : List Str) :
    command (name :: "--seed".toList :: rest) = .unknown "--seed".toList ∧
      exitStatus load setup G F stop disks (name :: "--seed".toList :: rest) = some 0 := by
  have h : command (name :: "--seed".toList :: rest) = .unknown "--seed".toList := by
    have c : command (name :: "--seed".toList :: rest) = command [[], "--seed".toList] := rfl
    rw [c]; decide +kernel
  exact ⟨h, by rw [exitStatus, h]⟩

end Marley.Props
