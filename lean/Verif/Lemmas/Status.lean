import Verif.Lemmas.Terminal
import Verif.Lemmas.Stream
import Mathlib.Algebra.Order.Floor.Ring
import Mathlib.Tactic.Positivity
import Mathlib.Tactic.Linarith

/-!
# Lemmas about the texts of the status display
-/

set_option autoImplicit false

namespace Marley.Status
open Marley Marley.Json Marley.Terminal
open Marley.Event (wrap32)

variable {K : Type}

theorem wrap32_id {n : Int} (h0 : 0 ≤ n) (h1 : n < 2147483648) : wrap32 n = n := by
  rw [wrap32]; omega

theorem tickStep_spec {u t b : Int} (hu : 0 < u) (ht : 0 ≤ t) (hb : b < 2147483648)
    (h : t < b * (u * 1000000000)) :
    tickStep u t = (t / (u * 1000000000), t % (u * 1000000000)) := by
  have hpos : 0 < u * 1000000000 := by positivity
  have e : t.tdiv (u * 1000000000) = t / (u * 1000000000) := Int.tdiv_eq_ediv_of_nonneg ht
  have h0 : 0 ≤ t / (u * 1000000000) := Int.ediv_nonneg ht hpos.le
  have h1 : t / (u * 1000000000) < b := Int.ediv_lt_of_lt_mul hpos h
  have := Int.mul_ediv_add_emod t (u * 1000000000)
  simp only [tickStep, e, wrap32_id h0 (by omega), Prod.mk.injEq, true_and]
  rw [Int.mul_comm (t / _)]
  omega

theorem tickClock_spec {t : Int} (ht : 0 ≤ t) (h : t ≤ longMax) :
    tickClock t = ⟨t / 1000000000 / 86400, t / 1000000000 / 3600 % 24,
      t / 1000000000 / 60 % 60, t / 1000000000 % 60⟩ := by
  have hl : longMax = 9223372036854775807 := rfl
  rw [hl] at h
  have e1 := tickStep_spec (u := 86400) (b := 106752) (by norm_num) ht (by norm_num) (by omega)
  have e2 := tickStep_spec (u := 3600) (t := t % (86400 * 1000000000)) (b := 24) (by norm_num)
    (by omega) (by norm_num) (by omega)
  have e3 := tickStep_spec (u := 60) (t := t % (86400 * 1000000000) % (3600 * 1000000000)) (b := 60)
    (by norm_num) (by omega) (by norm_num) (by omega)
  have e4 := tickStep_spec (u := 1)
    (t := t % (86400 * 1000000000) % (3600 * 1000000000) % (60 * 1000000000)) (b := 60)
    (by norm_num) (by omega) (by norm_num) (by omega)
  simp only [tickClock, e1, e2, e3, e4, Clock.mk.injEq]
  refine ⟨?_, ?_, ?_, ?_⟩ <;> omega

section field
variable [Field K] [LinearOrder K] [IsStrictOrderedRing K] [FloorRing K]

theorem cut_spec {x : K} (h0 : 0 ≤ x) (h : x < 2147483648) : cut x = .ok ⌊x⌋ := by
  have a : (0 : Int) ≤ ⌊x⌋ := Int.floor_nonneg.2 h0
  have b : ⌊x⌋ < 2147483648 := Int.floor_lt.2 (by exact_mod_cast h)
  simp only [cut, if_pos h0]
  rw [if_pos ⟨by rw [intMin]; omega, by rw [intMax]; omega⟩]

/-- Dividing into whole units. -/
theorem split_floor {t : K} {u : Int} (hu : 0 < u) :
    ⌊t / u⌋ = ⌊t⌋ / u ∧ ⌊t - ⌊t / u⌋ * u⌋ = ⌊t⌋ % u := by
  have hu' : (0 : K) < u := by exact_mod_cast hu
  have e : ⌊t / u⌋ = ⌊t⌋ / u := by
    apply Int.floor_eq_iff.2
    have h1 : (⌊t⌋ / u) * u ≤ ⌊t⌋ := Int.ediv_mul_le _ hu.ne'
    have h2 : ⌊t⌋ < (⌊t⌋ / u + 1) * u := Int.lt_ediv_add_one_mul_self _ hu
    refine ⟨?_, ?_⟩
    · rw [le_div_iff₀ hu']
      calc ((⌊t⌋ / u : Int) : K) * u = (((⌊t⌋ / u) * u : Int) : K) := by push_cast; rfl
        _ ≤ (⌊t⌋ : K) := by exact_mod_cast h1
        _ ≤ t := Int.floor_le t
    · rw [div_lt_iff₀ hu']
      have h3 : ⌊t⌋ + 1 ≤ (⌊t⌋ / u + 1) * u := h2
      calc t < (⌊t⌋ : K) + 1 := Int.lt_floor_add_one t
        _ = ((⌊t⌋ + 1 : Int) : K) := by push_cast; rfl
        _ ≤ (((⌊t⌋ / u + 1) * u : Int) : K) := by exact_mod_cast h3
        _ = _ := by push_cast; rfl
  refine ⟨e, ?_⟩
  rw [e, show t - ((⌊t⌋ / u : Int) : K) * u = t - ((⌊t⌋ / u * u : Int) : K) by push_cast; rfl,
    Int.floor_sub_intCast]
  have := Int.mul_ediv_add_emod ⌊t⌋ u
  rw [Int.mul_comm] at this
  omega

theorem secClock_spec {t : K} (h0 : 0 ≤ t) (h : t < 2147483648 * 86400) :
    secClock t = .ok ⟨⌊t⌋ / 86400, ⌊t⌋ / 3600 % 24, ⌊t⌋ / 60 % 60, ⌊t⌋ % 60⟩ := by
  have nn : ∀ {t : K} (u : Int), 0 < u → 0 ≤ t → 0 ≤ t - ⌊t / u⌋ * u ∧ t - ⌊t / u⌋ * u < u := by
    intro t u hu ht
    have hu' : (0 : K) < u := by exact_mod_cast hu
    have a := Int.floor_le (t / u)
    have b := Int.lt_floor_add_one (t / u)
    rw [le_div_iff₀ hu'] at a
    rw [div_lt_iff₀ hu'] at b
    constructor <;> linarith
  have f1 := split_floor (t := t) (u := 86400) (by norm_num)
  have n1 := nn (t := t) 86400 (by norm_num) h0
  push_cast at f1 n1
  generalize ht1 : t - (⌊t / 86400⌋ : K) * 86400 = t1 at f1 n1
  have f2 := split_floor (t := t1) (u := 3600) (by norm_num)
  have n2 := nn (t := t1) 3600 (by norm_num) n1.1
  push_cast at f2 n2
  generalize ht2 : t1 - (⌊t1 / 3600⌋ : K) * 3600 = t2 at f2 n2
  have f3 := split_floor (t := t2) (u := 60) (by norm_num)
  have n3 := nn (t := t2) 60 (by norm_num) n2.1
  push_cast at f3 n3
  generalize ht3 : t2 - (⌊t2 / 60⌋ : K) * 60 = t3 at f3 n3
  have c1 : cut (t / 86400) = .ok ⌊t / 86400⌋ := cut_spec (by positivity) (by
    rw [div_lt_iff₀ (by norm_num)]; exact h)
  have c2 : cut (t1 / 3600) = .ok ⌊t1 / 3600⌋ := cut_spec (div_nonneg n1.1 (by norm_num)) (by
    rw [div_lt_iff₀ (by norm_num)]; linarith [n1.2])
  have c3 : cut (t2 / 60) = .ok ⌊t2 / 60⌋ := cut_spec (div_nonneg n2.1 (by norm_num)) (by
    rw [div_lt_iff₀ (by norm_num)]; linarith [n2.2])
  have c4 : cut t3 = .ok ⌊t3⌋ := cut_spec n3.1 (by linarith [n3.2])
  have e : secClock t = .ok ⟨⌊t / 86400⌋, ⌊t1 / 3600⌋, ⌊t2 / 60⌋, ⌊t3⌋⟩ := by
    simp only [secClock, bind, Except.bind, c1, ht1, c2, ht2, c3, ht3, c4]
  rw [e, f1.1, f2.1, f3.1, f3.2, f2.2, f1.2]
  have hf : 0 ≤ ⌊t⌋ := Int.floor_nonneg.2 h0
  congr 2 <;> omega

/-! ## Rounding -/

theorem nearest_spec (x : K) : |x - nearest x| ≤ 1 / 2 := by
  have a := Int.floor_le x
  have b := Int.lt_floor_add_one x
  simp only [nearest]
  split_ifs with h1 h2 h3
  · rw [abs_le]; constructor <;> linarith
  · push_cast; rw [abs_le]; constructor <;> linarith
  · rw [abs_le]; constructor <;> linarith
  · push_cast; rw [abs_le]; constructor <;> linarith

theorem nearest_nonneg {x : K} (h : 0 ≤ x) : 0 ≤ nearest x := by
  have := Int.floor_nonneg.2 h
  simp only [nearest]
  split_ifs <;> omega

theorem natText_length {p n : Nat} (h : n < 10 ^ p) (hp : 0 < p) : (natText n).length ≤ p := by
  induction p generalizing n with
  | zero => omega
  | succ p ih =>
    rw [natText]
    split
    · simp
    · rename_i hn
      have hp' : 0 < p := by
        rcases Nat.eq_zero_or_pos p with rfl | h'
        · simp at h; omega
        · exact h'
      have := ih (n := n / 10) (by rw [Nat.div_lt_iff_lt_mul (by norm_num)]; rw [pow_succ] at h; exact h) hp'
      simp only [List.length_append, List.length_cons, List.length_nil]
      omega

theorem decimals_spec {p n : Nat} (h : n < 10 ^ p) (hp : 0 < p) :
    (decimals p n).length = p ∧ (∀ c ∈ decimals p n, isDigit c = true) ∧ digitsVal (decimals p n) = n := by
  have hl := natText_length h hp
  refine ⟨?_, ?_, ?_⟩
  · simp only [decimals, List.length_append, List.length_replicate]; omega
  · intro c hc
    rcases List.mem_append.1 hc with h | h
    · rw [List.mem_replicate] at h; rw [h.2]; decide
    · exact natText_digits n c h
  · have hz : ∀ k (l : Str), digitsVal (List.replicate k '0' ++ l) = digitsVal l := by
      intro k l
      induction k with
      | zero => rfl
      | succ k ih =>
        rw [List.replicate_succ, List.cons_append]
        refine Eq.trans ?_ ih
        simp [digitsVal]
    rw [decimals, hz, digitsVal_natText]

/-- A number that is not negative, with `p` decimals. -/
theorem fixedText_spec {p : Nat} {x : K} (hp : 0 < p) (hx : 0 ≤ x) :
    ∃ (q r : Nat) (d : Str), fixedText p x = natText q ++ '.' :: d ∧ d.length = p ∧
      (∀ c ∈ d, isDigit c = true) ∧ digitsVal d = r ∧
      |((q : K) + r / 10 ^ p) - x| ≤ 1 / 2 / 10 ^ p := by
  have hpow : (0 : K) < 10 ^ p := by positivity
  have hnp : 0 < 10 ^ p := by positivity
  set n := (nearest (|x| * 10 ^ p)).toNat with hn
  obtain ⟨a, b, c⟩ := decimals_spec (Nat.mod_lt n hnp) hp
  refine ⟨n / 10 ^ p, n % 10 ^ p, decimals p (n % 10 ^ p), ?_, a, b, c, ?_⟩
  · simp only [fixedText, ← hn, if_neg (not_lt.2 hx), if_neg hp.ne', List.nil_append]
  · have hnn : (n : K) = nearest (|x| * 10 ^ p) := by
      have h0 := nearest_nonneg (x := |x| * 10 ^ p) (by positivity)
      have e : ((n : Int) : K) = ((nearest (|x| * 10 ^ p) : Int) : K) := by
        rw [hn, Int.toNat_of_nonneg h0]
      exact_mod_cast e
    have hdm : ((n / 10 ^ p : Nat) : K) * 10 ^ p + ((n % 10 ^ p : Nat) : K) = n := by
      have := Nat.div_add_mod n (10 ^ p)
      have h2 : (((n / 10 ^ p) * 10 ^ p + n % 10 ^ p : Nat) : K) = n := by
        rw [Nat.mul_comm]; rw [this]
      push_cast at h2 ⊢
      exact h2
    have hq : ((n / 10 ^ p : Nat) : K) + ((n % 10 ^ p : Nat) : K) / 10 ^ p - x
        = -((|x| * 10 ^ p - nearest (|x| * 10 ^ p)) / 10 ^ p) := by
      rw [← hnn, ← hdm, abs_of_nonneg hx]
      field_simp
      ring
    rw [hq, abs_neg, abs_div, abs_of_pos hpow]
    exact div_le_div_of_nonneg_right (nearest_spec _) hpow.le

end field

/-! ## Texts that can be shown -/

theorem _root_.Marley.Terminal.Printable.append {a b : Str} (ha : Printable a) (hb : Printable b) : Printable (a ++ b) :=
  fun c hc => (List.mem_append.1 hc).elim (ha c) (hb c)

theorem _root_.Marley.Terminal.Printable.cons {c : Char} {b : Str} (h1 : c ≠ '\n') (h2 : c ≠ '\x1b') (hb : Printable b) :
    Printable (c :: b) :=
  fun x hx => (List.mem_cons.1 hx).elim (fun e => e ▸ ⟨h1, h2⟩) (hb x)

theorem digit_printable {t : Str} (h : ∀ c ∈ t, isDigit c = true) : Printable t := by
  intro c hc
  have := h c hc
  constructor <;> rintro rfl <;> exact absurd this (by decide)

theorem natText_printable (n : Nat) : Printable (natText n) := digit_printable (natText_digits n)

theorem intText_printable (n : Int) : Printable (intText n) := by
  intro c hc
  rcases Marley.intText_chars n c hc with h | rfl
  · exact digit_printable (t := [c]) (by simpa using h) c (by simp)
  · decide

theorem padded_printable (n : Int) : Printable (padded n) := by
  rw [padded]
  refine .append ?_ (intText_printable n)
  split
  · intro c hc; obtain rfl : c = '0' := by simpa using hc
    decide
  · intro c hc; cases hc

theorem clockText_printable (c : Clock) : Printable (clockText c) := by
  have hn : ∀ n : Int, Printable (intText n ++ [' ', 'd', 'a', 'y', 's', ' ']) := fun n =>
    (intText_printable n).append (by unfold Printable; decide)
  have hn' : ∀ n : Int, Printable (intText n ++ [' ', 'd', 'a', 'y', ' ']) := fun n =>
    (intText_printable n).append (by unfold Printable; decide)
  have h0 : Printable [] := fun c hc => by cases hc
  rw [clockText]
  refine .append (.append (.append ?_ ?_) (padded_printable _)) (.cons (by decide) (by decide)
    (.append (padded_printable _) (.cons (by decide) (by decide) (padded_printable _))))
  · split
    · exact hn _
    · exact h0
  · split
    · exact hn' _
    · exact h0

section field
variable [Field K] [LinearOrder K] [FloorRing K]

theorem fixedText_printable (p : Nat) (x : K) : Printable (fixedText p x) := by
  have h0 : Printable [] := fun c hc => by cases hc
  rw [fixedText]
  refine .append (.append ?_ (natText_printable _)) ?_
  · split
    · unfold Printable; decide
    · exact h0
  · split
    · exact h0
    · refine .cons (by decide) (by decide) ?_
      refine .append ?_ (natText_printable _)
      intro c hc
      rw [List.mem_replicate] at hc
      rw [hc.2]; decide

theorem ratioText_printable (a b c : Int) : Printable (ratioText (K := K) a b c) := by
  rw [ratioText]
  split_ifs
  · unfold Printable; decide
  · unfold Printable; decide
  · unfold Printable; decide
  · exact fixedText_printable _ _

theorem bytesText_printable {b : K} {p : Nat} {t : Str} (h : bytesText b p = .ok t) : Printable t := by
  rw [bytesText] at h
  split at h
  · simp only [bind, Except.bind] at h
    split at h
    · cases h
    · injection h with h
      rw [← h]
      exact (intText_printable _).append (by unfold Printable; decide)
  · injection h with h
    rw [← h]
    refine (fixedText_printable _ _).append ?_
    have : (byteUnit b).2 = 'k' ∨ (byteUnit b).2 = 'M' ∨ (byteUnit b).2 = 'G' ∨ (byteUnit b).2 = 'T' := by
      rw [byteUnit]; split_ifs <;> simp
    rcases this with e | e | e | e <;> rw [e] <;> (unfold Printable; decide)

end field

end Marley.Status
