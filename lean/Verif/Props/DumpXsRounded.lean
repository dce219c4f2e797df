import Verif.Model.DumpXsRounded
import Verif.Props.DumpXs
import Verif.Props.PickRounded

/-!
# C109 with rounding: the energies of the table

`ε` is the relative error of the rounding `rd` (`RoundsWithin`).
-/

set_option autoImplicit false

namespace Marley.Props
open Marley Marley.Json Marley.Out Marley.Rdr Marley.Sampling

variable {ε : ℝ} {rd : ℝ → ℝ}

/-- The energies reached from `KE` in steps of `delta`. -/
noncomputable def reached (rd : ℝ → ℝ) (delta : ℝ) : Nat → ℝ → List ℝ
  | 0, _ => []
  | n + 1, KE => rd (KE + delta) :: reached rd delta n (rd (KE + delta))

theorem reached_length (delta : ℝ) (n : Nat) (KE : ℝ) : (reached rd delta n KE).length = n := by
  induction n generalizing KE with
  | zero => rfl
  | succ n ih => simp [reached, ih]

theorem reached_get (delta : ℝ) (n : Nat) (KE : ℝ) (i : Nat) (hi : i < n) :
    (reached rd delta n KE)[i]? =
      some ((List.replicate (i + 1) delta).foldl (fun a x => rd (a + x)) KE) := by
  induction n generalizing KE i with
  | zero => omega
  | succ n ih =>
    cases i with
    | zero => rfl
    | succ i =>
      rw [reached, List.getElem?_cons_succ, ih _ i (by omega), List.replicate_succ (n := i + 1),
        List.foldl_cons]

theorem dumpLoopRounded_table (num : ℝ → Str) (xs : Int → ℝ → Res ℝ) (pdg : Int) (delta : ℝ) (n : Nat)
    (KE : ℝ) (text : Str) : DumpXs.dumpLoopRounded rd num xs pdg delta n KE text =
      (DumpXs.table num (xs pdg) (reached rd delta n KE)).map (text ++ ·) := by
  induction n generalizing KE text with
  | zero => simp [DumpXs.dumpLoopRounded, DumpXs.table, reached, Except.map]
  | succ n ih =>
    rw [reached, DumpXs.table, DumpXs.dumpLoopRounded]
    rcases xs pdg (rd (KE + delta)) with e | x
    · rfl
    · dsimp only
      rw [ih]
      rcases DumpXs.table num (xs pdg) (reached rd delta n (rd (KE + delta))) with e | t
      · rfl
      · simp [Except.map, DumpXs.line, unitFactor_eq]

/-- **C109** with rounding (partial: the conversion of the cross section is exact).  The table has
as many lines as asked for, and the energy of line `i` (counted from zero) is the right one up to a
relative error of `i + 3` roundings. -/
theorem C109_rounded_partial (h : RoundsWithin ε rd) (he : 0 ≤ ε) (he1 : ε < 1) (num : ℝ → Str)
    (xs : Int → ℝ → Res ℝ) (pdg : Int) {KEmin KEmax : ℝ} (h0 : 0 ≤ KEmin) (hle : KEmin ≤ KEmax)
    (steps : Int) :
    ∃ energies : List ℝ,
      DumpXs.sweepRounded rd num xs pdg KEmin KEmax steps = DumpXs.table num (xs pdg) energies ∧
      energies.length = steps.toNat ∧
      ∀ (i : Nat) (E : ℝ), energies[i]? = some E →
        (1 - ε) ^ (i + 3) * (KEmin + (i + 1) * ((KEmax - KEmin) / steps)) ≤ E ∧
        E ≤ (1 + ε) ^ (i + 3) * (KEmin + (i + 1) * ((KEmax - KEmin) / steps)) := by
  refine ⟨reached rd (rd (rd (KEmax - KEmin) / (steps : ℝ))) steps.toNat KEmin, ?_, reached_length _ _ _, ?_⟩
  · rw [DumpXs.sweepRounded, dumpLoopRounded_table]
    rcases DumpXs.table num (xs pdg) _ with e | t <;> simp [Except.map]
  · intro i E hE
    have hi : i < steps.toNat := by
      have := (List.getElem?_eq_some_iff.1 hE).1
      rwa [reached_length] at this
    have hs : (0 : ℝ) < steps := by exact_mod_cast (by omega : 0 < steps)
    rw [reached_get _ _ _ i hi] at hE
    cases hE
    have hd0 : 0 ≤ KEmax - KEmin := by linarith
    obtain ⟨a1, a2⟩ := h.bounds hd0
    have hq := div_nonneg (h.nonneg hd0) hs.le
    obtain ⟨b1, b2⟩ := h.bounds hq
    have hdel := h.nonneg hq
    generalize hD : rd (rd (KEmax - KEmin) / (steps : ℝ)) = D at *
    have c1 : (1 - ε) ^ 2 * ((KEmax - KEmin) / steps) ≤ D := by
      refine le_trans ?_ b1
      rw [pow_two, mul_assoc]
      refine mul_le_mul_of_nonneg_left ?_ (by linarith)
      rw [← mul_div_assoc]
      exact div_le_div_of_nonneg_right a1 hs.le
    have c2 : D ≤ (1 + ε) ^ 2 * ((KEmax - KEmin) / steps) := by
      refine b2.trans ?_
      rw [pow_two, mul_assoc]
      refine mul_le_mul_of_nonneg_left ?_ (by linarith)
      rw [← mul_div_assoc]
      exact div_le_div_of_nonneg_right a2 hs.le
    obtain ⟨f1, f2⟩ := foldl_bounds h he he1 (List.replicate (i + 1) D)
      (fun x hx => by rw [List.eq_of_mem_replicate hx]; exact hdel) KEmin h0
    rw [List.length_replicate, List.sum_replicate, nsmul_eq_mul] at f1 f2
    have hi0 : (0 : ℝ) ≤ ((i + 1 : Nat) : ℝ) := Nat.cast_nonneg _
    have p1 : (1 - ε) ^ 2 ≤ 1 := pow_le_one₀ (by linarith) (by linarith)
    have p2 : 1 ≤ (1 + ε) ^ 2 := one_le_pow₀ (by linarith)
    have d1 := mul_le_mul_of_nonneg_left c1 hi0
    have d2 := mul_le_mul_of_nonneg_left c2 hi0
    have cast : ((i + 1 : Nat) : ℝ) = i + 1 := by push_cast; ring
    rw [cast] at f1 f2 d1 d2
    have e1 := mul_le_mul_of_nonneg_right p1 h0
    have e2 := mul_le_mul_of_nonneg_right p2 h0
    constructor
    · refine le_trans ?_ f1
      rw [show i + 3 = (i + 1) + 2 by omega, pow_add, mul_assoc]
      refine mul_le_mul_of_nonneg_left ?_ (pow_nonneg (by linarith) _)
      linarith
    · refine f2.trans ?_
      rw [show i + 3 = (i + 1) + 2 by omega, pow_add (1 + ε) (i + 1) 2, mul_assoc]
      refine mul_le_mul_of_nonneg_left ?_ (pow_nonneg (by linarith) _)
      linarith

/-- **C109** does not hold to the last digit: in ten steps from 0 to 1 MeV the last energy is below
the upper end.  (With six digits it is printed as 1.) -/
theorem C109_last_violated (num : ℝ → Str) (xs : Int → ℝ → Res ℝ) (pdg : Int) :
    ∃ (energies : List ℝ) (E : ℝ),
      DumpXs.sweepRounded round53 num xs pdg 0 1 10 = DumpXs.table num (xs pdg) energies ∧
      energies.getLast? = some E ∧ E < 1 := by
  have hd : round53 (1 / 10) = 7205759403792794 / 2 ^ 56 := by
    rw [round53_eval (-4) 7205759403792794 (by norm_num) (by norm_num) (Or.inl (by norm_num [abs_lt]))]; norm_num
  have h1 : round53 (7205759403792794 / 2 ^ 56) = 7205759403792794 / 2 ^ 56 := by
    rw [← hd, round53_idem]
  have h2 : round53 (7205759403792794 / 2 ^ 56 + 7205759403792794 / 2 ^ 56) = 7205759403792794 / 2 ^ 55 := by
    rw [round53_eval (-3) 7205759403792794 (by norm_num) (by norm_num) (Or.inl (by norm_num [abs_lt]))]; norm_num
  have h3 : round53 (7205759403792794 / 2 ^ 55 + 7205759403792794 / 2 ^ 56) = 5404319552844596 / 2 ^ 54 := by
    rw [round53_eval (-2) 5404319552844596 (by norm_num) (by norm_num) (Or.inr ⟨by norm_num, by norm_num [abs]⟩)]; norm_num
  have h4 : round53 (5404319552844596 / 2 ^ 54 + 7205759403792794 / 2 ^ 56) = 7205759403792794 / 2 ^ 54 := by
    rw [round53_eval (-2) 7205759403792794 (by norm_num) (by norm_num) (Or.inr ⟨by norm_num, by norm_num [abs]⟩)]; norm_num
  have h5 : round53 (7205759403792794 / 2 ^ 54 + 7205759403792794 / 2 ^ 56) = 4503599627370496 / 2 ^ 53 := by
    rw [round53_eval (-1) 4503599627370496 (by norm_num) (by norm_num) (Or.inl (by norm_num [abs_lt]))]; norm_num
  have h6 : round53 (4503599627370496 / 2 ^ 53 + 7205759403792794 / 2 ^ 56) = 5404319552844595 / 2 ^ 53 := by
    rw [round53_eval (-1) 5404319552844595 (by norm_num) (by norm_num) (Or.inl (by norm_num [abs_lt]))]; norm_num
  have h7 : round53 (5404319552844595 / 2 ^ 53 + 7205759403792794 / 2 ^ 56) = 6305039478318694 / 2 ^ 53 := by
    rw [round53_eval (-1) 6305039478318694 (by norm_num) (by norm_num) (Or.inl (by norm_num [abs_lt]))]; norm_num
  have h8 : round53 (6305039478318694 / 2 ^ 53 + 7205759403792794 / 2 ^ 56) = 7205759403792793 / 2 ^ 53 := by
    rw [round53_eval (-1) 7205759403792793 (by norm_num) (by norm_num) (Or.inl (by norm_num [abs_lt]))]; norm_num
  have h9 : round53 (7205759403792793 / 2 ^ 53 + 7205759403792794 / 2 ^ 56) = 8106479329266892 / 2 ^ 53 := by
    rw [round53_eval (-1) 8106479329266892 (by norm_num) (by norm_num) (Or.inl (by norm_num [abs_lt]))]; norm_num
  have h10 : round53 (8106479329266892 / 2 ^ 53 + 7205759403792794 / 2 ^ 56) = 9007199254740991 / 2 ^ 53 := by
    rw [round53_eval (-1) 9007199254740991 (by norm_num) (by norm_num) (Or.inl (by norm_num [abs_lt]))]; norm_num
  refine ⟨reached round53 (round53 (1 / 10)) 10 0, 9007199254740991 / 2 ^ 53, ?_, ?_, by norm_num⟩
  · rw [DumpXs.sweepRounded, dumpLoopRounded_table, sub_zero, round53_one,
      show ((10 : Int) : ℝ) = 10 by norm_num, show (10 : Int).toNat = 10 from rfl]
    generalize DumpXs.table num (xs pdg) _ = r
    rcases r with e | t <;> simp [Except.map]
  · simp only [reached, zero_add, hd, h1, h2, h3, h4, h5, h6, h7, h8, h9, h10]
    rfl

/-- The default settings in doubles. -/
example (num : ℝ → Str) (xs : Int → ℝ → Res ℝ) : ∃ energies : List ℝ,
    DumpXs.sweepRounded round53 num xs 12 0 100 10000 = DumpXs.table num (xs 12) energies ∧
    energies.length = 10000 := by
  obtain ⟨l, h1, h2, -⟩ := C109_rounded_partial round53_within (by positivity) (by norm_num) num xs 12
    (le_refl (0 : ℝ)) (by norm_num : (0 : ℝ) ≤ 100) 10000
  exact ⟨l, h1, h2⟩

end Marley.Props
