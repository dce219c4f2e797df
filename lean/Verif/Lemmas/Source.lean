import Verif.Model.Source
import Verif.Lemmas.Grid
import Verif.Lemmas.Quadrature
import Verif.Lemmas.Sampling

/-! Helper lemmas about neutrino sources. -/

set_option autoImplicit false

namespace Marley.Source
open Marley Marley.Gen Marley.Sampling Marley.Utils
open Marley.Grid (Points Sorted)

theorem weightedSum_on (f : ℝ → Unit → Res (ℝ × Unit)) (F : ℝ → ℝ) (l : List (ℝ × ℝ)) (acc : ℝ)
    (h : ∀ p ∈ l, f p.2 () = .ok (F p.2, ())) :
    weightedSum f l acc () = .ok (acc + (l.map (fun p => p.1 * F p.2)).sum, ()) := by
  induction l generalizing acc with
  | nil => simp [weightedSum]
  | cons p l ih =>
    obtain ⟨w, x⟩ := p
    have h1 := h (w, x) (by simp)
    simp only at h1
    simp only [weightedSum, h1, ih _ (fun q hq => h q (by simp [hq])), List.map_cons, List.sum_cons]
    rw [add_assoc]

/-- The integral computed for a density that is a number everywhere on the range. -/
theorem integral_on {f : ℝ → Res (Option ℝ)} {F : ℝ → ℝ} {a b : ℝ} (hab : a ≤ b)
    (h : ∀ x, a ≤ x → x ≤ b → f x = .ok (some (F x))) : integral f a b = some (quad 50 a b F) := by
  unfold integral numIntegrate
  rw [weightedSum_on (numeric f) F]
  · simp [quad]
  · intro p hp
    obtain ⟨-, h2, h3⟩ := nodes_ok (N := 50) (by norm_num) hab hp
    simp [numeric, h _ h2 h3]

/-- The sum of nonnegative values that are positive in the middle is positive. -/
theorem quad_pos {a b : ℝ} (hab : a < b) {F : ℝ → ℝ} (h0 : ∀ x, a ≤ x → x ≤ b → 0 ≤ F x)
    (hm : 0 < F ((b + a) / 2)) : 0 < quad 50 a b F := by
  rw [quad_eq]
  have hA : 0 < (b - a) / 2 := by linarith
  have w := fun n => weight_pos (N := 50) (by norm_num) n
  apply mul_pos hA
  have h1 : 0 ≤ weight 50 0 / 2 * (F a + F b) := by
    have := w 0
    have := h0 a le_rfl hab.le
    have := h0 b hab.le le_rfl
    positivity
  have h2 : 0 < weight 50 50 * F ((b + a) / 2) := mul_pos (w _) hm
  have h3 : 0 ≤ ∑ i ∈ Finset.range (50 - 1), weight 50 (i + 1) *
        (F ((b + a) / 2 + (b - a) / 2 * offset 50 (i + 1))
          + F ((b + a) / 2 - (b - a) / 2 * offset 50 (i + 1))) := by
    apply Finset.sum_nonneg
    intro i _
    have o := offset_range 50 (i + 1)
    have := w (i + 1)
    have := h0 ((b + a) / 2 + (b - a) / 2 * offset 50 (i + 1)) (by nlinarith) (by nlinarith)
    have := h0 ((b + a) / 2 - (b - a) / 2 * offset 50 (i + 1)) (by nlinarith) (by nlinarith)
    positivity
  linarith

theorem tiny_pos : 0 < tiny := by unfold tiny; positivity

/-- `check_for_errors`: what it accepts and what it leaves. -/
theorem checkLoop_spec (l : Points) :
    ((∀ p ∈ l, 0 ≤ p.1 ∧ 0 ≤ p.2) ∧
      checkLoop l = .ok (l.map (fun p => (if p.1 = 0 then tiny else p.1, p.2)),
        (l.map Prod.snd).sum)) ∨
    ((∃ p ∈ l, p.1 < 0 ∨ p.2 < 0) ∧ checkLoop l = .error .marleyError) := by
  induction l with
  | nil => exact .inl ⟨by simp, by simp [checkLoop]⟩
  | cons p l ih =>
    obtain ⟨E, y⟩ := p
    by_cases hE : E < 0
    · exact .inr ⟨⟨(E, y), by simp, .inl hE⟩, by rw [checkLoop, if_pos hE]⟩
    by_cases hy : y < 0
    · exact .inr ⟨⟨(E, y), by simp, .inr hy⟩, by rw [checkLoop, if_neg hE, if_pos hy]⟩
    rw [checkLoop, if_neg hE, if_neg hy]
    rcases ih with ⟨h, e⟩ | ⟨⟨q, hq, h⟩, e⟩
    · refine .inl ⟨?_, by rw [e]; simp⟩
      intro q hq
      rcases List.mem_cons.1 hq with rfl | hq
      · exact ⟨not_lt.1 hE, not_lt.1 hy⟩
      · exact h q hq
    · exact .inr ⟨⟨q, by simp [hq], h⟩, by rw [e]⟩

/-- Moving zero energies keeps the order of doubles. -/
theorem sorted_moved {l : Points} (hs : Sorted l) (h0 : ∀ p ∈ l, p.1 = 0 ∨ tiny ≤ p.1) :
    Sorted (l.map (fun p => (if p.1 = 0 then tiny else p.1, p.2))) := by
  unfold Sorted at *
  rw [List.pairwise_map]
  refine hs.imp_of_mem (fun {p q} hp hq hpq => ?_)
  dsimp only
  rcases h0 p hp with a | a <;> rcases h0 q hq with b | b
  · rw [if_pos a, if_pos b]
  · rw [if_pos a, if_neg (by linarith [tiny_pos])]; exact b
  · linarith [tiny_pos]
  · rw [if_neg (by linarith [tiny_pos]), if_neg (by linarith [tiny_pos])]; exact hpq

variable {G : Type}

/-- A bound that holds is not changed. -/
theorem rejectLoop_bound {A : Arith} {E : Engine G} {f : ℝ → Unit → Res (ℝ × Unit)}
    {a b safety m : ℝ} (hf : ∀ x y s, f x () = .ok (y, s) → y ≤ m) (n : Nat) (g : G)
    {r : Sampled G Unit} (e : rejectLoop A E f a b safety n m g () = some (.ok r)) : r.fmax = m := by
  induction n generalizing g with
  | zero => simp [rejectLoop] at e
  | succ n ih =>
    rw [rejectLoop] at e
    dsimp only at e
    cases hv : f (uniform A E a b true g).1 () with
    | error _ => rw [hv] at e; simp at e
    | ok v =>
      obtain ⟨v, u⟩ := v
      rw [hv] at e
      have hle := hf _ _ _ hv
      simp only [if_neg (not_lt.2 hle)] at e
      split_ifs at e with hy
      · exact ih _ e
      · cases e; rfl

end Marley.Source
