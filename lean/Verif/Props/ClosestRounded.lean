import Verif.Model.ClosestRounded
import Verif.Props.DecayScheme
import Verif.Lemmas.Sampling

/-!
# The search for the closest level with rounding (C23)
-/

set_option autoImplicit false

namespace Marley.Props
open Marley Marley.Scheme Marley.Sampling

variable {K : Type}

/-- Without rounding this is the search of C23. -/
theorem closestRounded_id [Ring K] [LinearOrder K] (s : Scheme K) (E : K) :
    closestRounded id s E = closestLevel s E := rfl

/-- **C23** with rounding.  For every rounding that keeps the order and does not depend on the
sign, the level found is one whose distance, as it is computed, is smallest. -/
theorem C23_rounded [Field K] [LinearOrder K] [IsStrictOrderedRing K] {rd : K → K} (hr : Monotone rd)
    (hneg : ∀ x, rd (-x) = -rd x) {s : Scheme K}
    (hs : s.levels.Pairwise (fun a b => a.2.energy ≤ b.2.energy)) (hn : s.levels ≠ []) (E : K) :
    ∃ a l, closestRounded rd s E = .ok (some a) ∧ (a, l) ∈ s.levels ∧
      ∀ m ∈ s.levels, rd |E - l.energy| ≤ rd |E - m.2.energy| := by
  have habs : ∀ x, |rd x| = rd |x| := by
    have h0 : rd 0 = 0 := by have := hneg 0; rw [neg_zero] at this; linarith
    intro x
    rcases le_total 0 x with h | h
    · rw [abs_of_nonneg h, abs_of_nonneg (by rw [← h0]; exact hr h)]
    · rw [abs_of_nonpos h, hneg, abs_of_nonpos (by rw [← h0]; exact hr h)]
  obtain ⟨a, b, h1, h2, h3, h4⟩ := lowerBound_levels (s := s) hs E
  have hlen : s.levels.length ≠ 0 := fun h => hn (List.length_eq_zero_iff.1 h)
  have dlo : ∀ m ∈ a, |E - m.2.energy| = E - m.2.energy := fun m hm =>
    abs_of_pos (sub_pos.2 (h2 m hm))
  have dhi : ∀ m ∈ b, |E - m.2.energy| = m.2.energy - E := fun m hm => by
    rw [abs_of_nonpos (sub_nonpos.2 (h3 m hm))]; ring
  rw [h1, List.pairwise_append] at hs
  obtain ⟨p1, p2, p3⟩ := hs
  have last : ∀ a' x, a = a' ++ [x] → ∀ m ∈ a, rd |E - x.2.energy| ≤ rd |E - m.2.energy| := by
    intro a' x e m hm
    have hle : m.2.energy ≤ x.2.energy := by
      rw [e] at hm p1
      rcases List.mem_append.1 hm with h | h
      · exact (List.pairwise_append.1 p1).2.2 m h x (by simp)
      · rw [List.mem_singleton.1 h]
    rw [dlo m hm, dlo x (by rw [e]; simp)]
    exact hr (by linarith)
  simp only [closestRounded, h4]
  rw [if_neg hlen]
  rcases b with _ | ⟨y, b⟩
  · rw [List.append_nil] at h1
    rw [if_pos (by rw [h1])]
    rcases List.eq_nil_or_concat a with rfl | ⟨a', x, rfl⟩
    · exact absurd h1 hn
    · rw [List.concat_eq_append] at *
      have hx : s.levels[(a' ++ [x]).length - 1]? = some x := by rw [h1]; simp
      rw [hx]
      refine ⟨x.1, x.2, rfl, by rw [h1]; simp, ?_⟩
      intro m hm
      rw [h1] at hm
      exact last a' x rfl m hm
  · have first : ∀ m ∈ y :: b, rd |E - y.2.energy| ≤ rd |E - m.2.energy| := by
      intro m hm
      have : y.2.energy ≤ m.2.energy := by
        rcases List.mem_cons.1 hm with rfl | h
        · exact le_rfl
        · exact (List.pairwise_cons.1 p2).1 m h
      rw [dhi m hm, dhi y (by simp)]
      exact hr (by linarith)
    have hy : s.levels[a.length]? = some y := by rw [h1]; simp
    rw [if_neg (by rw [h1]; simp)]
    rcases List.eq_nil_or_concat a with rfl | ⟨a', x, rfl⟩
    · rw [if_neg (by simp), hy]
      refine ⟨y.1, y.2, rfl, by rw [h1]; simp, ?_⟩
      intro m hm
      rw [h1, List.nil_append] at hm
      exact first m hm
    · rw [List.concat_eq_append] at *
      have hx : s.levels[(a' ++ [x]).length - 1]? = some x := by rw [h1]; simp
      rw [if_pos (by simp), hy, hx]
      dsimp only
      rw [habs, habs]
      split_ifs with hc
      · refine ⟨x.1, x.2, rfl, by rw [h1]; simp, ?_⟩
        intro m hm
        rw [h1] at hm
        rcases List.mem_append.1 hm with h | h
        · exact last a' x rfl m h
        · exact (le_of_lt hc).trans (first m h)
      · refine ⟨y.1, y.2, rfl, by rw [h1]; simp, ?_⟩
        intro m hm
        rw [h1] at hm
        rcases List.mem_append.1 hm with h | h
        · exact (not_lt.1 hc).trans (last a' x rfl m h)
        · exact first m h

/-- Rounding to the nearest integer is off by at most one half. -/
theorem roundEven_error (x : ℝ) : |(roundEven x : ℝ) - x| ≤ 1 / 2 := by
  have h := Int.floor_add_fract x
  have h0 := Int.fract_nonneg x
  have h1 := Int.fract_lt_one x
  unfold roundEven
  split_ifs <;> push_cast <;> rw [abs_le] <;> constructor <;> linarith

/-- Rounding to 53 bits has the relative error `2 ^ -53`. -/
theorem round53_error (x : ℝ) : |round53 x - x| ≤ (2 : ℝ) ^ (-53 : ℤ) * |x| := by
  have pos : ∀ x : ℝ, 0 < x → |round53 x - x| ≤ (2 : ℝ) ^ (-53 : ℤ) * |x| := by
    intro x h
    have hu := ulp_pos x
    have e : round53 x - x = ((roundEven (x / ulp x) : ℝ) - x / ulp x) * ulp x := by
      rw [round53, if_pos h, sub_mul, div_mul_cancel₀ _ hu.ne']
    have hl : ulp x ≤ (2 : ℝ) ^ (-52 : ℤ) * x := by
      have := log_le h
      have e2 : ulp x = (2 : ℝ) ^ (-52 : ℤ) * 2 ^ Int.log 2 x := by
        unfold ulp
        rw [← zpow_add₀ (by norm_num)]
        congr 1
        ring
      rw [e2]
      exact mul_le_mul_of_nonneg_left this (by positivity)
    rw [e, abs_mul, abs_of_pos hu, abs_of_pos h]
    calc _ ≤ 1 / 2 * ulp x := mul_le_mul_of_nonneg_right (roundEven_error _) hu.le
      _ ≤ 1 / 2 * ((2 : ℝ) ^ (-52 : ℤ) * x) := mul_le_mul_of_nonneg_left hl (by norm_num)
      _ = _ := by norm_num; ring
  rcases lt_trichotomy x 0 with h | h | h
  · have := pos (-x) (by linarith)
    rwa [round53_neg, abs_neg, ← neg_sub', abs_neg] at this
  · subst h; simp [round53_zero]
  · exact pos x h

/-- **C23** with rounding, true distances.  If rounding has the relative error `u`, no level is
nearer by more than the factor `(1 + u) / (1 - u)`. -/
theorem C23_rounded_distance_partial [Field K] [LinearOrder K] [IsStrictOrderedRing K] {rd : K → K} (hr : Monotone rd)
    (hneg : ∀ x, rd (-x) = -rd x) {u : K} (hu : ∀ x, |rd x - x| ≤ u * |x|) {s : Scheme K}
    (hs : s.levels.Pairwise (fun a b => a.2.energy ≤ b.2.energy)) (hn : s.levels ≠ []) (E : K) :
    ∃ a l, closestRounded rd s E = .ok (some a) ∧ (a, l) ∈ s.levels ∧
      ∀ m ∈ s.levels, (1 - u) * |E - l.energy| ≤ (1 + u) * |E - m.2.energy| := by
  obtain ⟨a, l, h1, h2, h3⟩ := C23_rounded hr hneg hs hn E
  refine ⟨a, l, h1, h2, fun m hm => ?_⟩
  have e1 := (abs_le.1 (hu |E - l.energy|)).1
  have e2 := (abs_le.1 (hu |E - m.2.energy|)).2
  rw [abs_abs] at e1 e2
  have := h3 m hm
  nlinarith

/-- **C23** for doubles.  Range of exponents apart, no level is nearer by more than about
two units in the last place. -/
theorem C23_doubles_partial {s : Scheme ℝ}
    (hs : s.levels.Pairwise (fun a b => a.2.energy ≤ b.2.energy)) (hn : s.levels ≠ []) (E : ℝ) :
    ∃ a l, closestRounded round53 s E = .ok (some a) ∧ (a, l) ∈ s.levels ∧
      ∀ m ∈ s.levels, (1 - (2 : ℝ) ^ (-53 : ℤ)) * |E - l.energy| ≤
        (1 + (2 : ℝ) ^ (-53 : ℤ)) * |E - m.2.energy| :=
  C23_rounded_distance_partial round53_mono round53_neg round53_error hs hn E

/-- Levels at a tiny energy and at 2 MeV. -/
noncomputable def exNearTie : Scheme ℝ where
  Z := 19
  A := 40
  levels := [(0, ⟨(2 : ℝ) ^ (-60 : ℤ), 0, ⟨true⟩, []⟩), (1, ⟨2, 0, ⟨true⟩, []⟩)]
  next := 2

theorem exNearTie_sorted : exNearTie.levels.Pairwise (fun a b => a.2.energy ≤ b.2.energy) ∧
    exNearTie.levels ≠ [] := by
  refine ⟨?_, by simp [exNearTie]⟩
  simp only [exNearTie, List.pairwise_cons, List.mem_singleton, forall_eq]
  norm_num

theorem round53_one : round53 1 = 1 := by
  have := round53_rep (2 ^ (52 : ℕ)) (-52) le_rfl (by norm_num)
  norm_num at this
  exact this

theorem round53_below_one : round53 (1 - (2 : ℝ) ^ (-60 : ℤ)) = 1 := by
  have hpos : (0 : ℝ) < 1 - (2 : ℝ) ^ (-60 : ℤ) := by norm_num
  have hlog : Int.log 2 (1 - (2 : ℝ) ^ (-60 : ℤ)) = -1 := log_eq (by norm_num) (by norm_num)
  have hu : ulp (1 - (2 : ℝ) ^ (-60 : ℤ)) = (2 : ℝ) ^ (-53 : ℤ) := by
    unfold ulp; rw [hlog]; norm_num
  have hf : ⌊(1 - (2 : ℝ) ^ (-60 : ℤ)) / (2 : ℝ) ^ (-53 : ℤ)⌋ = 2 ^ 53 - 1 := by
    rw [Int.floor_eq_iff]; norm_num
  have hr : roundEven ((1 - (2 : ℝ) ^ (-60 : ℤ)) / (2 : ℝ) ^ (-53 : ℤ)) = 2 ^ 53 := by
    have hfr : ¬ Int.fract ((1 - (2 : ℝ) ^ (-60 : ℤ)) / (2 : ℝ) ^ (-53 : ℤ)) < 1 / 2 := by
      rw [Int.fract, hf]; norm_num
    have hfr' : 1 / 2 < Int.fract ((1 - (2 : ℝ) ^ (-60 : ℤ)) / (2 : ℝ) ^ (-53 : ℤ)) := by
      rw [Int.fract, hf]; norm_num
    rw [roundEven, if_neg hfr, if_pos hfr', hf]; norm_num
  rw [round53, if_pos hpos, hu, hr]
  norm_num

theorem closestRounded_two {rd : ℝ → ℝ} {s : Scheme ℝ} {E : ℝ} {x y : Nat × Level ℝ}
    (h : s.levels = [x, y]) (hi : lowerBoundIndex s E = 1) :
    closestRounded rd s E = if |rd (E - y.2.energy)| > |rd (E - x.2.energy)| then .ok (some x.1)
      else .ok (some y.1) := by
  simp [closestRounded, h, hi]

/-- **C23** fails for doubles in the last place: with levels at `2 ^ -60` and 2 MeV and the
energy 1 MeV the level at 2 MeV is taken, and the other is closer. -/
theorem C23_rounding_violated :
    closestRounded round53 exNearTie 1 = .ok (some 1) ∧ closestLevel exNearTie 1 = .ok (some 0) ∧
      |1 - (2 : ℝ) ^ (-60 : ℤ)| < |(1 : ℝ) - 2| := by
  have hi : lowerBoundIndex exNearTie 1 = 1 := by
    obtain ⟨a, b, h1, h2, h3, h4⟩ := lowerBound_levels exNearTie_sorted.1 (1 : ℝ)
    rw [h4]
    rcases a with _ | ⟨x, _ | ⟨y, a⟩⟩
    · have := h3 (1 - 1, ⟨(2 : ℝ) ^ (-60 : ℤ), 0, ⟨true⟩, []⟩) (by
        rw [List.nil_append] at h1; rw [← h1]; simp [exNearTie])
      norm_num at this
    · rfl
    · have e : y = (1, ⟨2, 0, ⟨true⟩, []⟩) := by
        simp only [exNearTie, List.cons_append, List.cons.injEq] at h1
        exact h1.2.1.symm
      have := h2 y (by simp)
      rw [e] at this
      norm_num at this
  have habs : |(1 : ℝ) - 2| = 1 := by norm_num
  have hlt : |1 - (2 : ℝ) ^ (-60 : ℤ)| < |(1 : ℝ) - 2| := by
    rw [habs, abs_of_pos (by norm_num)]; norm_num
  refine ⟨?_, ?_, hlt⟩
  · have h1 : round53 (1 - 2) = -1 := by
      rw [show (1 : ℝ) - 2 = -1 by norm_num, round53_neg, round53_one]
    have h2 := round53_below_one
    rw [closestRounded_two rfl hi, if_neg]
    simp only [h1, h2]
    norm_num
  · rw [← closestRounded_id, closestRounded_two rfl hi, if_pos]
    exact hlt

/-- The scheme of the witness meets the hypotheses. -/
example : ∃ a l, closestRounded round53 exNearTie 1 = .ok (some a) ∧ (a, l) ∈ exNearTie.levels ∧
    ∀ m ∈ exNearTie.levels, round53 |1 - l.energy| ≤ round53 |1 - m.2.energy| :=
  C23_rounded round53_mono round53_neg exNearTie_sorted.1 exNearTie_sorted.2 1

end Marley.Props
