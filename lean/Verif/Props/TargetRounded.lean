import Verif.Model.TargetRounded
import Verif.Props.Target
import Verif.Props.PickRounded

/-!
# C70 with rounding: target composition

`ε` is the relative error of the rounding `rd` (`RoundsWithin`).
-/

set_option autoImplicit false

namespace Marley.Props
open Marley Marley.Target Marley.Sampling

variable {ε : ℝ} {rd : ℝ → ℝ}

theorem sumFractionsRounded_ok (warn : Bool) (s : ℝ) (l : List (Int × ℝ)) (hn : ∀ x ∈ l, Named x.1)
    (h : ∀ x ∈ l, 0 ≤ x.2) :
    sumFractionsRounded rd warn s l = .ok ((l.map (·.2)).foldl (fun a x => rd (a + x)) s) := by
  induction l generalizing s with
  | nil => simp [sumFractionsRounded]
  | cons x t ih =>
    obtain ⟨a, f⟩ := x
    have hf := h (a, f) (by simp)
    have := ih (rd (s + f)) (fun x hx => hn x (by simp [hx])) (fun x hx => h x (by simp [hx]))
    obtain ⟨name, hname⟩ := hn (a, f) (by simp)
    dsimp only at hname
    simp only [sumFractionsRounded]
    rw [if_neg (not_lt.2 hf), hname]
    split_ifs <;> simpa using this

theorem sumFractionsRounded_negative (warn : Bool) (s : ℝ) (l : List (Int × ℝ))
    (hn : ∀ x ∈ l, Named x.1) (h : ∃ x ∈ l, x.2 < 0) :
    sumFractionsRounded rd warn s l = .error .marleyError := by
  induction l generalizing s with
  | nil => simp at h
  | cons x t ih =>
    obtain ⟨a, f⟩ := x
    have hna := hn (a, f) (by simp)
    obtain ⟨name, hname⟩ := id hna
    simp only [sumFractionsRounded]
    dsimp only at hname
    by_cases hf : f < 0
    · rw [if_pos hf, throwNaming_named hna]
    · have : ∃ x ∈ t, x.2 < 0 := by
        obtain ⟨y, hy, h2⟩ := h
        rcases List.mem_cons.1 hy with rfl | hy
        · exact absurd h2 hf
        · exact ⟨y, hy, h2⟩
      have := ih (rd (s + f)) (fun x hx => hn x (by simp [hx])) this
      rw [if_neg hf, hname]
      split_ifs <;> exact this

/-- The result for lists of the same length that is not zero, without negative fractions. -/
theorem makeRounded_eq (warn : Bool) {atoms : List Int} {fracs : List ℝ} (hn : ∀ a ∈ atoms, Named a)
    (hl : atoms.length = fracs.length) (he : atoms ≠ []) (h0 : ∀ f ∈ fracs, 0 ≤ f) :
    makeRounded rd warn atoms fracs =
      if sumRounded rd fracs ≤ 0 then .error .marleyError
      else fill [] (atoms.zip (fracs.map (fun f => rd (f / sumRounded rd fracs)))) := by
  have hs := sumFractionsRounded_ok (rd := rd) warn 0 (atoms.zip fracs)
    (fun x hx => hn _ (List.of_mem_zip hx).1) (fun x hx => h0 _ (List.of_mem_zip hx).2)
  rw [zip_snd hl] at hs
  simp only [makeRounded]
  rw [if_neg (by simpa using hl), if_neg (by simpa using he), hs]
  rfl

theorem sumRounded_pos (h : RoundsWithin ε rd) (he : 0 ≤ ε) (he1 : ε < 1) {w : List ℝ}
    (hw : ∀ x ∈ w, 0 ≤ x) : 0 < sumRounded rd w ↔ ∃ x ∈ w, 0 < x := by
  rw [← sum_pos_iff hw]
  obtain ⟨b1, b2⟩ := sumRounded_bounds h he he1 w hw
  have hp : 0 < (1 - ε) ^ w.length := pow_pos (by linarith) _
  have hq : 0 < (1 + ε) ^ w.length := pow_pos (by linarith) _
  constructor
  · intro h1
    exact pos_of_mul_pos_right (lt_of_lt_of_le h1 b2) hq.le
  · intro h1
    exact lt_of_lt_of_le (mul_pos hp h1) b1

/-- **C70** with rounding: the same lists are accepted. -/
theorem C70_rounded_accepted (h : RoundsWithin ε rd) (he : 0 ≤ ε) (he1 : ε < 1) (warn : Bool)
    {atoms : List Int} (fracs : List ℝ) (hn : ∀ a ∈ atoms, Named a) :
    ((∃ m, makeRounded rd warn atoms fracs = .ok m) ↔ Acceptable atoms fracs) ∧
      (¬ Acceptable atoms fracs → makeRounded rd warn atoms fracs = .error .marleyError) := by
  have key : Acceptable atoms fracs → ∃ m, makeRounded rd warn atoms fracs = .ok m := by
    intro ok
    rw [makeRounded_eq warn hn ok.sameLength ok.nonempty ok.nonneg,
      if_neg (not_le.2 ((sumRounded_pos h he he1 ok.nonneg).2 ok.positive))]
    have hl : atoms.length = (fracs.map (fun f => rd (f / sumRounded rd fracs))).length := by
      rw [List.length_map]; exact ok.sameLength
    obtain ⟨r, h1, -, -⟩ := fill_ok [] (atoms.zip (fracs.map (fun f => rd (f / sumRounded rd fracs))))
      (by rw [List.append_nil, zip_fst hl]; exact ok.distinct) (by simp)
    exact ⟨r, h1⟩
  have rej : ¬ Acceptable atoms fracs → makeRounded rd warn atoms fracs = .error .marleyError := by
    intro bad
    by_cases h1 : atoms.length = fracs.length
    · by_cases h2 : atoms = []
      · simp only [makeRounded]
        rw [if_neg (by simpa using h1), if_pos (by simp [h2])]
      · by_cases h3 : ∀ f ∈ fracs, 0 ≤ f
        · rw [makeRounded_eq warn hn h1 h2 h3]
          split_ifs with h4
          · rfl
          · have h5 := (sumRounded_pos h he he1 h3).1 (not_le.1 h4)
            have hl : atoms.length = (fracs.map (fun f => rd (f / sumRounded rd fracs))).length := by
              rw [List.length_map]; exact h1
            refine fill_duplicate [] _ (fun x hx => hn _ (List.of_mem_zip hx).1) (by simp) ?_
            rw [List.append_nil, zip_fst hl]
            exact fun hd => bad ⟨h1, h2, hd, h3, h5⟩
        · push Not at h3
          obtain ⟨f, hf, h3⟩ := h3
          have : ∃ x ∈ atoms.zip fracs, x.2 < 0 := by
            rw [← zip_snd h1] at hf
            obtain ⟨x, hx, rfl⟩ := List.mem_map.1 hf
            exact ⟨x, hx, h3⟩
          simp only [makeRounded]
          rw [if_neg (by simpa using h1), if_neg (by simpa using h2),
            sumFractionsRounded_negative warn 0 _ (fun x hx => hn _ (List.of_mem_zip hx).1) this]
    · simp only [makeRounded]
      rw [if_pos h1]
  refine ⟨⟨?_, key⟩, rej⟩
  rintro ⟨m, hm⟩
  by_contra hc
  rw [rej hc] at hm
  cases hm

/-- **C70** with rounding, composition (partial: equality holds up to a relative error of about
twice the number of atoms times `ε`).  The fractions are nonnegative and their exact sum is one, each
is the given one divided by the sum, and the ratio of any two is the given one (up to the error of
two quotients); atoms that are not listed have fraction zero. -/
theorem C70_rounded_fractions_partial (h : RoundsWithin ε rd) (he : 0 ≤ ε) (warn : Bool)
    {atoms : List Int} {fracs : List ℝ} {m : List (Int × ℝ)} (hn : ∀ a ∈ atoms, Named a)
    (hs : (2 * (fracs.length : ℝ) + 1) * ε < 1) (e : makeRounded rd warn atoms fracs = .ok m) :
    (∀ a f, (a, f) ∈ atoms.zip fracs →
      (1 - (2 * fracs.length + 1) * ε) * f ≤ fraction m a * fracs.sum ∧
      (1 - (2 * fracs.length + 1) * ε) * (fraction m a * fracs.sum) ≤ f) ∧
    (1 - (2 * fracs.length + 1) * ε ≤ (m.map (·.2)).sum ∧
      (1 - (2 * fracs.length + 1) * ε) * (m.map (·.2)).sum ≤ 1) ∧
    (∀ a f b g, (a, f) ∈ atoms.zip fracs → (b, g) ∈ atoms.zip fracs →
      (1 - ε) * (fraction m a * g) ≤ (1 + ε) * (fraction m b * f)) ∧
    (∀ a, a ∉ atoms → fraction m a = 0) ∧ (∀ x ∈ m, 0 ≤ x.2) ∧ (m.map (·.1)).Perm atoms ∧
    (∀ a f, (a, f) ∈ atoms.zip fracs → (contains m a = true ↔ 0 < f)) := by
  have hn0 : (0 : ℝ) ≤ fracs.length := Nat.cast_nonneg _
  have he1 : ε < 1 := by nlinarith
  have ok := (C70_rounded_accepted h he he1 warn fracs hn).1.1 ⟨m, e⟩
  have hT := (sumRounded_pos h he he1 ok.nonneg).2 ok.positive
  have hS := (sum_pos_iff ok.nonneg).2 ok.positive
  obtain ⟨b1, b2⟩ := sumRounded_bounds h he he1 fracs ok.nonneg
  obtain ⟨f1, f2⟩ := factor_bounds he fracs.length hs
  rw [makeRounded_eq warn hn ok.sameLength ok.nonempty ok.nonneg, if_neg (not_le.2 hT)] at e
  have hq0 : 0 < 1 - (2 * (fracs.length : ℝ) + 1) * ε := by linarith
  generalize hq : 1 - (2 * (fracs.length : ℝ) + 1) * ε = q at *
  generalize hTT : sumRounded rd fracs = T at *
  have hl : atoms.length = (fracs.map (fun f => rd (f / T))).length := by
    rw [List.length_map]; exact ok.sameLength
  obtain ⟨r, h1, h2, -⟩ := fill_ok [] (atoms.zip (fracs.map (fun f => rd (f / T))))
    (by rw [List.append_nil, zip_fst hl]; exact ok.distinct) (by simp)
  rw [h1] at e
  cases e
  rw [List.append_nil] at h2
  have hkeys : (m.map (·.1)).Perm atoms := by
    have := h2.map (·.1)
    rwa [zip_fst hl] at this
  have hnd : (m.map (·.1)).Nodup := hkeys.nodup_iff.2 ok.distinct
  have frac : ∀ a f, (a, f) ∈ atoms.zip fracs → fraction m a = rd (f / T) := by
    intro a f haf
    have : (a, rd (f / T)) ∈ m := by
      refine h2.mem_iff.2 ?_
      rw [List.zip_map_right]
      exact List.mem_map.2 ⟨(a, f), haf, rfl⟩
    rw [fraction, lookup_of_mem hnd this]
  -- one quotient
  have quot : ∀ f, 0 ≤ f → q * f ≤ rd (f / T) * fracs.sum ∧ q * (rd (f / T) * fracs.sum) ≤ f := by
    intro f hf
    obtain ⟨r1, r2⟩ := h.bounds (div_nonneg hf hT.le)
    rw [← mul_div_assoc, div_le_iff₀ hT] at r1
    rw [← mul_div_assoc, le_div_iff₀ hT] at r2
    have hr := h.nonneg (div_nonneg hf hT.le)
    generalize rd (f / T) = y at *
    have hP : 0 < (1 + ε) ^ fracs.length := pow_pos (by linarith) _
    have hQ : 0 < (1 - ε) ^ fracs.length := pow_pos (by linarith) _
    constructor
    · have g1 : (1 - ε) ^ (fracs.length + 1) ≤ 1 - ε := by
        rw [pow_succ]
        have : (1 - ε) ^ fracs.length ≤ 1 := pow_le_one₀ (by linarith) (by linarith)
        nlinarith
      refine le_of_mul_le_mul_left ?_ hP
      calc (1 + ε) ^ fracs.length * (q * f) = (q * (1 + ε) ^ fracs.length) * f := by ring
        _ ≤ (1 - ε) * f := mul_le_mul_of_nonneg_right (f1.trans g1) hf
        _ ≤ y * T := r1
        _ ≤ y * ((1 + ε) ^ fracs.length * fracs.sum) := mul_le_mul_of_nonneg_left b2 hr
        _ = _ := by ring
    · have g1 : 1 + ε ≤ (1 + ε) ^ (fracs.length + 1) := by
        rw [pow_succ]
        have : 1 ≤ (1 + ε) ^ fracs.length := one_le_pow₀ (by linarith)
        nlinarith
      refine le_of_mul_le_mul_left ?_ hQ
      calc (1 - ε) ^ fracs.length * (q * (y * fracs.sum))
          = q * (y * ((1 - ε) ^ fracs.length * fracs.sum)) := by ring
        _ ≤ q * (y * T) := mul_le_mul_of_nonneg_left (mul_le_mul_of_nonneg_left b1 hr) hq0.le
        _ ≤ q * ((1 + ε) * f) := mul_le_mul_of_nonneg_left r2 hq0.le
        _ = (q * (1 + ε)) * f := by ring
        _ ≤ _ := mul_le_mul_of_nonneg_right ((mul_le_mul_of_nonneg_left g1 hq0.le).trans f2) hf
  refine ⟨?_, ?_, ?_, ?_, ?_, hkeys, ?_⟩
  · intro a f haf
    rw [frac a f haf]
    exact quot f (ok.nonneg f (List.of_mem_zip haf).2)
  · have e1 : (m.map (·.2)).sum = (fracs.map (fun f => rd (f / T))).sum := by
      rw [(h2.map (·.2)).sum_eq, zip_snd hl]
    rw [e1]
    have all : ∀ l : List ℝ, (∀ f ∈ l, 0 ≤ f) →
        q * l.sum ≤ (l.map (fun f => rd (f / T))).sum * fracs.sum ∧
        q * ((l.map (fun f => rd (f / T))).sum * fracs.sum) ≤ l.sum := by
      intro l
      induction l with
      | nil => simp
      | cons x t ih =>
        intro hx
        have i := ih (fun f hf => hx f (by simp [hf]))
        have j := quot x (hx x (by simp))
        rw [List.map_cons, List.sum_cons, List.sum_cons]
        constructor <;> linarith [i.1, i.2, j.1, j.2]
    obtain ⟨a1, a2⟩ := all fracs ok.nonneg
    constructor
    · exact le_of_mul_le_mul_right a1 hS
    · refine le_of_mul_le_mul_right ?_ hS
      linarith
  · intro a f b g ha hb
    rw [frac a f ha, frac b g hb]
    have hf := ok.nonneg f (List.of_mem_zip ha).2
    have hg := ok.nonneg g (List.of_mem_zip hb).2
    have r2 := (h.bounds (div_nonneg hf hT.le)).2
    have r1 := (h.bounds (div_nonneg hg hT.le)).1
    have c1 : (1 - ε) * (rd (f / T) * g) ≤ (1 - ε) * ((1 + ε) * (f / T) * g) :=
      mul_le_mul_of_nonneg_left (mul_le_mul_of_nonneg_right r2 hg) (by linarith)
    have c2 : (1 + ε) * ((1 - ε) * (g / T) * f) ≤ (1 + ε) * (rd (g / T) * f) :=
      mul_le_mul_of_nonneg_left (mul_le_mul_of_nonneg_right r1 hf) (by linarith)
    refine c1.trans (le_trans (le_of_eq ?_) c2)
    ring
  · intro a ha
    have : m.lookup a = none := by
      rw [← Option.not_isSome_iff_eq_none, lookup_isSome_iff]
      exact fun h => ha (hkeys.mem_iff.1 h)
    rw [fraction, this]
  · intro x hx
    obtain ⟨f, hf, e⟩ := List.mem_map.1 (List.of_mem_zip (h2.mem_iff.1 hx)).2
    rw [← e]
    exact h.nonneg (div_nonneg (ok.nonneg f hf) hT.le)
  · intro a f haf
    have h0 := ok.nonneg f (List.of_mem_zip haf).2
    rw [contains, frac a f haf, decide_eq_true_eq]
    constructor
    · intro hne
      refine lt_of_le_of_ne h0 ?_
      rintro rfl
      rw [zero_div, h.zero] at hne
      exact hne rfl
    · intro hf
      have := (h.bounds (div_nonneg h0 hT.le)).1
      have hp : 0 < (1 - ε) * (f / T) := mul_pos (by linarith) (div_pos hf hT)
      exact (lt_of_lt_of_le hp this).ne'

/-- Without rounding errors the target is that of `make`. -/
theorem makeRounded_exact (warn : Bool) (atoms : List Int) (fracs : List ℝ) :
    makeRounded id warn atoms fracs = make warn atoms fracs := by
  have hs : ∀ (l : List (Int × ℝ)) (s : ℝ), sumFractionsRounded id warn s l = sumFractions warn s l := by
    intro l
    induction l with
    | nil => intro s; rfl
    | cons x t ih =>
      intro s
      obtain ⟨a, f⟩ := x
      simp only [sumFractionsRounded, sumFractions, id, ih]
      cases atomName a <;> split_ifs <;> rfl
  simp only [makeRounded, make, hs, id]
  cases sumFractions warn 0 (atoms.zip fracs) <;> split_ifs <;> rfl

/-- **C70** does not hold to the last digit: argon-40 and carbon-12 in the ratio 1 to 2 have
fractions whose sum is smaller than one. -/
theorem C70_sum_violated : ∃ m, makeRounded round53 true [1000180400, 1000060120] [1, 2] = .ok m ∧
    (m.map (·.2)).sum < 1 := by
  have hn : ∀ a ∈ [(1000180400 : Int), 1000060120], Named a := by
    intro a ha
    simp only [List.mem_cons, List.not_mem_nil, or_false] at ha
    rcases ha with rfl | rfl
    · exact ⟨_, rfl⟩
    · exact ⟨_, rfl⟩
  have i3 : round53 3 = 3 := by
    rw [round53_eval 1 (3 * 2 ^ 51) (by norm_num) (by norm_num) (Or.inl (by norm_num))]; norm_num
  have hs : sumRounded round53 [1, 2] = 3 := by
    simp only [sumRounded, List.foldl]
    norm_num [round53_one, i3]
  have p1 : round53 (1 / 3) = 6004799503160661 / 2 ^ 54 := by
    rw [round53_eval (-2) 6004799503160661 (by norm_num) (by norm_num)
      (Or.inl (by norm_num [abs_lt]))]; norm_num
  have p2 : round53 (2 / 3) = 6004799503160661 / 2 ^ 53 := by
    rw [round53_eval (-1) 6004799503160661 (by norm_num) (by norm_num)
      (Or.inl (by norm_num [abs_lt]))]; norm_num
  refine ⟨[(1000060120, 6004799503160661 / 2 ^ 53), (1000180400, 6004799503160661 / 2 ^ 54)], ?_, ?_⟩
  · rw [makeRounded_eq true hn rfl (by simp) (by simp), hs, if_neg (by norm_num)]
    simp [fill, Target.insert, p2]
    rw [← p1, one_div]
  · norm_num

/-- A target of argon-40 and carbon-12 in the ratio 3 to 7, in doubles. -/
example : ∃ m, makeRounded round53 true [1000180400, 1000060120] [3, 7] = .ok m ∧
    1 - 5 * (2 : ℝ) ^ (-53 : ℤ) ≤ (m.map (·.2)).sum := by
  have hn : ∀ a ∈ [(1000180400 : Int), 1000060120], Named a := by
    intro a ha
    simp only [List.mem_cons, List.not_mem_nil, or_false] at ha
    rcases ha with rfl | rfl
    · exact ⟨_, rfl⟩
    · exact ⟨_, rfl⟩
  obtain ⟨m, e⟩ := (C70_rounded_accepted round53_within (by positivity) (by norm_num) true [3, 7] hn).1.2
    ⟨rfl, by simp, by decide, by simp, ⟨3, by simp⟩⟩
  refine ⟨m, e, ?_⟩
  have := (C70_rounded_fractions_partial round53_within (by positivity) true hn (by norm_num) e).2.1.1
  norm_num at this ⊢
  exact this

end Marley.Props
