import Verif.Model.Target
import Mathlib.Algebra.Order.Field.Basic
import Mathlib.Algebra.BigOperators.Group.List.Basic
import Mathlib.Algebra.Order.BigOperators.Group.List
import Mathlib.Algebra.BigOperators.Ring.List
import Mathlib.Tactic.Linarith

/-!
# C70: target composition
-/

set_option autoImplicit false

namespace Marley.Props
open Marley Marley.Target

variable {K : Type} [Field K] [LinearOrder K] [IsStrictOrderedRing K]

/-- The element of the atom has a symbol. -/
def Named (a : Int) : Prop := ∃ s, atomName a = .ok s

/-- Two lists a target can be made of. -/
structure Acceptable (atoms : List Int) (fracs : List K) : Prop where
  sameLength : atoms.length = fracs.length
  nonempty : atoms ≠ []
  distinct : atoms.Nodup
  nonneg : ∀ f ∈ fracs, 0 ≤ f
  positive : ∃ f ∈ fracs, 0 < f

theorem throwNaming_named {α : Type} {a : Int} (h : Named a) :
    (throwNaming a : Res α) = .error .marleyError := by
  obtain ⟨s, h⟩ := h
  simp [throwNaming, h]

theorem sumFractions_ok (warn : Bool) (s : K) (l : List (Int × K))
    (hn : ∀ x ∈ l, x.2 = 0 → warn = true → Named x.1)
    (h : ∀ x ∈ l, 0 ≤ x.2) : sumFractions warn s l = .ok (s + (l.map (·.2)).sum) := by
  induction l generalizing s with
  | nil => simp [sumFractions]
  | cons x t ih =>
    obtain ⟨a, f⟩ := x
    have hf := h (a, f) (by simp)
    have := ih (s + f) (fun x hx => hn x (by simp [hx])) (fun x hx => h x (by simp [hx]))
    simp only [sumFractions]
    rw [if_neg (not_lt.2 hf)]
    split_ifs with h0
    · obtain ⟨name, hname⟩ := hn (a, f) (by simp) h0.1 h0.2
      dsimp only at hname
      rw [hname]
      simp [this, add_assoc]
    · simp [this, add_assoc]

theorem sumFractions_negative (warn : Bool) (s : K) (l : List (Int × K)) (hn : ∀ x ∈ l, Named x.1)
    (h : ∃ x ∈ l, x.2 < 0) : sumFractions warn s l = .error .marleyError := by
  induction l generalizing s with
  | nil => simp at h
  | cons x t ih =>
    obtain ⟨a, f⟩ := x
    have hna := hn (a, f) (by simp)
    obtain ⟨name, hname⟩ := id hna
    simp only [sumFractions]
    dsimp only at hname
    by_cases hf : f < 0
    · rw [if_pos hf, throwNaming_named hna]
    · have : ∃ x ∈ t, x.2 < 0 := by
        obtain ⟨y, hy, h2⟩ := h
        rcases List.mem_cons.1 hy with rfl | hy
        · exact absurd h2 hf
        · exact ⟨y, hy, h2⟩
      have := ih (s + f) (fun x hx => hn x (by simp [hx])) this
      rw [if_neg hf, hname]
      split_ifs <;> exact this

omit [LinearOrder K] [IsStrictOrderedRing K] [Field K] in
theorem insert_perm (a : Int) (f : K) (m : List (Int × K)) : (insert a f m).Perm ((a, f) :: m) := by
  induction m with
  | nil => simp [Target.insert]
  | cons x t ih =>
    simp only [Target.insert]
    split_ifs
    · exact List.Perm.refl _
    · exact (ih.cons x).trans (List.Perm.swap _ _ _)

omit [LinearOrder K] [IsStrictOrderedRing K] [Field K] in
theorem lookup_isSome_iff {m : List (Int × K)} {a : Int} :
    (m.lookup a).isSome = true ↔ a ∈ m.map (·.1) := by
  induction m with
  | nil => simp
  | cons x t ih =>
    obtain ⟨b, f⟩ := x
    rw [List.lookup_cons]
    by_cases h : a = b
    · simp [h]
    · have : (a == b) = false := by simpa using h
      rw [this]
      simp [ih, h]

omit [LinearOrder K] [IsStrictOrderedRing K] [Field K] in
theorem lookup_of_mem {m : List (Int × K)} {a : Int} {f : K} (hm : (m.map (·.1)).Nodup)
    (h : (a, f) ∈ m) : m.lookup a = some f := by
  induction m with
  | nil => simp at h
  | cons x t ih =>
    obtain ⟨b, g⟩ := x
    rw [List.map_cons, List.nodup_cons] at hm
    rw [List.lookup_cons]
    rcases List.mem_cons.1 h with h1 | h1
    · cases h1; simp
    · have hne : a ≠ b := by
        rintro rfl
        exact hm.1 (List.mem_map.2 ⟨(a, f), h1, rfl⟩)
      have : (a == b) = false := by simpa using hne
      rw [this]
      exact ih hm.2 h1

omit [LinearOrder K] [IsStrictOrderedRing K] [Field K] in
theorem insert_sorted {a : Int} {f : K} {m : List (Int × K)} (ha : a ∉ m.map (·.1))
    (hm : (m.map (·.1)).Pairwise (· < ·)) : ((insert a f m).map (·.1)).Pairwise (· < ·) := by
  induction m with
  | nil => simp [Target.insert]
  | cons x t ih =>
    obtain ⟨b, g⟩ := x
    simp only [List.map_cons, List.mem_cons, not_or] at ha
    rw [List.map_cons, List.pairwise_cons] at hm
    simp only [Target.insert]
    split_ifs with h
    · simp only [List.map_cons, List.pairwise_cons]
      refine ⟨?_, hm.1, hm.2⟩
      intro c hc
      rcases List.mem_cons.1 hc with rfl | hc
      · exact h
      · exact lt_trans h (hm.1 c hc)
    · simp only [List.map_cons, List.pairwise_cons]
      refine ⟨?_, ih ha.2 hm.2⟩
      intro c hc
      have := ((insert_perm a f t).map (·.1)).mem_iff.1 hc
      simp only [List.map_cons, List.mem_cons] at this
      rcases this with rfl | h'
      · exact lt_of_le_of_ne (not_lt.1 h) (Ne.symm ha.1)
      · exact hm.1 c h'

omit [LinearOrder K] [IsStrictOrderedRing K] [Field K] in
theorem fill_ok (m l : List (Int × K)) (h : ((l ++ m).map (·.1)).Nodup)
    (hm : (m.map (·.1)).Pairwise (· < ·)) :
    ∃ r, fill m l = .ok r ∧ r.Perm (l ++ m) ∧ (r.map (·.1)).Pairwise (· < ·) := by
  induction l generalizing m with
  | nil => exact ⟨m, rfl, by simp, hm⟩
  | cons x t ih =>
    obtain ⟨a, f⟩ := x
    have hnot : a ∉ m.map (·.1) := by
      rw [List.cons_append, List.map_cons, List.nodup_cons] at h
      intro hx; exact h.1 (by rw [List.map_append]; exact List.mem_append_right _ hx)
    have hp : (t ++ insert a f m).Perm ((a, f) :: t ++ m) :=
      (List.Perm.append_left t (insert_perm a f m)).trans List.perm_middle
    obtain ⟨r, h1, h2, h3⟩ := ih (insert a f m) ((hp.map (·.1)).nodup_iff.2 h)
      (insert_sorted hnot hm)
    refine ⟨r, ?_, h2.trans hp, h3⟩
    simp only [fill]
    rw [if_neg (by rw [lookup_isSome_iff]; exact hnot), h1]

omit [LinearOrder K] [IsStrictOrderedRing K] [Field K] in
theorem fill_duplicate (m l : List (Int × K)) (hn : ∀ x ∈ l, Named x.1)
    (hm : (m.map (·.1)).Nodup) (h : ¬ ((l ++ m).map (·.1)).Nodup) :
    fill m l = .error .marleyError := by
  induction l generalizing m with
  | nil => exact absurd hm h
  | cons x t ih =>
    obtain ⟨a, f⟩ := x
    simp only [fill]
    by_cases hx : (m.lookup a).isSome = true
    · rw [if_pos hx, throwNaming_named (hn (a, f) (by simp))]
    · have hnot : a ∉ m.map (·.1) := fun h => hx (lookup_isSome_iff.2 h)
      rw [if_neg hx]
      refine ih _ (fun x hx => hn x (by simp [hx])) ?_ ?_
      · refine ((insert_perm a f m).map (·.1)).nodup_iff.2 ?_
        rw [List.map_cons, List.nodup_cons]; exact ⟨hnot, hm⟩
      · intro h'
        have hp : (t ++ insert a f m).Perm ((a, f) :: t ++ m) :=
          (List.Perm.append_left t (insert_perm a f m)).trans List.perm_middle
        exact h ((hp.map (·.1)).nodup_iff.1 h')

theorem sum_pos_iff {fracs : List K} (h : ∀ f ∈ fracs, 0 ≤ f) :
    0 < fracs.sum ↔ ∃ f ∈ fracs, 0 < f := by
  induction fracs with
  | nil => simp
  | cons x t ih =>
    have h0 := h x (by simp)
    have h1 : ∀ f ∈ t, 0 ≤ f := fun f hf => h f (by simp [hf])
    have h2 := List.sum_nonneg h1
    rw [List.sum_cons]
    constructor
    · intro hp
      by_cases hx : 0 < x
      · exact ⟨x, by simp, hx⟩
      · obtain ⟨f, hf, h3⟩ := (ih h1).1 (by linarith)
        exact ⟨f, by simp [hf], h3⟩
    · rintro ⟨f, hf, h3⟩
      rcases List.mem_cons.1 hf with rfl | hf
      · linarith
      · have := (ih h1).2 ⟨f, hf, h3⟩
        linarith

theorem zip_fst {α β : Type} {a : List α} {b : List β} (h : a.length = b.length) :
    (a.zip b).map (·.1) = a := List.map_fst_zip (by omega)

theorem zip_snd {α β : Type} {a : List α} {b : List β} (h : a.length = b.length) :
    (a.zip b).map (·.2) = b := List.map_snd_zip (by omega)

/-- C70: two lists are accepted exactly when they have the same length, which is
not zero, no atom occurs twice, no fraction is negative and some fraction is
positive; all others are rejected with `marley::Error`. -/
theorem C70_accepted (warn : Bool) {atoms : List Int} (fracs : List K)
    (hn : ∀ a ∈ atoms, Named a) :
    ((∃ m, make warn atoms fracs = .ok m) ↔ Acceptable atoms fracs) ∧
      (¬ Acceptable atoms fracs → make warn atoms fracs = .error .marleyError) := by
  have key : Acceptable atoms fracs → ∃ m, make warn atoms fracs = .ok m := by
    intro h
    have hz : ∀ x ∈ atoms.zip fracs, Named x.1 := fun x hx => hn _ (List.of_mem_zip hx).1
    have hs := sumFractions_ok warn 0 (atoms.zip fracs) (fun x hx _ _ => hz x hx)
      (fun x hx => h.nonneg _ (List.of_mem_zip hx).2)
    rw [zip_snd h.sameLength, zero_add] at hs
    have hl : atoms.length = (fracs.map (· / fracs.sum)).length := by
      rw [List.length_map]; exact h.sameLength
    obtain ⟨r, h1, -, -⟩ := fill_ok [] (atoms.zip (fracs.map (· / fracs.sum)))
      (by rw [List.append_nil, zip_fst hl]; exact h.distinct) (by simp)
    refine ⟨r, ?_⟩
    simp only [make]
    rw [if_neg (by simpa using h.sameLength), if_neg (by simpa using h.nonempty), hs]
    dsimp only
    rw [if_neg (not_le.2 ((sum_pos_iff h.nonneg).2 h.positive)), h1]
  have rej : ¬ Acceptable atoms fracs → make warn atoms fracs = .error .marleyError := by
    intro h
    simp only [make]
    by_cases h1 : atoms.length = fracs.length
    swap
    · rw [if_pos h1]
    rw [if_neg (by simpa using h1)]
    by_cases h2 : atoms.length = 0
    · rw [if_pos h2]
    rw [if_neg h2]
    have hz : ∀ x ∈ atoms.zip fracs, Named x.1 := fun x hx => hn _ (List.of_mem_zip hx).1
    by_cases h3 : ∀ f ∈ fracs, 0 ≤ f
    swap
    · have : ∃ x ∈ atoms.zip fracs, x.2 < 0 := by
        push Not at h3
        obtain ⟨f, hf, hlt⟩ := h3
        rw [← zip_snd h1] at hf
        obtain ⟨x, hx, rfl⟩ := List.mem_map.1 hf
        exact ⟨x, hx, hlt⟩
      rw [sumFractions_negative warn 0 _ hz this]
    have hs := sumFractions_ok warn 0 (atoms.zip fracs) (fun x hx _ _ => hz x hx)
      (fun x hx => h3 _ (List.of_mem_zip hx).2)
    rw [zip_snd h1, zero_add] at hs
    rw [hs]
    dsimp only
    by_cases h4 : fracs.sum ≤ 0
    · rw [if_pos h4]
    rw [if_neg h4]
    have hl : atoms.length = (fracs.map (· / fracs.sum)).length := by
      rw [List.length_map]; exact h1
    refine fill_duplicate _ _ (fun x hx => hn _ (List.of_mem_zip hx).1) (by simp) ?_
    rw [List.append_nil, zip_fst hl]
    intro h5
    exact h ⟨h1, by simpa using h2, h5, h3, (sum_pos_iff h3).1 (not_le.1 h4)⟩
  refine ⟨⟨?_, key⟩, rej⟩
  rintro ⟨m, hm⟩
  by_contra h
  rw [rej h] at hm
  cases hm

/-- C70: the target made of acceptable lists has each atom with its fraction
divided by the sum of all; so fractions are not negative, add up to one and keep
their ratios.  Atoms that are not listed have fraction zero. -/
theorem C70_fractions (warn : Bool) {atoms : List Int} {fracs : List K} {m : List (Int × K)}
    (hn : ∀ a ∈ atoms, Named a) (h : make warn atoms fracs = .ok m) :
    (∀ a f, (a, f) ∈ atoms.zip fracs → fraction m a = f / fracs.sum) ∧
      (∀ a, a ∉ atoms → fraction m a = 0) ∧ (∀ x ∈ m, 0 ≤ x.2) ∧ (m.map (·.2)).sum = 1 ∧
      (m.map (·.1)).Perm atoms ∧ (m.map (·.1)).Pairwise (· < ·) ∧
      (∀ a f, (a, f) ∈ atoms.zip fracs → (contains m a = true ↔ 0 < f)) ∧
      (∀ a, a ∉ atoms → contains m a = false) := by
  have ok := (C70_accepted warn fracs hn).1.1 ⟨m, h⟩
  have hpos := (sum_pos_iff ok.nonneg).2 ok.positive
  have hz : ∀ x ∈ atoms.zip fracs, Named x.1 := fun x hx => hn _ (List.of_mem_zip hx).1
  have hs := sumFractions_ok warn 0 (atoms.zip fracs) (fun x hx _ _ => hz x hx)
    (fun x hx => ok.nonneg _ (List.of_mem_zip hx).2)
  rw [zip_snd ok.sameLength, zero_add] at hs
  have hl : atoms.length = (fracs.map (· / fracs.sum)).length := by
    rw [List.length_map]; exact ok.sameLength
  obtain ⟨r, h1, h2, h3⟩ := fill_ok [] (atoms.zip (fracs.map (· / fracs.sum)))
    (by rw [List.append_nil, zip_fst hl]; exact ok.distinct) (by simp)
  simp only [make] at h
  rw [if_neg (by simpa using ok.sameLength), if_neg (by simpa using ok.nonempty), hs] at h
  dsimp only at h
  rw [if_neg (not_le.2 hpos), h1] at h
  cases h
  rw [List.append_nil] at h2
  have hkeys : (m.map (·.1)).Perm atoms := by
    have := h2.map (·.1)
    rwa [zip_fst hl] at this
  have hnd : (m.map (·.1)).Nodup := hkeys.nodup_iff.2 ok.distinct
  have frac : ∀ a f, (a, f) ∈ atoms.zip fracs → fraction m a = f / fracs.sum := by
    intro a f haf
    have : (a, f / fracs.sum) ∈ m := by
      refine h2.mem_iff.2 ?_
      rw [List.zip_map_right]
      exact List.mem_map.2 ⟨(a, f), haf, rfl⟩
    rw [fraction, lookup_of_mem hnd this]
  have absent : ∀ a, a ∉ atoms → fraction m a = 0 := by
    intro a ha
    have : m.lookup a = none := by
      rw [← Option.not_isSome_iff_eq_none, lookup_isSome_iff]
      exact fun h => ha (hkeys.mem_iff.1 h)
    rw [fraction, this]
  refine ⟨frac, absent, ?_, ?_, hkeys, h3, ?_, ?_⟩
  · intro x hx
    have hx2 := (List.of_mem_zip (h2.mem_iff.1 hx)).2
    obtain ⟨f, hf, e⟩ := List.mem_map.1 hx2
    rw [← e]
    exact div_nonneg (ok.nonneg f hf) hpos.le
  · have := (h2.map (·.2)).sum_eq
    rw [this, zip_snd hl]
    have e : fracs.map (· / fracs.sum) = fracs.map (fun x => x * (fracs.sum)⁻¹) := by
      simp [div_eq_mul_inv]
    rw [e, List.sum_map_mul_right]
    simp only [List.map_id']
    exact mul_inv_cancel₀ hpos.ne'
  · intro a f haf
    have h0 := ok.nonneg f (List.of_mem_zip haf).2
    rw [contains, frac a f haf, decide_eq_true_eq]
    constructor
    · intro hne
      refine lt_of_le_of_ne h0 ?_
      rintro rfl; simp at hne
    · intro hf; exact (div_pos hf hpos).ne'
  · intro a ha
    rw [contains, absent a ha]; simp

/-- C70: a target of one nuclide consists of it alone. -/
theorem C70_single (warn : Bool) {pdg : Int} (hA : 0 < Pdg.getA pdg) :
    (single warn pdg : Res (List (Int × K))) = .ok [(pdg, 1)] := by
  simp only [single, atom]
  rw [if_neg (not_le.2 hA)]
  have h1 : ¬ ((1 : K) < 0) := not_lt.2 zero_le_one
  have h2 : ¬ ((1 : K) ≤ 0) := not_le.2 zero_lt_one
  simp [make, sumFractions, fill, Target.insert, h1, h2]

omit [IsStrictOrderedRing K] in
/-- C70: a code that is no nuclide (mass number not positive) is rejected. -/
theorem C70_not_a_nuclide (warn : Bool) {pdg : Int} (hA : Pdg.getA pdg ≤ 0) :
    atom pdg = .error .marleyError ∧
      (single warn pdg : Res (List (Int × K))) = .error .marleyError := by
  simp [single, atom, hA]

/-- C70: the names of atoms matter only for those with fraction zero, and only
when warnings are logged. -/
theorem C70_accepted_unnamed (warn : Bool) {atoms : List Int} {fracs : List K}
    (h : Acceptable atoms fracs)
    (hn : warn = true → ∀ x ∈ atoms.zip fracs, x.2 = 0 → Named x.1) :
    ∃ m, make warn atoms fracs = .ok m ∧
      m.Perm (atoms.zip (fracs.map (· / fracs.sum))) := by
  have hs := sumFractions_ok warn 0 (atoms.zip fracs) (fun x hx h0 hw => hn hw x hx h0)
    (fun x hx => h.nonneg _ (List.of_mem_zip hx).2)
  rw [zip_snd h.sameLength, zero_add] at hs
  have hl : atoms.length = (fracs.map (· / fracs.sum)).length := by
    rw [List.length_map]; exact h.sameLength
  obtain ⟨r, h1, h2, -⟩ := fill_ok [] (atoms.zip (fracs.map (· / fracs.sum)))
    (by rw [List.append_nil, zip_fst hl]; exact h.distinct) (by simp)
  rw [List.append_nil] at h2
  refine ⟨r, ?_, h2⟩
  simp only [make]
  rw [if_neg (by simpa using h.sameLength), if_neg (by simpa using h.nonempty), hs]
  dsimp only
  rw [if_neg (not_le.2 ((sum_pos_iff h.nonneg).2 h.positive)), h1]

example : make false [1000180400, 1001132900] [1, (0 : ℚ)] =
    .ok [(1000180400, 1), (1001132900, 0)] := by decide +kernel

/-- C70 fails for an element without a symbol: with fraction zero and a log
stream that takes warnings, or with a negative fraction, `std::out_of_range` is
thrown while the message is put together. -/
theorem C70_unnamed_fails (fracs : List ℚ) (h : fracs = [1, 0] ∨ fracs = [1, -1]) :
    (atom 1001132900).isOk = true ∧ (atom 1000180400).isOk = true ∧
      make true [1000180400, 1001132900] fracs = .error .outOfRange := by
  rcases h with rfl | rfl <;> decide +kernel

-- natural examples: argon with a little of another isotope; a repeated atom
example : Named 1000180400 ∧ Named 1000180360 ∧ Named 2112 :=
  ⟨⟨_, rfl⟩, ⟨_, rfl⟩, ⟨_, rfl⟩⟩
example : make true [1000180400, 1000180360] [3, (1 : ℚ)] =
    .ok [(1000180360, 1/4), (1000180400, 3/4)] := by decide +kernel
example : make true [1000180400, 1000180400] [3, (1 : ℚ)] = .error .marleyError := by decide +kernel
example : Acceptable [1000180400, 1000180360] [3, (1 : ℚ)] :=
  ⟨rfl, by simp, by simp, by simp, ⟨3, by simp, by norm_num⟩⟩

end Marley.Props
