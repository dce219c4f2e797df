import Verif.Model.Grid
import Verif.Lemmas.Std
import Mathlib.Tactic.Linarith

/-! Helper lemmas about interpolation grids. -/

set_option autoImplicit false

namespace Marley.Grid
open Std

/-- Abscissae do not decrease. -/
def Sorted (l : Points) : Prop := l.Pairwise (fun p q => p.1 ≤ q.1)

/-- Abscissae strictly increase. -/
def Increasing (l : Points) : Prop := l.Pairwise (fun p q => p.1 < q.1)

theorem Increasing.sorted {l : Points} (h : Increasing l) : Sorted l := h.imp le_of_lt

theorem Sorted.le {l : Points} (h : Sorted l) {i j : Nat} {p q : ℝ × ℝ} (hi : l[i]? = some p)
    (hj : l[j]? = some q) (hij : i ≤ j) : p.1 ≤ q.1 := by
  rcases Nat.lt_or_eq_of_le hij with hlt | rfl
  · obtain ⟨h1, rfl⟩ := List.getElem?_eq_some_iff.1 hi
    obtain ⟨h2, rfl⟩ := List.getElem?_eq_some_iff.1 hj
    exact List.pairwise_iff_getElem.1 h i j h1 h2 hlt
  · rw [hi] at hj; cases hj; exact le_refl _

theorem Increasing.lt {l : Points} (h : Increasing l) {i j : Nat} {p q : ℝ × ℝ}
    (hi : l[i]? = some p) (hj : l[j]? = some q) (hij : i < j) : p.1 < q.1 := by
  obtain ⟨h1, rfl⟩ := List.getElem?_eq_some_iff.1 hi
  obtain ⟨h2, rfl⟩ := List.getElem?_eq_some_iff.1 hj
  exact List.pairwise_iff_getElem.1 h i j h1 h2 hij

/-- What `findBinLimits` finds on a sorted grid. -/
theorem bin_spec {l : Points} (hs : Sorted l) (h2 : 2 ≤ l.length) (x : ℝ) :
    ∃ ex i p1 p2, findBinLimits l x = .ok (ex, i) ∧ l[i]? = some p1 ∧ l[i + 1]? = some p2 ∧
      ((ex = false ∧ p1.1 ≤ x ∧ x ≤ p2.1 ∧ (0 < i → p1.1 < x)) ∨
       (ex = true ∧ i = 0 ∧ x < p1.1) ∨
       (ex = true ∧ i + 2 = l.length ∧ p2.1 < x)) := by
  obtain ⟨a, b, e, ha, hb, hk⟩ := lowerBound_split (fun p => decide (p.1 < x)) l
    (hs.imp (fun {p q} hpq h => by
      simp only [decide_eq_true_eq] at h ⊢; exact lt_of_le_of_lt hpq h))
  simp only [decide_eq_true_eq] at ha
  simp only [decide_eq_false_iff_not, not_lt] at hb
  have get : ∀ i, i < l.length → ∃ p, l[i]? = some p := fun i hi =>
    ⟨_, List.getElem?_eq_getElem hi⟩
  rw [findBinLimits, if_neg (by omega), hk]
  dsimp only
  by_cases h0 : a.length = 0
  · rw [if_pos h0]
    have : a = [] := List.length_eq_zero_iff.1 h0
    subst this
    rw [List.nil_append] at e; subst e
    obtain ⟨p1, hp1⟩ := get 0 (by omega)
    obtain ⟨p2, hp2⟩ := get 1 (by omega)
    have hle := hb p1 (List.mem_of_getElem? hp1)
    rw [hp1]
    by_cases hx : p1.1 = x
    · refine ⟨false, 0, p1, p2, by simp [hx], hp1, hp2, .inl ⟨rfl, le_of_eq hx, ?_, by simp⟩⟩
      exact hb p2 (List.mem_of_getElem? hp2)
    · exact ⟨true, 0, p1, p2, by simp [hx], hp1, hp2,
        .inr (.inl ⟨rfl, rfl, lt_of_le_of_ne hle (fun h => hx h.symm)⟩)⟩
  · rw [if_neg h0]
    by_cases h1 : a.length = l.length
    · rw [if_pos h1]
      have : b = [] := by
        have := congrArg List.length e
        simp at this; exact List.length_eq_zero_iff.1 (by omega)
      subst this
      rw [List.append_nil] at e; subst e
      obtain ⟨p1, hp1⟩ := get (l.length - 2) (by omega)
      obtain ⟨p2, hp2⟩ := get (l.length - 2 + 1) (by omega)
      exact ⟨true, _, p1, p2, rfl, hp1, hp2,
        .inr (.inr ⟨rfl, by omega, ha p2 (List.mem_of_getElem? hp2)⟩)⟩
    · rw [if_neg h1]
      have hl : a.length < l.length := by
        have := congrArg List.length e
        simp at this; omega
      obtain ⟨p1, hp1⟩ := get (a.length - 1) (by omega)
      obtain ⟨p2, hp2⟩ := get (a.length - 1 + 1) (by omega)
      have m1 : p1 ∈ a := by
        rw [e, List.getElem?_append_left (by omega)] at hp1
        exact List.mem_of_getElem? hp1
      have m2 : p2 ∈ b := by
        rw [e, List.getElem?_append_right (by omega)] at hp2
        exact List.mem_of_getElem? hp2
      exact ⟨false, _, p1, p2, rfl, hp1, hp2,
        .inl ⟨rfl, le_of_lt (ha _ m1), hb _ m2, fun _ => ha _ m1⟩⟩

/-- In a strictly increasing grid the bin found for a point between two
neighbours is theirs, or the one before when the point is the left neighbour. -/
theorem bin_between {l : Points} (hs : Increasing l) {i : Nat} {p1 p2 : ℝ × ℝ} {x : ℝ}
    (h1 : l[i]? = some p1) (h2 : l[i + 1]? = some p2) (hx1 : p1.1 ≤ x) (hx2 : x ≤ p2.1) :
    (findBinLimits l x = .ok (false, i) ∧ (0 < i → p1.1 < x)) ∨
    (0 < i ∧ x = p1.1 ∧ findBinLimits l x = .ok (false, i - 1)) := by
  have hlen : i + 1 < l.length := (List.getElem?_eq_some_iff.1 h2).1
  obtain ⟨ex, j, q1, q2, e, g1, g2, hc⟩ := bin_spec hs.sorted (by omega) x
  rcases hc with ⟨rfl, a, b, c⟩ | ⟨rfl, rfl, a⟩ | ⟨rfl, a, b⟩
  · rcases Nat.lt_trichotomy j i with hlt | heq | hgt
    · right
      have k1 : q2.1 ≤ p1.1 := hs.sorted.le g2 h1 (by omega)
      have k2 : x = p1.1 := le_antisymm (le_trans b k1) hx1
      have k3 : j + 1 = i := by
        by_contra hne
        have := hs.lt g2 h1 (by omega)
        linarith
      exact ⟨by omega, k2, by rw [e]; congr; omega⟩
    · left
      subst heq
      rw [g1] at h1; cases h1
      exact ⟨e, c⟩
    · exfalso
      have := hs.sorted.le h2 g1 (by omega)
      have := c (by omega)
      linarith
  · exfalso
    have := hs.sorted.le g1 h1 (by omega)
    linarith
  · exfalso
    have := hs.sorted.le h2 g2 (by omega)
    linarith

end Marley.Grid
