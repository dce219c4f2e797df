import Verif.Model.Std
import Mathlib.Data.List.Basic

/-! Binary search finds the boundary of a partitioned list. -/

set_option autoImplicit false

namespace Marley.Std
variable {α : Type}

theorem searchLoop_spec (p : α → Bool) (l : List α) (k : Nat)
    (hl : ∀ i a, l[i]? = some a → (p a = true ↔ i < k)) (hk : k ≤ l.length)
    (first len : Nat) (h1 : first ≤ k) (h2 : k ≤ first + len) (h3 : first + len ≤ l.length) :
    searchLoop p l first len = k := by
  induction len using Nat.strongRecOn generalizing first with
  | _ len ih =>
    rw [searchLoop]
    dsimp only
    split_ifs with h0 h4
    · omega
    · have hlt : first + len / 2 < l.length := by omega
      rw [List.getElem?_eq_getElem hlt] at h4
      have := (hl _ _ (List.getElem?_eq_getElem hlt)).1 (by simpa using h4)
      exact ih _ (by omega) _ (by omega) (by omega) (by omega)
    · have hlt : first + len / 2 < l.length := by omega
      rw [List.getElem?_eq_getElem hlt] at h4
      have := mt (hl _ _ (List.getElem?_eq_getElem hlt)).2 (by simpa using h4)
      exact ih _ (by omega) _ (by omega) (by omega) (by omega)

/-- On `a ++ b` with the test true on `a` and false on `b`, the search stops
between the two. -/
theorem lowerBound_append (p : α → Bool) (a b : List α) (ha : ∀ x ∈ a, p x = true)
    (hb : ∀ x ∈ b, p x = false) : lowerBound p (a ++ b) = a.length := by
  refine searchLoop_spec p (a ++ b) a.length ?_ (by simp) 0 _ (by omega) (by simp) (by omega)
  intro i x hx
  by_cases h : i < a.length
  · rw [List.getElem?_append_left h] at hx
    simp [h, ha x (List.mem_of_getElem? hx)]
  · rw [List.getElem?_append_right (by omega)] at hx
    simp [h, hb x (List.mem_of_getElem? hx)]

theorem upperBound_append (q : α → Bool) (a b : List α) (ha : ∀ x ∈ a, q x = false)
    (hb : ∀ x ∈ b, q x = true) : upperBound q (a ++ b) = a.length :=
  lowerBound_append (fun x => !q x) a b (by simpa using ha) (by simpa using hb)

/-- The list is split at the search result when the test is monotone along it. -/
theorem lowerBound_split (p : α → Bool) (l : List α)
    (h : l.Pairwise (fun x y => p y = true → p x = true)) :
    ∃ a b, l = a ++ b ∧ (∀ x ∈ a, p x = true) ∧ (∀ x ∈ b, p x = false) ∧
      lowerBound p l = a.length := by
  have hs : ∃ a b, l = a ++ b ∧ (∀ x ∈ a, p x = true) ∧ (∀ x ∈ b, p x = false) := by
    induction l with
    | nil => exact ⟨[], [], rfl, by simp, by simp⟩
    | cons x l ih =>
      rw [List.pairwise_cons] at h
      cases hx : p x with
      | true =>
        obtain ⟨a, b, rfl, h1, h2⟩ := ih h.2
        exact ⟨x :: a, b, rfl, by simpa [hx] using h1, h2⟩
      | false =>
        refine ⟨[], x :: l, rfl, by simp, ?_⟩
        intro y hy
        rcases List.mem_cons.1 hy with rfl | hy
        · exact hx
        · by_contra hc
          have := h.1 y hy (by simpa using hc)
          simp [hx] at this
  obtain ⟨a, b, e, h1, h2⟩ := hs
  exact ⟨a, b, e, h1, h2, by rw [e]; exact lowerBound_append p a b h1 h2⟩

end Marley.Std
