import Verif.Model.Fftpack
import Mathlib.Tactic.Ring
import Mathlib.Tactic.Linarith

/-! # Lemmas about the factors found by `rffti1` -/

set_option autoImplicit false

namespace Marley.Fft

/-- What is known about a list of factors: after an odd factor there are only odd ones, and a
factor is 2, 4 or an odd number that is at least 3. -/
def Good (fs : List ℕ) : Prop :=
  fs.Pairwise (fun a b => a % 2 = 1 → b % 2 = 1) ∧
    ∀ a ∈ fs, a = 2 ∨ a = 4 ∨ (a % 2 = 1 ∧ 3 ≤ a)

lemma trial_val (j : ℕ) (hj : 1 ≤ j) :
    (j = 1 ∧ trial j = 4) ∨ (j = 2 ∧ trial j = 2) ∨ (3 ≤ j ∧ trial j % 2 = 1 ∧ 3 ≤ trial j) := by
  unfold trial
  split_ifs <;> omega

lemma exists_trial (m : ℕ) (hm : 2 ≤ m) : ∃ j, 1 ≤ j ∧ j ≤ m + 2 ∧ trial j ∣ m := by
  by_cases h2 : m % 2 = 0
  · exact ⟨2, by omega, by omega, by simp [trial]; omega⟩
  · by_cases h3 : m = 3
    · exact ⟨3, by omega, by omega, by subst h3; simp [trial]⟩
    · refine ⟨(m - 5) / 2 + 4, by omega, by omega, ?_⟩
      have : trial ((m - 5) / 2 + 4) = m := by unfold trial; split_ifs <;> omega
      rw [this]

lemma factorLoop_spec (fuel nl j : ℕ) (fs : List ℕ) (hnl : 2 ≤ nl) (hj : 1 ≤ j)
    (hdiv : ∀ i, 1 ≤ i → i < j → ¬ trial i ∣ nl) (hfuel : 2 * nl + 8 - j ≤ fuel)
    (hfs : Good fs) (heven : j ≤ 2 → ∀ a ∈ fs, a % 2 = 0) :
    ∃ r, factorLoop fuel nl j fs = some r ∧ r.prod = fs.prod * nl ∧ Good r := by
  induction fuel generalizing nl j fs with
  | zero =>
    obtain ⟨i, h1, h2, h3⟩ := exists_trial nl hnl
    have : j ≤ i := by
      by_contra h
      exact hdiv i h1 (by omega) h3
    omega
  | succ fuel ih =>
    obtain ⟨i, h1, h2, h3⟩ := exists_trial nl hnl
    have hji : j ≤ i := by
      by_contra h
      exact hdiv i h1 (by omega) h3
    have hmod : nl - trial j * (nl / trial j) = nl % trial j := by
      have := Nat.div_add_mod nl (trial j)
      omega
    unfold factorLoop
    simp only [hmod]
    by_cases hr : nl % trial j = 0
    · have hq : nl = trial j * (nl / trial j) := by
        have := Nat.div_add_mod nl (trial j)
        omega
      have hval := trial_val j hj
      set t := trial j with ht
      set q := nl / t with hqd
      have hq0 : 0 < q := by
        rcases Nat.eq_zero_or_pos q with h | h
        · rw [h] at hq; omega
        · exact h
      have ht2 : 2 ≤ t := by omega
      have hqlt : 2 * q ≤ nl := by
        rw [hq]; exact Nat.mul_le_mul_right q ht2
      have hgood : Good (if t = 2 then 2 :: fs else fs ++ [t]) := by
        by_cases h2 : t = 2
        · rw [if_pos h2]
          refine ⟨List.pairwise_cons.2 ⟨fun a _ h => by omega, hfs.1⟩, ?_⟩
          intro a ha
          rcases List.mem_cons.1 ha with h | h
          · exact Or.inl h
          · exact hfs.2 a h
        · rw [if_neg h2]
          refine ⟨List.pairwise_append.2 ⟨hfs.1, List.pairwise_singleton _ _, ?_⟩, ?_⟩
          · intro a ha b hb hodd
            rw [List.mem_singleton] at hb
            subst hb
            rcases hval with ⟨hj1, _⟩ | ⟨_, h⟩ | ⟨_, h, _⟩
            · have := heven (by omega) a ha
              omega
            · omega
            · exact h
          · intro a ha
            rcases List.mem_append.1 ha with h | h
            · exact hfs.2 a h
            · rw [List.mem_singleton] at h
              subst h
              rcases hval with ⟨_, h⟩ | ⟨_, h⟩ | ⟨_, h, h'⟩
              · exact Or.inr (Or.inl h)
              · exact Or.inl h
              · exact Or.inr (Or.inr ⟨h, h'⟩)
      have hprod : (if t = 2 then 2 :: fs else fs ++ [t]).prod = fs.prod * t := by
        by_cases h2 : t = 2
        · rw [if_pos h2, List.prod_cons, h2, Nat.mul_comm]
        · rw [if_neg h2]; simp
      rw [if_neg (by omega)]
      by_cases hq1 : q = 1
      · rw [if_neg (by omega)]
        refine ⟨_, rfl, ?_, hgood⟩
        rw [hprod, hq, hq1]; simp
      · rw [if_pos hq1]
        have hev : j ≤ 2 → ∀ a ∈ (if t = 2 then 2 :: fs else fs ++ [t]), a % 2 = 0 := by
          intro hj2 a ha
          by_cases h2 : t = 2
          · rw [if_pos h2] at ha
            rcases List.mem_cons.1 ha with h | h
            · omega
            · exact heven hj2 a h
          · rw [if_neg h2] at ha
            rcases List.mem_append.1 ha with h | h
            · exact heven hj2 a h
            · rw [List.mem_singleton] at h
              omega
        obtain ⟨r, hr1, hr2, hr3⟩ := ih q j (if t = 2 then 2 :: fs else fs ++ [t]) (by omega) hj
          (fun i hi1 hi2 hd => hdiv i hi1 hi2 (hd.trans ⟨t, by rw [Nat.mul_comm]; exact hq⟩))
          (by omega) hgood hev
        refine ⟨r, hr1, ?_, hr3⟩
        rw [hr2, hprod, Nat.mul_assoc, ← hq]
    · rw [if_pos hr]
      refine ih nl (j + 1) fs hnl (by omega) ?_ (by omega) hfs (fun h => heven (by omega))
      intro i hi1 hi2 hd
      rcases Nat.lt_succ_iff_lt_or_eq.1 hi2 with h | h
      · exact hdiv i hi1 h hd
      · subst h
        exact hr (Nat.mod_eq_zero_of_dvd hd)

theorem factors_spec (n : ℕ) (hn : 2 ≤ n) :
    ∃ fs, factors n = some fs ∧ fs.prod = n ∧ Good fs := by
  obtain ⟨r, h1, h2, h3⟩ := factorLoop_spec (2 * n + 8) n 1 [] hn (by omega)
    (fun i h1 h2 => by omega) (by omega) ⟨List.Pairwise.nil, fun a h => by cases h⟩
    (fun _ a h => by cases h)
  exact ⟨r, h1, by simpa using h2, h3⟩

lemma two_pow_length_le (fs : List ℕ) (h : ∀ a ∈ fs, 2 ≤ a) : 2 ^ fs.length ≤ fs.prod := by
  induction fs with
  | nil => simp
  | cons a t ih =>
    rw [List.length_cons, List.prod_cons, pow_succ, Nat.mul_comm]
    exact Nat.mul_le_mul (h a (by simp)) (ih (fun b hb => h b (by simp [hb])))

lemma Good.two_le {fs : List ℕ} (h : Good fs) : ∀ a ∈ fs, 2 ≤ a := by
  intro a ha
  rcases h.2 a ha with h | h | h <;> omega

/-- The number of factors is small enough for half of the vector, but for three sizes. -/
theorem factors_length (n : ℕ) (hn : 3 ≤ n) (fs : List ℕ) (h : factors n = some fs) :
    (n + 1) / 2 < fs.length + 2 ↔ n = 3 ∨ n = 4 ∨ n = 6 := by
  obtain ⟨fs', h1, h2, h3⟩ := factors_spec n (by omega)
  rw [h] at h1
  cases h1
  have hp := two_pow_length_le fs h3.two_le
  rw [h2] at hp
  by_cases hb : 16 ≤ n
  · have : fs.length + 2 ≤ (n + 1) / 2 := by
      by_cases h6 : fs.length ≤ 6
      · omega
      · have key : ∀ m, 7 ≤ m → 2 * m + 4 ≤ 2 ^ m := by
          intro m hm
          induction m, hm using Nat.le_induction with
          | base => norm_num
          | succ m hm ih => rw [pow_succ]; omega
        have := key fs.length (by omega)
        omega
    omega
  · have key : ∀ m, m < 16 → 3 ≤ m →
        ((m + 1) / 2 < ((factors m).getD []).length + 2 ↔ m = 3 ∨ m = 4 ∨ m = 6) := by
      decide +kernel
    have := key n (by omega) hn
    rw [h] at this
    exact this

end Marley.Fft
