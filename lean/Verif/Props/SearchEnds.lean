import Verif.Props.Sampling

/-!
# C75: the search for a minimum ends

Every trial point is at least the tolerance away from the best point so far and from both ends of
the bracket, so the bracket becomes shorter by at least the tolerance with every step.
-/

set_option autoImplicit false

namespace Marley.Props
open Marley Marley.Sampling

variable {σ : Type}

theorem tol_ge (s : Brent) (ε : ℝ) : ε ≤ s.tol ε := by
  have := mul_nonneg sqrtEps_pos.le (abs_nonneg s.x)
  unfold Brent.tol; linarith

/-- The next abscissa is apart from the ends of the bracket and from the best one. -/
theorem probe_apart (s : Brent) {ε : ℝ} (hε : 0 < ε) (ha : s.a ≤ s.x) (hb : s.x ≤ s.b)
    (hc : s.continues ε) :
    ε ≤ s.probe ε (s.step ε).1 - s.a ∧ ε ≤ s.b - s.probe ε (s.step ε).1 ∧
      ε ≤ |s.probe ε (s.step ε).1 - s.x| := by
  have ht := tol_pos s hε
  have hge := tol_ge s ε
  obtain ⟨g0, g1⟩ := golden_bounds
  unfold Brent.continues at hc
  have hl : s.x < 0.5 * (s.a + s.b) → 2 * s.tol ε < s.b - s.x := by
    intro h
    rw [abs_of_neg (by linarith)] at hc
    linarith
  have hr : ¬ s.x < 0.5 * (s.a + s.b) → 2 * s.tol ε < s.x - s.a := by
    intro h
    rw [abs_of_nonneg (by linarith)] at hc
    linarith
  have hshort : ∀ d, (s.x < 0.5 * (s.a + s.b) → 0 < d ∧ s.x + d + s.tol ε ≤ s.b) →
      (¬ s.x < 0.5 * (s.a + s.b) → d < 0 ∧ s.a + s.tol ε ≤ s.x + d) →
      ε ≤ s.probe ε d - s.a ∧ ε ≤ s.b - s.probe ε d ∧ ε ≤ |s.probe ε d - s.x| := by
    intro d h1 h2
    unfold Brent.probe
    dsimp only
    by_cases hx : s.x < 0.5 * (s.a + s.b)
    · obtain ⟨h3, h4⟩ := h1 hx
      have := hl hx
      rw [abs_of_pos h3]
      split_ifs with h5
      · refine ⟨by linarith, by linarith, ?_⟩
        rw [abs_of_pos (by linarith)]; linarith
      · refine ⟨by linarith, by linarith, ?_⟩
        rw [abs_of_pos (by linarith)]; linarith
    · obtain ⟨h3, h4⟩ := h2 hx
      have := hr hx
      rw [abs_of_neg h3, if_neg (not_lt.2 h3.le)]
      split_ifs with h5
      · refine ⟨by linarith, by linarith, ?_⟩
        rw [abs_of_neg (by linarith)]; linarith
      · refine ⟨by linarith, by linarith, ?_⟩
        rw [abs_of_neg (by linarith)]; linarith
  have hgold : ∀ e, e = (if s.x < 0.5 * (s.a + s.b) then s.b else s.a) - s.x →
      ε ≤ s.probe ε (golden * e) - s.a ∧ ε ≤ s.b - s.probe ε (golden * e) ∧
        ε ≤ |s.probe ε (golden * e) - s.x| := by
    rintro e rfl
    apply hshort
    · intro h
      rw [if_pos h]
      have := hl h
      constructor
      · exact mul_pos g0 (by linarith)
      · nlinarith
    · intro h
      rw [if_neg h]
      have := hr h
      constructor
      · nlinarith
      · nlinarith
  have htol : ε ≤ s.probe ε (if s.x < 0.5 * (s.a + s.b) then s.tol ε else -s.tol ε) - s.a ∧
      ε ≤ s.b - s.probe ε (if s.x < 0.5 * (s.a + s.b) then s.tol ε else -s.tol ε) ∧
      ε ≤ |s.probe ε (if s.x < 0.5 * (s.a + s.b) then s.tol ε else -s.tol ε) - s.x| := by
    apply hshort
    · intro h
      rw [if_pos h]
      have := hl h
      constructor <;> linarith
    · intro h
      rw [if_neg h]
      have := hr h
      constructor <;> linarith
  unfold Brent.step
  dsimp only
  generalize hp : (if |s.e| > s.tol ε then _ else _ : ℝ × ℝ × ℝ × ℝ) = t
  obtain ⟨p, q, r, e⟩ := t
  have hq : 0 ≤ q := by
    split_ifs at hp
    · simp only [Prod.mk.injEq] at hp; obtain ⟨_, rfl, _⟩ := hp; linarith
    · simp only [Prod.mk.injEq] at hp; obtain ⟨_, rfl, _⟩ := hp; linarith
    · simp only [Prod.mk.injEq] at hp; obtain ⟨_, rfl, _⟩ := hp; exact le_refl _
  dsimp only
  split_ifs with h1 h2
  · rwa [if_pos ‹_›] at htol
  · rwa [if_neg ‹_›] at htol
  · exfalso
    obtain ⟨h3, h4, h5⟩ := h1
    have hq' : 0 < q := by
      rcases hq.lt_or_eq with h | h
      · exact h
      · rw [← h] at h3
        simp at h3
        exact absurd h3 (not_lt.2 (abs_nonneg p))
    have : p / q < s.a - s.x := by
      rw [div_lt_iff₀ hq']; linarith
    exact h2 (Or.inl (by linarith))
  · exact hgold _ (by rw [if_pos ‹_›])
  · exact hgold _ (by rw [if_neg ‹_›])

/-- The bracket becomes shorter, and the best point stays apart from its ends. -/
theorem update_shorter (s : Brent) {ε u : ℝ} (hε : 0 < ε) (h1 : ε ≤ s.x - s.a) (h2 : ε ≤ s.b - s.x)
    (h3 : ε ≤ u - s.a) (h4 : ε ≤ s.b - u) (h5 : ε ≤ |u - s.x|) (d e fu : ℝ) :
    ε ≤ (s.update d e u fu).x - (s.update d e u fu).a ∧
    ε ≤ (s.update d e u fu).b - (s.update d e u fu).x ∧
    (s.update d e u fu).b - (s.update d e u fu).a + ε ≤ s.b - s.a := by
  by_cases hu : u < s.x
  · rw [abs_of_neg (by linarith)] at h5
    unfold Brent.update
    simp only [hu, if_true]
    split_ifs <;> refine ⟨?_, ?_, ?_⟩ <;> simp only <;> linarith
  · rw [abs_of_nonneg (by linarith)] at h5
    unfold Brent.update
    simp only [hu, if_false]
    split_ifs <;> refine ⟨?_, ?_, ?_⟩ <;> simp only <;> linarith

theorem brentLoop_ends (f : ℝ → σ → Res (ℝ × σ)) {ε : ℝ} (hε : 0 < ε) (n : Nat) (s : Brent) (st : σ)
    (h : s.continues ε → ε ≤ s.x - s.a ∧ ε ≤ s.b - s.x) (hn : s.b - s.a ≤ n * ε) :
    brentLoop f ε (n + 1) s st ≠ none := by
  induction n generalizing s st with
  | zero =>
    have : ¬ s.continues ε := fun hc => by
      have := h hc
      push_cast at hn
      linarith
    simp [brentLoop, this]
  | succ n ih =>
    rw [brentLoop]
    split_ifs with hc
    · obtain ⟨h1, h2⟩ := h hc
      obtain ⟨h3, h4, h5⟩ := probe_apart s hε (by linarith) (by linarith) hc
      dsimp only
      cases hf : f (s.probe ε (s.step ε).1) st with
      | error e => simp
      | ok v =>
        obtain ⟨fu, st'⟩ := v
        obtain ⟨k1, k2, k3⟩ := update_shorter s hε h1 h2 h3 h4 h5 (s.step ε).1 (s.step ε).2 fu
        refine ih _ _ (fun _ => ⟨k1, k2⟩) ?_
        push_cast at hn
        linarith
    · simp

/-- **C75**, the search ends: for every function, interval and positive tolerance, also for functions
that throw or whose values depend on earlier calls, the loop is passed at most as often as the
tolerance fits into the interval, and once more. -/
theorem C75_ends (f : ℝ → σ → Res (ℝ × σ)) {left right epsilon : ℝ} (hε : 0 < epsilon) (st : σ)
    {fuel : Nat} (hf : ⌈(right - left) / epsilon⌉₊ + 1 ≤ fuel) :
    minimize fuel f left right epsilon st ≠ none := by
  obtain ⟨g0, g1⟩ := golden_bounds
  obtain ⟨n, rfl⟩ : ∃ n, fuel = n + 1 := ⟨fuel - 1, by omega⟩
  have hn : right - left ≤ n * epsilon := by
    have h1 : (⌈(right - left) / epsilon⌉₊ : ℝ) ≤ n := by exact_mod_cast (by omega)
    have h2 := Nat.le_ceil ((right - left) / epsilon)
    have h3 : (right - left) / epsilon ≤ n := h2.trans h1
    rwa [div_le_iff₀ hε] at h3
  unfold minimize
  dsimp only
  cases f (left + golden * (right - left)) st with
  | error e => simp
  | ok v =>
    obtain ⟨fx, st'⟩ := v
    dsimp only
    have hloop := brentLoop_ends f hε n ⟨left, right, left + golden * (right - left),
      left + golden * (right - left), left + golden * (right - left), 0, 0, fx, fx, fx⟩ st' (by
        intro hc
        have ht := tol_ge ⟨left, right, left + golden * (right - left),
          left + golden * (right - left), left + golden * (right - left), 0, 0, fx, fx, fx⟩ epsilon
        unfold Brent.continues at hc
        generalize Brent.tol _ epsilon = t at hc ht
        simp only at hc ⊢
        have hs : (2 : ℝ) < Real.sqrt 5 := by
          rw [Real.lt_sqrt (by norm_num)]; norm_num
        have hs' : Real.sqrt 5 < 2.24 := by
          rw [Real.sqrt_lt' (by norm_num)]; norm_num
        have hlo : (0.38 : ℝ) < golden := by unfold golden; linarith
        rcases le_total left right with hlr | hlr
        · rw [abs_of_nonpos (by nlinarith)] at hc
          constructor <;> nlinarith
        · rw [abs_of_nonneg (by nlinarith)] at hc
          nlinarith) hn
    match hb : brentLoop f epsilon (n + 1) ⟨left, right, left + golden * (right - left),
      left + golden * (right - left), left + golden * (right - left), 0, 0, fx, fx, fx⟩ st' with
    | none => exact absurd hb hloop
    | some (.error e) => simp
    | some (.ok (s, st'')) => simp

/-- **C75**, the search for a maximum ends. -/
theorem C75_maximum_ends (f : ℝ → σ → Res (ℝ × σ)) {left right epsilon : ℝ} (hε : 0 < epsilon)
    (st : σ) {fuel : Nat} (hf : ⌈(right - left) / epsilon⌉₊ + 1 ≤ fuel) :
    maximize fuel f left right epsilon st ≠ none := by
  have := C75_ends (negated f) (left := left) (right := right) hε st hf
  unfold maximize
  match h : minimize fuel (negated f) left right epsilon st with
  | none => exact absurd h this
  | some (.error e) => simp
  | some (.ok (x, y, s)) => simp

/-- With two passes for the interval [0, 1] and tolerance 1: for a function that throws at some
points, and counts its calls. -/
example : minimize 2 (fun x (n : Nat) => if x < 1 / 2 then .ok (x ^ 2, n + 1) else .error .marleyError)
    0 1 1 0 ≠ none :=
  C75_ends _ one_pos 0 (by norm_num)

end Marley.Props
