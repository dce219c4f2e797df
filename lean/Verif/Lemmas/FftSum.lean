import Verif.Lemmas.FftPass

/-! # The sums in the pass for other factors -/

set_option autoImplicit false

namespace Marley.Fft
open Marley
open Finset

/-! ## Loops -/

lemma loop_append {S A : Type} (step : S → A → Res S) (s : S) (l₁ l₂ : List A) :
    loop step s (l₁ ++ l₂) = match loop step s l₁ with
      | .error e => .error e
      | .ok s => loop step s l₂ := by
  induction l₁ generalizing s with
  | nil => rfl
  | cons a t ih =>
    rw [List.cons_append, loop, loop]
    cases step s a with
    | error e => rfl
    | ok s' => exact ih s'

lemma loop_range {S : Type} (step : S → ℕ → Res S) (φ : ℕ → ℕ) (P : ℕ → S → Prop) (n : ℕ) (s : S)
    (h0 : P 0 s) (hs : ∀ t s, t < n → P t s → ∃ s', step s (φ t) = .ok s' ∧ P (t + 1) s') :
    ∃ s', loop step s ((List.range n).map φ) = .ok s' ∧ P n s' := by
  induction n with
  | zero => exact ⟨s, rfl, h0⟩
  | succ n ih =>
    obtain ⟨s', h1, h2⟩ := ih (fun t s ht => hs t s (by omega))
    obtain ⟨s'', h3, h4⟩ := hs n s' (by omega) h2
    refine ⟨s'', ?_, h4⟩
    rw [List.range_succ, List.map_append, loop_append, h1]
    simp only [List.map_cons, List.map_nil, loop, h3]

lemma upTo_eq (a b : ℕ) : upTo a b = (List.range (b + 1 - a)).map (· + a) := rfl

/-! ## Adding to entries -/

/-- What `add` computes. -/
noncomputable def addL (b : Buf) (ws : List (ℕ × ℝ)) : Buf :=
  ws.foldl (fun b w => Function.update b w.1 (b w.1 + w.2)) b

lemma add_ok (cap : ℕ) (b : Buf) (ws : List (ℕ × ℝ)) (h : ∀ w ∈ ws, w.1 < cap) :
    add cap b ws = .ok (addL b ws) := by
  unfold add
  rw [if_pos]
  · rfl
  · simpa using h

lemma addL_append (b : Buf) (ws vs : List (ℕ × ℝ)) : addL b (ws ++ vs) = addL (addL b ws) vs := by
  simp [addL]

lemma addL_cons (b : Buf) (w : ℕ × ℝ) (ws : List (ℕ × ℝ)) :
    addL b (w :: ws) = addL (Function.update b w.1 (b w.1 + w.2)) ws := rfl

lemma addL_not_mem (b : Buf) (ws : List (ℕ × ℝ)) (a : ℕ) (h : ∀ w ∈ ws, w.1 ≠ a) :
    addL b ws a = b a := by
  induction ws generalizing b with
  | nil => rfl
  | cons w t ih =>
    rw [addL_cons, ih _ (fun v hv => h v (by simp [hv])), Function.update_of_ne]
    exact (h w (by simp)).symm

lemma addL_mem (b : Buf) (ws : List (ℕ × ℝ)) (a : ℕ) (v : ℝ) (hn : (ws.map Prod.fst).Nodup)
    (h : (a, v) ∈ ws) : addL b ws a = b a + v := by
  induction ws generalizing b with
  | nil => cases h
  | cons w t ih =>
    rw [List.map_cons, List.nodup_cons] at hn
    rw [addL_cons]
    rcases List.mem_cons.1 h with h1 | h1
    · subst h1
      rw [addL_not_mem, Function.update_self]
      intro u hu he
      exact hn.1 (List.mem_map.2 ⟨u, hu, he⟩)
    · rw [ih _ hn.2 h1, Function.update_of_ne]
      intro he
      exact hn.1 (List.mem_map.2 ⟨(a, v), h1, he⟩)

/-- Addresses in two planes. -/
lemma nodup_two (D a b : ℕ) (hab : a ≠ b) (g g' : ℕ → ℝ) :
    ((((List.range D).flatMap (fun ik => [(ik + D * a, g ik), (ik + D * b, g' ik)])).map
      Prod.fst)).Nodup := by
  rw [List.map_flatMap]
  simp only [List.map_cons, List.map_nil]
  rw [List.nodup_flatMap]
  constructor
  · intro ik hik
    rw [List.mem_range] at hik
    simp only [List.nodup_cons, List.mem_singleton, List.not_mem_nil, not_false_eq_true,
      List.nodup_nil, and_true]
    intro he
    exact hab (addr_inj D ik a ik b hik hik he).2
  · refine (List.nodup_range (n := D)).imp_of_mem ?_
    intro u v hu hv huv
    rw [List.mem_range] at hu hv
    intro z hz1 hz2
    simp only [List.mem_cons, List.not_mem_nil, or_false] at hz1 hz2
    rcases hz1 with rfl | rfl <;> rcases hz2 with h | h <;>
      exact huv (addr_inj D _ _ _ _ hu hv h).1

lemma mem_two (D : ℕ) (A B : ℕ → ℕ × ℝ) (ik : ℕ) (hik : ik < D) :
    A ik ∈ (List.range D).flatMap (fun ik => [A ik, B ik]) ∧
      B ik ∈ (List.range D).flatMap (fun ik => [A ik, B ik]) :=
  ⟨List.mem_flatMap.2 ⟨ik, List.mem_range.2 hik, .head _⟩,
    List.mem_flatMap.2 ⟨ik, List.mem_range.2 hik, .tail _ (.head _)⟩⟩

lemma of_mem_two (D : ℕ) (A B : ℕ → ℕ × ℝ) (w : ℕ × ℝ)
    (h : w ∈ (List.range D).flatMap (fun ik => [A ik, B ik])) :
    ∃ ik, ik < D ∧ (w = A ik ∨ w = B ik) := by
  obtain ⟨ik, h1, h2⟩ := List.mem_flatMap.1 h
  simp only [List.mem_cons, List.not_mem_nil, or_false] at h2
  exact ⟨ik, List.mem_range.1 h1, h2⟩

/-! ## The inner loop -/

lemma cos_sin_step (p : ℕ) (q s : ℤ) :
    Real.cos (ang q p) * Real.cos (ang (q * s) p) - Real.sin (ang q p) * Real.sin (ang (q * s) p) =
      Real.cos (ang (q * (s + 1)) p) ∧
    Real.cos (ang q p) * Real.sin (ang (q * s) p) + Real.sin (ang q p) * Real.cos (ang (q * s) p) =
      Real.sin (ang (q * (s + 1)) p) := by
  have : q * (s + 1) = q + q * s := by ring
  rw [this, ang_add, Real.cos_add, Real.sin_add]
  exact ⟨rfl, by ring⟩

/-- What is known after `t` steps of the inner loop. -/
def InnerInv (D p u : ℕ) (c h0 : Buf) (t : ℕ) (s : Buf × ℝ × ℝ) : Prop :=
  s.2.1 = Real.cos (ang (((u + 1 : ℕ) : ℤ) * ((t + 1 : ℕ) : ℤ)) p) ∧
  s.2.2 = Real.sin (ang (((u + 1 : ℕ) : ℤ) * ((t + 1 : ℕ) : ℤ)) p) ∧
  (∀ ik, ik < D → s.1 (ik + D * (u + 1)) = h0 (ik + D * (u + 1)) + ∑ a ∈ range t,
    Real.cos (ang (((u + 1 : ℕ) : ℤ) * ((a + 2 : ℕ) : ℤ)) p) * c (ik + D * (a + 2))) ∧
  (∀ ik, ik < D → s.1 (ik + D * (p - (u + 1))) = h0 (ik + D * (p - (u + 1))) + ∑ a ∈ range t,
    Real.sin (ang (((u + 1 : ℕ) : ℤ) * ((a + 2 : ℕ) : ℤ)) p) * c (ik + D * (p - (a + 2)))) ∧
  ∀ a, (∀ ik, ik < D → a ≠ ik + D * (u + 1) ∧ a ≠ ik + D * (p - (u + 1))) → s.1 a = h0 a

lemma inner_step (D p u r : ℕ) (c h0 : Buf) (t : ℕ) (s : Buf × ℝ × ℝ) (hp : p = 2 * r + 1)
    (hu : u < r) (ht : t + 1 < r) (h : InnerInv D p u c h0 t s) :
    ∃ s', fgSumInner (D * p) D p (u + 2) c (Real.cos (ang ((u + 1 : ℕ) : ℤ) p))
        (Real.sin (ang ((u + 1 : ℕ) : ℤ) p)) s (t + 3) = .ok s' ∧
      InnerInv D p u c h0 (t + 1) s' := by
  obtain ⟨h', ar, ai⟩ := s
  obtain ⟨h1, h2, h3, h4, h5⟩ := h
  simp only at h1 h2 h3 h4 h5
  obtain ⟨k1, k2⟩ := cos_sin_step p ((u + 1 : ℕ) : ℤ) ((t + 1 : ℕ) : ℤ)
  have e1 : u + 2 - 1 = u + 1 := by omega
  have e2 : p + 2 - (u + 2) - 1 = p - (u + 1) := by omega
  have e3 : t + 3 - 1 = t + 2 := by omega
  have e4 : p + 2 - (t + 3) - 1 = p - (t + 2) := by omega
  have ecast : (((t + 1 : ℕ) : ℤ) + 1) = ((t + 1 + 1 : ℕ) : ℤ) := by push_cast; ring
  rw [ecast] at k1 k2
  have hne : u + 1 ≠ p - (u + 1) := by omega
  unfold fgSumInner
  simp only [e1, e2, e3, e4, h1, h2, k1, k2]
  rw [add_ok]
  · refine ⟨_, rfl, rfl, rfl, ?_, ?_, ?_⟩
    · intro ik hik
      simp only
      rw [addL_mem _ _ _ _ (nodup_two D (u + 1) (p - (u + 1)) hne _ _) (mem_two D _ _ ik hik).1,
        h3 ik hik, Finset.sum_range_succ]
      ring
    · intro ik hik
      simp only
      rw [addL_mem _ _ _ _ (nodup_two D (u + 1) (p - (u + 1)) hne _ _) (mem_two D _ _ ik hik).2,
        h4 ik hik, Finset.sum_range_succ]
      ring
    · intro a ha
      simp only
      rw [addL_not_mem, h5 a ha]
      intro w hw he
      obtain ⟨ik, hik, rfl | rfl⟩ := of_mem_two _ _ _ _ hw
      · exact (ha ik hik).1 he.symm
      · exact (ha ik hik).2 he.symm
  · intro w hw
    obtain ⟨ik, hik, rfl | rfl⟩ := of_mem_two _ _ _ _ hw
    · exact addr_lt D p ik (u + 1) hik (by omega)
    · exact addr_lt D p ik (p - (u + 1)) hik (by omega)

/-! ## The outer loop -/

/-- What is known after `t` steps of the outer loop. -/
def OuterInv (D p r : ℕ) (c h0 : Buf) (t : ℕ) (s : Buf × ℝ × ℝ) : Prop :=
  s.2.1 = Real.cos (ang (t : ℤ) p) ∧ s.2.2 = Real.sin (ang (t : ℤ) p) ∧
  (∀ u, u < t → ∀ ik, ik < D →
    s.1 (ik + D * (u + 1)) = c ik + ∑ a ∈ range r,
      Real.cos (ang (((u + 1 : ℕ) : ℤ) * ((a + 1 : ℕ) : ℤ)) p) * c (ik + D * (a + 1)) ∧
    s.1 (ik + D * (p - (u + 1))) = ∑ a ∈ range r,
      Real.sin (ang (((u + 1 : ℕ) : ℤ) * ((a + 1 : ℕ) : ℤ)) p) * c (ik + D * (p - (a + 1)))) ∧
  ∀ ik, ik < D → s.1 ik = h0 ik

lemma outer_step (D p r : ℕ) (c h0 : Buf) (t : ℕ) (s : Buf × ℝ × ℝ) (hp : p = 2 * r + 1)
    (ht : t < r) (h : OuterInv D p r c h0 t s) :
    ∃ s', fgSum (D * p) D p c (Real.cos (ang 1 p)) (Real.sin (ang 1 p)) s (t + 2) = .ok s' ∧
      OuterInv D p r c h0 (t + 1) s' := by
  obtain ⟨h', ar, ai⟩ := s
  obtain ⟨h1, h2, h3, h4⟩ := h
  simp only at h1 h2 h3 h4
  obtain ⟨k1, k2⟩ := cos_sin_step p 1 (t : ℤ)
  have ecast : (1 : ℤ) * ((t : ℤ) + 1) = ((t + 1 : ℕ) : ℤ) := by push_cast; ring
  rw [ecast, one_mul] at k1 k2
  have e1 : t + 2 - 1 = t + 1 := by omega
  have e2 : p + 2 - (t + 2) - 1 = p - (t + 1) := by omega
  have hne : t + 1 ≠ p - (t + 1) := by omega
  unfold fgSum
  simp only [e1, e2, h1, h2, k1, k2]
  set ws := (List.range D).flatMap (fun ik =>
    [(ik + D * (t + 1), c ik + Real.cos (ang ((t + 1 : ℕ) : ℤ) p) * c (ik + D)),
      (ik + D * (p - (t + 1)), Real.sin (ang ((t + 1 : ℕ) : ℤ) p) * c (ik + D * (p - 1)))]) with hws
  have hput : put (D * p) h' ws = .ok (store h' ws) := by
    refine put_ok _ _ _ (fun w hw => ?_)
    obtain ⟨ik, hik, rfl | rfl⟩ := of_mem_two _ _ _ _ hw
    · exact addr_lt D p ik (t + 1) hik (by omega)
    · exact addr_lt D p ik (p - (t + 1)) hik (by omega)
  rw [hput]
  simp only
  have hup : upTo 3 ((p + 1) / 2) = (List.range (r - 1)).map (· + 3) := by
    rw [upTo_eq]
    congr 2
    omega
  obtain ⟨s', g1, g2⟩ := loop_range
    (fgSumInner (D * p) D p (t + 2) c (Real.cos (ang ((t + 1 : ℕ) : ℤ) p))
      (Real.sin (ang ((t + 1 : ℕ) : ℤ) p))) (· + 3) (InnerInv D p t c (store h' ws)) (r - 1)
    (store h' ws, Real.cos (ang ((t + 1 : ℕ) : ℤ) p), Real.sin (ang ((t + 1 : ℕ) : ℤ) p))
    ⟨by simp, by simp, fun ik _ => by simp, fun ik _ => by simp, fun a _ => rfl⟩
    (fun v s hv hs => inner_step D p t r c (store h' ws) v s hp ht (by omega) hs)
  rw [hup, g1]
  obtain ⟨h'', ar', ai'⟩ := s'
  obtain ⟨_, _, q3, q4, q5⟩ := g2
  simp only at q3 q4 q5
  refine ⟨_, rfl, rfl, rfl, ?_, ?_⟩
  · intro u hu ik hik
    simp only
    by_cases hut : u = t
    · subst hut
      obtain ⟨r', rfl⟩ : ∃ r', r = r' + 1 := ⟨r - 1, by omega⟩
      have w1 : store h' ws (ik + D * (u + 1)) =
          c ik + Real.cos (ang ((u + 1 : ℕ) : ℤ) p) * c (ik + D) := by
        refine store_mem _ _ _ _ ?_ ⟨_, (mem_two D _ _ ik hik).1, rfl⟩
        intro w hw he
        obtain ⟨ik', hik', rfl | rfl⟩ := of_mem_two _ _ _ _ hw
        · obtain ⟨rfl, -⟩ := addr_inj D _ _ _ _ hik' hik he
          rfl
        · exact absurd (addr_inj D _ _ _ _ hik' hik he).2 (by omega)
      have w2 : store h' ws (ik + D * (p - (u + 1))) =
          Real.sin (ang ((u + 1 : ℕ) : ℤ) p) * c (ik + D * (p - 1)) := by
        refine store_mem _ _ _ _ ?_ ⟨_, (mem_two D _ _ ik hik).2, rfl⟩
        intro w hw he
        obtain ⟨ik', hik', rfl | rfl⟩ := of_mem_two _ _ _ _ hw
        · exact absurd (addr_inj D _ _ _ _ hik' hik he).2 (by omega)
        · obtain ⟨rfl, -⟩ := addr_inj D _ _ _ _ hik' hik he
          rfl
      constructor
      · rw [q3 ik hik, w1, Finset.sum_range_succ' _ r']
        simp only [Nat.add_sub_cancel, Nat.cast_one, mul_one, zero_add]
        ring
      · rw [q4 ik hik, w2, Finset.sum_range_succ' _ r']
        simp only [Nat.add_sub_cancel, Nat.cast_one, mul_one, zero_add]
        ring
    · obtain ⟨z1, z2⟩ := h3 u (by omega) ik hik
      constructor
      · rw [q5, store_not_mem, z1]
        · intro w hw he
          obtain ⟨ik', hik', rfl | rfl⟩ := of_mem_two _ _ _ _ hw
          · exact absurd (addr_inj D _ _ _ _ hik' hik he).2 (by omega)
          · exact absurd (addr_inj D _ _ _ _ hik' hik he).2 (by omega)
        · intro ik' hik'
          exact ⟨fun he => absurd (addr_inj D _ _ _ _ hik hik' he).2 (by omega),
            fun he => absurd (addr_inj D _ _ _ _ hik hik' he).2 (by omega)⟩
      · rw [q5, store_not_mem, z2]
        · intro w hw he
          obtain ⟨ik', hik', rfl | rfl⟩ := of_mem_two _ _ _ _ hw
          · exact absurd (addr_inj D _ _ _ _ hik' hik he).2 (by omega)
          · exact absurd (addr_inj D _ _ _ _ hik' hik he).2 (by omega)
        · intro ik' hik'
          exact ⟨fun he => absurd (addr_inj D _ _ _ _ hik hik' he).2 (by omega),
            fun he => absurd (addr_inj D _ _ _ _ hik hik' he).2 (by omega)⟩
  · intro ik hik
    simp only
    have e0 : ik = ik + D * 0 := by simp
    rw [q5, store_not_mem, h4 ik hik]
    · intro w hw he
      obtain ⟨ik', hik', rfl | rfl⟩ := of_mem_two _ _ _ _ hw
      · exact absurd (addr_inj D _ _ ik 0 hik' hik (by simpa using he)).2 (by omega)
      · exact absurd (addr_inj D _ _ ik 0 hik' hik (by simpa using he)).2 (by omega)
    · intro ik' hik'
      exact ⟨fun he => absurd (addr_inj D ik 0 _ _ hik hik' (by simpa using he)).2 (by omega),
        fun he => absurd (addr_inj D ik 0 _ _ hik hik' (by simpa using he)).2 (by omega)⟩

/-- The sums for the first plane. -/
lemma sumFirst_spec (D : ℕ) (c h : Buf) (r : ℕ) (ik : ℕ) (hik : ik < D) :
    addL h (((List.range r).map (· + 2)).flatMap (fun j =>
      (List.range D).map (fun ik => (ik, c (ik + D * (j - 1)))))) ik =
      h ik + ∑ a ∈ range r, c (ik + D * (a + 1)) := by
  induction r with
  | zero => simp [addL]
  | succ r ih =>
    have hlast : ([r].map (· + 2)).flatMap (fun j =>
        (List.range D).map (fun ik => (ik, c (ik + D * (j - 1))))) =
        (List.range D).map (fun ik => (ik, c (ik + D * (r + 1)))) := by
      simp
    rw [List.range_succ, List.map_append, List.flatMap_append, addL_append, hlast,
      addL_mem _ _ ik (c (ik + D * (r + 1))), ih, Finset.sum_range_succ]
    · ring
    · rw [List.map_map]
      have : (Prod.fst ∘ fun ik => (ik, c (ik + D * (r + 1)))) = id := rfl
      rw [this, List.map_id]
      exact List.nodup_range
    · exact List.mem_map.2 ⟨ik, List.mem_range.2 hik, rfl⟩

lemma sumFirst_other (D : ℕ) (c h : Buf) (ls : List ℕ) (a : ℕ) (ha : D ≤ a) :
    addL h (ls.flatMap (fun j => (List.range D).map (fun ik => (ik, c (ik + D * (j - 1)))))) a =
      h a := by
  refine addL_not_mem _ _ _ (fun w hw => ?_)
  obtain ⟨j, _, hw⟩ := List.mem_flatMap.1 hw
  obtain ⟨ik, hik, rfl⟩ := List.mem_map.1 hw
  rw [List.mem_range] at hik
  simp only
  omega

/-- The second part of the pass. -/
theorem fgMiddle_spec (m p l1 r : ℕ) (c h : Buf) (hp : p = 2 * r + 1) :
    ∃ h', fgMiddle (m * l1 * p) m p l1 c h = .ok h' ∧
      (∀ ik, ik < m * l1 → h' ik = h ik + ∑ a ∈ range r, c (ik + m * l1 * (a + 1))) ∧
      ∀ u, u < r → ∀ ik, ik < m * l1 →
        h' (ik + m * l1 * (u + 1)) = c ik + ∑ a ∈ range r,
          Real.cos (ang (((u + 1 : ℕ) : ℤ) * ((a + 1 : ℕ) : ℤ)) p) * c (ik + m * l1 * (a + 1)) ∧
        h' (ik + m * l1 * (p - (u + 1))) = ∑ a ∈ range r,
          Real.sin (ang (((u + 1 : ℕ) : ℤ) * ((a + 1 : ℕ) : ℤ)) p) *
            c (ik + m * l1 * (p - (a + 1))) := by
  have hup : upTo 2 ((p + 1) / 2) = (List.range r).map (· + 2) := by
    rw [upTo_eq]
    congr 2
    omega
  have harg : 2 * Real.pi / (p : ℝ) = ang 1 p := by unfold ang; push_cast; ring
  obtain ⟨s, h1, h2⟩ := loop_range
    (fgSum (m * l1 * p) (m * l1) p c (Real.cos (ang 1 p)) (Real.sin (ang 1 p))) (· + 2)
    (OuterInv (m * l1) p r c h) r (h, 1, 0)
    ⟨by simp [ang_zero], by simp [ang_zero], fun u hu => by omega, fun ik _ => rfl⟩
    (fun t s ht hs => outer_step (m * l1) p r c h t s hp ht hs)
  obtain ⟨h', ar, ai⟩ := s
  obtain ⟨-, -, h3, h4⟩ := h2
  simp only at h3 h4
  unfold fgMiddle
  simp only [harg, hup, h1, fgSumFirst]
  rw [add_ok]
  · refine ⟨_, rfl, ?_, ?_⟩
    · intro ik hik
      rw [sumFirst_spec (m * l1) c h' r ik hik, h4 ik hik]
    · intro u hu ik hik
      have g1 : m * l1 ≤ m * l1 * (u + 1) := Nat.le_mul_of_pos_right _ (by omega)
      have g2 : m * l1 ≤ m * l1 * (p - (u + 1)) := Nat.le_mul_of_pos_right _ (by omega)
      rw [sumFirst_other _ _ _ _ _ (by omega), sumFirst_other _ _ _ _ _ (by omega)]
      exact h3 u hu ik hik
  · intro w hw
    obtain ⟨j, _, hw⟩ := List.mem_flatMap.1 hw
    obtain ⟨ik, hik, rfl⟩ := List.mem_map.1 hw
    rw [List.mem_range] at hik
    have : m * l1 ≤ m * l1 * p := Nat.le_mul_of_pos_right _ (by omega)
    simp only
    omega

end Marley.Fft
