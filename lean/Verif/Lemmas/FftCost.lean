import Verif.Lemmas.FftDrive

/-! # The cosine transform -/

set_option autoImplicit false

namespace Marley.Fft
open Marley
open Finset

/-- The cosine transform of `x 0`, …, `x N`, as it is documented. -/
noncomputable def dct (x : ℕ → ℝ) (N i : ℕ) : ℝ :=
  x 0 + (-1) ^ i * x N +
    ∑ k ∈ range (N - 1), 2 * x (k + 1) * Real.cos (((k + 1 : ℕ) : ℝ) * i * Real.pi / (N : ℝ))

/-! ## Sines and cosines -/

/-- The angle of a point. -/
noncomputable def th (N t : ℕ) : ℝ := (t : ℝ) * (Real.pi / (N : ℝ))

lemma th_refl (N t : ℕ) (hN : N ≠ 0) (ht : t ≤ N) : th N (N - t) = Real.pi - th N t := by
  have : (N : ℝ) ≠ 0 := by exact_mod_cast hN
  unfold th
  rw [Nat.cast_sub ht]
  field_simp

lemma sin_th_refl (N t : ℕ) (hN : N ≠ 0) (ht : t ≤ N) :
    Real.sin (th N (N - t)) = Real.sin (th N t) := by
  rw [th_refl N t hN ht, Real.sin_pi_sub]

lemma cos_th_refl (N t : ℕ) (hN : N ≠ 0) (ht : t ≤ N) :
    Real.cos (th N (N - t)) = -Real.cos (th N t) := by
  rw [th_refl N t hN ht, Real.cos_pi_sub]

lemma ang_th (N f t : ℕ) : ang ((f : ℤ) * (t : ℤ)) N = 2 * f * th N t := by
  unfold ang th
  push_cast
  ring

lemma cos_two_refl (N f t : ℕ) (hN : N ≠ 0) (ht : t ≤ N) :
    Real.cos (2 * f * th N (N - t)) = Real.cos (2 * f * th N t) := by
  rw [th_refl N t hN ht, show 2 * (f : ℝ) * (Real.pi - th N t) =
    (f : ℕ) * (2 * Real.pi) - 2 * f * th N t by ring, Real.cos_nat_mul_two_pi_sub]

lemma sin_two_refl (N f t : ℕ) (hN : N ≠ 0) (ht : t ≤ N) :
    Real.sin (2 * f * th N (N - t)) = -Real.sin (2 * f * th N t) := by
  rw [th_refl N t hN ht, show 2 * (f : ℝ) * (Real.pi - th N t) =
    (f : ℕ) * (2 * Real.pi) - 2 * f * th N t by ring, Real.sin_nat_mul_two_pi_sub]

lemma dct_th (x : ℕ → ℝ) (N i : ℕ) : dct x N i = x 0 + (-1) ^ i * x N +
    ∑ k ∈ range (N - 1), 2 * x (k + 1) * Real.cos ((i : ℝ) * th N (k + 1)) := by
  unfold dct th
  congr 1
  refine Finset.sum_congr rfl (fun k _ => ?_)
  congr 2
  ring

lemma sum_reflect (N : ℕ) (g : ℕ → ℝ) :
    ∑ k ∈ range (N - 1), g (N - (k + 1)) = ∑ k ∈ range (N - 1), g (k + 1) := by
  rw [← Finset.sum_range_reflect]
  refine Finset.sum_congr rfl (fun k hk => ?_)
  have := Finset.mem_range.1 hk
  congr 1
  omega

lemma sum_first (N : ℕ) (hN : N ≠ 0) (g : ℕ → ℝ) :
    ∑ t ∈ range N, g t = g 0 + ∑ k ∈ range (N - 1), g (k + 1) := by
  obtain ⟨M, rfl⟩ := Nat.exists_eq_succ_of_ne_zero hN
  rw [Nat.succ_eq_add_one, Finset.sum_range_succ', add_comm]
  rfl

/-! ## What is transformed -/

/-- The numbers that go to the Fourier transform. -/
noncomputable def pre (x : ℕ → ℝ) (N t : ℕ) : ℝ :=
  if t = 0 then x 0 + x N
  else (x t + x (N - t)) - 2 * Real.sin (th N t) * (x t - x (N - t))

lemma pre_succ (x : ℕ → ℝ) (N k : ℕ) : pre x N (k + 1) =
    (x (k + 1) + x (N - (k + 1))) -
      2 * Real.sin (th N (k + 1)) * (x (k + 1) - x (N - (k + 1))) := by
  unfold pre; rw [if_neg (by omega)]

theorem dre_pre (x : ℕ → ℝ) (N f : ℕ) (hN : N ≠ 0) : dre N (pre x N) (f : ℤ) = dct x N (2 * f) := by
  unfold dre
  rw [sum_first N hN, dct_th]
  congr 1
  · simp [pre, ang]
  have h := sum_reflect N (fun t => x t * Real.cos (2 * f * th N t) * (1 + 2 * Real.sin (th N t)))
  have e : ∀ k ∈ range (N - 1), pre x N (k + 1) *
      Real.cos (ang ((f : ℤ) * ((k + 1 : ℕ) : ℤ)) N) =
      x (k + 1) * Real.cos (2 * f * th N (k + 1)) * (1 - 2 * Real.sin (th N (k + 1))) +
      x (N - (k + 1)) * Real.cos (2 * f * th N (N - (k + 1))) *
        (1 + 2 * Real.sin (th N (N - (k + 1)))) := by
    intro k hk
    have := Finset.mem_range.1 hk
    rw [pre_succ, ang_th, cos_two_refl N f _ hN (by omega), sin_th_refl N _ hN (by omega)]
    ring
  rw [Finset.sum_congr rfl e, Finset.sum_add_distrib, h, ← Finset.sum_add_distrib]
  refine Finset.sum_congr rfl (fun k _ => ?_)
  push_cast
  ring

theorem dim_pre (x : ℕ → ℝ) (N f : ℕ) (hN : N ≠ 0) (hf : 1 ≤ f) :
    dim N (pre x N) (f : ℤ) = dct x N (2 * f - 1) - dct x N (2 * f + 1) := by
  unfold dim
  rw [sum_first N hN, dct_th, dct_th]
  have h := sum_reflect N (fun t => x t * Real.sin (2 * f * th N t) * (1 + 2 * Real.sin (th N t)))
  have e : ∀ k ∈ range (N - 1), pre x N (k + 1) *
      Real.sin (ang ((f : ℤ) * ((k + 1 : ℕ) : ℤ)) N) =
      x (k + 1) * Real.sin (2 * f * th N (k + 1)) * (1 - 2 * Real.sin (th N (k + 1))) -
      x (N - (k + 1)) * Real.sin (2 * f * th N (N - (k + 1))) *
        (1 + 2 * Real.sin (th N (N - (k + 1)))) := by
    intro k hk
    have := Finset.mem_range.1 hk
    rw [pre_succ, ang_th, sin_two_refl N f _ hN (by omega), sin_th_refl N _ hN (by omega)]
    ring
  rw [Finset.sum_congr rfl e, Finset.sum_sub_distrib, h, ← Finset.sum_sub_distrib]
  have o1 : (-1 : ℝ) ^ (2 * f - 1) = -1 := by
    rw [Odd.neg_one_pow]; exact ⟨f - 1, by omega⟩
  have o2 : (-1 : ℝ) ^ (2 * f + 1) = -1 := by
    rw [Odd.neg_one_pow]; exact ⟨f, by omega⟩
  rw [o1, o2]
  have z : pre x N 0 * Real.sin (ang ((f : ℤ) * ((0 : ℕ) : ℤ)) N) = 0 := by simp [ang]
  rw [z, zero_add, add_sub_add_left_eq_sub, ← Finset.sum_sub_distrib, ← Finset.sum_neg_distrib]
  refine Finset.sum_congr rfl (fun k _ => ?_)
  have c1 : ((2 * f - 1 : ℕ) : ℝ) * th N (k + 1) = 2 * f * th N (k + 1) - th N (k + 1) := by
    rw [Nat.cast_sub (by omega)]; push_cast; ring
  have c2 : ((2 * f + 1 : ℕ) : ℝ) * th N (k + 1) = 2 * f * th N (k + 1) + th N (k + 1) := by
    push_cast; ring
  rw [c1, c2, Real.cos_sub, Real.cos_add]
  ring

/-- The second number of the result is summed separately. -/
theorem first_sum (x : ℕ → ℝ) (N : ℕ) (hN : 1 ≤ N) :
    x 0 - x N + ∑ a ∈ range ((N - 1) / 2),
      Real.cos (th N (a + 1)) * 2 * (x (a + 1) - x (N - (a + 1))) = dct x N 1 := by
  rw [dct_th, pow_one, neg_one_mul, ← sub_eq_add_neg]
  congr 1
  simp only [Nat.cast_one, one_mul]
  have hN0 : N ≠ 0 := by omega
  set M := (N - 1) / 2 with hM
  set g : ℕ → ℝ := fun t => 2 * x t * Real.cos (th N t) with hg
  have e : ∀ a ∈ range M, Real.cos (th N (a + 1)) * 2 * (x (a + 1) - x (N - (a + 1))) =
      g (a + 1) + g (N - (a + 1)) := by
    intro a ha
    have := Finset.mem_range.1 ha
    simp only [hg]
    rw [cos_th_refl N _ hN0 (by omega)]
    ring
  rw [Finset.sum_congr rfl e, Finset.sum_add_distrib]
  show _ = ∑ k ∈ range (N - 1), g (k + 1)
  have tail : ∑ a ∈ range M, g (N - (a + 1)) = ∑ a ∈ range M, g (N - M + a) := by
    rw [← Finset.sum_range_reflect]
    refine Finset.sum_congr rfl (fun a ha => ?_)
    have := Finset.mem_range.1 ha
    congr 1
    omega
  rw [tail]
  by_cases hpar : N % 2 = 1
  · rw [show N - 1 = M + M by omega, Finset.sum_range_add]
    congr 1
    refine Finset.sum_congr rfl (fun a _ => ?_)
    congr 1
    omega
  · rw [show N - 1 = (M + 1) + M by omega, Finset.sum_range_add, Finset.sum_range_succ]
    have z : g (M + 1) = 0 := by
      simp only [hg]
      have h2 : N = 2 * (M + 1) := by omega
      have : th N (M + 1) = Real.pi / 2 := by
        have h3 : ((M + 1 : ℕ) : ℝ) ≠ 0 := by positivity
        unfold th
        rw [h2]
        generalize M + 1 = z at *
        push_cast
        field_simp
      rw [this, Real.cos_pi_div_two, mul_zero]
    rw [z, add_zero]
    congr 1
    refine Finset.sum_congr rfl (fun a _ => ?_)
    congr 1
    omega

/-! ## The loops -/

lemma foldl_range {S : Type} (step : S → ℕ → S) (φ : ℕ → ℕ) (I : ℕ → S → Prop) (M : ℕ) (s : S)
    (h0 : I 0 s) (hs : ∀ q, q < M → ∀ s, I q s → I (q + 1) (step s (φ q))) :
    I M (((List.range M).map φ).foldl step s) := by
  induction M with
  | zero => exact h0
  | succ M ih =>
    rw [List.range_succ, List.map_append, List.foldl_append]
    exact hs M (by omega) _ (ih (fun q hq => hs q (by omega)))

/-- The table of `costi`. -/
theorem costTable_spec (n : ℕ) (hn : 4 ≤ n) (b : Buf) :
    put n b (costTable n) = .ok (store b (costTable n)) ∧
    ∀ q, q < (n - 2) / 2 →
      store b (costTable n) (q + 1) = Real.sin (th (n - 1) (q + 1)) * 2 ∧
      store b (costTable n) (n - 1 - (q + 1)) = Real.cos (th (n - 1) (q + 1)) * 2 := by
  have hmem : ∀ w, w ∈ costTable n ↔ ∃ k, (2 ≤ k ∧ k ≤ n / 2) ∧
      (w = (k - 1, Real.sin (th (n - 1) (k - 1)) * 2) ∨
        w = (n + 1 - k - 1, Real.cos (th (n - 1) (k - 1)) * 2)) := by
    intro w
    unfold costTable
    simp only [List.mem_flatMap, mem_upTo, List.mem_cons, List.not_mem_nil, or_false]
    rfl
  refine ⟨put_ok _ _ _ (fun w hw => ?_), fun q hq => ⟨?_, ?_⟩⟩
  · obtain ⟨k, hk, rfl | rfl⟩ := (hmem w).1 hw
    · show k - 1 < n; omega
    · show n + 1 - k - 1 < n; omega
  · refine store_mem _ _ _ _ ?_ ⟨_, (hmem _).2 ⟨q + 2, by omega, Or.inl rfl⟩, rfl⟩
    intro w hw he
    obtain ⟨k, hk, rfl | rfl⟩ := (hmem w).1 hw
    · simp only at he ⊢; rw [he]
    · simp only at he; omega
  · refine store_mem _ _ _ _ ?_ ⟨_, (hmem _).2 ⟨q + 2, by omega, Or.inr rfl⟩, ?_⟩
    · intro w hw he
      obtain ⟨k, hk, rfl | rfl⟩ := (hmem w).1 hw
      · simp only at he; omega
      · simp only at he ⊢; rw [show k - 1 = q + 1 by omega]
    · show n + 1 - (q + 2) - 1 = n - 1 - (q + 1); omega

lemma store_two (b : Buf) (a a' : ℕ) (v v' : ℝ) (t : ℕ) :
    store b [(a, v), (a', v')] t = if t = a' then v' else if t = a then v else b t := by
  simp only [store, List.foldl_cons, List.foldl_nil, Function.update_apply]

lemma store_one (b : Buf) (a : ℕ) (v : ℝ) (t : ℕ) :
    store b [(a, v)] t = if t = a then v else b t := by
  simp only [store, List.foldl_cons, List.foldl_nil, Function.update_apply]

/-- The first loop. -/
theorem costFold_spec (n : ℕ) (hn : 4 ≤ n) (w x : Buf)
    (hw : ∀ q, q < (n - 2) / 2 → w (q + 1) = Real.sin (th (n - 1) (q + 1)) * 2 ∧
      w (n - 1 - (q + 1)) = Real.cos (th (n - 1) (q + 1)) * 2) :
    let r := (upTo 2 (n / 2)).foldl (costFold n w)
      (store x [(0, x 0 + x (n - 1))], x 0 - x (n - 1))
    (∀ t, t < n - 1 → t ≠ n - 1 - t → r.1 t = pre x (n - 1) t) ∧
    (∀ t, t = n - 1 - t → r.1 t = x t) ∧ r.2 = dct x (n - 1) 1 := by
  intro r
  have hup : upTo 2 (n / 2) = (List.range ((n - 2) / 2)).map (· + 2) := by
    rw [upTo_eq]
    congr 2
    omega
  have key := foldl_range (costFold n w) (· + 2)
    (fun q s => (∀ t, t ≤ n - 1 → s.1 t =
        if t = 0 ∨ (1 ≤ t ∧ t ≤ q) ∨ (n - 1 - q ≤ t ∧ t < n - 1) then pre x (n - 1) t else x t) ∧
      s.2 = x 0 - x (n - 1) + ∑ a ∈ range q,
        Real.cos (th (n - 1) (a + 1)) * 2 * (x (a + 1) - x (n - 1 - (a + 1))))
    ((n - 2) / 2) (store x [(0, x 0 + x (n - 1))], x 0 - x (n - 1)) ?_ ?_
  · rw [← hup] at key
    obtain ⟨k1, k2⟩ := key
    refine ⟨fun t h1 h2 => ?_, fun t h1 => ?_, ?_⟩
    · rw [k1 t (by omega), if_pos (by omega)]
    · rw [k1 t (by omega), if_neg (by omega)]
    · rw [k2, ← first_sum x (n - 1) (by omega)]
      congr 3
  · refine ⟨fun t ht => ?_, by simp⟩
    simp only [store_one]
    by_cases h : t = 0
    · subst h; simp [pre]
    · rw [if_neg h, if_neg (by omega)]
  · intro q hq s ⟨s1, s2⟩
    obtain ⟨w1, w2⟩ := hw q hq
    have e1 : q + 2 - 1 = q + 1 := by omega
    have e2 : n + 1 - (q + 2) - 1 = n - 1 - (q + 1) := by omega
    have r1 : s.1 (q + 1) = x (q + 1) := by rw [s1 _ (by omega), if_neg (by omega)]
    have r2 : s.1 (n - 1 - (q + 1)) = x (n - 1 - (q + 1)) := by
      rw [s1 _ (by omega), if_neg (by omega)]
    unfold costFold
    dsimp only
    rw [e1, e2, r1, r2, w1, w2]
    refine ⟨fun t ht => ?_, ?_⟩
    · rw [store_two]
      by_cases h1 : t = n - 1 - (q + 1)
      · rw [if_pos h1, if_pos (by omega), h1, pre, if_neg (by omega),
          sin_th_refl _ _ (by omega) (by omega),
          show n - 1 - (n - 1 - (q + 1)) = q + 1 by omega]
        ring
      · rw [if_neg h1]
        by_cases h2 : t = q + 1
        · rw [if_pos h2, if_pos (by omega), h2, pre_succ]
          ring
        · rw [if_neg h2, s1 t ht]
          by_cases h3 : t = 0 ∨ (1 ≤ t ∧ t ≤ q) ∨ (n - 1 - q ≤ t ∧ t < n - 1)
          · rw [if_pos h3, if_pos (by omega)]
          · rw [if_neg h3, if_neg (by omega)]
    · rw [s2, Finset.sum_range_succ]
      ring

/-- The last loop. -/
theorem costUnfold_spec (n : ℕ) (hn : 4 ≤ n) (x b : Buf)
    (hb : ∀ t, t < n - 1 → b t = hc (n - 1) (pre x (n - 1)) t) :
    let u := ((List.range (n / 2 - 1)).map (fun q => 2 * q + 4)).foldl costUnfold
      (store b [(1, dct x (n - 1) 1)], b 1)
    ∀ i, i < n → (if n % 2 ≠ 0 then store u.1 [(n - 1, u.2)] else u.1) i = dct x (n - 1) i := by
  intro u
  have hN : n - 1 ≠ 0 := by omega
  have re : ∀ f, 1 ≤ f → 2 * f - 1 < n - 1 → b (2 * f - 1) = dct x (n - 1) (2 * f) := by
    intro f h1 h2
    rw [hb _ h2, hc_re _ _ _ f (by omega), dre_pre x _ f hN]
  have im : ∀ f, 1 ≤ f → 2 * f < n - 1 →
      b (2 * f) = dct x (n - 1) (2 * f - 1) - dct x (n - 1) (2 * f + 1) := by
    intro f h1 h2
    rw [hb _ h2, hc_im _ _ _ f rfl (by omega), dim_pre x _ f hN h1]
  have z : b 0 = dct x (n - 1) 0 := by
    rw [hb 0 (by omega), hc_zero]
    exact dre_pre x (n - 1) 0 hN
  have key := foldl_range costUnfold (fun q => 2 * q + 4)
    (fun q s => (∀ t, t ≤ 2 * q + 1 → s.1 t = dct x (n - 1) t) ∧
      (∀ t, 2 * q + 1 < t → s.1 t = b t) ∧ s.2 = b (2 * q + 1))
    (n / 2 - 1) (store b [(1, dct x (n - 1) 1)], b 1) ?_ ?_
  · obtain ⟨k1, k2, k3⟩ := key
    intro i hi
    by_cases h : n % 2 = 0
    · rw [if_neg (by omega)]
      exact k1 i (by omega)
    · rw [if_pos (by omega), store_one]
      by_cases h1 : i = n - 1
      · rw [if_pos h1]
        show u.2 = _
        have e := k3
        rw [show 2 * (n / 2 - 1) + 1 = 2 * ((n - 1) / 2) - 1 by omega,
          re ((n - 1) / 2) (by omega) (by omega), show 2 * ((n - 1) / 2) = i by omega] at e
        exact e
      · rw [if_neg h1]
        exact k1 i (by omega)
  · refine ⟨fun t ht => ?_, fun t ht => ?_, rfl⟩
    · simp only [store_one]
      by_cases h1 : t = 1
      · rw [if_pos h1, h1]
      · obtain rfl : t = 0 := by omega
        rw [if_neg (by omega), z]
    · simp only [store_one]
      rw [if_neg (by omega)]
  · intro q hq s ⟨s1, s2, s3⟩
    unfold costUnfold
    dsimp only
    rw [show 2 * q + 4 - 1 = 2 * q + 3 by omega, show 2 * q + 4 - 3 = 2 * q + 1 by omega,
      show 2 * q + 4 - 2 = 2 * q + 2 by omega, s1 (2 * q + 1) (by omega), s2 (2 * q + 2) (by omega),
      s2 (2 * q + 3) (by omega), s3]
    have e1 := im (q + 1) (by omega) (by omega)
    have e2 := re (q + 1) (by omega) (by omega)
    rw [show 2 * (q + 1) - 1 = 2 * q + 1 by omega] at e1 e2
    rw [show 2 * (q + 1) = 2 * q + 2 by omega] at e1 e2
    rw [show 2 * q + 2 + 1 = 2 * q + 3 by omega] at e1
    rw [e1, e2]
    refine ⟨fun t ht => ?_, fun t ht => ?_, rfl⟩
    · rw [store_two]
      by_cases h1 : t = 2 * q + 2
      · rw [if_pos h1, h1]
      · rw [if_neg h1]
        by_cases h2 : t = 2 * q + 3
        · rw [if_pos h2, h2]; ring
        · rw [if_neg h2]
          exact s1 t (by omega)
    · rw [store_two, if_neg (by omega), if_neg (by omega)]
      exact s2 t (by omega)

lemma rfftf1_congr_data (n : ℕ) (x y ch wa0 : Buf) (hn : 2 ≤ n) (fs : List ℕ)
    (hfs : factors n = some fs) (h : ∀ t, t < n → x t = y t) :
    ∃ c k, rfftf1 n x ch (store wa0 (twiddles n 0 1 fs)) fs = .ok (c, k) ∧
      ∀ t, t < n → c t = hc n y t := by
  obtain ⟨_, c, k, h1, h2⟩ := rfftf1_spec n hn x ch wa0 fs hfs
  refine ⟨c, k, h1, fun t ht => ?_⟩
  rw [h2 t ht]
  have hre : ∀ f, dre n x f = dre n y f := fun f =>
    Finset.sum_congr rfl (fun s hs => by rw [h s (Finset.mem_range.1 hs)])
  have him : ∀ f, dim n x f = dim n y f := fun f => by
    unfold dim
    rw [Finset.sum_congr rfl (fun s hs => by rw [h s (Finset.mem_range.1 hs)])]
  unfold hc
  simp only [hre, him]

/-- **The cosine transform**, if the array for the factors is long enough. -/
theorem cost_spec (cap n : ℕ) (wsave ch wa x : Buf) (hn : 2 ≤ n)
    (hcap : 4 ≤ n → ∀ fs, factors (n - 1) = some fs → fs.length + 2 ≤ cap) :
    ∃ b, cost cap n wsave ch wa x = .ok b ∧ ∀ i, i < n → b i = dct x (n - 1) i := by
  unfold cost
  rw [if_neg (by omega)]
  by_cases h2 : n = 2
  · subst h2
    rw [if_pos rfl]
    refine ⟨_, rfl, fun i hi => ?_⟩
    rw [store_two]
    obtain rfl | rfl : i = 0 ∨ i = 1 := by omega
    · simp [dct]
    · simp [dct]; ring
  rw [if_neg h2]
  by_cases h3 : n = 3
  · subst h3
    rw [if_pos rfl]
    refine ⟨_, rfl, fun i hi => ?_⟩
    simp only [store, List.foldl_cons, List.foldl_nil, Function.update_apply]
    obtain rfl | rfl | rfl : i = 0 ∨ i = 1 ∨ i = 2 := by omega
    · simp [dct]; ring
    · simp [dct]; ring
    · simp [dct]; ring
  rw [if_neg h3]
  obtain ⟨fs, f1, _, _⟩ := factors_spec (n - 1) (by omega)
  rw [f1]
  dsimp only
  rw [if_neg (by have := hcap (by omega) fs f1; omega)]
  obtain ⟨t1, t2⟩ := costTable_spec n (by omega) wsave
  obtain ⟨u1, _⟩ := rfftf1_spec (n - 1) (by omega) x ch wa fs f1
  rw [t1, u1]
  dsimp only
  obtain ⟨v1, v2, v3⟩ := costFold_spec n (by omega) _ x t2
  generalize hr : (upTo 2 (n / 2)).foldl (costFold n (store wsave (costTable n)))
    (store x [(0, x 0 + x (n - 1))], x 0 - x (n - 1)) = r at *
  have hx : ∀ t, t < n - 1 →
      (if n % 2 ≠ 0 then store r.1 [(n / 2, r.1 (n / 2) + r.1 (n / 2))] else r.1) t =
        pre x (n - 1) t := by
    intro t ht
    by_cases h : n % 2 = 0
    · rw [if_neg (by omega)]
      exact v1 t ht (by omega)
    · rw [if_pos (by omega), store_one]
      by_cases hm : t = n / 2
      · rw [if_pos hm, hm, v2 (n / 2) (by omega), pre, if_neg (by omega),
          show n - 1 - n / 2 = n / 2 by omega]
        ring
      · rw [if_neg hm]
        exact v1 t ht (by omega)
  obtain ⟨c, k, g1, g2⟩ := rfftf1_congr_data (n - 1) _ _ ch wa (by omega) fs f1 hx
  rw [g1]
  dsimp only
  rw [v3]
  exact ⟨_, rfl, costUnfold_spec n (by omega) x c g2⟩

end Marley.Fft
