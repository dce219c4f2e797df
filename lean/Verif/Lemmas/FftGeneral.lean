import Verif.Lemmas.FftSum

/-! # The pass for other factors -/

set_option autoImplicit false

namespace Marley.Fft
open Marley
open Finset

/-! ## Positions -/

/-- Indices inside the arrays. -/
def InR (m l1 p i k j : ℕ) : Prop := (1 ≤ i ∧ i ≤ m) ∧ (1 ≤ k ∧ k ≤ l1) ∧ 1 ≤ j ∧ j ≤ p

lemma cc_inj {m l1 p i k j i' k' j' : ℕ} (h : InR m l1 p i k j) (h' : InR m l1 p i' k' j')
    (he : ccAt m l1 i k j = ccAt m l1 i' k' j') : i = i' ∧ k = k' ∧ j = j' := by
  obtain ⟨⟨h1, h2⟩, ⟨h3, h4⟩, h5, _⟩ := h
  obtain ⟨⟨g1, g2⟩, ⟨g3, g4⟩, g5, _⟩ := h'
  obtain ⟨e1, e2⟩ := addr_inj m _ _ _ _ (by omega) (by omega) he
  obtain ⟨e3, e4⟩ := addr_inj l1 _ _ _ _ (by omega) (by omega) e2
  omega

lemma cc_lt {m l1 p i k j : ℕ} (h : InR m l1 p i k j) : ccAt m l1 i k j < m * l1 * p := by
  obtain ⟨⟨h1, h2⟩, ⟨h3, h4⟩, h5, h6⟩ := h
  rw [Nat.mul_assoc]
  exact addr_lt m (l1 * p) (i - 1) _ (by omega) (addr_lt l1 p (k - 1) (j - 1) (by omega) (by omega))

lemma cc_lin (m l1 i k j : ℕ) :
    ccAt m l1 i k j = ((i - 1) + m * (k - 1)) + m * l1 * (j - 1) := by
  unfold ccAt; ring

lemma lin_lt {m l1 i k : ℕ} (hi : 1 ≤ i ∧ i ≤ m) (hk : 1 ≤ k ∧ k ≤ l1) :
    (i - 1) + m * (k - 1) < m * l1 := addr_lt m l1 (i - 1) (k - 1) (by omega) (by omega)

lemma cc_decode (m l1 ik : ℕ) (h : ik < m * l1) :
    ∃ i k, (1 ≤ i ∧ i ≤ m) ∧ (1 ≤ k ∧ k ≤ l1) ∧ ik = ccAt m l1 i k 1 := by
  have hm : m ≠ 0 := by rintro rfl; omega
  refine ⟨ik % m + 1, ik / m + 1, ⟨Nat.le_add_left _ _, Nat.mod_lt _ (by omega)⟩,
    ⟨Nat.le_add_left _ _, Nat.div_lt_of_lt_mul h⟩, ?_⟩
  unfold ccAt
  simp only [Nat.add_sub_cancel, Nat.sub_self, Nat.mul_zero, Nat.add_zero]
  exact (Nat.mod_add_div ik m).symm

/-- Writes of the values `g`. -/
def Writes (m l1 p : ℕ) (g : ℕ → ℕ → ℕ → ℝ) (ws : List (ℕ × ℝ)) : Prop :=
  ∀ w ∈ ws, ∃ i k j, InR m l1 p i k j ∧ w = (ccAt m l1 i k j, g i k j)

lemma Writes.put {m l1 p : ℕ} {g : ℕ → ℕ → ℕ → ℝ} {ws : List (ℕ × ℝ)} (h : Writes m l1 p g ws)
    (b : Buf) : put (m * l1 * p) b ws = .ok (store b ws) := by
  refine put_ok _ _ _ (fun w hw => ?_)
  obtain ⟨i, k, j, hr, rfl⟩ := h w hw
  exact cc_lt hr

lemma Writes.store {m l1 p : ℕ} {g : ℕ → ℕ → ℕ → ℝ} {ws : List (ℕ × ℝ)} (h : Writes m l1 p g ws)
    (b : Buf) {i k j : ℕ} (hr : InR m l1 p i k j) (hm : ∃ v, (ccAt m l1 i k j, v) ∈ ws) :
    store b ws (ccAt m l1 i k j) = g i k j := by
  obtain ⟨v, hv⟩ := hm
  refine store_mem _ _ _ _ ?_ ⟨_, hv, rfl⟩
  intro w hw he
  obtain ⟨i', k', j', hr', rfl⟩ := h w hw
  obtain ⟨rfl, rfl, rfl⟩ := cc_inj hr' hr he
  rfl

lemma Writes.append {m l1 p : ℕ} {g : ℕ → ℕ → ℕ → ℝ} {ws vs : List (ℕ × ℝ)}
    (h : Writes m l1 p g ws) (h' : Writes m l1 p g vs) : Writes m l1 p g (ws ++ vs) := by
  intro w hw
  rcases List.mem_append.1 hw with h1 | h1
  · exact h w h1
  · exact h' w h1

lemma mem_twoLoops (b : Bool) (l1 m : ℕ) (body : ℕ → ℕ → List (ℕ × ℝ)) (u : ℕ × ℝ) :
    u ∈ twoLoops b l1 m body ↔ ∃ k, (1 ≤ k ∧ k ≤ l1) ∧ ∃ f, (1 ≤ f ∧ 2 * f < m) ∧
      u ∈ body k (2 * f + 1) := by
  unfold twoLoops
  cases b
  · simp only [Bool.false_eq_true, if_false, List.mem_flatMap, mem_upTo, mem_odds]
    constructor
    · rintro ⟨i, ⟨f, h1, h2, rfl⟩, k, hk, hu⟩; exact ⟨k, hk, f, ⟨h1, h2⟩, hu⟩
    · rintro ⟨k, hk, f, ⟨h1, h2⟩, hu⟩; exact ⟨_, ⟨f, h1, h2, rfl⟩, k, hk, hu⟩
  · simp only [if_true, List.mem_flatMap, mem_upTo, mem_odds]
    constructor
    · rintro ⟨k, hk, i, ⟨f, h1, h2, rfl⟩, hu⟩; exact ⟨k, hk, f, ⟨h1, h2⟩, hu⟩
    · rintro ⟨k, hk, f, ⟨h1, h2⟩, hu⟩; exact ⟨k, hk, _, ⟨f, h1, h2, rfl⟩, hu⟩

/-! ## The values -/

/-- The transforms after multiplication with the roots of unity, in the order of the entries. -/
noncomputable def zz (p m : ℕ) (y : ℕ → ℝ) (i a : ℕ) : ℝ :=
  if i = 1 then ZR p m y 0 a
  else if i % 2 = 0 then ZR p m y (i / 2 : ℕ) a
  else ZI p m y (i / 2 : ℕ) a

lemma zz_one (p m : ℕ) (y : ℕ → ℝ) (a : ℕ) : zz p m y 1 a = ZR p m y 0 a := by simp [zz]

lemma zz_re (p m : ℕ) (y : ℕ → ℝ) (f a : ℕ) : zz p m y (2 * f + 1 - 1) a = ZR p m y f a := by
  unfold zz
  rw [if_neg (by omega), if_pos (by omega)]
  congr 2
  omega

lemma zz_im (p m : ℕ) (y : ℕ → ℝ) (f a : ℕ) (hf : 1 ≤ f) :
    zz p m y (2 * f + 1) a = ZI p m y f a := by
  unfold zz
  rw [if_neg (by omega), if_neg (by omega)]
  congr 2
  omega

/-- The differences, multiplied by `-i`. -/
noncomputable def bb (p m : ℕ) (y : ℕ → ℝ) (i a : ℕ) : ℝ :=
  if i = 1 then ZR p m y 0 (p - a) - ZR p m y 0 a
  else if i % 2 = 0 then ZI p m y (i / 2 : ℕ) a - ZI p m y (i / 2 : ℕ) (p - a)
  else ZR p m y (i / 2 : ℕ) (p - a) - ZR p m y (i / 2 : ℕ) a

lemma bb_one (p m : ℕ) (y : ℕ → ℝ) (a : ℕ) :
    bb p m y 1 a = ZR p m y 0 (p - a) - ZR p m y 0 a := by simp [bb]

lemma bb_re (p m : ℕ) (y : ℕ → ℝ) (f a : ℕ) :
    bb p m y (2 * f + 1 - 1) a = ZI p m y f a - ZI p m y f (p - a) := by
  unfold bb
  rw [if_neg (by omega), if_pos (by omega)]
  have : (2 * f + 1 - 1) / 2 = f := by omega
  rw [this]

lemma bb_im (p m : ℕ) (y : ℕ → ℝ) (f a : ℕ) (hf : 1 ≤ f) :
    bb p m y (2 * f + 1) a = ZR p m y f (p - a) - ZR p m y f a := by
  unfold bb
  rw [if_neg (by omega), if_neg (by omega)]
  have : (2 * f + 1) / 2 = f := by omega
  rw [this]

lemma index_cases {m i : ℕ} (hm : m % 2 = 1) (hi : 1 ≤ i ∧ i ≤ m) :
    i = 1 ∨ ∃ f, (1 ≤ f ∧ 2 * f < m) ∧ (i = 2 * f + 1 - 1 ∨ i = 2 * f + 1) := by
  by_cases h : i = 1
  · exact Or.inl h
  · exact Or.inr ⟨i / 2, by omega, by omega⟩

lemma read_zz (x : ℕ → ℝ) (l1 p m : ℕ) (c : Buf) (hp : p ≠ 0) (hm : m % 2 = 1)
    (h : Stage x (p * l1) m c) {i k : ℕ} (hi : 1 ≤ i ∧ i ≤ m) (hk : 1 ≤ k ∧ k ≤ l1) :
    c (ccAt m l1 i k 1) = zz p m (col x l1 k) i 0 := by
  rcases index_cases hm hi with rfl | ⟨f, ⟨h1, h2⟩, rfl | rfl⟩
  · rw [zz_one]; exact read_first h (by omega) k 0 1 hk (by omega) rfl
  · rw [zz_re]; exact zr_first h k f hk hp h1 h2
  · rw [zz_im _ _ _ _ _ h1]; exact zi_first h k f hk hp h1 h2

/-! ## Multiplication with the roots of unity -/

theorem fgTwiddle_spec (x : ℕ → ℝ) (l1 p m : ℕ) (c h W : Buf) (hp : p ≠ 0) (hm : m % 2 = 1)
    (hs : Stage x (p * l1) m c) (hw : Tw p m (fun j => from_ W (j * m))) :
    put (m * l1 * p) h (fgTwiddle m p l1 c W) = .ok (store h (fgTwiddle m p l1 c W)) ∧
    ∀ i k j, InR m l1 p i k j → store h (fgTwiddle m p l1 c W) (ccAt m l1 i k j) =
      zz p m (col x l1 k) i (j - 1) := by
  have hW : Writes m l1 p (fun i k j => zz p m (col x l1 k) i (j - 1))
      (fgTwiddle m p l1 c W) := by
    unfold fgTwiddle
    refine Writes.append (Writes.append ?_ ?_) ?_
    · intro w hw
      obtain ⟨ik, hik, rfl⟩ := List.mem_map.1 hw
      obtain ⟨i, k, hi, hk, rfl⟩ := cc_decode m l1 ik (List.mem_range.1 hik)
      exact ⟨i, k, 1, ⟨hi, hk, by omega, by omega⟩, by rw [read_zz x l1 p m c hp hm hs hi hk]⟩
    · intro w hw
      obtain ⟨j, hj, hw⟩ := List.mem_flatMap.1 hw
      obtain ⟨k, hk, rfl⟩ := List.mem_map.1 hw
      rw [mem_upTo] at hj hk
      refine ⟨1, k, j, ⟨by omega, hk, by omega, by omega⟩, ?_⟩
      beta_reduce
      rw [zz_one, read_first hs (by omega) k (j - 1) j hk (by omega) (by omega)]
    · intro w hw'
      obtain ⟨j, hj, hw'⟩ := List.mem_flatMap.1 hw'
      rw [mem_twoLoops] at hw'
      obtain ⟨k, hk, f, ⟨h1, h2⟩, hw'⟩ := hw'
      rw [mem_upTo] at hj
      have a := zr_eq hs hw k (j - 1) j f hk (by omega) (by omega) (by omega) h1 h2
      have b := zi_eq hs hw k (j - 1) j f hk (by omega) (by omega) (by omega) h1 h2
      have e1 : j - 1 - 1 = j - 2 := by omega
      have e2 : (j - 2) * m + (2 * f + 1 - 2) = (j - 2) * m + (2 * f + 1 - 3) + 1 := by omega
      simp only [from_, e1, e2] at a b
      simp only [List.mem_cons, List.not_mem_nil, or_false] at hw'
      rcases hw' with rfl | rfl
      · exact ⟨2 * f + 1 - 1, k, j, ⟨by omega, hk, by omega, by omega⟩, by beta_reduce; rw [zz_re, a]⟩
      · exact ⟨2 * f + 1, k, j, ⟨by omega, hk, by omega, by omega⟩, by beta_reduce; rw [zz_im _ _ _ _ _ h1, b]⟩
  refine ⟨hW.put h, fun i k j hr => hW.store h hr ?_⟩
  obtain ⟨hi, hk, hj1, hj2⟩ := hr
  unfold fgTwiddle
  by_cases hj : j = 1
  · subst hj
    refine ⟨_, List.mem_append_left _ (List.mem_append_left _ (List.mem_map.2
      ⟨ccAt m l1 i k 1, List.mem_range.2 ?_, rfl⟩))⟩
    have := cc_lt (p := 1) ⟨hi, hk, le_refl 1, le_refl 1⟩
    simpa using this
  · have hj' : j ∈ upTo 2 p := (mem_upTo ..).2 ⟨by omega, hj2⟩
    rcases index_cases hm hi with rfl | ⟨f, hf, rfl | rfl⟩
    · exact ⟨_, List.mem_append_left _ (List.mem_append_right _ (List.mem_flatMap.2 ⟨j, hj',
        List.mem_map.2 ⟨k, (mem_upTo ..).2 hk, rfl⟩⟩))⟩
    · exact ⟨_, List.mem_append_right _ (List.mem_flatMap.2 ⟨j, hj', (mem_twoLoops ..).2
        ⟨k, hk, f, hf, .head _⟩⟩)⟩
    · exact ⟨_, List.mem_append_right _ (List.mem_flatMap.2 ⟨j, hj', (mem_twoLoops ..).2
        ⟨k, hk, f, hf, .tail _ (.head _)⟩⟩)⟩

/-! ## Sums and differences -/

/-- The values after the sums and differences are taken. -/
noncomputable def folded (p m r : ℕ) (y : ℕ → ℝ) (i j : ℕ) : ℝ :=
  if j ≤ r + 1 then zz p m y i (j - 1) + zz p m y i (p - (j - 1)) else bb p m y i (p + 1 - j)

lemma folded_sum (p m r : ℕ) (y : ℕ → ℝ) (i a : ℕ) (ha : a < r) :
    folded p m r y i (a + 2) = zz p m y i (a + 1) + zz p m y i (p - (a + 1)) := by
  unfold folded
  rw [if_pos (by omega)]
  rfl

lemma folded_diff (p m r : ℕ) (y : ℕ → ℝ) (i a : ℕ) (hp : p = 2 * r + 1) (ha : a < r) :
    folded p m r y i (p - a) = bb p m y i (a + 1) := by
  unfold folded
  rw [if_neg (by omega)]
  congr 1
  omega

theorem fgFold_writes (x : ℕ → ℝ) (l1 p m r : ℕ) (h : Buf) (hp : p = 2 * r + 1)
    (H : ∀ i k j, InR m l1 p i k j → h (ccAt m l1 i k j) = zz p m (col x l1 k) i (j - 1)) :
    Writes m l1 p (fun i k j => folded p m r (col x l1 k) i j) (fgFold m p l1 h) := by
  intro w hw
  unfold fgFold at hw
  obtain ⟨j, hj, hw⟩ := List.mem_flatMap.1 hw
  rw [mem_upTo] at hj
  obtain ⟨a, rfl⟩ : ∃ a, j = a + 2 := ⟨j - 2, by omega⟩
  simp only [mem_twoLoops] at hw
  obtain ⟨k, hk, f, ⟨h1, h2⟩, hw⟩ := hw
  have ejc : p + 2 - (a + 2) = p - a := by omega
  have hR1 : InR m l1 p (2 * f + 1 - 1) k (a + 2) := ⟨by omega, hk, by omega, by omega⟩
  have hR2 : InR m l1 p (2 * f + 1) k (a + 2) := ⟨by omega, hk, by omega, by omega⟩
  have hR3 : InR m l1 p (2 * f + 1 - 1) k (p - a) := ⟨by omega, hk, by omega, by omega⟩
  have hR4 : InR m l1 p (2 * f + 1) k (p - a) := ⟨by omega, hk, by omega, by omega⟩
  have e1 : p - a - 1 = p - (a + 1) := by omega
  simp only [ejc, H _ _ _ hR1, H _ _ _ hR2, H _ _ _ hR3, H _ _ _ hR4, List.mem_cons,
    List.not_mem_nil, or_false, zz_re, zz_im _ _ _ _ _ h1, e1,
    show a + 2 - 1 = a + 1 by omega] at hw
  rcases hw with rfl | rfl | rfl | rfl
  · exact ⟨_, _, _, hR1, by beta_reduce; rw [folded_sum _ _ _ _ _ _ (by omega), zz_re, zz_re]⟩
  · exact ⟨_, _, _, hR3, by beta_reduce; rw [folded_diff _ _ _ _ _ _ hp (by omega), bb_re]⟩
  · exact ⟨_, _, _, hR2, by
      beta_reduce
      rw [folded_sum _ _ _ _ _ _ (by omega), zz_im _ _ _ _ _ h1, zz_im _ _ _ _ _ h1]⟩
  · exact ⟨_, _, _, hR4, by beta_reduce; rw [folded_diff _ _ _ _ _ _ hp (by omega), bb_im _ _ _ _ _ h1]⟩

theorem fgFoldFirst_writes (x : ℕ → ℝ) (l1 p m r : ℕ) (h : Buf) (hp : p = 2 * r + 1) (hm : m ≠ 0)
    (H : ∀ i k j, InR m l1 p i k j → h (ccAt m l1 i k j) = zz p m (col x l1 k) i (j - 1)) :
    Writes m l1 p (fun i k j => folded p m r (col x l1 k) i j) (fgFoldFirst m p l1 h) := by
  intro w hw
  unfold fgFoldFirst at hw
  obtain ⟨j, hj, hw⟩ := List.mem_flatMap.1 hw
  rw [mem_upTo] at hj
  obtain ⟨a, rfl⟩ : ∃ a, j = a + 2 := ⟨j - 2, by omega⟩
  obtain ⟨k, hk, hw⟩ := List.mem_flatMap.1 hw
  rw [mem_upTo] at hk
  have ejc : p + 2 - (a + 2) = p - a := by omega
  have hR1 : InR m l1 p 1 k (a + 2) := ⟨by omega, hk, by omega, by omega⟩
  have hR2 : InR m l1 p 1 k (p - a) := ⟨by omega, hk, by omega, by omega⟩
  have e1 : p - a - 1 = p - (a + 1) := by omega
  simp only [ejc, H _ _ _ hR1, H _ _ _ hR2, List.mem_cons, List.not_mem_nil, or_false, zz_one, e1,
    show a + 2 - 1 = a + 1 by omega] at hw
  rcases hw with rfl | rfl
  · exact ⟨_, _, _, hR1, by beta_reduce; rw [folded_sum _ _ _ _ _ _ (by omega), zz_one, zz_one]⟩
  · exact ⟨_, _, _, hR2, by beta_reduce; rw [folded_diff _ _ _ _ _ _ hp (by omega), bb_one]⟩

/-- All planes but the first are written, and only they are. -/
lemma fold_mem (l1 p m r : ℕ) (h : Buf) (hp : p = 2 * r + 1) (hm : m % 2 = 1) {i k j : ℕ}
    (hr : InR m l1 p i k j) (hj : 2 ≤ j) :
    ∃ v, (ccAt m l1 i k j, v) ∈ fgFold m p l1 h ++ fgFoldFirst m p l1 h := by
  obtain ⟨hi, hk, _, hj2⟩ := hr
  obtain ⟨b, hb, hjb⟩ : ∃ b, b < r ∧ (j = b + 2 ∨ j = p + 2 - (b + 2)) := by
    by_cases h : j ≤ r + 1
    · exact ⟨j - 2, by omega, by omega⟩
    · exact ⟨p - j, by omega, by omega⟩
  have hjm : b + 2 ∈ upTo 2 ((p + 1) / 2) := (mem_upTo ..).2 ⟨by omega, by omega⟩
  unfold fgFold fgFoldFirst
  rcases index_cases hm hi with rfl | ⟨f, hf, rfl | rfl⟩
  · rcases hjb with rfl | rfl
    · exact ⟨_, List.mem_append_right _ (List.mem_flatMap.2 ⟨b + 2, hjm, List.mem_flatMap.2
        ⟨k, (mem_upTo ..).2 hk, .head _⟩⟩)⟩
    · exact ⟨_, List.mem_append_right _ (List.mem_flatMap.2 ⟨b + 2, hjm, List.mem_flatMap.2
        ⟨k, (mem_upTo ..).2 hk, .tail _ (.head _)⟩⟩)⟩
  · rcases hjb with rfl | rfl
    · exact ⟨_, List.mem_append_left _ (List.mem_flatMap.2 ⟨b + 2, hjm, (mem_twoLoops ..).2
        ⟨k, hk, f, hf, .head _⟩⟩)⟩
    · exact ⟨_, List.mem_append_left _ (List.mem_flatMap.2 ⟨b + 2, hjm, (mem_twoLoops ..).2
        ⟨k, hk, f, hf, .tail _ (.head _)⟩⟩)⟩
  · rcases hjb with rfl | rfl
    · exact ⟨_, List.mem_append_left _ (List.mem_flatMap.2 ⟨b + 2, hjm, (mem_twoLoops ..).2
        ⟨k, hk, f, hf, .tail _ (.tail _ (.head _))⟩⟩)⟩
    · exact ⟨_, List.mem_append_left _ (List.mem_flatMap.2 ⟨b + 2, hjm, (mem_twoLoops ..).2
        ⟨k, hk, f, hf, .tail _ (.tail _ (.tail _ (.head _)))⟩⟩)⟩

lemma fold_not_first (l1 p m r : ℕ) (h : Buf) (hp : p = 2 * r + 1) (hm : m ≠ 0) {i k : ℕ}
    (hi : 1 ≤ i ∧ i ≤ m) (hk : 1 ≤ k ∧ k ≤ l1) :
    ∀ w ∈ fgFold m p l1 h ++ fgFoldFirst m p l1 h, w.1 ≠ ccAt m l1 i k 1 := by
  have key : ∀ i' k' j', InR m l1 p i' k' j' → 2 ≤ j' → ccAt m l1 i' k' j' ≠ ccAt m l1 i k 1 := by
    intro i' k' j' hr h2 he
    obtain ⟨_, _, rfl⟩ := cc_inj hr ⟨hi, hk, le_refl 1, by omega⟩ he
    omega
  intro w hw
  rcases List.mem_append.1 hw with hw | hw
  · unfold fgFold at hw
    obtain ⟨j, hj, hw⟩ := List.mem_flatMap.1 hw
    rw [mem_upTo] at hj
    simp only [mem_twoLoops] at hw
    obtain ⟨k', hk', f, ⟨h1, h2⟩, hw⟩ := hw
    simp only [List.mem_cons, List.not_mem_nil, or_false] at hw
    rcases hw with rfl | rfl | rfl | rfl
    · exact key _ _ _ ⟨by omega, hk', by omega, by omega⟩ (by omega)
    · exact key _ _ _ ⟨by omega, hk', by omega, by omega⟩ (by omega)
    · exact key _ _ _ ⟨by omega, hk', by omega, by omega⟩ (by omega)
    · exact key _ _ _ ⟨by omega, hk', by omega, by omega⟩ (by omega)
  · unfold fgFoldFirst at hw
    obtain ⟨j, hj, hw⟩ := List.mem_flatMap.1 hw
    rw [mem_upTo] at hj
    obtain ⟨k', hk', hw⟩ := List.mem_flatMap.1 hw
    rw [mem_upTo] at hk'
    simp only [List.mem_cons, List.not_mem_nil, or_false] at hw
    rcases hw with rfl | rfl
    · exact key _ _ _ ⟨by omega, hk', by omega, by omega⟩ (by omega)
    · exact key _ _ _ ⟨by omega, hk', by omega, by omega⟩ (by omega)

/-- The first part of the pass: `d` is the array that holds the data. -/
theorem fgBegin_spec (x : ℕ → ℝ) (l1 p m r : ℕ) (c h W : Buf) (hp : p = 2 * r + 1)
    (hm : m % 2 = 1) (hs : Stage x (p * l1) m (if m = 1 then h else c))
    (hw : Tw p m (fun j => from_ W (j * m))) :
    ∃ c' h', fgBegin (m * l1 * p) m p l1 c h W = .ok (c', h') ∧
      (∀ i k, 1 ≤ i ∧ i ≤ m → 1 ≤ k ∧ k ≤ l1 →
        h' (ccAt m l1 i k 1) = zz p m (col x l1 k) i 0 ∧
        c' (ccAt m l1 i k 1) = zz p m (col x l1 k) i 0) ∧
      ∀ i k j, InR m l1 p i k j → 2 ≤ j →
        c' (ccAt m l1 i k j) = folded p m r (col x l1 k) i j := by
  have hp0 : p ≠ 0 := by omega
  have hm0 : m ≠ 0 := by omega
  -- the arrays before the sums and differences
  have main : ∀ c0 h0 : Buf,
      (∀ i k j, InR m l1 p i k j → h0 (ccAt m l1 i k j) = zz p m (col x l1 k) i (j - 1)) →
      (∀ i k, 1 ≤ i ∧ i ≤ m → 1 ≤ k ∧ k ≤ l1 → c0 (ccAt m l1 i k 1) = zz p m (col x l1 k) i 0) →
      put (m * l1 * p) c0 (fgFold m p l1 h0) = .ok (store c0 (fgFold m p l1 h0)) ∧
      put (m * l1 * p) (store c0 (fgFold m p l1 h0)) (fgFoldFirst m p l1 h0) =
        .ok (store (store c0 (fgFold m p l1 h0)) (fgFoldFirst m p l1 h0)) ∧
      (∀ i k, 1 ≤ i ∧ i ≤ m → 1 ≤ k ∧ k ≤ l1 →
        store (store c0 (fgFold m p l1 h0)) (fgFoldFirst m p l1 h0) (ccAt m l1 i k 1) =
          zz p m (col x l1 k) i 0) ∧
      ∀ i k j, InR m l1 p i k j → 2 ≤ j →
        store (store c0 (fgFold m p l1 h0)) (fgFoldFirst m p l1 h0) (ccAt m l1 i k j) =
          folded p m r (col x l1 k) i j := by
    intro c0 h0 H0 C0
    have w1 := fgFold_writes x l1 p m r h0 hp H0
    have w2 := fgFoldFirst_writes x l1 p m r h0 hp hm0 H0
    refine ⟨w1.put c0, w2.put _, ?_, ?_⟩
    · intro i k hi hk
      rw [← store_append, store_not_mem _ _ _ (fold_not_first l1 p m r h0 hp hm0 hi hk), C0 i k hi hk]
    · intro i k j hr hj
      rw [← store_append]
      exact (w1.append w2).store c0 hr (fold_mem l1 p m r h0 hp hm hr hj)
  unfold fgBegin
  by_cases h1 : m = 1
  · rw [if_pos h1] at hs
    rw [if_pos h1]
    have H0 : ∀ i k j, InR m l1 p i k j → h (ccAt m l1 i k j) = zz p m (col x l1 k) i (j - 1) := by
      intro i k j ⟨hi, hk, hj1, hj2⟩
      obtain rfl : i = 1 := by omega
      rw [zz_one, read_first hs hm0 k (j - 1) j hk (by omega) (by omega)]
    have hput : put (m * l1 * p) c (fgCopy (m * l1) h) = .ok (store c (fgCopy (m * l1) h)) := by
      refine put_ok _ _ _ (fun w hw => ?_)
      obtain ⟨ik, hik, rfl⟩ := List.mem_map.1 hw
      have : m * l1 ≤ m * l1 * p := Nat.le_mul_of_pos_right _ (by omega)
      have := List.mem_range.1 hik
      simp only
      omega
    have C0 : ∀ i k, 1 ≤ i ∧ i ≤ m → 1 ≤ k ∧ k ≤ l1 →
        store c (fgCopy (m * l1) h) (ccAt m l1 i k 1) = zz p m (col x l1 k) i 0 := by
      intro i k hi hk
      rw [← H0 i k 1 ⟨hi, hk, le_refl 1, by omega⟩]
      refine store_mem _ _ _ _ ?_ ⟨_, List.mem_map.2 ⟨ccAt m l1 i k 1, List.mem_range.2 ?_, rfl⟩, rfl⟩
      · intro w hw he
        obtain ⟨ik, hik, rfl⟩ := List.mem_map.1 hw
        simp only at he
        rw [he]
      · have := cc_lt (p := 1) ⟨hi, hk, le_refl 1, le_refl 1⟩
        simpa using this
    obtain ⟨_, m2, m3, m4⟩ := main _ h H0 C0
    have hnil : fgFold m p l1 h = [] := by
      subst h1
      simp [fgFold, twoLoops, odds]
    rw [hnil] at m2 m3 m4
    rw [hput]
    simp only
    rw [show store (store c (fgCopy (m * l1) h)) [] = store c (fgCopy (m * l1) h) from rfl] at m2 m3 m4
    rw [m2]
    exact ⟨_, _, rfl, fun i k hi hk =>
      ⟨H0 i k 1 ⟨hi, hk, le_refl 1, by omega⟩, m3 i k hi hk⟩, m4⟩
  · rw [if_neg h1] at hs
    rw [if_neg h1]
    obtain ⟨t1, t2⟩ := fgTwiddle_spec x l1 p m c h W hp0 hm hs hw
    obtain ⟨m1, m2, m3, m4⟩ := main c _ t2 (fun i k hi hk => read_zz x l1 p m c hp0 hm hs hi hk)
    rw [t1]
    simp only
    rw [m1]
    simp only
    rw [m2]
    exact ⟨_, _, rfl, fun i k hi hk =>
      ⟨t2 i k 1 ⟨hi, hk, le_refl 1, by omega⟩, m3 i k hi hk⟩, m4⟩

end Marley.Fft
