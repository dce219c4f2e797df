import Verif.Lemmas.FftOut
import Verif.Lemmas.FftPass4
import Verif.Lemmas.FftPass5
import Verif.Lemmas.FftFactor

/-! # The Fourier transform: tables and passes -/

set_option autoImplicit false

namespace Marley.Fft
open Marley
open Finset

/-! ## The table -/

lemma div_prod (n l1 ip q : ℕ) (hl : l1 ≠ 0) (hip : ip ≠ 0) (hn : n = l1 * (ip * q)) :
    n / (l1 * ip) = q := by
  rw [hn, ← Nat.mul_assoc]
  exact Nat.mul_div_cancel_left _ (Nat.mul_pos (by omega) (by omega))

/-- The entries of one factor. -/
noncomputable def block (n is l1 ip m : ℕ) : List (ℕ × ℝ) :=
  (upTo 1 (ip - 1)).flatMap (fun j =>
    (List.range ((m - 1) / 2)).flatMap (fun q =>
      [(is + (j - 1) * m + 2 * q,
          Real.cos (((q + 1 : ℕ) : ℝ) * (((j * l1 : ℕ) : ℝ) * (2 * Real.pi / (n : ℝ))))),
        (is + (j - 1) * m + 2 * q + 1,
          Real.sin (((q + 1 : ℕ) : ℝ) * (((j * l1 : ℕ) : ℝ) * (2 * Real.pi / (n : ℝ)))))]))

lemma twiddles_cons (n is l1 ip b : ℕ) (fs : List ℕ) :
    twiddles n is l1 (ip :: b :: fs) = block n is l1 ip (n / (l1 * ip)) ++
      twiddles n (is + (ip - 1) * (n / (l1 * ip))) (l1 * ip) (b :: fs) := rfl

lemma mem_block (n is l1 ip m : ℕ) (w : ℕ × ℝ) :
    w ∈ block n is l1 ip m ↔ ∃ j, (1 ≤ j ∧ j < ip) ∧ ∃ f, (1 ≤ f ∧ 2 * f < m) ∧
      (w = (is + ((2 * f - 2) + m * (j - 1)),
          Real.cos ((f : ℝ) * (((j * l1 : ℕ) : ℝ) * (2 * Real.pi / (n : ℝ))))) ∨
        w = (is + ((2 * f - 1) + m * (j - 1)),
          Real.sin ((f : ℝ) * (((j * l1 : ℕ) : ℝ) * (2 * Real.pi / (n : ℝ)))))) := by
  unfold block
  simp only [List.mem_flatMap, mem_upTo, List.mem_range, List.mem_cons, List.not_mem_nil, or_false]
  constructor
  · rintro ⟨j, hj, q, hq, hw⟩
    refine ⟨j, by omega, q + 1, by omega, ?_⟩
    have e1 : is + (j - 1) * m + 2 * q = is + (2 * (q + 1) - 2 + m * (j - 1)) := by
      rw [Nat.mul_comm (j - 1)]; omega
    have e2 : is + (j - 1) * m + 2 * q + 1 = is + (2 * (q + 1) - 1 + m * (j - 1)) := by
      rw [Nat.mul_comm (j - 1)]; omega
    rw [e2, e1] at hw
    exact hw
  · rintro ⟨j, hj, f, hf, hw⟩
    refine ⟨j, by omega, f - 1, by omega, ?_⟩
    have e1 : is + (j - 1) * m + 2 * (f - 1) = is + (2 * f - 2 + m * (j - 1)) := by
      rw [Nat.mul_comm (j - 1)]; omega
    have e2 : is + (j - 1) * m + 2 * (f - 1) + 1 = is + (2 * f - 1 + m * (j - 1)) := by
      rw [Nat.mul_comm (j - 1)]; omega
    have e3 : f - 1 + 1 = f := by omega
    rw [e2, e1, e3]
    exact hw

lemma block_addr {n is l1 ip m : ℕ} {w : ℕ × ℝ} (hw : w ∈ block n is l1 ip m) :
    is ≤ w.1 ∧ w.1 < is + (ip - 1) * m := by
  obtain ⟨j, hj, f, hf, hw⟩ := (mem_block ..).1 hw
  have h1 := addr_lt m (ip - 1) (2 * f - 2) (j - 1) (by omega) (by omega)
  have h2 := addr_lt m (ip - 1) (2 * f - 1) (j - 1) (by omega) (by omega)
  rw [Nat.mul_comm (ip - 1)]
  rcases hw with rfl | rfl
  · exact ⟨Nat.le_add_right _ _, Nat.add_lt_add_left h1 _⟩
  · exact ⟨Nat.le_add_right _ _, Nat.add_lt_add_left h2 _⟩

lemma prod_split (ip q : ℕ) (hip : ip ≠ 0) : ip * q = (ip - 1) * q + q := by
  obtain ⟨p, rfl⟩ := Nat.exists_eq_succ_of_ne_zero hip
  rw [Nat.succ_sub_one, Nat.succ_mul]

lemma twiddles_addr (n : ℕ) (fs : List ℕ) : ∀ is l1 : ℕ, (∀ a ∈ fs, a ≠ 0) → l1 ≠ 0 →
    n = l1 * fs.prod → is + fs.prod = n →
    ∀ w ∈ twiddles n is l1 fs, is ≤ w.1 ∧ w.1 < n := by
  induction fs with
  | nil => intro is l1 _ _ _ _ w hw; simp [twiddles] at hw
  | cons ip t ih =>
    intro is l1 h0 hl hn hi w hw
    cases t with
    | nil => simp [twiddles] at hw
    | cons b t =>
      have hip := h0 ip (by simp)
      rw [List.prod_cons] at hn hi
      have hd := div_prod n l1 ip _ hl hip hn
      have hs := prod_split ip (b :: t).prod hip
      rw [twiddles_cons, hd] at hw
      rcases List.mem_append.1 hw with hw | hw
      · have := block_addr hw
        omega
      · have := ih (is + (ip - 1) * (b :: t).prod) (l1 * ip) (fun a ha => h0 a (by simp [ha]))
          (Nat.mul_ne_zero hl hip) (by rw [hn, Nat.mul_assoc]) (by omega) w hw
        omega

lemma block_angle (n l1 ip m j f : ℕ) (hn : n = l1 * (ip * m)) (hl : l1 ≠ 0) :
    (f : ℝ) * (((j * l1 : ℕ) : ℝ) * (2 * Real.pi / (n : ℝ))) = ang ((f : ℤ) * j) (ip * m) := by
  have : (l1 : ℝ) ≠ 0 := by exact_mod_cast hl
  unfold ang
  rw [hn]
  push_cast
  rw [show (f : ℝ) * (↑j * ↑l1 * (2 * Real.pi / (↑l1 * (↑ip * ↑m)))) =
    (l1 * (2 * Real.pi * (f * j))) / (l1 * (ip * m)) by ring, mul_div_mul_left _ _ this]

/-- The table holds what the passes need. -/
theorem twiddles_tw (n : ℕ) (fs : List ℕ) : ∀ (is l1 : ℕ) (b : Buf), (∀ a ∈ fs, a ≠ 0) → l1 ≠ 0 →
    n = l1 * fs.prod → is + fs.prod = n →
    ∀ pre ip post, fs = pre ++ ip :: post →
      Tw ip post.prod (fun j => from_ (store b (twiddles n is l1 fs))
        (n - ip * post.prod + j * post.prod)) := by
  induction fs with
  | nil => intro is l1 b _ _ _ _ pre ip post h; simp at h
  | cons a t ih =>
    intro is l1 b h0 hl hn hi pre ip post hfs
    cases t with
    | nil =>
      cases pre with
      | nil =>
        simp only [List.nil_append, List.cons.injEq] at hfs
        rw [← hfs.2]
        intro j _ _ f h1 h2
        simp at h2
        omega
      | cons c pre => simp at hfs
    | cons a' t =>
      have ha := h0 a (by simp)
      rw [List.prod_cons] at hn hi
      have hd := div_prod n l1 a _ hl ha hn
      have hs := prod_split a (a' :: t).prod ha
      rw [twiddles_cons, hd]
      have h0' : ∀ c ∈ a' :: t, c ≠ 0 := fun c hc => h0 c (by simp [hc])
      have hn' : n = l1 * a * (a' :: t).prod := by rw [hn, Nat.mul_assoc]
      have hi' : is + (a - 1) * (a' :: t).prod + (a' :: t).prod = n := by omega
      cases pre with
      | cons c pre =>
        simp only [List.cons_append, List.cons.injEq] at hfs
        rw [store_append]
        exact ih _ _ _ h0' (Nat.mul_ne_zero hl ha) hn' hi' pre ip post hfs.2
      | nil =>
        simp only [List.nil_append, List.cons.injEq] at hfs
        obtain ⟨rfl, hpost⟩ := hfs
        rw [← hpost]
        generalize hm : (a' :: t).prod = m at *
        intro j hj1 hj2 f hf1 hf2
        have hbase : n - a * m = is := by omega
        have key : ∀ (t' : ℕ) (v : ℝ), (is + (t' + m * (j - 1)), v) ∈ block n is l1 a m →
            t' < m → (∀ w ∈ block n is l1 a m, w.1 = is + (t' + m * (j - 1)) → w.2 = v) →
            store b (block n is l1 a m ++ twiddles n (is + (a - 1) * m) (l1 * a) (a' :: t))
              (is + (j - 1) * m + t') = v := by
          intro t' v hv ht hall
          have e : is + (j - 1) * m + t' = is + (t' + m * (j - 1)) := by
            rw [Nat.mul_comm (j - 1)]; omega
          rw [e, store_append, store_not_mem, store_mem _ _ _ v hall ⟨_, hv, rfl⟩]
          intro w hw he
          have h1 := (twiddles_addr n (a' :: t) (is + (a - 1) * m) (l1 * a) h0'
            (Nat.mul_ne_zero hl ha) (by rw [hm]; exact hn') (by rw [hm]; exact hi') w hw).1
          have h2 := (block_addr hv).2
          simp only at h2
          omega
        have uniq : ∀ w ∈ block n is l1 a m, ∀ t', t' < m → w.1 = is + (t' + m * (j - 1)) →
            ∃ f', (1 ≤ f' ∧ 2 * f' < m) ∧
            ((t' = 2 * f' - 2 ∧ w.2 = Real.cos (ang ((f' : ℤ) * j) (a * m))) ∨
              (t' = 2 * f' - 1 ∧ w.2 = Real.sin (ang ((f' : ℤ) * j) (a * m)))) := by
          intro w hw t' ht' he
          obtain ⟨j', hj', f', hf', hw⟩ := (mem_block ..).1 hw
          rw [block_angle n l1 a m j' f' hn hl] at hw
          refine ⟨f', hf', ?_⟩
          rcases hw with rfl | rfl
          · simp only [Nat.add_left_cancel_iff] at he
            obtain ⟨e1, e2⟩ := addr_inj m _ _ _ _ (by omega) ht' he
            have : j' = j := by omega
            subst this
            exact Or.inl ⟨e1.symm, rfl⟩
          · simp only [Nat.add_left_cancel_iff] at he
            obtain ⟨e1, e2⟩ := addr_inj m _ _ _ _ (by omega) ht' he
            have : j' = j := by omega
            subst this
            exact Or.inr ⟨e1.symm, rfl⟩
        rw [hbase]
        refine ⟨?_, ?_⟩
        · refine key (2 * f - 2) _ ((mem_block ..).2 ⟨j, ⟨hj1, hj2⟩, f, ⟨hf1, hf2⟩, Or.inl ?_⟩)
            (by omega) ?_
          · rw [block_angle n l1 a m j f hn hl]
          · intro w hw he
            obtain ⟨f', hf', h | h⟩ := uniq w hw _ (by omega) he
            · have : f' = f := by omega
              rw [h.2, this]
            · omega
        · refine key (2 * f - 1) _ ((mem_block ..).2 ⟨j, ⟨hj1, hj2⟩, f, ⟨hf1, hf2⟩, Or.inr ?_⟩)
            (by omega) ?_
          · rw [block_angle n l1 a m j f hn hl]
          · intro w hw he
            obtain ⟨f', hf', h | h⟩ := uniq w hw _ (by omega) he
            · omega
            · have : f' = f := by omega
              rw [h.2, this]

/-! ## The passes -/

/-- The array that holds the data. -/
def St.data (s : St) : Buf := if s.na = 1 then s.c else s.h

lemma exchange_spec (x : ℕ → ℝ) (l1 ip m iw : ℕ) (s : St) (ws : Buf → List (ℕ × ℝ)) (hm : m ≠ 0)
    (hna : s.na = 0 ∨ s.na = 1)
    (hf : ∀ v ∈ ws s.data, Fits x l1 (ip * m) v) (hc : Covers ip m l1 (ws s.data)) :
    ∃ s', exchange (ip * m * l1) (1 - s.na) l1 iw s ws = .ok s' ∧ s'.l2 = l1 ∧ s'.iw = iw ∧
      (s'.na = 0 ∨ s'.na = 1) ∧ Stage x l1 (ip * m) s'.data := by
  unfold exchange
  rcases hna with h | h
  · have hd : s.data = s.h := by simp [St.data, h]
    rw [hd] at hf hc
    obtain ⟨p1, p2⟩ := stage_pass x ip m l1 s.c _ hm hf hc
    rw [h, if_pos (by omega), p1]
    exact ⟨_, rfl, rfl, rfl, Or.inr rfl, by simpa [St.data] using p2⟩
  · have hd : s.data = s.c := by simp [St.data, h]
    rw [hd] at hf hc
    obtain ⟨p1, p2⟩ := stage_pass x ip m l1 s.h _ hm hf hc
    rw [h, if_neg (by omega), p1]
    exact ⟨_, rfl, rfl, rfl, Or.inl rfl, by simpa [St.data] using p2⟩

theorem pass_spec (x : ℕ → ℝ) (n l1 ip m : ℕ) (wa : Buf) (s : St) (hl : l1 ≠ 0) (hm : m ≠ 0)
    (hn : n = ip * m * l1) (hl2 : s.l2 = ip * l1) (hiw : s.iw = n + 1 - m)
    (hna : s.na = 0 ∨ s.na = 1)
    (hip : ip = 2 ∨ ip = 4 ∨ (ip % 2 = 1 ∧ 3 ≤ ip ∧ m % 2 = 1))
    (hs : Stage x (ip * l1) m s.data)
    (hw : Tw ip m (fun j => from_ wa (n - ip * m + j * m))) :
    ∃ s', pass n wa s ip = .ok s' ∧ s'.l2 = l1 ∧ s'.iw = n + 1 - ip * m ∧
      (s'.na = 0 ∨ s'.na = 1) ∧ Stage x l1 (ip * m) s'.data := by
  have hip0 : ip ≠ 0 := by omega
  have e1 : s.l2 / ip = l1 := by
    rw [hl2]; exact Nat.mul_div_cancel_left _ (by omega)
  have e2 : n / s.l2 = m := by
    rw [hn, hl2, show ip * m * l1 = ip * l1 * m by ring]
    exact Nat.mul_div_cancel_left _ (Nat.mul_pos (by omega) (by omega))
  have hsplit := prod_split ip m hip0
  have hle : ip * m ≤ n := by rw [hn]; exact Nat.le_mul_of_pos_right _ (by omega)
  have e3 : s.iw - (ip - 1) * m = n + 1 - ip * m := by omega
  have e4 : n + 1 - ip * m - 1 = n - ip * m := by omega
  unfold pass
  dsimp only
  rw [e1, e2, e3, e4]
  rcases hip with rfl | rfl | ⟨ho, h3, hodd⟩
  · rw [if_neg (by omega), if_pos rfl, hn]
    rw [hn] at hw
    exact exchange_spec x l1 2 m _ s _ hm hna 
        (radf2_fits x l1 m _ (fun j => from_ wa (2 * m * l1 - 2 * m + j * m)) hm hs hw)
      (radf2_covers l1 m _ _ hm)
  · rw [if_pos rfl, hn]
    rw [hn] at hw
    exact exchange_spec x l1 4 m _ s _ hm hna 
        (radf4_fits x l1 m _ (fun j => from_ wa (4 * m * l1 - 4 * m + j * m)) hm hs hw)
      (radf4_covers l1 m _ _ _ _ hm)
  · rw [if_neg (by omega), if_neg (by omega)]
    by_cases h : ip = 3
    · subst h
      rw [if_pos rfl, hn]
      rw [hn] at hw
      exact exchange_spec x l1 3 m _ s _ hm hna 
        (radf3_fits x l1 m _ (fun j => from_ wa (3 * m * l1 - 3 * m + j * m)) hm hs hw)
        (radf3_covers l1 m _ _ _ hodd)
    rw [if_neg h]
    by_cases h : ip = 5
    · subst h
      rw [if_pos rfl, hn]
      rw [hn] at hw
      exact exchange_spec x l1 5 m _ s _ hm hna 
        (radf5_fits x l1 m _ (fun j => from_ wa (5 * m * l1 - 5 * m + j * m)) hm hs hw)
        (radf5_covers l1 m _ _ _ _ _ hodd)
    rw [if_neg h]
    have hw' : Tw ip m (fun j => from_ (from_ wa (n - ip * m + 0 * m)) (j * m)) := by
      have : (fun j => from_ (from_ wa (n - ip * m + 0 * m)) (j * m)) =
          (fun j => from_ wa (n - ip * m + j * m)) := by
        funext j i
        simp only [from_]
        congr 1
        omega
      rw [this]
      exact hw
    obtain ⟨r, hr⟩ : ∃ r, ip = 2 * r + 1 := ⟨ip / 2, by omega⟩
    have main := fun c h hst =>
      radfg_spec x l1 ip m r c h (from_ wa (n - ip * m + 0 * m)) hr hodd hst hw'
    rw [← hn] at main
    rcases hna with hna | hna
    · have hd : s.data = s.h := by simp [St.data, hna]
      rw [hd] at hs
      by_cases h1 : m = 1
      · obtain ⟨c', h', m1, m2⟩ := main s.c s.h (by rw [if_pos h1]; exact hs)
        rw [if_pos h1, hna, if_neg (by omega), m1]
        exact ⟨_, rfl, rfl, rfl, Or.inr rfl, by simpa [St.data] using m2⟩
      · obtain ⟨c', h', m1, m2⟩ := main s.h s.c (by rw [if_neg h1]; exact hs)
        rw [if_neg h1, hna, if_pos (by omega), m1]
        exact ⟨_, rfl, rfl, rfl, Or.inl rfl, by simpa [St.data] using m2⟩
    · have hd : s.data = s.c := by simp [St.data, hna]
      rw [hd] at hs
      by_cases h1 : m = 1
      · obtain ⟨c', h', m1, m2⟩ := main s.h s.c (by rw [if_pos h1]; exact hs)
        rw [if_pos h1, hna, if_pos (by omega), m1]
        exact ⟨_, rfl, rfl, rfl, Or.inl rfl, by simpa [St.data] using m2⟩
      · obtain ⟨c', h', m1, m2⟩ := main s.c s.h (by rw [if_neg h1]; exact hs)
        rw [if_neg h1, hna, if_neg (by omega), m1]
        exact ⟨_, rfl, rfl, rfl, Or.inr rfl, by simpa [St.data] using m2⟩

lemma prod_odd (l : List ℕ) (h : ∀ a ∈ l, a % 2 = 1) : l.prod % 2 = 1 := by
  induction l with
  | nil => rfl
  | cons a t ih =>
    rw [List.prod_cons, Nat.mul_mod, h a (by simp), ih (fun b hb => h b (by simp [hb]))]

lemma prod_ne_zero' (l : List ℕ) (h : ∀ a ∈ l, a ≠ 0) : l.prod ≠ 0 := by
  induction l with
  | nil => simp
  | cons a t ih =>
    rw [List.prod_cons]
    exact Nat.mul_ne_zero (h a (by simp)) (ih (fun b hb => h b (by simp [hb])))

theorem passes_spec (x : ℕ → ℝ) (n : ℕ) (wa : Buf) (fs : List ℕ) (hg : Good fs)
    (hn : fs.prod = n)
    (hw : ∀ pre ip post, fs = pre ++ ip :: post →
      Tw ip post.prod (fun j => from_ wa (n - ip * post.prod + j * post.prod))) :
    ∀ (gs post : List ℕ) (s : St), fs = gs.reverse ++ post → s.l2 = gs.prod →
      s.iw = n + 1 - post.prod → (s.na = 0 ∨ s.na = 1) → Stage x gs.prod post.prod s.data →
      ∃ s', loop (pass n wa) s gs = .ok s' ∧ (s'.na = 0 ∨ s'.na = 1) ∧ Stage x 1 n s'.data := by
  intro gs
  induction gs with
  | nil =>
    intro post s hfs _ _ hna hs
    refine ⟨s, rfl, hna, ?_⟩
    simp only [List.reverse_nil, List.nil_append] at hfs
    rw [← hfs, hn] at hs
    simpa using hs
  | cons ip gs ih =>
    intro post s hfs hl2 hiw hna hs
    have hfs' : fs = gs.reverse ++ ip :: post := by rw [hfs]; simp
    have h0 : ∀ a ∈ fs, a ≠ 0 := fun a ha => by have := hg.two_le a ha; omega
    have hg0 : gs.prod ≠ 0 := prod_ne_zero' gs (fun a ha => h0 a (by rw [hfs']; simp [ha]))
    have hp0 : post.prod ≠ 0 := prod_ne_zero' post (fun a ha => h0 a (by rw [hfs']; simp [ha]))
    have hnn : n = ip * post.prod * gs.prod := by
      rw [← hn, hfs', List.prod_append, List.prod_reverse, List.prod_cons]; ring
    have hipg := hg.2 ip (by rw [hfs']; simp)
    have hodd : ip % 2 = 1 → post.prod % 2 = 1 := by
      intro ho
      refine prod_odd _ (fun a ha => ?_)
      have := hg.1
      rw [hfs', List.pairwise_append] at this
      exact (List.pairwise_cons.1 this.2.1).1 a ha ho
    rw [List.prod_cons] at hl2 hs
    obtain ⟨s', p1, p2, p3, p4, p5⟩ := pass_spec x n gs.prod ip post.prod wa s hg0 hp0 hnn hl2 hiw
      hna (by rcases hipg with h | h | h
              · exact Or.inl h
              · exact Or.inr (Or.inl h)
              · exact Or.inr (Or.inr ⟨h.1, h.2, hodd h.1⟩)) hs (hw _ _ _ hfs')
    obtain ⟨s'', q1, q2, q3⟩ := ih (ip :: post) s' hfs' p2 (by rw [List.prod_cons]; exact p3) p4
      (by rw [List.prod_cons]; exact p5)
    refine ⟨s'', ?_, q2, q3⟩
    rw [loop, p1]
    exact q1

/-- **The Fourier transform.** -/
theorem rfftf1_spec (n : ℕ) (hn : 2 ≤ n) (x ch wa0 : Buf) (fs : List ℕ)
    (hfs : factors n = some fs) :
    put n wa0 (twiddles n 0 1 fs) = .ok (store wa0 (twiddles n 0 1 fs)) ∧
    ∃ c h, rfftf1 n x ch (store wa0 (twiddles n 0 1 fs)) fs = .ok (c, h) ∧
      ∀ t, t < n → c t = hc n x t := by
  obtain ⟨fs', f1, f2, f3⟩ := factors_spec n hn
  rw [hfs] at f1
  cases f1
  have h0 : ∀ a ∈ fs, a ≠ 0 := fun a ha => by have := f3.two_le a ha; omega
  refine ⟨put_ok _ _ _ (fun w hw => (twiddles_addr n fs 0 1 h0 (by omega) (by rw [f2, Nat.one_mul])
    (by rw [f2, Nat.zero_add]) w hw).2), ?_⟩
  have htw := twiddles_tw n fs 0 1 wa0 h0 (by omega) (by rw [f2, Nat.one_mul])
    (by rw [f2, Nat.zero_add])
  have hstage : Stage x n 1 x := by
    intro k _ t ht
    obtain rfl : t = 0 := by omega
    rw [hc_zero]
    simp [dre, ang_zero]
  obtain ⟨s, s1, s2, s3⟩ := passes_spec x n _ fs f3 f2 htw fs.reverse [] ⟨x, ch, 1, n, n⟩ (by simp)
    (by simp [f2]) (by simp) (Or.inr rfl) (by
      rw [List.prod_reverse, f2]
      simpa [St.data] using hstage)
  have hend : ∀ t, t < n → s.data t = hc n x t := by
    intro t ht
    have := s3 0 (by omega) t ht
    simpa using this
  unfold rfftf1
  rw [s1]
  dsimp only
  rcases s2 with h | h
  · rw [if_neg (by omega), put_ok _ _ _ (by
      intro w hw
      obtain ⟨i, hi, rfl⟩ := List.mem_map.1 hw
      exact List.mem_range.1 hi)]
    refine ⟨_, _, rfl, fun t ht => ?_⟩
    rw [← hend t ht]
    have hd : s.data = s.h := by simp [St.data, h]
    rw [hd]
    refine store_mem _ _ _ _ ?_ ⟨_, List.mem_map.2 ⟨t, List.mem_range.2 ht, rfl⟩, rfl⟩
    intro w hw he
    obtain ⟨i, _, rfl⟩ := List.mem_map.1 hw
    simp only at he
    rw [he]
  · rw [if_pos h]
    refine ⟨_, _, rfl, fun t ht => ?_⟩
    rw [← hend t ht]
    simp [St.data, h]

end Marley.Fft
