import Verif.Spec.Sampling
import Mathlib.Tactic.Linarith
import Mathlib.Tactic.FieldSimp
import Mathlib.Tactic.NormNum
import Mathlib.Tactic.SplitIfs

/-! Lemmas for rounding and sampling. -/

set_option autoImplicit false

namespace Marley.Sampling
open Marley

/-! ## Rounding to 53 bits -/

theorem roundEven_int (n : Int) : roundEven (n : ℝ) = n := by
  simp [roundEven]

theorem floor_le_roundEven (x : ℝ) : ⌊x⌋ ≤ roundEven x := by
  unfold roundEven; split_ifs <;> omega

theorem roundEven_le (x : ℝ) : roundEven x ≤ ⌊x⌋ + 1 := by
  unfold roundEven; split_ifs <;> omega

theorem roundEven_mono : Monotone roundEven := by
  intro x y h
  rcases (Int.floor_le_floor h).lt_or_eq with hl | he
  · have := floor_le_roundEven y
    have := roundEven_le x
    omega
  · have hf : Int.fract x ≤ Int.fract y := by
      unfold Int.fract; rw [he]; linarith
    unfold roundEven
    rw [he]
    split_ifs <;> first | omega | linarith

theorem two_zpow_pos (n : Int) : (0 : ℝ) < 2 ^ n := zpow_pos (by norm_num) n

theorem ulp_pos (x : ℝ) : 0 < ulp x := two_zpow_pos _

theorem log_le {x : ℝ} (h : 0 < x) : (2 : ℝ) ^ Int.log 2 x ≤ x := by
  simpa using Int.zpow_log_le_self (b := 2) (by norm_num) h

theorem lt_log (x : ℝ) : x < (2 : ℝ) ^ (Int.log 2 x + 1) := by
  simpa using Int.lt_zpow_succ_log_self (b := 2) (by norm_num) x

theorem log_eq {x : ℝ} {n : Int} (h1 : (2 : ℝ) ^ n ≤ x) (h2 : x < (2 : ℝ) ^ (n + 1)) :
    Int.log 2 x = n := by
  have hx : 0 < x := lt_of_lt_of_le (two_zpow_pos n) h1
  have a := (Int.zpow_le_iff_le_log (b := 2) (by norm_num) hx (x := n)).1 (by simpa using h1)
  have b := (Int.lt_zpow_iff_log_lt (b := 2) (by norm_num) hx (x := n + 1)).1 (by simpa using h2)
  omega

theorem pow_div_ulp (x : ℝ) : (2 : ℝ) ^ Int.log 2 x / ulp x = 2 ^ (52 : ℕ) := by
  unfold ulp
  rw [← zpow_sub₀ (by norm_num), show Int.log 2 x - (Int.log 2 x - 52) = ((52 : ℕ) : ℤ) by norm_num,
    zpow_natCast]

theorem pow_succ_div_ulp (x : ℝ) : (2 : ℝ) ^ (Int.log 2 x + 1) / ulp x = 2 ^ (53 : ℕ) := by
  unfold ulp
  rw [← zpow_sub₀ (by norm_num),
    show Int.log 2 x + 1 - (Int.log 2 x - 52) = ((53 : ℕ) : ℤ) by push_cast; ring, zpow_natCast]

/-- The significand lies between 2^52 and 2^53. -/
theorem significand {x : ℝ} (h : 0 < x) :
    2 ^ (52 : ℕ) ≤ roundEven (x / ulp x) ∧ roundEven (x / ulp x) ≤ 2 ^ (53 : ℕ) := by
  constructor
  · have := roundEven_mono ((div_le_div_iff_of_pos_right (ulp_pos x)).2 (log_le h))
    rw [pow_div_ulp] at this
    have e : ((2 : ℝ) ^ (52 : ℕ)) = (((2 : Int) ^ (52 : ℕ) : Int) : ℝ) := by norm_num
    rwa [e, roundEven_int] at this
  · have := roundEven_mono ((div_le_div_iff_of_pos_right (ulp_pos x)).2 (lt_log x).le)
    rw [pow_succ_div_ulp] at this
    have e : ((2 : ℝ) ^ (53 : ℕ)) = (((2 : Int) ^ (53 : ℕ) : Int) : ℝ) := by norm_num
    rwa [e, roundEven_int] at this

theorem round53_bounds {x : ℝ} (h : 0 < x) :
    (2 : ℝ) ^ Int.log 2 x ≤ round53 x ∧ round53 x ≤ (2 : ℝ) ^ (Int.log 2 x + 1) := by
  obtain ⟨h1, h2⟩ := significand h
  rw [round53, if_pos h]
  have h1' : ((2 : ℝ) ^ (52 : ℕ)) ≤ (roundEven (x / ulp x) : ℝ) := by exact_mod_cast h1
  have h2' : (roundEven (x / ulp x) : ℝ) ≤ (2 : ℝ) ^ (53 : ℕ) := by exact_mod_cast h2
  rw [← pow_div_ulp x, div_le_iff₀ (ulp_pos x)] at h1'
  rw [← pow_succ_div_ulp x, le_div_iff₀ (ulp_pos x)] at h2'
  exact ⟨h1', h2'⟩

theorem round53_mono_pos {x y : ℝ} (h : 0 < x) (hxy : x ≤ y) : round53 x ≤ round53 y := by
  have hy : 0 < y := lt_of_lt_of_le h hxy
  rcases (Int.log_mono_right h hxy : Int.log 2 x ≤ Int.log 2 y).lt_or_eq with hl | he
  · have h1 := (round53_bounds h).2
    have h2 := (round53_bounds hy).1
    have h3 : (2 : ℝ) ^ (Int.log 2 x + 1) ≤ (2 : ℝ) ^ Int.log 2 y :=
      zpow_le_zpow_right₀ (by norm_num) (by omega)
    linarith
  · have hu : ulp x = ulp y := by unfold ulp; rw [he]
    rw [round53, round53, if_pos h, if_pos hy, hu]
    refine mul_le_mul_of_nonneg_right ?_ (ulp_pos y).le
    exact_mod_cast roundEven_mono ((div_le_div_iff_of_pos_right (ulp_pos y)).2 hxy)

theorem round53_pos {x : ℝ} (h : 0 < x) : 0 < round53 x :=
  lt_of_lt_of_le (two_zpow_pos _) (round53_bounds h).1

theorem round53_neg (x : ℝ) : round53 (-x) = -round53 x := by
  unfold round53
  rcases lt_trichotomy x 0 with h | h | h
  · rw [if_pos (by linarith), if_neg (by linarith), if_pos h, neg_neg]
  · subst h; simp
  · rw [if_neg (by linarith), if_pos (by linarith), if_pos h, neg_neg]

theorem round53_zero : round53 0 = 0 := by simp [round53]

theorem round53_mono : Monotone round53 := by
  intro x y h
  rcases lt_trichotomy 0 x with hx | hx | hx
  · exact round53_mono_pos hx h
  · subst hx
    rw [round53_zero]
    rcases h.lt_or_eq with h | h
    · exact (round53_pos h).le
    · rw [← h, round53_zero]
  · rcases lt_trichotomy 0 y with hy | hy | hy
    · have := round53_pos (by linarith : 0 < -x)
      rw [round53_neg] at this
      have := round53_pos hy
      linarith
    · subst hy
      have := round53_pos (by linarith : 0 < -x)
      rw [round53_neg] at this
      rw [round53_zero]; linarith
    · have := round53_mono_pos (by linarith : 0 < -y) (by linarith : -y ≤ -x)
      rw [round53_neg, round53_neg] at this
      linarith

/-- Numbers with 53 bits are not changed by rounding. -/
theorem round53_rep (k e : Int) (h1 : 2 ^ (52 : ℕ) ≤ k) (h2 : k ≤ 2 ^ (53 : ℕ)) :
    round53 (k * 2 ^ e) = k * 2 ^ e := by
  have h1' : ((2 : ℝ) ^ (52 : ℕ)) ≤ (k : ℝ) := by exact_mod_cast h1
  have hk : (0 : ℝ) < k := lt_of_lt_of_le (by positivity) h1'
  have hx : (0 : ℝ) < k * 2 ^ e := mul_pos hk (two_zpow_pos e)
  rw [round53, if_pos hx]
  rcases h2.lt_or_eq with h2 | h2
  · have h2' : (k : ℝ) < (2 : ℝ) ^ (53 : ℕ) := by exact_mod_cast h2
    have hlog : Int.log 2 ((k : ℝ) * 2 ^ e) = e + 52 := by
      apply log_eq
      · rw [show e + 52 = ((52 : ℕ) : ℤ) + e by push_cast; ring, zpow_add₀ (by norm_num),
          zpow_natCast]
        exact mul_le_mul_of_nonneg_right h1' (two_zpow_pos e).le
      · rw [show e + 52 + 1 = ((53 : ℕ) : ℤ) + e by push_cast; ring, zpow_add₀ (by norm_num),
          zpow_natCast]
        exact mul_lt_mul_of_pos_right h2' (two_zpow_pos e)
    have hu : ulp ((k : ℝ) * 2 ^ e) = 2 ^ e := by
      unfold ulp; rw [hlog]; congr 1; ring
    rw [hu, mul_div_assoc, div_self (two_zpow_pos e).ne', mul_one, roundEven_int]
  · have hv : (k : ℝ) * 2 ^ e = 2 ^ (e + 53) := by
      rw [h2]
      rw [show e + 53 = ((53 : ℕ) : ℤ) + e by push_cast; ring, zpow_add₀ (by norm_num),
        zpow_natCast]
      norm_num
    rw [hv]
    have hlog : Int.log 2 ((2 : ℝ) ^ (e + 53)) = e + 53 :=
      log_eq (le_refl _) (zpow_lt_zpow_right₀ (by norm_num) (by omega))
    have hu : ulp ((2 : ℝ) ^ (e + 53)) = 2 ^ (e + 1) := by
      unfold ulp; rw [hlog]; congr 1; ring
    have hq : (2 : ℝ) ^ (e + 53) / 2 ^ (e + 1) = (((2 : Int) ^ (52 : ℕ) : Int) : ℝ) := by
      rw [← zpow_sub₀ (by norm_num), show e + 53 - (e + 1) = ((52 : ℕ) : ℤ) by push_cast; ring,
        zpow_natCast]
      norm_num
    rw [hu, hq, roundEven_int, ← hq, div_mul_cancel₀ _ (two_zpow_pos _).ne']

theorem exact_lawful : exact.Lawful where
  mono := monotone_id
  zero := rfl
  next_ge := fun _ => le_refl _
  next_rep := fun _ _ => rfl

theorem binary64_lawful : binary64.Lawful where
  mono := round53_mono
  zero := round53_zero
  next_ge := by
    intro x
    unfold binary64
    dsimp only
    split_ifs
    · have := ulp_pos x; linarith
    · exact le_refl _
  next_rep := by
    intro x hx
    unfold binary64 at hx ⊢
    dsimp only at hx ⊢
    split_ifs with h
    · obtain ⟨h1, h2⟩ := significand h
      have e := hx
      rw [round53, if_pos h] at e
      rcases h2.lt_or_eq with h2 | h2
      · have := round53_rep (roundEven (x / ulp x) + 1) (Int.log 2 x - 52) (by omega) (by omega)
        have hv : ((roundEven (x / ulp x) + 1 : Int) : ℝ) * 2 ^ (Int.log 2 x - 52) = x + ulp x := by
          push_cast
          change ((roundEven (x / ulp x) : ℝ) + 1) * ulp x = x + ulp x
          rw [add_mul, e, one_mul]
        rwa [hv] at this
      · exfalso
        have := lt_log x
        have h3 := pow_succ_div_ulp x
        rw [div_eq_iff (ulp_pos x).ne'] at h3
        rw [h3] at this
        rw [h2] at e
        push_cast at e
        linarith
    · exact hx

/-! ## Uniform numbers -/

variable {G : Type}

theorem uniform_ge {A : Arith} (hA : A.Lawful) {E : Engine G} (hE : E.Lawful) {min max : ℝ}
    (incl : Bool) (hr : A.rd min = min) (h : min ≤ max) (g : G) :
    min ≤ (uniform A E min max incl g).1 := by
  unfold uniform
  dsimp only
  generalize hb : (if incl then A.next max else max) = b
  have hmb : min ≤ b := by
    rw [← hb]
    split_ifs
    · exact h.trans (hA.next_ge _)
    · exact h
  have h1 : 0 ≤ A.rd (b - min) := by
    rw [← hA.zero]; exact hA.mono (by linarith)
  have h2 : 0 ≤ A.rd ((E.draw g).1 * A.rd (b - min)) := by
    rw [← hA.zero]; exact hA.mono (mul_nonneg (hE g).1 h1)
  calc min = A.rd min := hr.symm
    _ ≤ _ := hA.mono (by linarith)

/-- The largest number the library can return when `b` is the open end. -/
theorem uniform_le {A : Arith} (hA : A.Lawful) {E : Engine G} (hE : E.Lawful) {min max : ℝ}
    (incl : Bool) (hr : A.rd max = max)
    (hd : A.rd ((if incl then A.next max else max) - min)
      = (if incl then A.next max else max) - min) (h : min ≤ max) (g : G) :
    (uniform A E min max incl g).1 ≤ if incl then A.next max else max := by
  unfold uniform
  dsimp only
  have hb : A.rd (if incl then A.next max else max) = if incl then A.next max else max := by
    split_ifs
    · exact hA.next_rep _ hr
    · exact hr
  have hmb : min ≤ (if incl then A.next max else max) := by
    split_ifs
    · exact h.trans (hA.next_ge _)
    · exact h
  generalize (if incl then A.next max else max) = b at *
  have h2 : A.rd ((E.draw g).1 * A.rd (b - min)) ≤ b - min := by
    have h3 : (E.draw g).1 * A.rd (b - min) ≤ b - min := by
      rw [hd]
      have := (hE g).2
      nlinarith
    calc _ ≤ A.rd (b - min) := hA.mono h3
      _ = b - min := hd
  calc _ ≤ A.rd b := hA.mono (by linarith)
    _ = b := hb

/-! ## Minimisation -/

theorem sqrtEps_pos : 0 < sqrtEps := Real.sqrt_pos.2 (two_zpow_pos _)

theorem tol_pos (s : Brent) {ε : ℝ} (h : 0 < ε) : 0 < s.tol ε := by
  have := mul_nonneg sqrtEps_pos.le (abs_nonneg s.x)
  unfold Brent.tol; linarith

theorem golden_bounds : 0 < golden ∧ golden < 1 / 2 := by
  have h1 : (2 : ℝ) < Real.sqrt 5 := by
    rw [show (2 : ℝ) = Real.sqrt 4 by
      rw [show (4 : ℝ) = 2 ^ 2 by norm_num, Real.sqrt_sq (by norm_num)]]
    exact Real.sqrt_lt_sqrt (by norm_num) (by norm_num)
  have h2 : Real.sqrt 5 < 3 := by
    rw [Real.sqrt_lt' (by norm_num)]; norm_num
  unfold golden
  constructor <;> linarith

/-- The next abscissa lies in the bracket. -/
theorem probe_mem (s : Brent) {ε : ℝ} (hε : 0 < ε) (ha : s.a ≤ s.x) (hb : s.x ≤ s.b)
    (hc : s.continues ε) :
    s.a ≤ s.probe ε (s.step ε).1 ∧ s.probe ε (s.step ε).1 ≤ s.b := by
  have ht := tol_pos s hε
  obtain ⟨g0, g1⟩ := golden_bounds
  unfold Brent.continues at hc
  -- room on the side of the farther end
  have hl : s.x < 0.5 * (s.a + s.b) → 2 * s.tol ε < s.b - s.x := by
    intro h
    rw [abs_of_neg (by linarith)] at hc
    linarith
  have hr : ¬ s.x < 0.5 * (s.a + s.b) → 2 * s.tol ε < s.x - s.a := by
    intro h
    rw [abs_of_nonneg (by linarith)] at hc
    linarith
  -- a step of length at most `tol` towards the farther end
  have hshort : ∀ d, (s.x < 0.5 * (s.a + s.b) → 0 < d ∧ s.x + d ≤ s.b) →
      (¬ s.x < 0.5 * (s.a + s.b) → d < 0 ∧ s.a ≤ s.x + d) →
      s.a ≤ s.probe ε d ∧ s.probe ε d ≤ s.b := by
    intro d h1 h2
    unfold Brent.probe
    dsimp only
    by_cases hx : s.x < 0.5 * (s.a + s.b)
    · obtain ⟨h3, h4⟩ := h1 hx
      have := hl hx
      split_ifs <;> constructor <;> linarith
    · obtain ⟨h3, h4⟩ := h2 hx
      have := hr hx
      split_ifs <;> constructor <;> linarith
  have hgold : ∀ e, e = (if s.x < 0.5 * (s.a + s.b) then s.b else s.a) - s.x →
      s.a ≤ s.probe ε (golden * e) ∧ s.probe ε (golden * e) ≤ s.b := by
    rintro e rfl
    apply hshort
    · intro h
      rw [if_pos h]
      have := hl h
      constructor
      · exact mul_pos g0 (by linarith)
      · nlinarith
    · intro h
      rw [if_neg h]
      have := hr h
      constructor
      · nlinarith
      · nlinarith
  have htol : s.a ≤ s.probe ε (if s.x < 0.5 * (s.a + s.b) then s.tol ε else -s.tol ε) ∧
      s.probe ε (if s.x < 0.5 * (s.a + s.b) then s.tol ε else -s.tol ε) ≤ s.b := by
    apply hshort
    · intro h
      rw [if_pos h]
      have := hl h
      constructor <;> linarith
    · intro h
      rw [if_neg h]
      have := hr h
      constructor <;> linarith
  unfold Brent.step
  dsimp only
  generalize hp : (if |s.e| > s.tol ε then _ else _ : ℝ × ℝ × ℝ × ℝ) = t
  obtain ⟨p, q, r, e⟩ := t
  have hq : 0 ≤ q := by
    split_ifs at hp
    · simp only [Prod.mk.injEq] at hp; obtain ⟨_, rfl, _⟩ := hp; linarith
    · simp only [Prod.mk.injEq] at hp; obtain ⟨_, rfl, _⟩ := hp; linarith
    · simp only [Prod.mk.injEq] at hp; obtain ⟨_, rfl, _⟩ := hp; exact le_refl _
  dsimp only
  split_ifs with h1 h2
  · rwa [if_pos ‹_›] at htol
  · rwa [if_neg ‹_›] at htol
  · exfalso
    obtain ⟨h3, h4, h5⟩ := h1
    have hq' : 0 < q := by
      rcases hq.lt_or_eq with h | h
      · exact h
      · rw [← h] at h3
        simp at h3
        exact absurd h3 (not_lt.2 (abs_nonneg p))
    have : p / q < s.a - s.x := by
      rw [div_lt_iff₀ hq']; linarith
    exact h2 (Or.inl (by linarith))
  · exact hgold _ (by rw [if_pos ‹_›])
  · exact hgold _ (by rw [if_neg ‹_›])

/-- What the loop keeps. -/
structure BrentInv (f : ℝ → ℝ) (l r : ℝ) (s : Brent) (log : List ℝ) : Prop where
  la : l ≤ s.a
  ax : s.a ≤ s.x
  xb : s.x ≤ s.b
  br : s.b ≤ r
  val : s.fx = f s.x
  mem : s.x ∈ log
  best : ∀ z ∈ log, l ≤ z ∧ z ≤ r ∧ s.fx ≤ f z

theorem update_inv {f : ℝ → ℝ} {l r : ℝ} {s : Brent} {log : List ℝ} (h : BrentInv f l r s log)
    {u : ℝ} (hu : s.a ≤ u ∧ u ≤ s.b) (d e : ℝ) :
    BrentInv f l r (s.update d e u (f u)) (u :: log) := by
  obtain ⟨h1, h2, h3, h4, h5, h6, h7⟩ := h
  have hbest : ∀ y, y ≤ s.fx → y ≤ f u → ∀ z ∈ u :: log, l ≤ z ∧ z ≤ r ∧ y ≤ f z := by
    intro y hy hyu z hz
    rcases List.mem_cons.1 hz with rfl | hz
    · exact ⟨h1.trans hu.1, hu.2.trans h4, hyu⟩
    · exact ⟨(h7 z hz).1, (h7 z hz).2.1, hy.trans (h7 z hz).2.2⟩
  unfold Brent.update
  by_cases hle : f u ≤ s.fx
  · rw [if_pos hle]
    refine ⟨?_, ?_, ?_, ?_, rfl, by simp, hbest _ hle (le_refl _)⟩ <;> dsimp only <;>
      split_ifs <;> linarith [hu.1, hu.2]
  · rw [if_neg hle]
    have hle := (not_le.1 hle).le
    dsimp only
    split_ifs with h8 h9 h10 <;>
      exact ⟨by dsimp only; linarith [hu.1, hu.2], by dsimp only; linarith [hu.1, hu.2],
        by dsimp only; linarith [hu.1, hu.2], by dsimp only; linarith [hu.1, hu.2], h5,
        by simp [h6], hbest _ (le_refl _) hle⟩

theorem brentLoop_inv {f : ℝ → ℝ} {l r ε : ℝ} (hε : 0 < ε) (n : Nat) (s : Brent) (log : List ℝ)
    (h : BrentInv f l r s log) {s' : Brent} {log' : List ℝ}
    (e : brentLoop (logged f) ε n s log = some (.ok (s', log'))) :
    BrentInv f l r s' log' ∧ log <:+ log' := by
  induction n generalizing s log with
  | zero => simp [brentLoop] at e
  | succ n ih =>
    rw [brentLoop] at e
    split_ifs at e with hc
    · simp only [logged] at e
      obtain ⟨h1, h2⟩ := ih _ _ (update_inv h (probe_mem s hε h.ax h.xb hc) _ _) e
      exact ⟨h1, (List.suffix_cons _ _).trans h2⟩
    · cases e
      exact ⟨h, List.suffix_refl _⟩

theorem minimize_inv {f : ℝ → ℝ} {l r ε : ℝ} (h : l ≤ r) (hε : 0 < ε) (n : Nat)
    {x y : ℝ} {log log' : List ℝ} (hlog : ∀ z ∈ log, l ≤ z ∧ z ≤ r ∧ f (l + golden * (r - l)) ≤ f z)
    (e : minimize n (logged f) l r ε log = some (.ok (x, y, log'))) :
    l ≤ x ∧ x ≤ r ∧ y = f x ∧ x ∈ log' ∧ ∀ z ∈ log', l ≤ z ∧ z ≤ r ∧ y ≤ f z := by
  obtain ⟨g0, g1⟩ := golden_bounds
  unfold minimize at e
  simp only [logged] at e
  cases hb : brentLoop (logged f) ε n ⟨l, r, l + golden * (r - l), l + golden * (r - l),
      l + golden * (r - l), 0, 0, f (l + golden * (r - l)), f (l + golden * (r - l)),
      f (l + golden * (r - l))⟩ ((l + golden * (r - l)) :: log) with
  | none => rw [hb] at e; simp at e
  | some v =>
    rw [hb] at e
    cases v with
    | error _ => simp at e
    | ok v =>
      obtain ⟨s, st⟩ := v
      simp only [Option.some.injEq, Except.ok.injEq, Prod.mk.injEq] at e
      obtain ⟨rfl, rfl, rfl⟩ := e
      have hin : l ≤ l + golden * (r - l) ∧ l + golden * (r - l) ≤ r := by
        constructor
        · have := mul_nonneg g0.le (sub_nonneg.2 h); linarith
        · nlinarith
      have hi : BrentInv f l r ⟨l, r, l + golden * (r - l), l + golden * (r - l),
          l + golden * (r - l), 0, 0, f (l + golden * (r - l)), f (l + golden * (r - l)),
          f (l + golden * (r - l))⟩ ((l + golden * (r - l)) :: log) :=
        ⟨le_refl _, hin.1, hin.2, le_refl _, rfl, by simp, by
          intro z hz
          rcases List.mem_cons.1 hz with rfl | hz
          · exact ⟨hin.1, hin.2, le_refl _⟩
          · exact hlog z hz⟩
      obtain ⟨⟨h1, h2, h3, h4, h5, h6, h7⟩, -⟩ := brentLoop_inv hε n _ _ hi hb
      exact ⟨h1.trans h2, h3.trans h4, h5, h6, h7⟩

theorem negated_logged (f : ℝ → ℝ) : negated (logged f) = logged (fun x => -1 * f x) := by
  funext x s; rfl

/-! ## Rejection -/

theorem rejectLoop_inv {A : Arith} {E : Engine G} {f : ℝ → ℝ}
    (hf : ∀ x, 0 ≤ f x) {xmin xmax safety lo hi : ℝ} (hs : 1 ≤ safety)
    (hx : ∀ g, lo ≤ (uniform A E xmin xmax true g).1 ∧ (uniform A E xmin xmax true g).1 ≤ hi)
    (hy : ∀ m g, 0 ≤ m → 0 ≤ (uniform A E 0 m true g).1)
    (n : Nat) (m : ℝ) (hm : 0 ≤ m) (g : G) (log : List ℝ) (hl : ∀ z ∈ log, f z ≤ m)
    {r : Sampled G (List ℝ)}
    (e : rejectLoop A E (logged f) xmin xmax safety n m g log = some (.ok r)) :
    lo ≤ r.x ∧ r.x ≤ hi ∧ 0 ≤ r.y ∧ r.y ≤ f r.x ∧ m ≤ r.fmax ∧ r.st.head? = some r.x ∧
      ∀ z ∈ r.st, f z ≤ r.fmax := by
  induction n generalizing m g log with
  | zero => simp [rejectLoop] at e
  | succ n ih =>
    rw [rejectLoop] at e
    simp only [logged] at e
    generalize hxx : uniform A E xmin xmax true g = x at e
    have hx' := hx g
    rw [hxx] at hx'
    generalize hyy : uniform A E 0 m true x.2 = y at e
    have hy' := hy m x.2 hm
    rw [hyy] at hy'
    have hmax : m ≤ (if f x.1 > m then f x.1 * safety else m) := by
      split_ifs with h
      · nlinarith [hf x.1]
      · exact le_refl _
    have hval : f x.1 ≤ (if f x.1 > m then f x.1 * safety else m) := by
      split_ifs with h
      · nlinarith [hf x.1]
      · exact not_lt.1 h
    have hlog : ∀ z ∈ x.1 :: log, f z ≤ (if f x.1 > m then f x.1 * safety else m) := by
      intro z hz
      rcases List.mem_cons.1 hz with rfl | hz
      · exact hval
      · exact (hl z hz).trans hmax
    by_cases hc : y.1 > f x.1
    · rw [if_pos hc] at e
      have := ih _ (hm.trans hmax) y.2 (x.1 :: log) hlog e
      exact ⟨this.1, this.2.1, this.2.2.1, this.2.2.2.1, hmax.trans this.2.2.2.2.1,
        this.2.2.2.2.2⟩
    · rw [if_neg hc] at e
      cases e
      exact ⟨hx'.1, hx'.2, hy', not_lt.1 hc, hmax, rfl, hlog⟩

theorem maximize_inv {f : ℝ → ℝ} {l r ε : ℝ} (h : l ≤ r) (hε : 0 < ε) (n : Nat)
    {x y : ℝ} {log : List ℝ}
    (e : maximize n (logged f) l r ε [] = some (.ok (x, y, log))) :
    l ≤ x ∧ x ≤ r ∧ y = f x ∧ x ∈ log ∧ ∀ z ∈ log, l ≤ z ∧ z ≤ r ∧ f z ≤ y := by
  unfold maximize at e
  rw [negated_logged] at e
  cases hb : minimize n (logged fun x => -1 * f x) l r ε [] with
  | none => rw [hb] at e; simp at e
  | some v =>
    rw [hb] at e
    cases v with
    | error _ => simp at e
    | ok v =>
      obtain ⟨x', y', st⟩ := v
      simp only [Option.some.injEq, Except.ok.injEq, Prod.mk.injEq] at e
      obtain ⟨rfl, rfl, rfl⟩ := e
      obtain ⟨h1, h2, h3, h4, h5⟩ := minimize_inv h hε n (by simp) hb
      refine ⟨h1, h2, by rw [h3]; ring, h4, ?_⟩
      intro z hz
      obtain ⟨h6, h7, h8⟩ := h5 z hz
      exact ⟨h6, h7, by linarith⟩

/-! ## Bisection -/

theorem bisect_range {cdf : ℝ → ℝ} {norm p tol : ℝ} (n : Nat) {a b x : ℝ} (h : a ≤ b)
    (e : bisect cdf norm p tol n a b = some x) : a ≤ x ∧ x ≤ b := by
  induction n generalizing a b with
  | zero => simp [bisect] at e
  | succ n ih =>
    rw [bisect] at e
    dsimp only at e
    split_ifs at e with h1 h2 h3
    · cases e; constructor <;> linarith
    · have := ih (by linarith) e; constructor <;> linarith [this.1, this.2]
    · have := ih (by linarith) e; constructor <;> linarith [this.1, this.2]
    · cases e; constructor <;> linarith

theorem bisect_some (cdf : ℝ → ℝ) (norm p tol : ℝ) (n : Nat) (a b : ℝ)
    (h : b - a ≤ tol * 2 ^ n) : ∃ x, bisect cdf norm p tol (n + 1) a b = some x := by
  induction n generalizing a b with
  | zero =>
    rw [bisect, if_neg (by simpa using h)]
    exact ⟨_, rfl⟩
  | succ n ih =>
    rw [bisect]
    dsimp only
    rw [pow_succ] at h
    split_ifs
    · exact ⟨_, rfl⟩
    · exact ih _ _ (by linarith)
    · exact ih _ _ (by linarith)
    · exact ⟨_, rfl⟩

theorem exists_crossing {F : ℝ → ℝ} {lo hi p a b : ℝ} (hab : a ≤ b) (hla : lo ≤ a) (hbh : b ≤ hi)
    (hF : ∀ s t, lo ≤ s → s ≤ t → t ≤ hi → F s ≤ F t)
    (hl : ∀ t, lo ≤ t → t < a → F t ≤ p) (hr : ∀ t, b < t → t ≤ hi → p ≤ F t) :
    ∃ z, Crosses F lo hi p z ∧ a ≤ z ∧ z ≤ b := by
  set S : Set ℝ := {t | a ≤ t ∧ t ≤ b ∧ (F t ≤ p ∨ t = a)} with hS
  have haS : a ∈ S := ⟨le_refl _, hab, Or.inr rfl⟩
  have hbd : BddAbove S := ⟨b, fun t ht => ht.2.1⟩
  have h1 : a ≤ sSup S := le_csSup hbd haS
  have h2 : sSup S ≤ b := csSup_le ⟨a, haS⟩ (fun t ht => ht.2.1)
  refine ⟨sSup S, ⟨hla.trans h1, h2.trans hbh, ?_, ?_⟩, h1, h2⟩
  · intro t ht htz
    by_cases hta : t < a
    · exact hl t ht hta
    · obtain ⟨s, hs, hts⟩ := exists_lt_of_lt_csSup ⟨a, haS⟩ htz
      rcases hs.2.2 with h | h
      · exact (hF t s ht hts.le (hs.2.1.trans hbh)).trans h
      · exact absurd (h ▸ hts) hta
  · intro t hzt hth
    by_cases htb : b < t
    · exact hr t htb hth
    · by_contra hc
      have : t ∈ S := ⟨h1.trans hzt.le, not_lt.1 htb, Or.inl (not_le.1 hc).le⟩
      exact absurd (le_csSup hbd this) (not_le.2 hzt)

theorem bisect_crosses {cdf : ℝ → ℝ} {norm p tol lo hi : ℝ} (htol : 0 ≤ tol)
    (hF : ∀ s t, lo ≤ s → s ≤ t → t ≤ hi → cdf s / norm ≤ cdf t / norm) (n : Nat) {a b x : ℝ}
    (hab : a ≤ b) (hla : lo ≤ a) (hbh : b ≤ hi)
    (hl : ∀ t, lo ≤ t → t < a → cdf t / norm ≤ p) (hr : ∀ t, b < t → t ≤ hi → p ≤ cdf t / norm)
    (e : bisect cdf norm p tol n a b = some x) :
    ∃ z, Crosses (fun t => cdf t / norm) lo hi p z ∧ |x - z| ≤ tol / 2 := by
  induction n generalizing a b with
  | zero => simp [bisect] at e
  | succ n ih =>
    rw [bisect] at e
    dsimp only at e
    split_ifs at e with h1 h2 h3
    · cases e
      refine ⟨(a + b) / 2, ⟨by linarith, by linarith, ?_, ?_⟩, by simp; linarith⟩
      · intro t ht htz
        rw [← h2]; exact hF t _ ht htz.le (by linarith)
      · intro t htz ht
        rw [← h2]; exact hF _ t (by linarith) htz.le ht
    · refine ih (by linarith) hla (by linarith) hl ?_ e
      intro t ht hth
      exact h3.le.trans (hF _ t (by linarith) ht.le hth)
    · refine ih (by linarith) (by linarith) hbh ?_ hr e
      intro t ht hta
      exact (hF t _ ht hta.le (by linarith)).trans (not_lt.1 h3)
    · cases e
      obtain ⟨z, hz, h4, h5⟩ := exists_crossing (F := fun t => cdf t / norm) hab hla hbh hF hl hr
      refine ⟨z, hz, ?_⟩
      rw [abs_le]
      constructor <;> linarith

theorem half_lawful : half.Lawful := fun _ => by constructor <;> norm_num [half]

end Marley.Sampling
