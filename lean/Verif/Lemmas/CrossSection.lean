import Verif.Spec.CrossSection
import Verif.Lemmas.Discrete
import Mathlib.Analysis.SpecialFunctions.Integrals.Basic

/-!
# Lemmas about doubles with infinities and about cross sections
-/

set_option autoImplicit false

namespace Marley.Val

theorem num_add (a b : ℝ) : num a + num b = num (a + b) := rfl
theorem num_sub (a b : ℝ) : num a - num b = num (a - b) := by
  change num (a + -b) = num (a - b)
  rw [sub_eq_add_neg]
theorem num_mul (a b : ℝ) : num a * num b = num (a * b) := rfl
theorem num_neg (a : ℝ) : -num a = num (-a) := rfl
theorem num_sq (a : ℝ) : (num a).sq = num (a ^ 2) := by
  rw [sq, num_mul, pow_two]
theorem num_div {a b : ℝ} (h : b ≠ 0) : num a / num b = num (a / b) := by
  change div (num a) (num b) = _
  simp [div, h]
theorem num_div_zero (a : ℝ) : num a / num 0 = if a = 0 then nan else inf (decide (a < 0)) := by
  change div (num a) (num 0) = _
  simp [div]
theorem num_sqrt {a : ℝ} (h : 0 ≤ a) : (num a).sqrt = num (Real.sqrt a) := by
  simp [sqrt, not_lt.2 h]
theorem num_rsqrt {a : ℝ} (h : 0 < a) : (num a).rsqrt = num (1 / Real.sqrt a) := by
  simp [rsqrt, not_lt.2 h.le, h.ne']
theorem num_realSqrt (a : ℝ) : (num a).realSqrt = num (Utils.realSqrt a) := by
  unfold realSqrt Utils.realSqrt
  by_cases h : a < 0
  · simp [lt, h]
  · simp [lt, h, sqrt]
theorem num_lt (a b : ℝ) : (num a).lt (num b) = decide (a < b) := rfl
theorem num_le (a b : ℝ) : (num a).le (num b) = decide (a ≤ b) := rfl
theorem num_abs (a : ℝ) : (num a).abs = num |a| := rfl
theorem nan_mul (v : Val) : nan * v = nan := by cases v <;> rfl
theorem mul_nan (v : Val) : v * nan = nan := by cases v <;> rfl

/-- Not less than zero (NaN is not). -/
def NonNeg : Val → Prop
  | num x => 0 ≤ x
  | inf b => b = false
  | nan => True

theorem NonNeg.mul {a b : Val} (ha : a.NonNeg) (hb : b.NonNeg) : (a * b).NonNeg := by
  change (Val.mul a b).NonNeg
  cases a <;> cases b <;> simp only [Val.mul, NonNeg] at *
  · exact mul_nonneg ha hb
  · rename_i x b
    subst hb
    split_ifs
    · trivial
    · simpa [not_lt] using ha
  · rename_i b x
    subst ha
    split_ifs
    · trivial
    · simpa [not_lt] using hb
  · simp [ha, hb]

theorem NonNeg.div {a b : Val} (ha : a.NonNeg) (hb : b.NonNeg) : (a / b).NonNeg := by
  change (Val.div a b).NonNeg
  cases a <;> cases b <;> simp only [Val.div, NonNeg] at *
  · split_ifs
    · trivial
    · simpa [not_lt] using ha
    · exact div_nonneg ha hb
  · exact le_refl _
  · rename_i b x
    subst ha
    split_ifs
    · rfl
    · simpa [not_lt] using hb

theorem NonNeg.sq (a : Val) : a.sq.NonNeg := by
  unfold Val.sq
  change (Val.mul a a).NonNeg
  cases a <;> simp only [Val.mul, NonNeg]
  · exact mul_self_nonneg _
  · simp

theorem NonNeg.sqrt (a : Val) : a.sqrt.NonNeg := by
  cases a <;> simp only [Val.sqrt]
  · split_ifs
    · trivial
    · exact Real.sqrt_nonneg _
  · split_ifs
    · trivial
    · rfl
  · trivial

theorem NonNeg.realSqrt (a : Val) : a.realSqrt.NonNeg := by
  unfold Val.realSqrt
  split_ifs
  · exact le_refl _
  · exact NonNeg.sqrt a

theorem NonNeg.rsqrt (a : Val) : a.rsqrt.NonNeg := by
  cases a <;> simp only [Val.rsqrt]
  · split_ifs
    · trivial
    · rfl
    · exact div_nonneg zero_le_one (Real.sqrt_nonneg _)
  · exact le_refl _
  · trivial

theorem nonNeg_of_le {a : ℝ} {v : Val} (ha : 0 ≤ a) (h : (num a).le v = true) : v.NonNeg := by
  cases v with
  | num x =>
    simp only [le, decide_eq_true_eq] at h
    exact le_trans ha h
  | inf b => simpa [le, NonNeg] using h
  | nan => trivial

end Marley.Val

namespace Marley.Xs
open Marley Marley.Reaction Marley.Sampling Marley.Kin
open Marley.Utils (realSqrt)

variable {G : Type}

theorem realSqrt_nonneg (x : ℝ) : 0 ≤ realSqrt x := by
  unfold realSqrt
  split_ifs
  · exact le_refl _
  · exact Real.sqrt_nonneg _

theorem realSqrt_eq {x : ℝ} (h : 0 ≤ x) : realSqrt x = Real.sqrt x := by
  simp [realSqrt, not_lt.2 h]

/-- The energies for the residue of mass `md`. -/
noncomputable def Nuc.cm (n : Nuc) (md KEa : ℝ) : Cm :=
  let s := (n.ma + n.mb) ^ 2 + 2 * n.mb * KEa
  let rs := Real.sqrt s
  let Ec := (s + n.mc * n.mc - md ^ 2) / (2 * rs)
  ⟨rs, (s + n.mb * n.mb - n.ma * n.ma) / (2 * rs), Ec, realSqrt (Ec ^ 2 - n.mc * n.mc), rs - Ec⟩

/-- The common factor of the cross sections. -/
noncomputable def Nuc.base (n : Nuc) (md KEa : ℝ) : ℝ :=
  GF * GF / Real.pi * ((n.cm md KEa).Eb * (n.cm md KEa).Ed /
    ((n.ma + n.mb) ^ 2 + 2 * n.mb * KEa)) * (n.cm md KEa).Ec * (n.cm md KEa).pc

theorem Nuc.Good.s_pos {n : Nuc} (h : n.Good) {KEa : ℝ} (hK : 0 ≤ KEa) :
    0 < (n.ma + n.mb) ^ 2 + 2 * n.mb * KEa := by
  have := h.a; have := h.b
  positivity

theorem maxLevel_eq {n : Nuc} (h : n.Good) {KEa : ℝ} (hK : 0 ≤ KEa) :
    n.maxLevel KEa = .num (maxLevelEnergy (n.masses 0) KEa) := by
  unfold Nuc.maxLevel maxLevelEnergy Nuc.masses
  rw [Val.num_sqrt (h.s_pos hK).le, Val.num_sub, Val.num_sub]
  simp

theorem reaches_iff {n : Nuc} (h : n.Good) {KEa : ℝ} (hK : 0 ≤ KEa) (m : MatEl) :
    n.Reaches KEa m ↔ ((n.maxLevel KEa).lt (.num m.levelEnergy)) = false := by
  rw [maxLevel_eq h hK, Val.num_lt, decide_eq_false_iff_not, not_lt]
  unfold maxLevelEnergy Nuc.masses Nuc.Reaches
  constructor <;> intro h <;> simp only [add_zero] at * <;> linarith

/-- The energies of an accessible level. -/
theorem cm_spec {n : Nuc} (h : n.Good) {KEa md : ℝ} (hK : 0 ≤ KEa) (hd : 0 < md)
    (hr : n.mc + md ≤ Real.sqrt ((n.ma + n.mb) ^ 2 + 2 * n.mb * KEa)) :
    0 < (n.cm md KEa).rs ∧ 0 < (n.cm md KEa).Eb ∧ n.mc ≤ (n.cm md KEa).Ec ∧
      0 ≤ (n.cm md KEa).pc ∧ md ≤ (n.cm md KEa).Ed ∧
      (n.cm md KEa).pc ^ 2 = (n.cm md KEa).Ec ^ 2 - n.mc ^ 2 ∧
      (n.cm md KEa).pc ^ 2 = (n.cm md KEa).Ed ^ 2 - md ^ 2 := by
  have hs := h.s_pos hK
  have ha := h.a; have hb := h.b; have hc := h.c
  obtain ⟨s, hs'⟩ : ∃ s, s = (n.ma + n.mb) ^ 2 + 2 * n.mb * KEa := ⟨_, rfl⟩
  have hsab : (n.ma + n.mb) ^ 2 ≤ s := by
    rw [hs']; have : 0 ≤ 2 * n.mb * KEa := by positivity
    linarith
  have hsq : 0 < Real.sqrt s := Real.sqrt_pos.2 (by rw [hs']; exact hs)
  have hss : Real.sqrt s * Real.sqrt s = s := Real.mul_self_sqrt (by rw [hs']; exact hs.le)
  have hEc : n.mc ≤ (s + n.mc * n.mc - md ^ 2) / (2 * Real.sqrt s) := by
    rw [le_div_iff₀ (by positivity)]
    rw [← hs'] at hr
    nlinarith
  have hEd : md ≤ Real.sqrt s - (s + n.mc * n.mc - md ^ 2) / (2 * Real.sqrt s) := by
    rw [le_sub_comm, div_le_iff₀ (by positivity)]
    rw [← hs'] at hr
    nlinarith
  have hp : Utils.realSqrt (((s + n.mc * n.mc - md ^ 2) / (2 * Real.sqrt s)) ^ 2 - n.mc * n.mc) ^ 2
      = ((s + n.mc * n.mc - md ^ 2) / (2 * Real.sqrt s)) ^ 2 - n.mc ^ 2 := by
    have h0 : 0 ≤ ((s + n.mc * n.mc - md ^ 2) / (2 * Real.sqrt s)) ^ 2 - n.mc * n.mc := by
      nlinarith
    rw [realSqrt_eq h0, Real.sq_sqrt h0]
    ring
  unfold Nuc.cm
  simp only
  rw [← hs']
  refine ⟨hsq, ?_, hEc, realSqrt_nonneg _, hEd, hp, ?_⟩
  · apply div_pos _ (by positivity)
    nlinarith
  · rw [hp]
    have h2 : 2 * Real.sqrt s ≠ 0 := by positivity
    field_simp
    nlinarith [hss]

theorem base_nonneg {n : Nuc} (h : n.Good) {KEa md : ℝ} (hK : 0 ≤ KEa) (hd : 0 < md)
    (hr : n.mc + md ≤ Real.sqrt ((n.ma + n.mb) ^ 2 + 2 * n.mb * KEa)) : 0 ≤ n.base md KEa := by
  obtain ⟨-, h2, h3, h4, h5, -, -⟩ := cm_spec h hK hd hr
  have := h.s_pos hK
  have hEc := h.c.trans h3
  have hEd := hd.le.trans h5
  unfold Nuc.base
  have hpi := Real.pi_pos
  have hG : 0 ≤ GF := by unfold GF; norm_num
  positivity

/-- The relative speed. -/
noncomputable def Nuc.rel (n : Nuc) (md KEa : ℝ) : Val :=
  .num (realSqrt (((n.cm md KEa).Ed * (n.cm md KEa).Ec + (n.cm md KEa).pc ^ 2) ^ 2
    - n.mc * n.mc * md ^ 2)) / .num ((n.cm md KEa).Ed * (n.cm md KEa).Ec + (n.cm md KEa).pc ^ 2)

theorem levelXs_eq {n : Nuc} (h : n.Good) {KEa : ℝ} (hK : 0 ≤ KEa) (fermi : Nuc → Val → Val)
    (m : MatEl) :
    levelXs fermi n m KEa =
      match n.proc with
      | .neutrinoCC | .antiNeutrinoCC =>
        match coulomb fermi n (n.rel (n.md + m.levelEnergy) KEa) with
        | .error e => .error e
        | .ok f => .ok (.num (n.base (n.md + m.levelEnergy) KEa * m.strength) *
            (.num (Vud * Vud) * f),
            .num (n.cm (n.md + m.levelEnergy) KEa).pc / .num (n.cm (n.md + m.levelEnergy) KEa).Ec)
      | .nc =>
        .ok (.num (n.base (n.md + m.levelEnergy) KEa * m.strength *
          (if m.type = 0 then 0.25 * weakCharge n ^ 2 else 1)),
            .num (n.cm (n.md + m.levelEnergy) KEa).pc / .num (n.cm (n.md + m.levelEnergy) KEa).Ec)
      | _ => .error .marleyError := by
  have hs := h.s_pos hK
  have h2 : 2 * Real.sqrt ((n.ma + n.mb) ^ 2 + 2 * n.mb * KEa) ≠ 0 := by
    have := Real.sqrt_pos.2 hs
    positivity
  unfold levelXs
  simp only [Val.num_sqrt hs.le, Val.num_mul, Val.num_div h2, Val.num_sq, Val.num_sub,
    Val.num_realSqrt, Val.num_add, Val.num_div hs.ne']
  unfold Nuc.base Nuc.rel Nuc.cm
  cases n.proc <;> simp only
  · rfl
  · rfl
  · split_ifs <;> simp

/-! ## Coulomb corrections -/

theorem emaFactor_nonneg {n : Nuc} (hc : 0 ≤ n.mc) {beta : Val} (hb : beta.NonNeg) (modified : Bool)
    (h : (emaFactor n beta modified).2 = true) : (emaFactor n beta modified).1.NonNeg := by
  unfold emaFactor at h ⊢
  simp only at h ⊢
  cases modified with
  | false => simp only [Bool.false_eq_true, if_false]; exact Val.NonNeg.sq _
  | true =>
    simp only [if_true]
    have hE : ((Val.num 1 - beta.sq).rsqrt * Val.num n.mc).NonNeg :=
      (Val.NonNeg.rsqrt _).mul hc
    exact ((Val.NonNeg.realSqrt _).mul (Val.nonNeg_of_le hc h)).div ((hb.mul hE).mul hE)

theorem coulomb_nonneg {fermi : Nuc → Val → Val} {n : Nuc} (hc : 0 ≤ n.mc) {beta f : Val}
    (hb : beta.NonNeg) (hf : (fermi n beta).NonNeg) (e : coulomb fermi n beta = .ok f) :
    f.NonNeg := by
  unfold coulomb at e
  cases hm : n.mode <;> rw [hm] at e <;> simp only at e
  · cases e; exact zero_le_one
  · cases e; exact hf
  · split_ifs at e with ho
    cases e
    exact emaFactor_nonneg hc hb _ ho
  · split_ifs at e with ho
    cases e
    exact emaFactor_nonneg hc hb _ ho
  all_goals
    split_ifs at e with ho hl
    · cases e; exact hf
    · cases e; exact hf
    · cases e; exact emaFactor_nonneg hc hb _ (by simpa using ho)

theorem rel_nonneg {n : Nuc} (h : n.Good) {KEa md : ℝ} (hK : 0 ≤ KEa) (hd : 0 < md)
    (hr : n.mc + md ≤ Real.sqrt ((n.ma + n.mb) ^ 2 + 2 * n.mb * KEa)) : (n.rel md KEa).NonNeg := by
  obtain ⟨-, h2, h3, h4, h5, -, -⟩ := cm_spec h hK hd hr
  have hEc := h.c.trans h3
  have hEd := hd.le.trans h5
  unfold Nuc.rel
  exact Val.NonNeg.div (a := .num _) (b := .num _) (realSqrt_nonneg _)
    (show (0 : ℝ) ≤ _ by positivity)

theorem levelXs_nonneg {n : Nuc} (h : n.Good) {KEa : ℝ} (hK : 0 ≤ KEa) {fermi : Nuc → Val → Val}
    (hf : ∀ b, (fermi n b).NonNeg) {m : MatEl} (hm : m ∈ n.elements) (hr : n.Reaches KEa m)
    {v b : Val} (e : levelXs fermi n m KEa = .ok (v, b)) : v.NonNeg := by
  have hd : 0 < n.md + m.levelEnergy := add_pos_of_pos_of_nonneg h.d (h.energy m hm)
  have hb := base_nonneg h hK hd hr
  have hst := h.strength m hm
  rw [levelXs_eq h hK] at e
  have hcc : ∀ {f : Val}, coulomb fermi n (n.rel (n.md + m.levelEnergy) KEa) = .ok f →
      (Val.num (n.base (n.md + m.levelEnergy) KEa * m.strength) * (.num (Vud * Vud) * f)).NonNeg := by
    intro f hfe
    refine Val.NonNeg.mul (a := .num _) (mul_nonneg hb hst) (Val.NonNeg.mul (a := .num _)
      (show (0 : ℝ) ≤ Vud * Vud by unfold Vud; norm_num) ?_)
    exact coulomb_nonneg h.c (rel_nonneg h hK hd hr) (hf _) hfe
  cases hp : n.proc <;> rw [hp] at e <;> simp only at e
  · cases hco : coulomb fermi n (n.rel (n.md + m.levelEnergy) KEa) with
    | error _ => rw [hco] at e; cases e
    | ok f => rw [hco] at e; cases e; exact hcc hco
  · cases hco : coulomb fermi n (n.rel (n.md + m.levelEnergy) KEa) with
    | error _ => rw [hco] at e; cases e
    | ok f => rw [hco] at e; cases e; exact hcc hco
  · cases e
    refine mul_nonneg (mul_nonneg hb hst) ?_
    split_ifs
    · positivity
    · exact zero_le_one
  · cases e
  · cases e

theorem counted_nonneg {v : Val} (h : v.NonNeg) {x : ℝ} (e : counted v = .ok x) : 0 ≤ x := by
  cases v <;> cases e
  · exact h
  · exact le_refl _

theorem counted_iff {v : Val} {x : ℝ} : counted v = .ok x ↔ v = .num x ∨ v = .nan ∧ x = 0 := by
  cases v <;> simp [counted]
  exact eq_comm

/-- What one pass of the loop does. -/
theorem partials_cons {fermi : Nuc → Val → Val} {n : Nuc} {KEa : ℝ} {m : MatEl} {ms : List MatEl}
    {l : List ℝ} (e : partials fermi n KEa none (m :: ms) = .ok l) :
    ((n.maxLevel KEa).lt (.num m.levelEnergy) = true ∧ l = []) ∨
    ((n.maxLevel KEa).lt (.num m.levelEnergy) = false ∧ m.strength = 0 ∧
      partials fermi n KEa none ms = .ok l) ∨
    ((n.maxLevel KEa).lt (.num m.levelEnergy) = false ∧ m.strength ≠ 0 ∧
      ∃ v b x l', levelXs fermi n m KEa = .ok (v, b) ∧ counted v = .ok x ∧
        partials fermi n KEa none ms = .ok l' ∧ l = x :: l') := by
  rw [partials] at e
  by_cases h1 : (n.maxLevel KEa).lt (.num m.levelEnergy) = true
  · rw [if_pos h1] at e; cases e
    exact Or.inl ⟨h1, rfl⟩
  · rw [if_neg h1] at e
    rw [Bool.not_eq_true] at h1
    by_cases h2 : m.strength = 0
    · rw [if_pos h2] at e
      exact Or.inr (Or.inl ⟨h1, h2, e⟩)
    · rw [if_neg h2] at e
      refine Or.inr (Or.inr ⟨h1, h2, ?_⟩)
      cases hl : levelXs fermi n m KEa with
      | error _ => rw [hl] at e; cases e
      | ok q =>
        obtain ⟨v, b⟩ := q
        rw [hl] at e
        dsimp only at e
        cases hc : counted v with
        | error _ => rw [hc] at e; cases e
        | ok x =>
          rw [hc] at e
          dsimp only at e
          cases hp : partials fermi n KEa none ms with
          | error _ => rw [hp] at e; cases e
          | ok l' =>
            rw [hp] at e
            cases e
            exact ⟨v, b, x, l', rfl, hc, rfl, rfl⟩

theorem transition_level {fermi : Nuc → Val → Val} {n : Nuc} {KEa : ℝ} {m : MatEl} {v b : Val}
    {x : ℝ} (h1 : (n.maxLevel KEa).lt (.num m.levelEnergy) = false) (h2 : m.strength ≠ 0)
    (h3 : levelXs fermi n m KEa = .ok (v, b)) (h4 : counted v = .ok x) : Partial fermi n KEa m x := by
  refine ⟨v, some b, ?_, counted_iff.1 h4⟩
  unfold transitionXs
  rw [if_neg h2, if_neg (by simp [h1]), h3]

theorem transition_zero {fermi : Nuc → Val → Val} {n : Nuc} {KEa : ℝ} {m : MatEl}
    (h : m.strength = 0 ∨ (n.maxLevel KEa).lt (.num m.levelEnergy) = true) :
    Partial fermi n KEa m 0 := by
  refine ⟨.num 0, none, ?_, Or.inl rfl⟩
  unfold transitionXs
  by_cases h2 : m.strength = 0
  · rw [if_pos h2]
  · rw [if_neg h2, if_pos (h.resolve_left h2)]

/-- With ordered levels the sum runs over all transitions. -/
theorem partials_sum {fermi : Nuc → Val → Val} {n : Nuc} {KEa : ℝ} (k : n.Good) (hK : 0 ≤ KEa)
    (ms : List MatEl) (hs : ms.Pairwise (fun a b => a.levelEnergy ≤ b.levelEnergy)) {l : List ℝ}
    (e : partials fermi n KEa none ms = .ok l) :
    ∃ xs, List.Forall₂ (Partial fermi n KEa) ms xs ∧ l.sum = xs.sum := by
  induction ms generalizing l with
  | nil => cases e; exact ⟨[], .nil, rfl⟩
  | cons m ms ih =>
    rw [List.pairwise_cons] at hs
    rcases partials_cons e with ⟨h1, rfl⟩ | ⟨h1, h2, h3⟩ | ⟨h1, h2, v, b, x, l', h3, h4, h5, rfl⟩
    · refine ⟨(m :: ms).map (fun _ => 0), ?_, by simp⟩
      rw [List.forall₂_map_right_iff, List.forall₂_same]
      intro y hy
      refine transition_zero (Or.inr ?_)
      rw [maxLevel_eq k hK, Val.num_lt, decide_eq_true_eq] at h1 ⊢
      rcases List.mem_cons.1 hy with rfl | hy
      · exact h1
      · exact h1.trans_le (hs.1 y hy)
    · obtain ⟨xs, h4, h5⟩ := ih hs.2 h3
      exact ⟨0 :: xs, .cons (transition_zero (Or.inl h2)) h4, by simp [h5]⟩
    · obtain ⟨xs, h6, h7⟩ := ih hs.2 h5
      exact ⟨x :: xs, .cons (transition_level h1 h2 h3 h4) h6, by simp [h7]⟩

/-- Without vanishing strengths the list has the partial cross sections of the first
transitions, all accessible. -/
theorem partials_get {fermi : Nuc → Val → Val} {n : Nuc} {KEa : ℝ} (ms : List MatEl)
    (hz : ∀ m ∈ ms, m.strength ≠ 0) {l : List ℝ} (e : partials fermi n KEa none ms = .ok l)
    {i : Nat} {x : ℝ} (hi : l[i]? = some x) :
    ∃ m, ms[i]? = some m ∧ (n.maxLevel KEa).lt (.num m.levelEnergy) = false ∧
      Partial fermi n KEa m x := by
  induction ms generalizing l i with
  | nil => cases e; simp at hi
  | cons m ms ih =>
    rcases partials_cons e with ⟨h1, rfl⟩ | ⟨h1, h2, h3⟩ | ⟨h1, h2, v, b, x', l', h3, h4, h5, rfl⟩
    · simp at hi
    · exact absurd h2 (hz m (by simp))
    · cases i with
      | zero =>
        simp only [List.getElem?_cons_zero, Option.some.injEq] at hi
        subst hi
        exact ⟨m, rfl, h1, transition_level h1 h2 h3 h4⟩
      | succ i =>
        simp only [List.getElem?_cons_succ] at hi ⊢
        exact ih (fun y hy => hz y (List.mem_cons_of_mem _ hy)) h5 hi

theorem partials_nonneg {fermi : Nuc → Val → Val} {n : Nuc} {KEa : ℝ} (k : n.Good) (hK : 0 ≤ KEa)
    (hf : ∀ b, (fermi n b).NonNeg) (ms : List MatEl) (hsub : ∀ m ∈ ms, m ∈ n.elements) {l : List ℝ}
    (e : partials fermi n KEa none ms = .ok l) : ∀ x ∈ l, 0 ≤ x := by
  induction ms generalizing l with
  | nil => cases e; simp
  | cons m ms ih =>
    have hsub' : ∀ y ∈ ms, y ∈ n.elements := fun y hy => hsub y (List.mem_cons_of_mem _ hy)
    rcases partials_cons e with ⟨h1, rfl⟩ | ⟨h1, h2, h3⟩ | ⟨h1, h2, v, b, x', l', h3, h4, h5, rfl⟩
    · simp
    · exact ih hsub' h3
    · intro x hx
      rcases List.mem_cons.1 hx with rfl | hx
      · exact counted_nonneg (levelXs_nonneg k hK hf (hsub m (by simp))
          ((reaches_iff k hK m).2 h1) h3) h4
      · exact ih hsub' h5 x hx

/-- With ordered levels and without vanishing strengths every accessible transition is
in the list. -/
theorem partials_complete {fermi : Nuc → Val → Val} {n : Nuc} {KEa : ℝ} (k : n.Good) (hK : 0 ≤ KEa)
    (ms : List MatEl) (hz : ∀ m ∈ ms, m.strength ≠ 0)
    (hs : ms.Pairwise (fun a b => a.levelEnergy ≤ b.levelEnergy)) {l : List ℝ}
    (e : partials fermi n KEa none ms = .ok l) {i : Nat} {m : MatEl} (hi : ms[i]? = some m)
    (hr : (n.maxLevel KEa).lt (.num m.levelEnergy) = false) : i < l.length := by
  induction ms generalizing l i with
  | nil => simp at hi
  | cons a ms ih =>
    rw [List.pairwise_cons] at hs
    rcases partials_cons e with ⟨h1, rfl⟩ | ⟨h1, h2, h3⟩ | ⟨h1, h2, v, b, x', l', h3, h4, h5, rfl⟩
    · exfalso
      rw [maxLevel_eq k hK, Val.num_lt] at h1 hr
      rw [decide_eq_true_eq] at h1
      rw [decide_eq_false_iff_not, not_lt] at hr
      rcases List.mem_cons.1 (List.mem_of_getElem? hi) with rfl | hm
      · linarith
      · have := hs.1 m hm
        linarith
    · exact absurd h2 (hz a (by simp))
    · cases i with
      | zero => simp
      | succ i =>
        simp only [List.getElem?_cons_succ] at hi
        have := ih (fun y hy => hz y (List.mem_cons_of_mem _ hy)) hs.2 h5 hi
        simpa using this

theorem makeEvent_labels {r : Masses} {KEa c phi Elevel : ℝ} {sc : Scatter} {twoJ : Int} {P : Parity}
    {ev : Event ℝ} (e : makeEvent r KEa sc c phi Elevel twoJ P = .ok ev) :
    ev.Ex = Elevel ∧ ev.twoJ = twoJ ∧ ev.parity = P := by
  unfold makeEvent at e
  simp only at e
  repeat' split at e
  all_goals first
    | (cases e; done)
    | (cases e; exact ⟨rfl, rfl, rfl⟩)

theorem lorentzBoost_charge {x y z : ℝ} {p q : Particle ℝ} (e : lorentzBoost x y z p = .ok q) :
    q.charge = p.charge := by
  unfold lorentzBoost at e
  split at e
  · cases e
  · split_ifs at e <;> cases e <;> rfl

/-- The charges of projectile and ejectile are those of their codes. -/
theorem makeEvent_charges {r : Masses} {KEa c phi Elevel : ℝ} {sc : Scatter} {twoJ : Int} {P : Parity}
    {ev : Event ℝ} (e : makeEvent r KEa sc c phi Elevel twoJ P = .ok ev) :
    ∃ pr tg ej re, ev.initial = [pr, tg] ∧ ev.final = [ej, re] ∧
      Pdg.charge r.pdgA = .ok pr.charge ∧ Pdg.charge r.pdgC = .ok ej.charge := by
  unfold makeEvent at e
  simp only at e
  split at e
  · rename_i pr tg ej re h1 h2 h3 h4
    split at e
    · rename_i ej' re' h5 h6
      cases e
      refine ⟨pr, tg, ej', re', rfl, rfl, ?_, ?_⟩
      · unfold Particle.mk6 at h1
        split at h1
        · cases h1; assumption
        · cases h1
      · rw [lorentzBoost_charge h5]
        unfold Particle.mk6 at h3
        split at h3
        · cases h3; assumption
        · cases h3
    · cases e
    · cases e
  all_goals cases e

theorem setCharges_labels {n : Nuc} {ev ev' : Event ℝ} (e : setCharges n ev = .ok ev') :
    ev'.Ex = ev.Ex ∧ ev'.twoJ = ev.twoJ ∧ ev'.parity = ev.parity := by
  unfold setCharges at e
  repeat' split at e
  all_goals first
    | (cases e; done)
    | (cases e; exact ⟨rfl, rfl, rfl⟩)

/-- The parts of an event. -/
theorem createEvent_parts {E : Env G} {n : Nuc} {pdg : Int} {KEa : ℝ} {g g' : G} {ev : Event ℝ}
    (e : n.createEvent E pdg KEa g = some (.ok (ev, g'))) :
    ∃ m g1 beta c g2 twoJgs Pgs twoJ P ev',
      n.choose E pdg KEa g = .ok (m, g1) ∧
      Utils.fdiv (twoTwoScatter (n.masses m.levelEnergy) KEa).pc
        (twoTwoScatter (n.masses m.levelEnergy) KEa).Ec = some beta ∧
      sampleCos E m beta g1 = some (.ok (c, g2)) ∧
      E.gs n.pdgB = .ok (twoJgs, Pgs) ∧
      spinParity E n m twoJgs Pgs (uniform E.arith E.engine 0 (2 * Real.pi) false g2).2
        = .ok (twoJ, P, g') ∧
      makeEvent (n.masses m.levelEnergy) KEa (twoTwoScatter (n.masses m.levelEnergy) KEa) c
        (uniform E.arith E.engine 0 (2 * Real.pi) false g2).1 m.levelEnergy twoJ P = .ok ev' ∧
      setCharges n ev' = .ok ev := by
  unfold Nuc.createEvent at e
  cases h1 : n.choose E pdg KEa g with
  | error _ => rw [h1] at e; cases e
  | ok q =>
    obtain ⟨m, g1⟩ := q
    rw [h1] at e
    dsimp only at e
    cases h2 : Utils.fdiv (twoTwoScatter (n.masses m.levelEnergy) KEa).pc
        (twoTwoScatter (n.masses m.levelEnergy) KEa).Ec with
    | none => rw [h2] at e; cases e
    | some beta =>
      rw [h2] at e
      dsimp only at e
      cases h3 : sampleCos E m beta g1 with
      | none => rw [h3] at e; cases e
      | some q =>
        rw [h3] at e
        cases q with
        | error _ => cases e
        | ok q =>
          obtain ⟨c, g2⟩ := q
          dsimp only at e
          cases h4 : E.gs n.pdgB with
          | error _ => rw [h4] at e; cases e
          | ok q =>
            obtain ⟨twoJgs, Pgs⟩ := q
            rw [h4] at e
            dsimp only at e
            cases h5 : spinParity E n m twoJgs Pgs
                (uniform E.arith E.engine 0 (2 * Real.pi) false g2).2 with
            | error _ => rw [h5] at e; cases e
            | ok q =>
              obtain ⟨twoJ, P, g3⟩ := q
              rw [h5] at e
              dsimp only at e
              cases h6 : makeEvent (n.masses m.levelEnergy) KEa
                  (twoTwoScatter (n.masses m.levelEnergy) KEa) c
                  (uniform E.arith E.engine 0 (2 * Real.pi) false g2).1 m.levelEnergy twoJ P with
              | error _ => rw [h6] at e; cases e
              | ok ev' =>
                rw [h6] at e
                dsimp only at e
                cases h7 : setCharges n ev' with
                | error _ => rw [h7] at e; cases e
                | ok ev'' =>
                  rw [h7] at e
                  cases e
                  exact ⟨m, g1, beta, c, g2, twoJgs, Pgs, twoJ, P, ev', rfl, h2, h3, rfl, h5, h6, h7⟩

theorem choose_mem {E : Env G} {n : Nuc} {pdg : Int} {KEa : ℝ} {g g' : G} {m : MatEl}
    (e : n.choose E pdg KEa g = .ok (m, g')) : m ∈ n.elements := by
  unfold Nuc.choose at e
  repeat' split at e
  all_goals first
    | (cases e; done)
    | (cases e; exact List.mem_of_getElem? (by assumption))

theorem gtSpins_mem {twoJ J : Int} (h : J ∈ gtSpins twoJ) :
    ((twoJ - 2).natAbs : Int) ≤ J ∧ J ≤ twoJ + 2 ∧ (J - twoJ) % 2 = 0 := by
  unfold gtSpins at h
  simp only [List.mem_map, List.mem_range] at h
  obtain ⟨k, hk, rfl⟩ := h
  have : (k : Int) ≤ (twoJ + 2 - ((twoJ - 2).natAbs : Int)) / 2 := by omega
  refine ⟨by omega, by omega, by omega⟩

theorem mem_gtSpins {twoJ J : Int} (h1 : ((twoJ - 2).natAbs : Int) ≤ J) (h2 : J ≤ twoJ + 2)
    (h3 : (J - twoJ) % 2 = 0) : J ∈ gtSpins twoJ := by
  unfold gtSpins
  simp only [List.mem_map, List.mem_range]
  exact ⟨((J - ((twoJ - 2).natAbs : Int)) / 2).toNat, by omega, by omega⟩

theorem getZ_nonneg (pid : Int) : 0 ≤ Pdg.getZ pid := by
  unfold Pdg.getZ
  split_ifs with h1 h2 h3
  · norm_num
  · norm_num
  · exact Int.tdiv_nonneg (Int.tmod_nonneg _ (by omega)) (by norm_num)
  · norm_num

theorem rejectLoop_range {E : Engine G} (hE : E.Lawful) {σ : Type} {f : ℝ → σ → Res (ℝ × σ)}
    {a b safety : ℝ} (hab : a ≤ b) (fuel : Nat) {m : ℝ} {g : G} {st : σ} {r : Sampled G σ}
    (e : rejectLoop exact E f a b safety fuel m g st = some (.ok r)) : a ≤ r.x ∧ r.x ≤ b := by
  induction fuel generalizing m g st with
  | zero => cases e
  | succ k ih =>
    rw [rejectLoop] at e
    simp only at e
    have hx : a ≤ (uniform exact E a b true g).1 ∧ (uniform exact E a b true g).1 ≤ b := by
      obtain ⟨h0, h1⟩ := hE g
      simp only [uniform, exact, id]
      constructor <;> norm_num <;> nlinarith
    split at e
    · cases e
    · split_ifs at e
      all_goals first
        | exact ih e
        | (cases e; exact hx)

/-- The energies are determined by conservation of energy and momentum. -/
theorem cm_unique {n : Nuc} (h : n.Good) {KEa : ℝ} (hK : 0 ≤ KEa) {m : MatEl} {k : Cm}
    (e : k.Is n KEa m) : k = n.cm (n.md + m.levelEnergy) KEa := by
  obtain ⟨h0, h1, h2, h3, h4, h5, h6, h7⟩ := e
  have hs := h.s_pos hK
  have hs' : k.rs ^ 2 = (n.ma + n.mb) ^ 2 + 2 * n.mb * KEa := by rw [h1]; ring
  have hEc : (k.rs ^ 2 + n.mc * n.mc - (n.md + m.levelEnergy) ^ 2) / (2 * k.rs) = k.Ec := by
    rw [div_eq_iff (by positivity)]
    have : k.Ed = k.rs - k.Ec := by linarith
    rw [this] at h4
    nlinarith
  have hEb : (k.rs ^ 2 + n.mb * n.mb - n.ma * n.ma) / (2 * k.rs) = k.Eb := by
    rw [div_eq_iff (by positivity)]
    nlinarith
  have hpc : realSqrt (k.Ec ^ 2 - n.mc * n.mc) = k.pc := by
    have : k.Ec ^ 2 - n.mc * n.mc = k.pc ^ 2 := by rw [h3]; ring
    rw [this, realSqrt_eq (sq_nonneg _), Real.sqrt_sq h5]
  have hEd : k.rs - k.Ec = k.Ed := by linarith
  unfold Nuc.cm
  simp only [← hs', Real.sqrt_sq h0.le, hEc, hEb, hpc, hEd]

/-- Every index of the list of partial cross sections is that of an accessible matrix
element. -/
theorem partials_reach {fermi : Nuc → Val → Val} {n : Nuc} {KEa : ℝ} {ms : List MatEl} {l : List ℝ}
    (e : partials fermi n KEa none ms = .ok l) {i : Nat} (hi : i < l.length) :
    ∃ m, ms[i]? = some m ∧ (n.maxLevel KEa).lt (.num m.levelEnergy) = false := by
  induction ms generalizing l i with
  | nil => cases e; simp at hi
  | cons a ms ih =>
    rcases partials_cons e with ⟨h1, rfl⟩ | ⟨h1, h2, h3⟩ | ⟨h1, h2, v, b, x', l', h3, h4, h5, rfl⟩
    · simp at hi
    · cases i with
      | zero => exact ⟨a, rfl, h1⟩
      | succ i =>
        obtain ⟨m, hm, hr⟩ := ih h3 (show i < l.length by omega)
        exact ⟨m, by simpa using hm, hr⟩
    · cases i with
      | zero => exact ⟨a, rfl, h1⟩
      | succ i =>
        obtain ⟨m, hm, hr⟩ := ih h5 (i := i) (by simpa using hi)
        exact ⟨m, by simpa using hm, hr⟩

/-- The index chosen is in range. -/
theorem pickFrom_lt {E : Engine G} (hE : E.Lawful) {w : List ℝ} (hne : w ≠ []) {g g' : G} {i : Nat}
    (e : pickFrom E w g = .ok (i, g')) : i < w.length := by
  unfold pickFrom at e
  by_cases hl : w.length < 2
  · rw [if_pos hl] at e
    cases e
    exact List.length_pos_iff.2 hne
  · rw [if_neg hl] at e
    split at e
    · cases e
    · rename_i j hj
      cases e
      exact pick_lt (hE g) hj hne

/-- The parts of the choice. -/
theorem choose_parts {E : Env G} {n : Nuc} {pdg : Int} {KEa : ℝ} {g g' : G} {m : MatEl}
    (e : n.choose E pdg KEa g = .ok (m, g')) :
    pdg = n.pdgA ∧ threshold (n.masses 0) ≤ KEa ∧ 0 < KEa ∧
    ∃ w i, partials E.fermi n KEa none n.elements = .ok w ∧ 0 < w.sum ∧
      pickFrom E.engine w g = .ok (i, g') ∧ n.elements[i]? = some m := by
  unfold Nuc.choose at e
  by_cases h1 : pdg ≠ n.pdgA
  · rw [if_pos h1] at e; cases e
  rw [if_neg h1] at e
  by_cases h2 : KEa < threshold (n.masses 0)
  · rw [if_pos h2] at e; cases e
  rw [if_neg h2] at e
  unfold summed at e
  rw [if_neg h1] at e
  simp only [Bool.false_eq_true, if_false] at e
  by_cases h3 : KEa ≤ 0
  · rw [if_pos h3] at e; simp at e
  rw [if_neg h3] at e
  refine ⟨not_not.1 h1, not_lt.1 h2, not_le.1 h3, ?_⟩
  cases h4 : partials E.fermi n KEa none n.elements with
  | error _ => rw [h4] at e; cases e
  | ok w =>
    rw [h4] at e
    simp only at e
    by_cases h5 : w.isEmpty = true
    · rw [if_pos h5] at e; cases e
    rw [if_neg h5] at e
    by_cases h6 : w.sum ≤ 0
    · rw [if_pos h6] at e; cases e
    rw [if_neg h6] at e
    cases h7 : pickFrom E.engine w g with
    | error _ => rw [h7] at e; cases e
    | ok q =>
      obtain ⟨i, g1⟩ := q
      rw [h7] at e
      simp only at e
      cases h8 : n.elements[i]? with
      | none => rw [h8] at e; cases e
      | some m' =>
        rw [h8] at e
        cases e
        exact ⟨w, i, rfl, not_le.1 h6, h7, h8⟩

/-! ## Angular densities -/

theorem cosPdf_num {m : MatEl} (ht : m.type = 0 ∨ m.type = 1) (c b : ℝ) :
    cosPdf m c (.num b) = .ok (.num (if m.type = 0 then (1 + b * c) / 2 else (3 - b * c) / 6)) := by
  unfold cosPdf
  by_cases h : m.type = 0
  · rw [if_pos h, if_pos h, Val.num_mul, Val.num_add, Val.num_mul]
    congr 2; ring
  · have h1 : m.type = 1 := ht.resolve_left h
    rw [if_neg h, if_neg h, if_pos h1, Val.num_mul, Val.num_sub, Val.num_div (by norm_num), Val.num_mul]
    congr 2; ring

theorem cosPdf_nan {m : MatEl} (ht : m.type = 0 ∨ m.type = 1) (c : ℝ) :
    cosPdf m c .nan = .ok .nan := by
  unfold cosPdf
  by_cases h : m.type = 0
  · rw [if_pos h]; rfl
  · have h1 : m.type = 1 := ht.resolve_left h
    rw [if_neg h, if_pos h1]; rfl

theorem cosPdf_integral (t : Int) (b : ℝ) :
    ∫ c in (-1 : ℝ)..1, (if t = 0 then (1 + b * c) / 2 else (3 - b * c) / 6) = 1 := by
  by_cases h : t = 0
  · simp only [if_pos h]
    rw [intervalIntegral.integral_div, intervalIntegral.integral_add, intervalIntegral.integral_const,
      intervalIntegral.integral_const_mul, integral_id]
    · norm_num
    · exact intervalIntegrable_const
    · exact (continuous_const.mul continuous_id).intervalIntegrable _ _
  · simp only [if_neg h]
    rw [intervalIntegral.integral_div, intervalIntegral.integral_sub, intervalIntegral.integral_const,
      intervalIntegral.integral_const_mul, integral_id]
    · norm_num
    · exact intervalIntegrable_const
    · exact (continuous_const.mul continuous_id).intervalIntegrable _ _

/-- One accessible transition: its differential cross section. -/
theorem level_diff {n : Nuc} (h : n.Good) {KEa : ℝ} (hK : 0 ≤ KEa) {fermi : Nuc → Val → Val}
    {m : MatEl} (hm : m ∈ n.elements) (hr : n.Reaches KEa m)
    {v b : Val} (e : levelXs fermi n m KEa = .ok (v, b)) {x : ℝ} (hx : counted v = .ok x) :
    ∃ f : ℝ → ℝ, Continuous f ∧ ∫ c in (-1 : ℝ)..1, f c = x ∧
      ∀ c, ∃ d, cosPdf m c b = .ok d ∧ counted (v * d) = .ok (f c) := by
  have hd : 0 < n.md + m.levelEnergy := add_pos_of_pos_of_nonneg h.d (h.energy m hm)
  obtain ⟨-, -, h3, h4, -, h6, -⟩ := cm_spec h hK hd hr
  have hEc := h.c.trans h3
  have hb : b = .num (n.cm (n.md + m.levelEnergy) KEa).pc / .num (n.cm (n.md + m.levelEnergy) KEa).Ec := by
    rw [levelXs_eq h hK] at e
    rcases h.proc with hp | hp | hp <;> rw [hp] at e <;> simp only at e
    · split at e <;> cases e; rfl
    · split at e <;> cases e; rfl
    · cases e; rfl
  rcases hEc.eq_or_lt with h0 | h0
  · have hpc : (n.cm (n.md + m.levelEnergy) KEa).pc = 0 := by
      have : (n.cm (n.md + m.levelEnergy) KEa).pc ^ 2 ≤ 0 := by
        rw [h6, ← h0]; nlinarith [sq_nonneg n.mc]
      nlinarith [sq_nonneg (n.cm (n.md + m.levelEnergy) KEa).pc,
        pow_eq_zero_iff (n := 2) (by norm_num) |>.1 (le_antisymm this (sq_nonneg _))]
    have hbn : b = .nan := by rw [hb, ← h0, hpc, Val.num_div_zero, if_pos rfl]
    have hbase : n.base (n.md + m.levelEnergy) KEa = 0 := by unfold Nuc.base; rw [hpc, mul_zero]
    have hx0 : x = 0 := by
      rw [levelXs_eq h hK, hbase] at e
      have : ∃ u : Val, v = .num 0 * u := by
        rcases h.proc with hp | hp | hp <;> rw [hp] at e <;> simp only at e
        · split at e <;> cases e; exact ⟨_, by rw [zero_mul]⟩
        · split at e <;> cases e; exact ⟨_, by rw [zero_mul]⟩
        · cases e; exact ⟨.num 0, by rw [zero_mul, zero_mul, Val.num_mul, zero_mul]⟩
      obtain ⟨u, rfl⟩ := this
      cases u with
      | num y => rw [Val.num_mul, zero_mul] at hx; cases hx; rfl
      | inf s =>
        have : (Val.num 0 * Val.inf s) = .nan := by
          change Val.mul (.num 0) (.inf s) = _
          simp [Val.mul]
        rw [this] at hx; cases hx; rfl
      | nan => rw [Val.mul_nan] at hx; cases hx; rfl
    refine ⟨fun _ => 0, continuous_const, by simp [hx0], fun c => ⟨.nan, ?_, ?_⟩⟩
    · rw [hbn]; exact cosPdf_nan (h.type m hm) c
    · rw [Val.mul_nan]; rfl
  · rw [Val.num_div h0.ne'] at hb
    generalize (n.cm (n.md + m.levelEnergy) KEa).pc / (n.cm (n.md + m.levelEnergy) KEa).Ec = b' at hb
    subst hb
    refine ⟨fun c => x * (if m.type = 0 then (1 + b' * c) / 2 else (3 - b' * c) / 6), ?_, ?_, ?_⟩
    · refine continuous_const.mul ?_
      split_ifs
      · fun_prop
      · fun_prop
    · rw [intervalIntegral.integral_const_mul, cosPdf_integral, mul_one]
    · intro c
      refine ⟨_, cosPdf_num (h.type m hm) c b', ?_⟩
      cases v with
      | num y => cases hx; rw [Val.num_mul]; rfl
      | inf s => cases hx
      | nan => cases hx; rw [Val.nan_mul]; simp only [zero_mul]; rfl

/-- The differential cross sections of all transitions that are added. -/
theorem partials_diff {n : Nuc} (h : n.Good) {KEa : ℝ} (hK : 0 ≤ KEa) {fermi : Nuc → Val → Val}
    (ms : List MatEl) (hsub : ∀ m ∈ ms, m ∈ n.elements) {l : List ℝ}
    (e : partials fermi n KEa none ms = .ok l) :
    ∃ fs : List (ℝ → ℝ), (∀ f ∈ fs, Continuous f) ∧ l = fs.map (fun f => ∫ c in (-1 : ℝ)..1, f c) ∧
      ∀ c, partials fermi n KEa (some c) ms = .ok (fs.map (· c)) := by
  induction ms generalizing l with
  | nil => cases e; exact ⟨[], by simp, rfl, fun c => rfl⟩
  | cons m ms ih =>
    have hsub' : ∀ y ∈ ms, y ∈ n.elements := fun y hy => hsub y (List.mem_cons_of_mem _ hy)
    rcases partials_cons e with ⟨h1, rfl⟩ | ⟨h1, h2, h3⟩ | ⟨h1, h2, v, b, x, l', h3, h4, h5, rfl⟩
    · refine ⟨[], by simp, rfl, fun c => ?_⟩
      rw [partials, if_pos h1]; rfl
    · obtain ⟨fs, k1, k2, k3⟩ := ih hsub' h3
      refine ⟨fs, k1, k2, fun c => ?_⟩
      rw [partials, if_neg (by simp [h1]), if_pos h2, k3]
    · obtain ⟨fs, k1, k2, k3⟩ := ih hsub' h5
      obtain ⟨f, q1, q2, q3⟩ := level_diff h hK (hsub m (by simp)) ((reaches_iff h hK m).2 h1) h3 h4
      refine ⟨f :: fs, ?_, ?_, fun c => ?_⟩
      · intro y hy
        rcases List.mem_cons.1 hy with rfl | hy
        · exact q1
        · exact k1 y hy
      · rw [List.map_cons, q2, k2]
      · obtain ⟨d, w1, w2⟩ := q3 c
        rw [partials, if_neg (by simp [h1]), if_neg h2, h3]
        simp only [w1, w2, k3, List.map_cons]

theorem integral_list_sum (fs : List (ℝ → ℝ)) (h : ∀ f ∈ fs, Continuous f) :
    Continuous (fun c => (fs.map (· c)).sum) ∧
    ∫ c in (-1 : ℝ)..1, (fs.map (· c)).sum = (fs.map (fun f => ∫ c in (-1 : ℝ)..1, f c)).sum := by
  induction fs with
  | nil => simp [continuous_const]
  | cons f fs ih =>
    obtain ⟨i1, i2⟩ := ih (fun y hy => h y (List.mem_cons_of_mem _ hy))
    have hf := h f (by simp)
    simp only [List.map_cons, List.sum_cons]
    refine ⟨hf.add i1, ?_⟩
    rw [intervalIntegral.integral_add (hf.intervalIntegrable _ _) (i1.intervalIntegrable _ _), i2]

theorem base_pos {n : Nuc} (h : n.Good) {KEa md : ℝ} (hK : 0 ≤ KEa) (hd : 0 < md)
    (hr : n.mc + md < Real.sqrt ((n.ma + n.mb) ^ 2 + 2 * n.mb * KEa)) :
    0 < n.base md KEa ∧ 0 < (n.cm md KEa).Ec := by
  obtain ⟨-, h2, h3, h4, h5, h6, h7⟩ := cm_spec h hK hd hr.le
  have hs := h.s_pos hK
  have hEd := hd.trans_le h5
  have hsum : (n.cm md KEa).Ec + (n.cm md KEa).Ed
      = Real.sqrt ((n.ma + n.mb) ^ 2 + 2 * n.mb * KEa) := by unfold Nuc.cm; ring
  have hpc : 0 < (n.cm md KEa).pc := by
    rcases h4.eq_or_lt with q | q
    · rw [← q] at h6 h7
      have e1 : (n.cm md KEa).Ec = n.mc := by
        have := h.c
        nlinarith
      have e2 : (n.cm md KEa).Ed = md := by nlinarith
      linarith
    · exact q
  have hEc : 0 < (n.cm md KEa).Ec := by
    rcases (h.c.trans h3).eq_or_lt with q | q
    · rw [← q] at h6
      nlinarith [sq_nonneg n.mc, mul_pos hpc hpc]
    · exact q
  refine ⟨?_, hEc⟩
  have hG : 0 < GF := by unfold GF; norm_num
  have := Real.pi_pos
  unfold Nuc.base
  positivity

end Marley.Xs
