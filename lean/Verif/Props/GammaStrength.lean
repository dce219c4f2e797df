import Verif.Model.GammaStrength
import Verif.Spec.GammaStrength
import Mathlib.Tactic.FieldSimp
import Mathlib.Tactic.Positivity
import Mathlib.Tactic.NormNum
import Mathlib.Tactic.Linarith
import Mathlib.Tactic.IntervalCases

/-!
# C89: gamma-ray strength functions
-/

set_option autoImplicit false

namespace Marley.Props
open Marley Marley.Strength
open Marley.Spec (fE1 fE fM weisskopfE weisskopfM lorentzian)

theorem reduce_eq (k : Nat) (i : Int) (s : ℝ) : reduce (i + k) i s = 0.0008 ^ k * s := by
  induction k generalizing i s with
  | zero => rw [reduce, if_neg (by simp)]; simp
  | succ k ih =>
    rw [reduce, if_pos (by push_cast; omega), show i + ((k + 1 : Nat) : Int) = (i + 1) + k by push_cast; ring,
      ih, pow_succ]
    norm_num
    ring

/-- The resonance parameters of an object as they are used for one multipolarity. -/
theorem coefficient_eq {m : Slo} {type : TrType} {l : Int} (hl : 1 ≤ l) {e E W S : ℝ} (he : 0 < e)
    (h : m.resonance l type = some (E, W, S)) (hW : W ≠ 0) :
    m.coefficient type l e = .ok (some (S * W ^ 2 /
      ((2 * l + 1) * Real.pi ^ 2 * ((e ^ 2 - E ^ 2) ^ 2 + e ^ 2 * W ^ 2)))) := by
  have hl' : (1 : ℝ) ≤ l := by exact_mod_cast hl
  have hpi := Real.pi_pos
  have hd : (2 * (l : ℝ) + 1) * Real.pi ^ 2 * ((e ^ 2 - E ^ 2) ^ 2 + e ^ 2 * W ^ 2) ≠ 0 := by positivity
  rw [Slo.coefficient, if_neg (by omega), h]
  simp only [Utils.fdiv, if_neg hd]

theorem strength_eq {m : Slo} {type : TrType} {l : Int} (hl : 1 ≤ l) {e E W S : ℝ} (he : 0 < e)
    (h : m.resonance l type = some (E, W, S)) (hW : W ≠ 0) :
    m.strength type l e = .ok (some (e ^ (3 - 2 * l) * (S * W ^ 2 /
      ((2 * l + 1) * Real.pi ^ 2 * ((e ^ 2 - E ^ 2) ^ 2 + e ^ 2 * W ^ 2))))) := by
  rw [Slo.strength, coefficient_eq hl he h hW]
  simp [powInt, he.ne']

theorem strength_lorentzian {m : Slo} {type : TrType} {l : Nat} (hl : 1 ≤ l) {e E W S : ℝ} (he : 0 < e)
    (h : m.resonance l type = some (E, W, S * mb)) (hW : W ≠ 0) :
    m.strength type l e = .ok (some (lorentzian E W S l e)) := by
  rw [strength_eq (by exact_mod_cast hl) he h hW]
  have hpi := Real.pi_pos
  have hd : (e ^ 2 - E ^ 2) ^ 2 + e ^ 2 * W ^ 2 ≠ 0 := by positivity
  congr 2
  simp only [lorentzian, mb, Spec.hc2]
  push_cast
  have h1 : (2 * (l : ℝ) + 1) ≠ 0 := by positivity
  norm_num
  field_simp

theorem width2_ne (A : Int) : (6.11 - 0.012 * (A : ℝ)) ≠ 0 := by
  intro h
  have h1 : (6110 : ℝ) = 12 * A := by linarith
  have h2 : (6110 : Int) = 12 * A := by exact_mod_cast h1
  omega

theorem energy1_pos {A : Int} (hA : 1 ≤ A) : 0 < Spec.E1energy A := by
  have : (0 : ℝ) < A := by exact_mod_cast (by omega : 0 < A)
  unfold Spec.E1energy
  positivity

theorem width1_pos {A : Int} (hA : 1 ≤ A) : 0 < Spec.E1width A := by
  have := energy1_pos hA
  unfold Spec.E1width
  positivity

theorem electric_members (Z A : Int) :
    (Slo.electricPart Z A).eE1 = Spec.E1energy A ∧ (Slo.electricPart Z A).gammaE1 = Spec.E1width A ∧
    (Slo.electricPart Z A).sigmaE1 = Spec.E1peak Z A * mb ∧
    (Slo.electricPart Z A).eE2 = Spec.E2energy A ∧ (Slo.electricPart Z A).gammaE2 = Spec.E2width A ∧
    (Slo.electricPart Z A).sigmaE2 = Spec.E2peak Z A * mb := by
  have e1 : (-1 / 3 : ℝ) = -(1 / 3) := by norm_num
  have e2 : (-1 / 6 : ℝ) = -(1 / 6) := by norm_num
  refine ⟨?_, ?_, ?_, ?_, ?_, ?_⟩ <;>
    simp only [Slo.electricPart, Spec.E1energy, Spec.E1width, Spec.E1peak, Spec.E2energy, Spec.E2width,
      Spec.E2peak, e1, e2]
  congr 1
  ring

theorem electric_e1 {Z A : Int} (hA : 1 ≤ A) {e : ℝ} (he : 0 < e) {m : Slo}
    (h1 : m.eE1 = (Slo.electricPart Z A).eE1) (h2 : m.gammaE1 = (Slo.electricPart Z A).gammaE1)
    (h3 : m.sigmaE1 = (Slo.electricPart Z A).sigmaE1) :
    m.strength .electric 1 e = .ok (some (fE1 Z A e)) := by
  obtain ⟨a1, a2, a3, -⟩ := electric_members Z A
  have hr : m.resonance ((1 : Nat) : Int) .electric
      = some (Spec.E1energy A, Spec.E1width A, Spec.E1peak Z A * mb) := by
    simp [Slo.resonance, h1, h2, h3, a1, a2, a3]
  exact strength_lorentzian le_rfl he hr (width1_pos hA).ne'

/-- What the constructor makes. -/
theorem slo_make {Z A : Int} (hA : 1 ≤ A) : ∃ m, Slo.make Z A = .ok m ∧
    m.eE1 = (Slo.electricPart Z A).eE1 ∧ m.gammaE1 = (Slo.electricPart Z A).gammaE1 ∧
    m.sigmaE1 = (Slo.electricPart Z A).sigmaE1 ∧ m.eE2 = Spec.E2energy A ∧
    m.gammaE2 = Spec.E2width A ∧ m.sigmaE2 = Spec.E2peak Z A * mb ∧ m.eM1 = Spec.M1energy A ∧
    m.gammaM1 = 4 ∧ m.sigmaM1 = Spec.M1peak Z A * mb := by
  obtain ⟨-, -, -, a4, a5, a6⟩ := electric_members Z A
  have hs := electric_e1 (Z := Z) hA (e := eRef) (by norm_num [eRef]) (m := Slo.electricPart Z A) rfl rfl rfl
  unfold Slo.make
  rw [if_neg (by omega)]
  dsimp only
  rw [hs]
  refine ⟨_, rfl, rfl, rfl, rfl, a4, a5, a6, ?_, rfl, ?_⟩
  · simp only [Spec.M1energy]
    norm_num
  · have e1 : (-1 / 3 : ℝ) = -(1 / 3) := by norm_num
    simp only [Spec.M1peak, Spec.M1energy, eRef, mb, Spec.hc2, e1]
    ring

/-- An object can be made exactly for nuclides with a positive mass number (no other exist). -/
theorem C89_made (Z A : Int) : (∃ m, Slo.make Z A = .ok m) ↔ 1 ≤ A := by
  constructor
  · rintro ⟨m, h⟩
    by_contra hA
    rw [Slo.make, if_pos (by omega)] at h
    cases h
  · intro hA
    obtain ⟨m, h, -⟩ := slo_make (Z := Z) hA
    exact ⟨m, h⟩

/-- The standard Lorentzian model computes the documented strength functions. -/
theorem C89_lorentzian {Z A : Int} {m : Slo} (h : Slo.make Z A = .ok m) {e : ℝ} (he : 0 < e) :
    m.strength .electric 1 e = .ok (some (fE1 Z A e)) ∧
    (∀ l : Nat, 2 ≤ l → m.strength .electric l e = .ok (some (fE Z A l e))) ∧
    (∀ l : Nat, 1 ≤ l → m.strength .magnetic l e = .ok (some (fM Z A l e))) := by
  have hA : 1 ≤ A := (C89_made Z A).1 ⟨m, h⟩
  obtain ⟨m', h', a1, a2, a3, a4, a5, a6, a7, a8, a9⟩ := slo_make (Z := Z) hA
  rw [h] at h'
  cases h'
  refine ⟨electric_e1 hA he a1 a2 a3, fun l hl => ?_, fun l hl => ?_⟩
  · refine strength_lorentzian (by omega) he ?_ (width2_ne A)
    rw [Slo.resonance, if_neg (by omega), if_pos (by omega), a4, a5, a6]
    obtain ⟨k, rfl⟩ := Nat.exists_eq_add_of_le hl
    have := reduce_eq k 2 (Spec.E2peak Z A * mb)
    push_cast at this ⊢
    rw [this, show 2 + k - 2 = k by omega, mul_assoc]
  · refine strength_lorentzian hl he ?_ (by norm_num : (4 : ℝ) ≠ 0)
    rw [Slo.resonance, a7, a8, a9]
    obtain ⟨k, rfl⟩ := Nat.exists_eq_add_of_le hl
    have := reduce_eq k 1 (Spec.M1peak Z A * mb)
    push_cast at this ⊢
    rw [this, show 1 + k - 1 = k by omega, mul_assoc]

/-- At 7 MeV the magnetic dipole strength has the documented ratio to the electric one. -/
theorem C89_m1 {Z A : Int} {m : Slo} (h : Slo.make Z A = .ok m) : ∃ fe fm,
    m.strength .electric 1 7 = .ok (some fe) ∧ m.strength .magnetic 1 7 = .ok (some fm) ∧
    fm = fe / (0.0588 * (A : ℝ) ^ (0.878 : ℝ)) := by
  obtain ⟨h1, -, h3⟩ := C89_lorentzian h (show (0 : ℝ) < 7 by norm_num)
  refine ⟨_, _, h1, h3 1 le_rfl, ?_⟩
  have hpi := Real.pi_pos
  simp only [fM, lorentzian, Spec.M1peak]
  have hd : ((7 : ℝ) ^ 2 - Spec.M1energy A ^ 2) ^ 2 + 7 ^ 2 * 4 ^ 2 ≠ 0 := by positivity
  have hh : Spec.hc2 ≠ 0 := by norm_num [Spec.hc2]
  generalize fE1 (Z : ℝ) (A : ℝ) 7 / (0.0588 * (A : ℝ) ^ (0.878 : ℝ)) = q
  generalize ((7 : ℝ) ^ 2 - Spec.M1energy A ^ 2) ^ 2 + 7 ^ 2 * 4 ^ 2 = d at *
  generalize Spec.hc2 = c at *
  simp only [Nat.sub_self, pow_zero, one_mul, Nat.cast_one]
  norm_num
  field_simp

theorem coefficient_some {Z A : Int} {m : Slo} (h : Slo.make Z A = .ok m) (type : TrType) {l : Int}
    (hl : 1 ≤ l) {e : ℝ} (he : 0 < e) : ∃ c, m.coefficient type l e = .ok (some c) := by
  have hA : 1 ≤ A := (C89_made Z A).1 ⟨m, h⟩
  obtain ⟨m', h', a1, a2, a3, a4, a5, a6, a7, a8, a9⟩ := slo_make (Z := Z) hA
  rw [h] at h'
  cases h'
  obtain ⟨-, b2, -⟩ := electric_members Z A
  cases type with
  | electric =>
    rcases eq_or_lt_of_le hl with rfl | hl2
    · exact ⟨_, coefficient_eq le_rfl he (by rw [Slo.resonance, if_pos rfl])
        (by rw [a2, b2]; exact (width1_pos hA).ne')⟩
    · exact ⟨_, coefficient_eq hl he (by rw [Slo.resonance, if_neg (by omega), if_pos (by omega)])
        (by rw [a5]; exact width2_ne A)⟩
  | magnetic => exact ⟨_, coefficient_eq hl he (by rw [Slo.resonance]) (by rw [a8]; norm_num)⟩
  | unphysical => exact ⟨0, by rw [Slo.coefficient, if_neg (by omega), Slo.resonance]⟩

/-- Transmission coefficients and strength functions are related as documented. -/
theorem C89_transmission {Z A : Int} {m : Slo} (h : Slo.make Z A = .ok m) (type : TrType) {l : Int}
    (hl : 1 ≤ l) {e : ℝ} (he : 0 < e) : ∃ f, m.strength type l e = .ok (some f) ∧
      m.transmission type l e = .ok (some (2 * Real.pi * f * e ^ (2 * l + 1))) := by
  obtain ⟨c, hc⟩ := coefficient_some h type hl he
  refine ⟨e ^ (3 - 2 * l) * c, ?_, ?_⟩
  · rw [Slo.strength, hc]
    simp [powInt, he.ne']
  · rw [Slo.transmission, hc]
    have h4 : e ^ (3 - 2 * l) * e ^ (2 * l + 1) = e ^ 4 := by
      rw [← zpow_add₀ he.ne', show 3 - 2 * l + (2 * l + 1) = ((4 : Nat) : Int) by push_cast; ring, zpow_natCast]
    show Except.ok (some (2 * Real.pi * c * e ^ 4)) = _
    rw [← h4]
    congr 2
    ring

/-- Multipolarities below one are refused. -/
theorem C89_multipolarity (m : Slo) (type : TrType) {l : Int} (hl : l < 1) (e : ℝ) :
    m.strength type l e = .error .marleyError ∧ m.transmission type l e = .error .marleyError := by
  simp [Slo.strength, Slo.transmission, Slo.coefficient, hl]

/-- Unphysical transitions have no strength. -/
theorem C89_unphysical (m : Slo) {l : Int}
    (hl : 1 ≤ l) {e : ℝ} (he : 0 < e) :
    m.strength .unphysical l e = .ok (some 0) ∧ m.transmission .unphysical l e = .ok (some 0) := by
  simp [Slo.strength, Slo.transmission, Slo.coefficient, Slo.resonance, powInt, he.ne', show ¬ l < 1 by omega]

theorem lorentzian_nonneg {E W S : ℝ} (l : Nat) {e : ℝ} (hS : 0 ≤ S) (he : 0 < e) :
    0 ≤ lorentzian E W S l e := by
  have := Real.pi_pos
  have : 0 < Spec.hc2 := by norm_num [Spec.hc2]
  unfold lorentzian
  positivity

theorem lorentzian_pos {E W S : ℝ} (l : Nat) {e : ℝ} (hS : 0 < S) (he : 0 < e) (hW : W ≠ 0) :
    0 < lorentzian E W S l e := by
  have := Real.pi_pos
  have : 0 < Spec.hc2 := by norm_num [Spec.hc2]
  unfold lorentzian
  positivity

theorem peaks {Z A : Int} (hA : 1 ≤ A) (hA2 : A ≤ 509) (hZ : 0 ≤ Z) (hZA : Z ≤ A) :
    0 ≤ Spec.E1peak Z A ∧ 0 ≤ Spec.E2peak Z A ∧ 0 ≤ Spec.M1peak Z A ∧
    (0 < Z → Z < A → 0 < Spec.E1peak Z A ∧ 0 < Spec.E2peak Z A ∧ 0 < Spec.M1peak Z A) := by
  have hA' : (0 : ℝ) < A := by exact_mod_cast (by omega : 0 < A)
  have hA2' : (A : ℝ) ≤ 509 := by exact_mod_cast hA2
  have hZ' : (0 : ℝ) ≤ Z := by exact_mod_cast hZ
  have hZA' : (0 : ℝ) ≤ (A : ℝ) - Z := by rw [sub_nonneg]; exact_mod_cast hZA
  have hpi := Real.pi_pos
  have hh : 0 < Spec.hc2 := by norm_num [Spec.hc2]
  have hw1 := width1_pos hA
  have hw2 : 0 < Spec.E2width A := by unfold Spec.E2width; linarith
  have he2 : 0 < Spec.E2energy A := by unfold Spec.E2energy; positivity
  have h1 : 0 ≤ Spec.E1peak Z A := by
    unfold Spec.E1peak
    have : 0 ≤ 120 * ((A : ℝ) - Z) * Z := by positivity
    positivity
  refine ⟨h1, by unfold Spec.E2peak; positivity, ?_, fun z1 z2 => ?_⟩
  · have := lorentzian_nonneg (E := Spec.E1energy A) (W := Spec.E1width A) 1 h1 (show (0 : ℝ) < 7 by norm_num)
    unfold Spec.M1peak fE1
    positivity
  · have hZ1 : (0 : ℝ) < Z := by exact_mod_cast z1
    have hZ2 : (0 : ℝ) < (A : ℝ) - Z := by rw [sub_pos]; exact_mod_cast z2
    have h1' : 0 < Spec.E1peak Z A := by
      unfold Spec.E1peak
      have : 0 < 120 * ((A : ℝ) - Z) * Z := by positivity
      positivity
    refine ⟨h1', by unfold Spec.E2peak; positivity, ?_⟩
    have := lorentzian_pos (E := Spec.E1energy A) 1 h1' (show (0 : ℝ) < 7 by norm_num) hw1.ne'
    unfold Spec.M1peak fE1
    positivity

/-- Strength functions and transmission coefficients are not negative, and they are positive unless the nuclide
lacks protons or neutrons. -/
theorem C89_nonneg_partial {Z A : Int} {m : Slo} (h : Slo.make Z A = .ok m) (hA : A ≤ 509) (hZ : 0 ≤ Z)
    (hZA : Z ≤ A) (type : TrType) {l : Int} (hl : 1 ≤ l) {e : ℝ} (he : 0 < e) :
    ∃ f T, m.strength type l e = .ok (some f) ∧ m.transmission type l e = .ok (some T) ∧ 0 ≤ f ∧ 0 ≤ T ∧
      (type ≠ .unphysical → 0 < Z → Z < A → 0 < f ∧ 0 < T) := by
  have hA1 : 1 ≤ A := (C89_made Z A).1 ⟨m, h⟩
  obtain ⟨p1, p2, p3, p4⟩ := peaks hA1 hA hZ hZA
  obtain ⟨f, h1, h2⟩ := C89_transmission h type hl he
  have hpi := Real.pi_pos
  have key : 0 ≤ f ∧ (type ≠ .unphysical → 0 < Z → Z < A → 0 < f) := by
    obtain ⟨l, rfl⟩ := Int.eq_ofNat_of_zero_le (show 0 ≤ l by omega)
    obtain ⟨f1, f2, f3⟩ := C89_lorentzian h he
    cases type with
    | electric =>
      by_cases hl1 : l = 1
      · subst hl1
        rw [show ((1 : Nat) : Int) = 1 from rfl, f1] at h1
        cases h1
        exact ⟨lorentzian_nonneg _ p1 he, fun _ a b =>
          lorentzian_pos _ (p4 a b).1 he (width1_pos hA1).ne'⟩
      · rw [f2 l (by omega)] at h1
        cases h1
        refine ⟨lorentzian_nonneg _ (by positivity) he, fun _ a b =>
          lorentzian_pos _ ?_ he (width2_ne A)⟩
        have := (p4 a b).2.1
        positivity
    | magnetic =>
      rw [f3 l (by omega)] at h1
      cases h1
      refine ⟨lorentzian_nonneg _ (by positivity) he, fun _ a b =>
        lorentzian_pos _ ?_ he (by norm_num)⟩
      have := (p4 a b).2.2
      positivity
    | unphysical =>
      rw [(C89_unphysical m hl he).1] at h1
      cases h1
      exact ⟨le_rfl, fun hh => absurd rfl hh⟩
  obtain ⟨k1, k2⟩ := key
  refine ⟨f, _, h1, h2, k1, by positivity, fun a b c => ?_⟩
  have := k2 a b c
  exact ⟨this, by positivity⟩

/-- For (hypothetical) nuclides beyond mass number 509 the width of the quadrupole resonance is negative, and so are
the strengths. -/
theorem C89_heavy_violated {Z A : Int} {m : Slo} (h : Slo.make Z A = .ok m) (hA : 510 ≤ A) (hZ : 0 < Z) {e : ℝ}
    (he : 0 < e) : ∃ f, m.strength .electric 2 e = .ok (some f) ∧ f < 0 := by
  refine ⟨_, (C89_lorentzian h he).2.1 2 le_rfl, ?_⟩
  have hA' : (510 : ℝ) ≤ A := by exact_mod_cast hA
  have hA0 : (0 : ℝ) < A := by linarith
  have hZ' : (0 : ℝ) < Z := by exact_mod_cast hZ
  have hw : Spec.E2width A < 0 := by unfold Spec.E2width; linarith
  have hs : 0 < -(Spec.E2peak Z A) := by
    have he2 : 0 < Spec.E2energy A := by unfold Spec.E2energy; positivity
    unfold Spec.E2peak
    rw [neg_pos]
    exact div_neg_of_pos_of_neg (by positivity) (mul_neg_of_pos_of_neg (by positivity) hw)
  have := lorentzian_pos (E := Spec.E2energy A) 2 hs he hw.ne
  have hn : lorentzian (Spec.E2energy A) (Spec.E2width A) (-(Spec.E2peak Z A)) 2 e
      = - lorentzian (Spec.E2energy A) (Spec.E2width A) (Spec.E2peak Z A) 2 e := by
    simp only [lorentzian]; ring
  simp only [fE, Nat.sub_self, pow_zero, one_mul]
  linarith

/-- Non-vacuity: the model of argon-40, and its E1 and M3 strengths at 5 MeV. -/
example : ∃ m f T, Slo.make 18 40 = .ok m ∧ m.strength .magnetic 3 5 = .ok (some f) ∧
    m.transmission .electric 1 5 = .ok (some T) ∧ 0 < f ∧ 0 < T := by
  obtain ⟨m, h⟩ := (C89_made 18 40).2 (by norm_num)
  obtain ⟨f, _, h1, _, _, _, h2⟩ := C89_nonneg_partial h (by norm_num) (by norm_num) (by norm_num) .magnetic
    (show (1 : Int) ≤ 3 by norm_num) (show (0 : ℝ) < 5 by norm_num)
  obtain ⟨_, T, _, h3, _, _, h4⟩ := C89_nonneg_partial h (by norm_num) (by norm_num) (by norm_num) .electric
    (show (1 : Int) ≤ 1 by norm_num) (show (0 : ℝ) < 5 by norm_num)
  exact ⟨m, f, T, h, h1, h3, (h2 (by decide) (by norm_num) (by norm_num)).1,
    (h4 (by decide) (by norm_num) (by norm_num)).2⟩

/-! ## Weisskopf estimates -/

open Nat in
theorem dfact_ok {l : Nat} (hl : l ≤ 9) : dfactLoop (2 * l + 1) 1 = .ok ((2 * l + 1)‼ : Nat) := by
  interval_cases l <;> decide +kernel

theorem dfact_ub (k : Nat) : ∀ {n acc : Int}, 0 < n → n ≤ k → 1 ≤ acc → 2147483647 < acc * n →
    dfactLoop n acc = .error .ub := by
  intro n acc h1 _ _ h2
  rw [dfactLoop, if_pos h1, if_pos h2]

theorem dfact_mono (k : Nat) : ∀ (n acc acc' : Int), n ≤ k → 0 ≤ acc → acc ≤ acc' →
    dfactLoop n acc = .error .ub → dfactLoop n acc' = .error .ub := by
  induction k with
  | zero =>
    intro n acc acc' h1 h2 h3 h
    rw [dfactLoop, if_neg (by omega)] at h
    cases h
  | succ k ih =>
    intro n acc acc' h1 h2 h3 h
    by_cases hn : n > 0
    · rw [dfactLoop, if_pos hn] at h ⊢
      have hm : acc * n ≤ acc' * n := mul_le_mul_of_nonneg_right h3 hn.le
      by_cases hb : acc' * n > 2147483647
      · rw [if_pos hb]
      · rw [if_neg (by omega)] at h
        rw [if_neg hb]
        by_cases hk : n - 2 ≤ k
        · exact ih _ _ _ hk (by positivity) hm h
        · omega
    · rw [dfactLoop, if_neg hn] at h
      cases h

theorem dfact_large (k : Nat) : dfactLoop (21 + 2 * k) 1 = .error .ub := by
  induction k with
  | zero => decide +kernel
  | succ k ih =>
    rw [dfactLoop, if_pos (by push_cast; omega)]
    by_cases hb : (1 : Int) * (21 + 2 * ((k + 1 : Nat) : Int)) > 2147483647
    · rw [if_pos hb]
    · rw [if_neg hb, show (21 + 2 * ((k + 1 : Nat) : Int) - 2) = 21 + 2 * k by push_cast; ring]
      exact dfact_mono (21 + 2 * k) _ _ _ (by push_cast; omega) (by norm_num) (by push_cast; omega) ih

/-- A level spacing that is not positive is refused. -/
theorem C89_spacing (A : Int) (D0 : ℝ) : Weisskopf.make A D0 = .error .marleyError ↔ D0 ≤ 0 := by
  unfold Weisskopf.make
  split_ifs with h <;> simp [h]

/-- The Weisskopf model computes the documented strength functions, up to multipolarity 9. -/
theorem C89_weisskopf_partial {A : Int} {D0 : ℝ} {m : Weisskopf} (h : Weisskopf.make A D0 = .ok m) (hA : 1 ≤ A)
    (t : Mass.Table) {mp : ℝ} (hmp : Mass.particleMass t 2212 = .ok mp) (h0 : 0 < mp) {l : Nat} (h1 : 1 ≤ l)
    (h9 : l ≤ 9) : m.strength t .electric l = .ok (some (weisskopfE A D0 l)) ∧
      m.strength t .magnetic l = .ok (some (weisskopfM A D0 mp l)) ∧
      m.strength t .unphysical l = .ok (some 0) ∧
      0 < weisskopfE A D0 l ∧ 0 < weisskopfM A D0 mp l := by
  have hD : 0 < D0 ∧ m = ⟨A, D0⟩ := by
    unfold Weisskopf.make at h
    split_ifs at h with hd
    cases h
    exact ⟨not_le.1 hd, rfl⟩
  obtain ⟨hD, rfl⟩ := hD
  have hA' : (0 : ℝ) < A := by exact_mod_cast (by omega : 0 < A)
  have hl : (0 : ℝ) < l := by exact_mod_cast (by omega : 0 < l)
  have hd := dfact_ok h9
  have hf : (0 : ℝ) < (Nat.doubleFactorial (2 * l + 1) : ℝ) := by
    exact_mod_cast Nat.doubleFactorial_pos _
  have hfac : 0 < Spec.weisskopfFactor l := by unfold Spec.weisskopfFactor; positivity
  have hE : 0 < weisskopfE A D0 l := by unfold weisskopfE; positivity
  have hr : (0 : ℝ) < (A : ℝ) ^ (1 / 3 : ℝ) := by positivity
  have hel : 2 * fineStructure * (((l : Int) + 1 : ℝ) / ((l : Int) * (((Nat.doubleFactorial (2 * l + 1) : Nat) : Int) : ℝ) ^ 2)
        * (3 / ((l : Int) + 3)) ^ 2) * (r0 * (A : ℝ) ^ (1 / 3 : ℝ) / hbarC) ^ (2 * (l : Int)) / D0
      = weisskopfE A D0 l := by
    simp only [weisskopfE, Spec.weisskopfFactor, fineStructure, r0, hbarC, Int.cast_natCast]
    rw [show 2 * (l : Int) = ((2 * l : Nat) : Int) by push_cast; ring, zpow_natCast]
    norm_num
    ring
  have hne : ¬ ((l : Int) < 1) := by omega
  have hov : ¬ (2 * (l : Int) + 1 > 2147483647) := by omega
  refine ⟨?_, ?_, ?_, hE, by unfold weisskopfM; positivity⟩
  · rw [Weisskopf.strength, if_neg hne, if_neg hov, hd]
    dsimp only
    rw [if_neg (by omega), ← hel]
  · rw [Weisskopf.strength, if_neg hne, if_neg hov, hd]
    dsimp only
    rw [if_neg (by omega), hmp, hel]
    have hq : mp * (r0 * (A : ℝ) ^ (1 / 3 : ℝ)) ≠ 0 := by
      have : 0 < r0 := by norm_num [r0]
      positivity
    simp only [Utils.fdiv, if_neg hq, Option.bind_eq_bind, Option.bind_some, Option.pure_def, weisskopfM]
    congr 2
    simp only [hbarC, r0]
    rw [mul_comm mp]
    ring
  · rw [Weisskopf.strength, if_neg hne, if_neg hov, hd]
    dsimp only
    rw [if_neg (by omega)]

/-- Transmission coefficients and strength functions are related as documented. -/
theorem C89_weisskopf_transmission {t : Mass.Table} {m : Weisskopf} {type : TrType} {l : Int} {f : ℝ}
    (h : m.strength t type l = .ok (some f)) {e : ℝ} (he : 0 < e) :
    m.transmission t type l e = .ok (some (2 * Real.pi * f * e ^ (2 * l + 1))) ∧
    m.width t type l e = .ok (some (m.D0 * e ^ (2 * l + 1) * f)) := by
  simp [Weisskopf.transmission, Weisskopf.width, h, powInt, he.ne']

/-- From multipolarity 10 on the double factorial overflows: every strength is undefined. -/
theorem C89_overflow_violated (t : Mass.Table) (m : Weisskopf) (type : TrType) {l : Int} (hl : 10 ≤ l) :
    m.strength t type l = .error .ub := by
  rw [Weisskopf.strength, if_neg (by omega)]
  by_cases hb : 2 * l + 1 > 2147483647
  · rw [if_pos hb]
  · obtain ⟨k, hk⟩ := Int.eq_ofNat_of_zero_le (show 0 ≤ l - 10 by omega)
    have := dfact_large k
    rw [if_neg hb, show 2 * l + 1 = 21 + 2 * (k : Int) by omega, this]

/-- Multipolarities below one are refused. -/
theorem C89_weisskopf_multipolarity (t : Mass.Table) (m : Weisskopf) (type : TrType) {l : Int} (hl : l < 1) :
    m.strength t type l = .error .marleyError := by
  rw [Weisskopf.strength, if_pos hl]

/-- Non-vacuity: the Weisskopf model of argon-40 and its M2 strength. -/
example : ∃ m f, Weisskopf.make 40 1 = .ok m ∧
    m.strength ⟨fun _ => some 1, fun _ => none⟩ .magnetic 2 = .ok (some f) ∧ 0 < f := by
  have hm : Weisskopf.make 40 1 = .ok ⟨40, 1⟩ := by rw [Weisskopf.make, if_neg (by norm_num)]
  obtain ⟨-, h, -, -, hp⟩ := C89_weisskopf_partial hm (by norm_num) ⟨fun _ => some 1, fun _ => none⟩
    (mp := Mass.microAmu * 1) (by simp [Mass.particleMass]) (by norm_num [Mass.microAmu]) (l := 2)
    (by norm_num) (by norm_num)
  exact ⟨_, _, hm, h, hp⟩

end Marley.Props
