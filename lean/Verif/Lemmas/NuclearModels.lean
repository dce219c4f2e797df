import Verif.Model.NuclearModels
import Verif.Props.HauserFeshbach
import Verif.Props.Quadrature

/-!
# Signs of partial widths
-/

set_option autoImplicit false

namespace Marley.Decay
open Marley Marley.Props
open Marley.Scheme (Scheme Level)
open Marley.Structure (Fragment)

theorem lLoop_ge {Pi : Parity} {term : Int → ℝ} (h : ∀ l, 0 ≤ term l) (hi l : Int) (P : Parity) (w : ℝ) :
    w ≤ lLoop Pi term hi l P w := by
  fun_induction lLoop Pi term hi l P w with
  | case1 l P w hl ih =>
    refine le_trans ?_ ih
    have := h l
    split_ifs <;> linarith
  | case2 => exact le_rfl

theorem jLoop_ge {Pi PfPa : Parity} {term : Int → Int → ℝ} (h : ∀ j l, 0 ≤ term j l) (twoS hi twoj : Int)
    (w : ℝ) : w ≤ jLoop Pi PfPa term twoS hi twoj w := by
  fun_induction jLoop Pi PfPa term twoS hi twoj w with
  | case1 twoj w hj a b c ih => exact (lLoop_ge (h twoj) _ _ _ _).trans ih
  | case2 => exact le_rfl

theorem mpolLoop_ge {term : Int → ℝ} (hi mpol : Int) (w : ℝ) (h : ∀ l, mpol ≤ l → 0 ≤ term l) :
    w ≤ mpolLoop term hi mpol w := by
  fun_induction mpolLoop term hi mpol w with
  | case1 m w hm ih =>
    have := h m le_rfl
    exact le_trans (by linarith) (ih (fun l hl => h l (by omega)))
  | case2 => exact le_rfl

/-- The numbers that go into the widths of the decays of a nucleus. -/
structure Signs (D : Data) (pdg : Int) (Ex : ℝ) : Prop where
  optical : ∀ f ∈ D.frags, ∀ KE twoj l twoS, 0 ≤ D.optical (remnant pdg f.pid) KE f.pid twoj l twoS
  final : ∀ f ∈ D.frags, ∀ S, Mass.separationEnergyPid D.mass pdg f.pid true = .ok (some S) → S < Ex →
    ∀ E twoJ P, 0 ≤ E → 0 ≤ twoJ → 0 ≤ D.density (remnant pdg f.pid) E twoJ P
  density : ∀ E twoJ P, 0 ≤ E → 0 ≤ twoJ → 0 ≤ D.density pdg E twoJ P
  strength : ∀ type l e, 1 ≤ l → 0 ≤ e → 0 ≤ D.strength pdg type l e

/-- Fragments as they are listed by the database. -/
structure Listed (frags : List Fragment) : Prop where
  once : (frags.map (·.pid)).Nodup
  spin : ∀ f ∈ frags, 0 ≤ f.twoS

/-- The table of a continuum channel has entries that are not negative, and they add up to the value. -/
theorem diff_nonneg {D : Data} {c : Parent} (hs : Signs D c.pdg c.Ex) (hf : Listed D.frags) (hn : 0 ≤ c.norm)
    (hJ : 0 ≤ c.twoJ) {k : Kind} {Emin Emax : ℝ} (hk : k.bounds D c = .ok (Emin, Emax))
    (hp : Possible D c.pdg c.Ex k) (h0 : 0 ≤ Emin) {x : ℝ} (hx : Emin ≤ x) (hx' : x ≤ Emax) :
    ∃ a, k.diff D c x = .ok a ∧ a.1 = (a.2.map (·.width)).sum ∧ (∀ e ∈ a.2, 0 ≤ e.width) ∧ 0 ≤ a.1 := by
  have fin : ∀ a : Acc, a.1 = (a.2.map (·.width)).sum → (∀ e ∈ a.2, 0 ≤ e.width) → 0 ≤ a.1 := by
    intro a h1 h2
    rw [h1]
    apply List.sum_nonneg
    intro w hw
    obtain ⟨e, he, rfl⟩ := List.mem_map.1 hw
    exact h2 e he
  obtain ⟨S, hS, hE⟩ := hp
  cases k with
  | fragLevel f lev => simp [Kind.bounds] at hk
  | gamLevel lev => simp [Kind.bounds] at hk
  | fragCont f E =>
    obtain ⟨⟨f, hm, rfl⟩, hS⟩ := hS
    simp only [Kind.bounds, maxExf, hS, Option.map_some, Except.ok.injEq, Prod.mk.injEq] at hk
    obtain ⟨rfl, rfl⟩ := hk
    obtain ⟨L, -, h3, a, h4, h5, h6⟩ := C53_continuum hf.once hm c hS hx hx' hJ (hf.spin f hm)
    have h7 : ∀ e ∈ a.2, 0 ≤ e.width := by
      rw [h6]
      intro e he
      obtain ⟨⟨l, j, J, P⟩, hx1, rfl⟩ := List.mem_map.1 he
      obtain ⟨-, hw⟩ := (h3 l j J P).1 hx1
      exact mul_nonneg (mul_nonneg hn (hs.optical f hm _ _ _ _))
        (hs.final f hm S hS (by linarith [hE.2]) _ _ _ (by linarith) (by
          have := abs_le.1 hw.total.1; have := hw.total.2.1; dsimp only; omega))
    exact ⟨a, h4, h5, h7, fin a h5 h7⟩
  | gamCont E =>
    simp only [Kind.bounds, Except.ok.injEq, Prod.mk.injEq] at hk
    obtain ⟨rfl, rfl⟩ := hk
    obtain ⟨L, -, h3, a, h4, h5, h6⟩ := C54_continuum D c hx hx' hJ
    have h7 : ∀ e ∈ a.2, 0 ≤ e.width := by
      rw [h6]
      intro e he
      obtain ⟨⟨t, l, J, P⟩, hx1, rfl⟩ := List.mem_map.1 he
      obtain ⟨-, hw⟩ := (h3 t l J P).1 hx1
      exact mul_nonneg (mul_nonneg hn (hs.strength _ _ _ hw.dipole (by linarith)))
        (hs.density _ _ _ (by linarith) (by
          have := abs_le.1 hw.total.1; have := hw.total.2.1; dsimp only; omega))
    exact ⟨a, h4, h5, h7, fin a h5 h7⟩

/-- The integral of a function that is not negative, and its sign if the function is positive inside. -/
theorem numIntegrate_nonneg {f : ℝ → Res ℝ} {a b : ℝ} (h : a < b)
    (hf : ∀ x, a ≤ x → x ≤ b → ∃ v, f x = .ok v ∧ 0 ≤ v) :
    ∃ v, Gen.numIntegrate (fun x (_ : Unit) => (f x).map (fun v => (v, ()))) a b () = .ok (v, ()) ∧ 0 ≤ v ∧
      ((∀ x v, a < x → x < b → f x = .ok v → 0 < v) → 0 < v) := by
  obtain ⟨g, hg⟩ : ∃ g : ℝ → ℝ, ∀ x, a ≤ x → x ≤ b → f x = .ok (g x) ∧ 0 ≤ g x := by
    classical
    refine ⟨fun x => if h : a ≤ x ∧ x ≤ b then (hf x h.1 h.2).choose else 0, fun x h1 h2 => ?_⟩
    dsimp only
    rw [dif_pos ⟨h1, h2⟩]
    exact (hf x h1 h2).choose_spec
  have e := C80_inside (σ := Unit) (fun x (_ : Unit) => (f x).map (fun v => (v, ())))
    (fun x s => .ok (g x, s)) h.le (fun x h1 h2 => by rw [(hg x h1 h2).1]; rfl) ()
  refine ⟨Gen.quad 50 a b g, ?_, ?_, fun hp => ?_⟩
  · rw [e]
    unfold Gen.numIntegrate Gen.quad
    rw [Gen.weightedSum_pure g, zero_add]
  · have := Gen.quad_mono (N := 50) (by norm_num) h.le (fun _ => 0) g (fun x h1 h2 => (hg x h1 h2).2)
    have z : Gen.quad 50 a b (fun _ => 0) = 0 := by
      unfold Gen.quad
      simp
    linarith
  · rw [Gen.quad_eq]
    have h1 := (hg a le_rfl h.le).2
    have h2 := (hg b h.le le_rfl).2
    have w := fun n => Gen.weight_pos (N := 50) (by norm_num) n
    have hm := hp ((b + a) / 2) (g ((b + a) / 2)) (by linarith) (by linarith)
      (hg _ (by linarith) (by linarith)).1
    have w0 := w 0
    have w1 := w 50
    have hs : 0 ≤ ∑ i ∈ Finset.range (50 - 1), Gen.weight 50 (i + 1) *
        (g ((b + a) / 2 + (b - a) / 2 * Gen.offset 50 (i + 1))
          + g ((b + a) / 2 - (b - a) / 2 * Gen.offset 50 (i + 1))) := by
      apply Finset.sum_nonneg
      intro i _
      have o := Gen.offset_range 50 (i + 1)
      refine mul_nonneg (w _).le (add_nonneg (hg _ ?_ ?_).2 (hg _ ?_ ?_).2) <;> nlinarith
    have : 0 < (b - a) / 2 := by linarith
    have m1 := mul_pos w1 hm
    have m2 : 0 ≤ Gen.weight 50 0 / 2 * (g a + g b) := by positivity
    apply mul_pos this
    linarith

/-- Partial widths. -/
theorem kindWidth_nonneg {D : Data} (hD : SortedSchemes D) {c : Parent} (hs : Signs D c.pdg c.Ex)
    (hf : Listed D.frags) (hn : 0 ≤ c.norm) (hJ : 0 ≤ c.twoJ) {k : Kind} (hp : Possible D c.pdg c.Ex k) :
    ∃ w, kindWidth D c k = .ok w ∧ 0 ≤ w := by
  have hen := C52_energies_partial hD hp
  have cont : ∀ E1 E2, k.bounds D c = .ok (E1, E2) → 0 ≤ E1 → E1 < E2 → ∃ w, contWidth D c k = .ok w ∧ 0 ≤ w := by
    intro E1 E2 hb h0 h1
    obtain ⟨v, h2, h3, -⟩ := numIntegrate_nonneg (f := fun x => (k.diff D c x).map (·.1)) h1 (fun x hx hx' => by
      obtain ⟨a, h3, -, -, h4⟩ := diff_nonneg hs hf hn hJ hb hp h0 hx hx'
      exact ⟨a.1, by rw [h3]; rfl, h4⟩)
    refine ⟨v, ?_, h3⟩
    unfold contWidth
    rw [hb]
    dsimp only
    rw [if_neg (by linarith)]
    have e : (fun x (_ : Unit) => ((k.diff D c x).map (·.1)).map (fun v => (v, ())))
        = fun x (_ : Unit) => (k.diff D c x).map (fun a => (a.1, ())) := by
      funext x _
      cases k.diff D c x <;> rfl
    rw [e] at h2
    rw [h2]
  obtain ⟨S, hS, h1⟩ := hen
  cases k with
  | fragLevel f lev =>
    obtain ⟨⟨f, hm, rfl⟩, hS⟩ := hS
    unfold kindWidth fragDiscreteWidth maxExf
    dsimp only at h1 ⊢
    rw [fragment_eq hf.once hm, hS]
    dsimp only [Option.map_some]
    rw [if_neg (by linarith [h1.2])]
    exact ⟨_, rfl, jLoop_ge (fun j l => mul_nonneg hn (hs.optical f hm _ _ _ _)) _ _ _ _⟩
  | gamLevel lev =>
    refine ⟨_, rfl, ?_⟩
    have hc : S = 0 := hS
    dsimp only at h1
    unfold gamDiscreteWidth
    rw [if_neg (by linarith [h1.2])]
    exact mpolLoop_ge _ _ _ (fun l hl => mul_nonneg hn (hs.strength _ _ _
      (le_trans (le_max_left _ _) hl) (by unfold gammaEnergy; linarith [h1.2])))
  | fragCont f E =>
    obtain ⟨-, hS⟩ := hS
    dsimp only at h1
    exact cont E (c.Ex - S) (by simp [Kind.bounds, maxExf, hS]) h1.1 (by linarith [h1.2])
  | gamCont E =>
    have hc : S = 0 := hS
    dsimp only at h1
    exact cont E c.Ex rfl h1.1 (by linarith [h1.2])

end Marley.Decay
