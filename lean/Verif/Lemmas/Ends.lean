import Verif.Spec.Ends
import Verif.Lemmas.Determined
import Verif.Lemmas.IdealEngine
import Verif.Props.SearchEnds

/-! Loops that end. -/

set_option autoImplicit false

namespace Marley.Sampling
open Marley MeasureTheory

variable {G σ α : Type} {E : Engine G} {g : G}

theorem Ends.of (v : α) : Ends fun _ => some v := ⟨0, v, fun _ _ => rfl⟩

theorem number_after (k n : Nat) : number E k (after E n g) = number E (n + k) g := by
  unfold number; rw [after_add]

theorem Often.after (h : Often E g) (n : Nat) : Often E (after E n g) := by
  refine ⟨fun k => ?_, fun k box hb => ?_⟩
  · rw [number_after]; exact h.inside _
  · obtain ⟨j, hj⟩ := h.groups (n + k) box hb
    refine ⟨j, fun i p hp => ?_⟩
    rw [number_after, show n + (k + box.length * j + i) = n + k + box.length * j + i by omega]
    exact hj i p hp

theorem Often.pairs (h : Often E g) (k : Nat) (a b c d : ℝ) (ha : 0 ≤ a) (hab : a < b) (hb : b ≤ 1)
    (hc : 0 ≤ c) (hcd : c < d) (hd : d ≤ 1) :
    ∃ j, number E (k + 2 * j) g ∈ Set.Ioo a b ∧ number E (k + 2 * j + 1) g ∈ Set.Ioo c d := by
  obtain ⟨j, hj⟩ := h.groups k [(a, b), (c, d)] (by
    intro p hp
    simp only [List.mem_cons, List.not_mem_nil, or_false] at hp
    rcases hp with rfl | rfl
    · exact ⟨ha, hab, hb⟩
    · exact ⟨hc, hcd, hd⟩)
  exact ⟨j, hj 0 (a, b) rfl, hj 1 (c, d) rfl⟩

/-- Numbers that are small come in runs of any length. -/
theorem Often.run (h : Often E g) (m : Nat) {δ : ℝ} (h0 : 0 < δ) (h1 : δ ≤ 1) :
    ∃ j, ∀ i, i < m → number E (j + i) g ∈ Set.Ioo 0 δ := by
  obtain ⟨j, hj⟩ := h.groups 0 (List.replicate m (0, δ)) (by
    intro p hp
    rw [List.eq_of_mem_replicate hp]
    exact ⟨le_rfl, h0, h1⟩)
  refine ⟨0 + (List.replicate m ((0 : ℝ), δ)).length * j, fun i hi => hj i (0, δ) ?_⟩
  rw [List.getElem?_replicate, if_pos hi]

theorem determined_after {f : Sampler α} (hf : Determined f) {a : α} {g' : G}
    (h : f G E g = some (.ok (a, g'))) : ∃ k, g' = after E k g := by
  obtain ⟨n, r, hn⟩ := hf G E g
  have h0 := hn G E g rfl
  rw [h] at h0
  match r, h0 with
  | none, h0 => simp [leaves] at h0
  | some (.error _), h0 => simp [leaves] at h0
  | some (.ok b), h0 =>
    simp only [leaves, Option.some.injEq, Except.ok.injEq, Prod.mk.injEq] at h0
    exact ⟨n, h0.2⟩

/-! ### Rejection sampling -/

/-- A function that can be sampled from: on the range it is bounded, and it is not small for the numbers in some
interval. -/
structure Plenty (f : ℝ → σ → Res (ℝ × σ)) (I : σ → Prop) (xmin xmax : ℝ) : Prop where
  order : xmin ≤ xmax
  bounded : ∃ M, ∀ x ∈ Set.Icc xmin xmax, ∀ st, I st → ∀ v st', f x st = .ok (v, st') → v ≤ M ∧ I st'
  often : ∃ a b δ, 0 ≤ a ∧ a < b ∧ b ≤ 1 ∧ 0 < δ ∧ ∀ u ∈ Set.Ioo a b, ∀ st, I st →
    ∀ v st', f (u * (xmax - xmin) + xmin) st = .ok (v, st') → δ ≤ v

/-- It is not small on some interval. -/
theorem Plenty.interval {f : ℝ → σ → Res (ℝ × σ)} {I : σ → Prop} {xmin xmax : ℝ}
    (h1 : ∃ M, ∀ x ∈ Set.Icc xmin xmax, ∀ st, I st → ∀ v st', f x st = .ok (v, st') → v ≤ M ∧ I st')
    (h2 : ∃ a b δ, xmin ≤ a ∧ a < b ∧ b ≤ xmax ∧ 0 < δ ∧ ∀ x ∈ Set.Ioo a b, ∀ st, I st →
      ∀ v st', f x st = .ok (v, st') → δ ≤ v) : Plenty f I xmin xmax := by
  obtain ⟨a, b, δ, ha, hab, hb, hδ, h2⟩ := h2
  have hw : 0 < xmax - xmin := by linarith
  refine ⟨by linarith, h1, (a - xmin) / (xmax - xmin), (b - xmin) / (xmax - xmin), δ,
    div_nonneg (by linarith) hw.le, div_lt_div_of_pos_right (by linarith) hw,
    by rw [div_le_one hw]; linarith, hδ, fun u hu => h2 _ ?_⟩
  obtain ⟨k1, k2⟩ := hu
  rw [div_lt_iff₀ hw] at k1
  rw [lt_div_iff₀ hw] at k2
  constructor <;> linarith

/-- The range is a point. -/
theorem Plenty.point {f : ℝ → σ → Res (ℝ × σ)} {I : σ → Prop} {x δ M : ℝ} (hδ : 0 < δ)
    (h : ∀ st, I st → ∀ v st', f x st = .ok (v, st') → δ ≤ v ∧ v ≤ M ∧ I st') : Plenty f I x x := by
  refine ⟨le_rfl, ⟨M, fun y hy st hst v st' hv => ?_⟩, 0, 1, δ, le_rfl, one_pos, le_rfl, hδ,
    fun u _ st hst v st' hv => ?_⟩
  · rw [le_antisymm hy.2 hy.1] at hv
    exact (h st hst v st' hv).2
  · rw [sub_self, mul_zero, zero_add] at hv
    exact (h st hst v st' hv).1

theorem uniform_exact (a b : ℝ) (i : Bool) (g : G) :
    uniform exact E a b i g = ((E.draw g).1 * (b - a) + a, (E.draw g).2) := by
  cases i <;> rfl

theorem rejectLoop_hit {f : ℝ → σ → Res (ℝ × σ)} {I : σ → Prop} {xmin xmax safety a b δ M : ℝ}
    (hle : xmin ≤ xmax) (hM : 0 < M)
    (h1 : ∀ x ∈ Set.Icc xmin xmax, ∀ st, I st → ∀ v st', f x st = .ok (v, st') →
      v * safety ≤ M ∧ I st')
    (h2 : ∀ u ∈ Set.Ioo a b, ∀ st, I st → ∀ v st', f (u * (xmax - xmin) + xmin) st = .ok (v, st') →
      δ ≤ v) (j : Nat) :
    ∀ (g : G) (m : ℝ) (st : σ), Often E g → m ≤ M → I st →
      number E (2 * j) g ∈ Set.Ioo a b →
      number E (2 * j + 1) g ∈ Set.Ioo 0 (δ / M) →
      ∃ r, (∀ n, j + 1 ≤ n → rejectLoop exact E f xmin xmax safety n m g st = some r) ∧
        ∀ q, r = .ok q → q.x ∈ Set.Icc xmin xmax ∧ I q.st ∧ ∃ k, q.gen = after E k g := by
  have hw : 0 ≤ xmax - xmin := by linarith
  have hin : ∀ u ∈ Set.Ico (0 : ℝ) 1, u * (xmax - xmin) + xmin ∈ Set.Icc xmin xmax := by
    intro u hu
    have := mul_nonneg hu.1 hw
    have := mul_le_mul_of_nonneg_right hu.2.le hw
    constructor <;> linarith
  induction j with
  | zero =>
    intro g m st ho hm hI hx hy
    have hg0 : number E (2 * 0) g = (E.draw g).1 := rfl
    have hg1 : number E (2 * 0 + 1) g = (E.draw (E.draw g).2).1 := rfl
    rw [hg0] at hx
    rw [hg1] at hy
    have hr := hin _ (ho.inside 0)
    have hr' : (E.draw g).1 * (xmax - xmin) + xmin ∈ Set.Icc xmin xmax := hr
    cases hf : f ((E.draw g).1 * (xmax - xmin) + xmin) st with
    | error e =>
      refine ⟨.error e, fun n hn => ?_, fun q hq => by cases hq⟩
      obtain ⟨n, rfl⟩ : ∃ k, n = k + 1 := ⟨n - 1, by omega⟩
      simp only [rejectLoop, uniform_exact, hf]
    | ok w =>
      obtain ⟨v, st'⟩ := w
      have hv := h2 _ hx st hI v st' hf
      have hle : (E.draw (E.draw g).2).1 * (m - 0) + 0 ≤ v := by
        obtain ⟨k1, k2⟩ := hy
        rw [lt_div_iff₀ hM] at k2
        nlinarith
      refine ⟨.ok ⟨(E.draw g).1 * (xmax - xmin) + xmin, (E.draw (E.draw g).2).1 * (m - 0) + 0,
        if v > m then v * safety else m, (E.draw (E.draw g).2).2, st'⟩, fun n hn => ?_, fun q hq => ?_⟩
      · obtain ⟨n, rfl⟩ : ∃ k, n = k + 1 := ⟨n - 1, by omega⟩
        simp only [rejectLoop, uniform_exact, hf]
        rw [if_neg (not_lt.2 hle)]
      · cases hq
        exact ⟨hr', (h1 _ hr' st hI v st' hf).2, 2, rfl⟩
  | succ j ih =>
    intro g m st ho hm hI hx hy
    have hr : (E.draw g).1 * (xmax - xmin) + xmin ∈ Set.Icc xmin xmax := hin _ (ho.inside 0)
    cases hf : f ((E.draw g).1 * (xmax - xmin) + xmin) st with
    | error e =>
      refine ⟨.error e, fun n hn => ?_, fun q hq => by cases hq⟩
      obtain ⟨n, rfl⟩ : ∃ k, n = k + 1 := ⟨n - 1, by omega⟩
      simp only [rejectLoop, uniform_exact, hf]
    | ok w =>
      obtain ⟨v, st'⟩ := w
      obtain ⟨hv, hI'⟩ := h1 _ hr st hI v st' hf
      by_cases hacc : (E.draw (E.draw g).2).1 * (m - 0) + 0 > v
      · have hm' : (if v > m then v * safety else m) ≤ M := by split_ifs <;> assumption
        obtain ⟨r, k1, k2⟩ := ih (after E 2 g) _ st' (ho.after 2) hm' hI'
          (by rw [number_after, show 2 + 2 * j = 2 * (j + 1) by omega]; exact hx)
          (by rw [number_after, show 2 + (2 * j + 1) = 2 * (j + 1) + 1 by omega]; exact hy)
        refine ⟨r, fun n hn => ?_, fun q hq => ?_⟩
        · obtain ⟨n, rfl⟩ : ∃ k, n = k + 1 := ⟨n - 1, by omega⟩
          simp only [rejectLoop, uniform_exact, hf]
          rw [if_pos hacc]
          exact k1 n (by omega)
        · obtain ⟨c1, c2, k, c3⟩ := k2 q hq
          exact ⟨c1, c2, 2 + k, by rw [after_add]; exact c3⟩
      · refine ⟨.ok ⟨(E.draw g).1 * (xmax - xmin) + xmin, (E.draw (E.draw g).2).1 * (m - 0) + 0,
          if v > m then v * safety else m, (E.draw (E.draw g).2).2, st'⟩, fun n hn => ?_, fun q hq => ?_⟩
        · obtain ⟨n, rfl⟩ : ∃ k, n = k + 1 := ⟨n - 1, by omega⟩
          simp only [rejectLoop, uniform_exact, hf]
          rw [if_neg hacc]
        · cases hq
          exact ⟨hr, hI', 2, rfl⟩

theorem rejectLoop_ends {f : ℝ → σ → Res (ℝ × σ)} {I : σ → Prop} {xmin xmax safety : ℝ}
    (hs : 0 ≤ safety) (h : Plenty f I xmin xmax) (ho : Often E g) (m : ℝ) {st : σ} (hI : I st) :
    ∃ N r, (∀ n, N ≤ n → rejectLoop exact E f xmin xmax safety n m g st = some r) ∧
      ∀ q, r = .ok q → q.x ∈ Set.Icc xmin xmax ∧ I q.st ∧ ∃ k, q.gen = after E k g := by
  obtain ⟨M, hM⟩ := h.bounded
  obtain ⟨a, b, δ, ha, hab, hb, hδ, h2⟩ := h.often
  have hpos : 0 < max (max m (M * safety)) (max 1 δ) :=
    lt_of_lt_of_le one_pos ((le_max_left _ _).trans (le_max_right _ _))
  have hδM : δ ≤ max (max m (M * safety)) (max 1 δ) := (le_max_right _ _).trans (le_max_right _ _)
  obtain ⟨j, k1, k2⟩ := ho.pairs 0 a b 0 (δ / max (max m (M * safety)) (max 1 δ)) ha hab hb le_rfl
    (div_pos hδ hpos) (by rwa [div_le_one hpos])
  rw [zero_add] at k1 k2
  obtain ⟨r, c1, c2⟩ := rejectLoop_hit (E := E) (safety := safety) h.order hpos
    (fun x hx st hI v st' e => by
      obtain ⟨b1, b2⟩ := hM x hx st hI v st' e
      exact ⟨(mul_le_mul_of_nonneg_right b1 hs).trans ((le_max_right _ _).trans (le_max_left _ _)), b2⟩)
    h2 j g m st ho ((le_max_left _ _).trans (le_max_left _ _)) hI k1 k2
  exact ⟨j + 1, r, c1, c2⟩

theorem brentLoop_mono (f : ℝ → σ → Res (ℝ × σ)) (ε : ℝ) {n k : Nat} (hk : n ≤ k) {s : Brent} {st : σ}
    {r : Res (Brent × σ)} (h : brentLoop f ε n s st = some r) : brentLoop f ε k s st = some r := by
  induction n generalizing k s st with
  | zero => simp [brentLoop] at h
  | succ n ih =>
    obtain ⟨k, rfl⟩ : ∃ i, k = i + 1 := ⟨k - 1, by omega⟩
    rw [brentLoop] at h ⊢
    split_ifs at h ⊢ with hc
    · dsimp only at h ⊢
      cases hf : f (s.probe ε (s.step ε).1) st with
      | error e => rw [hf] at h; exact h
      | ok v =>
        rw [hf] at h
        exact ih (by omega) h
    · exact h

theorem maximize_mono (f : ℝ → σ → Res (ℝ × σ)) {l r ε : ℝ} {n k : Nat} (hk : n ≤ k) {st : σ}
    {v : Res (ℝ × ℝ × σ)} (h : maximize n f l r ε st = some v) : maximize k f l r ε st = some v := by
  have key : ∀ {w}, minimize n (negated f) l r ε st = some w →
      minimize k (negated f) l r ε st = some w := by
    intro w hw
    unfold minimize at hw ⊢
    dsimp only at hw ⊢
    cases hf : negated f (l + golden * (r - l)) st with
    | error e => rw [hf] at hw; exact hw
    | ok x =>
      obtain ⟨fx, st'⟩ := x
      rw [hf] at hw
      dsimp only at hw ⊢
      cases hb : brentLoop (negated f) ε n ⟨l, r, l + golden * (r - l), l + golden * (r - l),
          l + golden * (r - l), 0, 0, fx, fx, fx⟩ st' with
      | none => rw [hb] at hw; cases hw
      | some y => rw [brentLoop_mono _ _ hk hb]; rw [hb] at hw; exact hw
  unfold maximize at h ⊢
  cases hm : minimize n (negated f) l r ε st with
  | none => rw [hm] at h; cases h
  | some w => rw [key hm]; rw [hm] at h; exact h

theorem maximize_ends (f : ℝ → σ → Res (ℝ × σ)) {l r ε : ℝ} (hε : 0 < ε) (st : σ) :
    Ends fun n => maximize n f l r ε st := by
  cases h : maximize (⌈(r - l) / ε⌉₊ + 1) f l r ε st with
  | none => exact absurd h (Props.C75_maximum_ends f hε st le_rfl)
  | some v => exact ⟨_, v, fun n hn => maximize_mono f hn h⟩

theorem rejectionSample_ends {f : ℝ → σ → Res (ℝ × σ)} {I : σ → Prop} {xmin xmax safety ε : ℝ}
    (hs : 0 ≤ safety) (hε : 0 < ε) (h : Plenty f I xmin xmax)
    (hk : ∀ n x y st st', I st → maximize n f xmin xmax ε st = some (.ok (x, y, st')) → I st')
    (ho : Often E g) (m : Option ℝ) {st : σ} (hI : I st) :
    ∃ N r, (∀ n, N ≤ n → rejectionSample exact E n f xmin xmax m safety ε g st = some r) ∧
      ∀ q, r = .ok q → q.x ∈ Set.Icc xmin xmax ∧ I q.st ∧ ∃ k, q.gen = after E k g := by
  unfold rejectionSample
  cases m with
  | some m => exact rejectLoop_ends hs h ho m hI
  | none =>
    obtain ⟨N, v, hN⟩ := maximize_ends f (l := xmin) (r := xmax) hε st
    cases v with
    | error e =>
      refine ⟨N, .error e, fun n hn => ?_, fun q hq => by cases hq⟩
      simp only [hN n hn]
    | ok v =>
      obtain ⟨x, y, st'⟩ := v
      obtain ⟨N', r, k1, k2⟩ := rejectLoop_ends hs h ho (y * safety)
        (hk N x y st st' hI (hN N le_rfl))
      refine ⟨max N N', r, fun n hn => ?_, k2⟩
      simp only [hN n (le_of_max_le_left hn)]
      exact k1 n (le_of_max_le_right hn)

/-! ### Numbers that come often -/

section
variable {Ω : Type} [MeasurableSpace Ω] {μ : Measure Ω} {F : Engine Ω}

theorem after_preserving (hI : Ideal F μ) (n : Nat) : MeasurePreserving (after F n) μ μ := by
  have := hI.prob
  have h1 : MeasurePreserving (fun ω => (F.draw ω).2) μ μ := by
    have hu : IsProbabilityMeasure unit := inferInstance
    exact (measurePreserving_snd (μ := unit) (ν := μ)).comp hI.draws
  induction n with
  | zero => exact MeasurePreserving.id μ
  | succ n ih => exact ih.comp h1

/-- The next numbers are in the box. -/
def Hits (F : Engine Ω) (box : List (ℝ × ℝ)) (ω : Ω) : Prop :=
  ∀ i p, box[i]? = some p → number F i ω ∈ Set.Ioo p.1 p.2

theorem hits_cons (p : ℝ × ℝ) (box : List (ℝ × ℝ)) (ω : Ω) :
    Hits F (p :: box) ω ↔ (F.draw ω).1 ∈ Set.Ioo p.1 p.2 ∧ Hits F box (F.draw ω).2 := by
  constructor
  · exact fun h => ⟨h 0 p rfl, fun i q hq => h (i + 1) q hq⟩
  · rintro ⟨h1, h2⟩ i q hq
    cases i with
    | zero =>
      simp only [List.getElem?_cons_zero, Option.some.injEq] at hq
      rw [← hq]; exact h1
    | succ i => exact h2 i q hq

theorem hits_measurable (hI : Ideal F μ) (box : List (ℝ × ℝ)) : MeasurableSet {ω | Hits F box ω} := by
  induction box with
  | nil => simp [Hits]
  | cons p box ih =>
    rw [show {ω | Hits F (p :: box) ω} = F.draw ⁻¹' (Set.Ioo p.1 p.2 ×ˢ {ω | Hits F box ω}) by
      ext ω; exact hits_cons p box ω]
    exact hI.draws.measurable (measurableSet_Ioo.prod ih)

theorem hits_share (hI : Ideal F μ) (box : List (ℝ × ℝ))
    (hb : ∀ p ∈ box, 0 ≤ p.1 ∧ p.1 < p.2 ∧ p.2 ≤ 1) :
    ∃ q : ENNReal, q ≠ 0 ∧ ∀ S : Set Ω, MeasurableSet S →
      μ {ω | Hits F box ω ∧ after F box.length ω ∈ S} = q * μ S := by
  have := hI.prob
  induction box with
  | nil =>
    refine ⟨1, one_ne_zero, fun S _ => ?_⟩
    simp [Hits, after]
  | cons p box ih =>
    obtain ⟨q, hq, h⟩ := ih fun p hp => hb p (by simp [hp])
    obtain ⟨h1, h2, h3⟩ := hb p (by simp)
    refine ⟨ENNReal.ofReal (p.2 - p.1) * q, mul_ne_zero ?_ hq, fun S hS => ?_⟩
    · rw [Ne, ENNReal.ofReal_eq_zero]; linarith
    · rw [show {ω | Hits F (p :: box) ω ∧ after F (p :: box).length ω ∈ S}
          = F.draw ⁻¹' (Set.Ioo p.1 p.2 ×ˢ {ω | Hits F box ω ∧ after F box.length ω ∈ S}) by
        ext ω
        refine (and_congr_left' (hits_cons p box ω)).trans ?_
        rw [and_assoc]
        rfl]
      have hm : MeasurableSet {ω | Hits F box ω ∧ after F box.length ω ∈ S} :=
        (hits_measurable hI box).inter ((after_preserving hI _).measurable hS)
      rw [hI.draws.measure_preimage (measurableSet_Ioo.prod hm).nullMeasurableSet, Measure.prod_prod,
        h S hS, mul_assoc]
      congr 1
      unfold unit
      rw [Measure.restrict_apply measurableSet_Ioo, Set.inter_eq_left.2, Real.volume_Ioo]
      exact fun z hz => ⟨h1.trans hz.1.le, lt_of_lt_of_le hz.2 h3⟩

theorem missed (hI : Ideal F μ) (box : List (ℝ × ℝ))
    (hb : ∀ p ∈ box, 0 ≤ p.1 ∧ p.1 < p.2 ∧ p.2 ≤ 1) :
    μ {ω | ∀ j, ¬ Hits F box (after F (box.length * j) ω)} = 0 := by
  have := hI.prob
  obtain ⟨q, hq, hsh⟩ := hits_share hI box hb
  have hmeas : ∀ n, MeasurableSet {ω | ∀ j, j < n → ¬ Hits F box (after F (box.length * j) ω)} := by
    intro n
    rw [show {ω | ∀ j, j < n → ¬ Hits F box (after F (box.length * j) ω)}
        = ⋂ j, ⋂ (_ : j < n), (after F (box.length * j) ⁻¹' {ω | Hits F box ω})ᶜ by
      ext ω; simp]
    exact MeasurableSet.iInter fun j => MeasurableSet.iInter fun _ =>
      ((after_preserving hI _).measurable (hits_measurable hI box)).compl
  have hn : ∀ n, μ {ω | ∀ j, j < n → ¬ Hits F box (after F (box.length * j) ω)} = (1 - q) ^ n := by
    intro n
    induction n with
    | zero => simp
    | succ n ih =>
      set S := {ω | ∀ j, j < n → ¬ Hits F box (after F (box.length * j) ω)} with hS
      have hset : {ω | ∀ j, j < n + 1 → ¬ Hits F box (after F (box.length * j) ω)}
          = after F box.length ⁻¹' S \ {ω | Hits F box ω ∧ after F box.length ω ∈ S} := by
        ext ω
        simp only [Set.mem_diff, Set.mem_preimage, Set.mem_ofPred_eq, hS]
        constructor
        · intro h
          refine ⟨fun j hj => ?_, fun k => h 0 (by omega) k.1⟩
          rw [← after_add, show box.length + box.length * j = box.length * (j + 1) by ring]
          exact h (j + 1) (by omega)
        · rintro ⟨h1, h2⟩ j hj
          cases j with
          | zero => exact fun k => h2 ⟨k, h1⟩
          | succ j =>
            rw [show box.length * (j + 1) = box.length + box.length * j by ring, after_add]
            exact h1 j (by omega)
      have hm : MeasurableSet {ω | Hits F box ω ∧ after F box.length ω ∈ S} :=
        (hits_measurable hI box).inter ((after_preserving hI _).measurable (hmeas n))
      have hsub : {ω | Hits F box ω ∧ after F box.length ω ∈ S} ⊆ after F box.length ⁻¹' S :=
        fun ω h => h.2
      rw [hset, measure_diff hsub hm.nullMeasurableSet (measure_ne_top _ _), hsh S (hmeas n),
        (after_preserving hI _).measure_preimage (hmeas n).nullMeasurableSet, ih, pow_succ',
        ENNReal.sub_mul (fun _ _ => ENNReal.pow_ne_top (by simp)), one_mul]
  have h1 : 1 - q < 1 := ENNReal.sub_lt_self ENNReal.one_ne_top one_ne_zero hq
  refine le_antisymm ?_ zero_le
  refine ge_of_tendsto' (ENNReal.tendsto_pow_atTop_nhds_zero_of_lt_one h1) fun n => ?_
  rw [← hn n]
  exact measure_mono fun ω h j _ => h j

/-- Almost surely the numbers of an ideal engine come as pairs everywhere, again and again. -/
theorem often_ae (hI : Ideal F μ) : ∀ᵐ ω ∂μ, Often F ω := by
  have := hI.prob
  have h1 : ∀ᵐ ω ∂μ, ∀ k, number F k ω ∈ Set.Ico (0 : ℝ) 1 := by
    refine ae_all_iff.2 fun k => ?_
    have h0 : ∀ᵐ ω ∂μ, (F.draw ω).1 ∈ Set.Ico (0 : ℝ) 1 := by
      have hm : MeasurableSet {q : ℝ × Ω | q.1 ∈ Set.Ico (0 : ℝ) 1} := measurable_fst measurableSet_Ico
      have hq : ∀ᵐ q ∂(unit.prod μ), q.1 ∈ Set.Ico (0 : ℝ) 1 := by
        have hu : ∀ᵐ u ∂unit, u ∈ Set.Ico (0 : ℝ) 1 := by
          unfold unit; exact ae_restrict_mem measurableSet_Ico
        exact Measure.quasiMeasurePreserving_fst.ae hu
      exact hI.draws.quasiMeasurePreserving.ae hq
    exact (after_preserving hI k).quasiMeasurePreserving.ae h0
  have h2 : ∀ᵐ ω ∂μ, ∀ (k : Nat) (box : List (ℚ × ℚ)), (∀ p ∈ box, 0 ≤ p.1 ∧ p.1 < p.2 ∧ p.2 ≤ 1) →
      ∃ j, Hits F (box.map fun p => ((p.1 : ℝ), (p.2 : ℝ))) (after F (k + box.length * j) ω) := by
    refine ae_all_iff.2 fun k => ae_all_iff.2 fun box => ?_
    by_cases h : ∀ p ∈ box, 0 ≤ p.1 ∧ p.1 < p.2 ∧ p.2 ≤ 1
    · have h0 : ∀ᵐ ω ∂μ, ¬ ∀ j, ¬ Hits F (box.map fun p => ((p.1 : ℝ), (p.2 : ℝ)))
          (after F (box.length * j) ω) := by
        rw [ae_iff]
        have := missed hI (box.map fun p => ((p.1 : ℝ), (p.2 : ℝ))) (by
          intro p hp
          obtain ⟨r, hr, rfl⟩ := List.mem_map.1 hp
          obtain ⟨h1, h2, h3⟩ := h r hr
          dsimp only
          exact ⟨by exact_mod_cast h1, by exact_mod_cast h2, by exact_mod_cast h3⟩)
        simpa only [not_not, List.length_map] using this
      filter_upwards [(after_preserving hI k).quasiMeasurePreserving.ae h0] with ω hω _
      push Not at hω
      obtain ⟨j, hj⟩ := hω
      exact ⟨j, by rw [after_add]; exact hj⟩
    · exact Filter.Eventually.of_forall fun ω h1 => absurd h1 h
  filter_upwards [h1, h2] with ω k1 k2
  refine ⟨k1, fun k box hb => ?_⟩
  have hrat : ∃ box' : List (ℚ × ℚ), box'.length = box.length ∧
      (∀ p ∈ box', 0 ≤ p.1 ∧ p.1 < p.2 ∧ p.2 ≤ 1) ∧
      ∀ (i : Nat) (p : ℝ × ℝ), box[i]? = some p →
        ∃ p' : ℚ × ℚ, box'[i]? = some p' ∧ p.1 < p'.1 ∧ p'.2 < p.2 := by
    clear h1 h2 k1 k2
    induction box with
    | nil => exact ⟨[], rfl, by simp, by simp⟩
    | cons p box ih =>
      obtain ⟨box', e, hb', hs⟩ := ih fun p hp => hb p (by simp [hp])
      obtain ⟨h1, h2, h3⟩ := hb p (by simp)
      obtain ⟨a', ha1, ha2⟩ := exists_rat_btwn h2
      obtain ⟨b', hb1, hb2⟩ := exists_rat_btwn ha2
      refine ⟨(a', b') :: box', by simp [e], fun q hq => ?_, fun i q hq => ?_⟩
      · rcases List.mem_cons.1 hq with rfl | hq
        · exact ⟨by exact_mod_cast (h1.trans ha1.le), by exact_mod_cast hb1,
            by exact_mod_cast (hb2.le.trans h3)⟩
        · exact hb' q hq
      · cases i with
        | zero =>
          simp only [List.getElem?_cons_zero, Option.some.injEq] at hq
          exact ⟨(a', b'), rfl, by rw [← hq]; exact ha1, by rw [← hq]; exact hb2⟩
        | succ i => exact hs i q hq
  obtain ⟨box', e, hb', hs⟩ := hrat
  obtain ⟨j, hj⟩ := k2 k box' hb'
  refine ⟨j, fun i p hp => ?_⟩
  obtain ⟨p', hp', h3, h4⟩ := hs i p hp
  have := hj i ((p'.1 : ℝ), (p'.2 : ℝ)) (by rw [List.getElem?_map, hp']; rfl)
  rw [number_after, e] at this
  exact ⟨h3.trans this.1, this.2.trans h4⟩

end

end Marley.Sampling
