import Verif.Props.EventEnds
import Verif.Model.Source
import Verif.Props.Grid
import Verif.Props.Source

/-!
# C134: sampling the energies of sources ends with probability one
-/

set_option autoImplicit false

namespace Marley.Props
open Marley Marley.Sampling Marley.Source MeasureTheory
open Marley.Grid (Increasing Sorted bin_spec)

/-! ### Specification -/

/-- A source whose energies can be sampled: it has a single energy, or where its density is a number it is bounded
on the range of the source, and not small on some interval. -/
def Samplable (s : Source) : Prop := (∃ e, s.spectrum = .mono e) ∨
  ∃ a b, Emin s.spectrum = .ok a ∧ Emax s.spectrum = .ok b ∧
    (∃ M, ∀ x ∈ Set.Icc a b, ∀ v, s.pdf x = .ok (some v) → v ≤ M) ∧
    ∃ c d δ, a ≤ c ∧ c < d ∧ d ≤ b ∧ 0 < δ ∧ ∀ x ∈ Set.Ioo c d, ∀ v, s.pdf x = .ok (some v) → δ ≤ v

/-- A source with a continuous spectrum that is not zero everywhere inside its range. -/
structure Spread (s : Source) (a b : ℝ) (f : ℝ → ℝ) : Prop where
  low : Emin s.spectrum = .ok a
  high : Emax s.spectrum = .ok b
  density : ∀ x ∈ Set.Icc a b, s.pdf x = .ok (some (f x))
  continuous : ContinuousOn f (Set.Icc a b)
  positive : ∃ x ∈ Set.Ioo a b, 0 < f x

/-! ### Theorems -/

theorem numeric_value {s : Source} {x v : ℝ} {st st' : Unit} (e : numeric s.pdf x st = .ok (v, st')) :
    s.pdf x = .ok (some v) := by
  unfold numeric at e
  cases h : s.pdf x with
  | error e' => rw [h] at e; cases e
  | ok r =>
    rw [h] at e
    cases r with
    | none => cases e
    | some w =>
      simp only [Except.ok.injEq, Prod.mk.injEq] at e
      rw [e.1]

theorem Spread.samplable {s : Source} {a b : ℝ} {f : ℝ → ℝ} (h : Spread s a b f) : Samplable s := by
  have hv : ∀ x ∈ Set.Icc a b, ∀ v, s.pdf x = .ok (some v) → v = f x := by
    intro x hx v e
    rw [h.density x hx] at e
    simpa [eq_comm] using e
  obtain ⟨M, hM⟩ := (isCompact_Icc.image_of_continuousOn h.continuous).bddAbove
  obtain ⟨x, hx, hf⟩ := h.positive
  have hat : ContinuousAt f x := h.continuous.continuousAt (Icc_mem_nhds hx.1 hx.2)
  obtain ⟨l, u, hlu, hsub⟩ := mem_nhds_iff_exists_Ioo_subset.1
    (hat.eventually (lt_mem_nhds (half_lt_self hf)))
  refine Or.inr ⟨a, b, h.low, h.high, ⟨M, fun y hy v e => ?_⟩,
    max a l, min b u, f x / 2, le_max_left _ _, ?_, min_le_left _ _, half_pos hf, fun y hy v e => ?_⟩
  · rw [hv y hy v e]
    exact hM ⟨y, hy, rfl⟩
  · exact max_lt (lt_min (hx.1.trans hx.2) (hx.1.trans hlu.2)) (lt_min (hlu.1.trans hx.2) (hlu.1.trans hlu.2))
  · obtain ⟨y1, y2⟩ := hy
    rw [max_lt_iff] at y1
    rw [lt_min_iff] at y2
    rw [hv y ⟨y1.1.le, y2.1.le⟩ v e]
    exact le_of_lt (hsub ⟨y1.2, y2.2⟩)

theorem mono_plenty (pid : Int) (e : ℝ) :
    Plenty (numeric (Source.pdf ⟨pid, .mono e⟩)) (fun _ => True) e e := by
  refine .point one_pos (M := 1) fun st _ v st' h => ?_
  simp only [numeric, Source.pdf, if_true, Except.ok.injEq, Prod.mk.injEq] at h
  exact ⟨h.1.le, h.1.ge, trivial⟩

theorem samplable_ends {G : Type} {E : Engine G} {s : Source} (h : Samplable s) (max : Option ℝ) {g : G}
    (ho : Often E g) : ∃ N r, (∀ n, N ≤ n → sampleIncident exact E n s max g = some r) ∧
      ∀ x p m g', r = .ok (x, p, m, g') → Often E g' := by
  obtain ⟨a, b, h1, h2, hP⟩ : ∃ a b, Emin s.spectrum = .ok a ∧ Emax s.spectrum = .ok b ∧
      Plenty (numeric s.pdf) (fun _ => True) a b := by
    rcases h with ⟨e, h⟩ | ⟨a, b, h1, h2, ⟨M, h3⟩, c, d, δ, h4, h5, h6, h7, h8⟩
    · obtain ⟨pid, sp⟩ := s
      obtain rfl : sp = .mono e := h
      exact ⟨e, e, rfl, rfl, mono_plenty pid e⟩
    · exact ⟨a, b, h1, h2, .interval ⟨M, fun x hx st _ v st' e => ⟨h3 x hx v (numeric_value e), trivial⟩⟩
        ⟨c, d, δ, h4, h5, h6, h7, fun x hx st _ v st' e => h8 x hx v (numeric_value e)⟩⟩
  obtain ⟨N, r, k1, k2⟩ := rejectionSample_ends (safety := 1.01) (ε := 1e-8) (by norm_num) (by norm_num) hP
    (fun _ _ _ _ _ _ _ => trivial) ho max (st := ()) trivial
  refine ⟨N, r.map fun q => (q.x, s.pid, some q.fmax, q.gen), fun n hn => ?_, fun x p m g' h => ?_⟩
  · unfold sampleIncident
    simp only [h1, h2, k1 n hn]
    cases r <;> rfl
  · cases r with
    | error e => cases h
    | ok q =>
      simp only [Except.map, Except.ok.injEq, Prod.mk.injEq] at h
      obtain ⟨-, -, k, hk⟩ := k2 q rfl
      rw [← h.2.2.2, hk]
      exact ho.after k

/-- **C134**, sources: sampling from sources one after the other ends with probability one, whatever
bound was found before. -/
theorem C134_sources {Ω : Type} [MeasurableSpace Ω] {μ : Measure Ω} {E : Engine Ω} (hI : Ideal E μ)
    {sources : List Source} (h : ∀ s ∈ sources, Samplable s) :
    ∀ᵐ ω ∂μ, ∀ max, Ends fun n => sampleHistory exact E n sources max ω := by
  filter_upwards [often_ae hI] with ω ho
  induction sources generalizing ω with
  | nil => exact fun max => ⟨0, _, fun n _ => rfl⟩
  | cons s l ih =>
    intro max
    obtain ⟨N, r, k1, k2⟩ := samplable_ends (h s (by simp)) max ho
    cases r with
    | error e => exact ⟨N, .error e, fun n hn => by simp only [sampleHistory, k1 n hn]⟩
    | ok v =>
      obtain ⟨x, p, m, g'⟩ := v
      obtain ⟨M, w, hw⟩ := ih (fun t ht => h t (by simp [ht])) g' (k2 x p m g' rfl) m
      refine ⟨Max.max N M, w.map fun y => (x :: y.1, y.2), fun n hn => ?_⟩
      have hw := hw n ((le_max_right _ _).trans hn)
      dsimp only at hw
      simp only [sampleHistory, k1 n ((le_max_left _ _).trans hn), hw]
      cases w <;> rfl

/-! ### The spectra -/

/-- **C134**: sources with a single energy can be sampled. -/
theorem C134_mono (pid : Int) (e : ℝ) : Samplable ⟨pid, .mono e⟩ := Or.inl ⟨e, rfl⟩

/-- **C134**: so can Fermi-Dirac sources. -/
theorem C134_fermiDirac (pid : Int) {a b T eta c : ℝ} (ha : 0 ≤ a) (hab : a < b) (hT : 0 < T) (hc : 0 < c) :
    Samplable ⟨pid, .fermiDirac a b T eta (some c)⟩ := by
  have hden : ∀ x : ℝ, 1 + Real.exp (x / T - eta) ≠ 0 := fun x => by positivity
  refine Spread.samplable (a := a) (b := b) (f := fun x => c / T ^ 4 * (x ^ 2 / (1 + Real.exp (x / T - eta)))) ⟨rfl, rfl, fun x hx => ?_, ?_,
    (a + b) / 2, ⟨by linarith, by linarith⟩, ?_⟩
  · have h1 : ¬ (x < a ∨ x > b) := not_or.2 ⟨not_lt.2 hx.1, not_lt.2 hx.2⟩
    simp only [Source.pdf, if_neg h1, fdFormula]
    simp [Utils.fdiv, hT.ne']
  · refine Continuous.continuousOn ?_
    exact continuous_const.mul ((continuous_pow 2).div (by fun_prop) hden)
  · have : 0 < (a + b) / 2 := by linarith
    positivity

/-- **C134**: and beta fits. -/
theorem C134_betaFit (pid : Int) {a b m beta c : ℝ} (ha : 0 ≤ a) (hab : a < b) (hm : 0 < m) (hb : 1 ≤ beta)
    (hc : 0 < c) : Samplable ⟨pid, .betaFit a b m beta (some c)⟩ := by
  refine Spread.samplable (a := a) (b := b) (f := fun x => c * (x / m) ^ (beta - 1) * Real.exp (-beta * x / m)) ⟨rfl, rfl, fun x hx => ?_, ?_,
    (a + b) / 2, ⟨by linarith, by linarith⟩, ?_⟩
  · have h1 : ¬ (x < a ∨ x > b) := not_or.2 ⟨not_lt.2 hx.1, not_lt.2 hx.2⟩
    have h2 : ¬ (x = 0 ∧ beta < 1) := fun h => absurd h.2 (not_lt.2 hb)
    have h3 : ¬ x / m < 0 := not_lt.2 (div_nonneg (ha.trans hx.1) hm.le)
    have h4 : ¬ beta - 1 < 0 := not_lt.2 (by linarith)
    simp only [Source.pdf, if_neg h1, bfFormula, if_neg h2]
    simp [Utils.fdiv, hm.ne', fpow, h3, h4]
  · refine Continuous.continuousOn ?_
    refine (continuous_const.mul (Continuous.rpow_const (by fun_prop) fun x => Or.inr (by linarith))).mul ?_
    fun_prop
  · have : 0 < (a + b) / 2 := by linarith
    positivity

/-- **C134**: and muons that decay at rest. -/
theorem C134_decayAtRest (pid : Int) : Samplable ⟨pid, .decayAtRest⟩ := by
  have hm : 0 < mMu := by unfold mMu; norm_num
  by_cases hp : pid.natAbs = 12
  · refine Spread.samplable (a := 0) (b := mMu / 2) (f := fun x => 96 * x ^ 2 * (1 / (mMu * mMu * mMu * mMu)) * (mMu - 2 * x)) ⟨rfl, rfl,
      fun x hx => ?_, by fun_prop, mMu / 4, ⟨by linarith, by linarith⟩, ?_⟩
    · have h1 : ¬ (x < 0 ∨ x > mMu / 2) := not_or.2 ⟨not_lt.2 hx.1, not_lt.2 hx.2⟩
      simp only [Source.pdf, if_neg h1, if_pos hp]
    · have : 0 < mMu - 2 * (mMu / 4) := by linarith
      positivity
  · refine Spread.samplable (a := 0) (b := mMu / 2) (f := fun x => 16 * x ^ 2 * (1 / (mMu * mMu * mMu * mMu)) * (3 * mMu - 4 * x)) ⟨rfl, rfl,
      fun x hx => ?_, by fun_prop, mMu / 4, ⟨by linarith, by linarith⟩, ?_⟩
    · have h1 : ¬ (x < 0 ∨ x > mMu / 2) := not_or.2 ⟨not_lt.2 hx.1, not_lt.2 hx.2⟩
      simp only [Source.pdf, if_neg h1, if_neg hp]
    · have : 0 < 3 * mMu - 4 * (mMu / 4) := by linarith
      positivity

/-- The scale of the abscissae. -/
noncomputable def gridScale (m : Marley.Grid.Interp) : ℝ → ℝ := if Marley.Grid.logX m then Real.log else id

/-- What a rule other than the constant one gives between two points, a part `t` of the way on its scale. -/
theorem formula_value {m : Marley.Grid.Interp} {p1 p2 : ℝ × ℝ} {x v : ℝ}
    (h : Marley.Grid.formula m p1 p2 x = some v) :
    (Marley.Grid.logX m = true → 0 < p1.1 ∧ 0 < p2.1 ∧ 0 < x) ∧
    ∃ t, t = (gridScale m x - gridScale m p1.1) / (gridScale m p2.1 - gridScale m p1.1) ∧
      ((v = p1.2 + (p2.2 - p1.2) * t ∧ Marley.Grid.logY m = false) ∨
        (0 < p1.2 ∧ 0 < p2.2 ∧ Real.log v = Real.log p1.2 + (Real.log p2.2 - Real.log p1.2) * t ∧ 0 < v ∧
          Marley.Grid.logY m = true)) := by
  have hdiv : ∀ a b c d e : ℝ, a + (b - a) / (c - d) * (e - d) = a + (b - a) * ((e - d) / (c - d)) := by
    intro a b c d e; ring
  have lin : gridScale .linearLinear = id ∧ gridScale .constant = id ∧ gridScale .logLinear = id ∧
      gridScale .linearLog = Real.log ∧ gridScale .logLog = Real.log := by
    refine ⟨?_, ?_, ?_, ?_, ?_⟩ <;> simp [gridScale, Marley.Grid.logX]
  obtain ⟨l1, l2, l3, l4, l5⟩ := lin
  unfold Marley.Grid.formula at h
  cases m <;>
    simp only [Marley.Grid.logX, Marley.Grid.logY, Marley.Grid.flog, if_true,
      Bool.false_eq_true, if_false, Option.bind_eq_bind, Option.bind_some, l1, l2, l3, l4, l5, id] at h ⊢
  case linearLinear | constant =>
    split_ifs at h
    simp only [Option.some.injEq] at h
    exact ⟨by simp, _, rfl, .inl ⟨by rw [← h, hdiv], trivial⟩⟩
  case linearLog =>
    by_cases a1 : 0 < p1.1 <;> by_cases a2 : 0 < p2.1 <;> by_cases a3 : 0 < x <;>
      simp only [a1, a2, a3, if_true, if_false, Option.bind_none, Option.bind_some, reduceCtorEq] at h
    split_ifs at h
    simp only [Option.some.injEq] at h
    exact ⟨fun _ => ⟨a1, a2, a3⟩, _, rfl, .inl ⟨by rw [← h, hdiv], trivial⟩⟩
  case logLinear =>
    by_cases b1 : 0 < p1.2 <;> by_cases b2 : 0 < p2.2 <;>
      simp only [b1, b2, if_true, if_false, Option.bind_none, Option.bind_some, reduceCtorEq] at h
    split_ifs at h
    simp only [Option.some.injEq] at h
    exact ⟨by simp, _, rfl, .inr ⟨b1, b2, by rw [← h, Real.log_exp, hdiv], by rw [← h]; exact Real.exp_pos _,
      trivial⟩⟩
  case logLog =>
    by_cases a1 : 0 < p1.1 <;> by_cases a2 : 0 < p2.1 <;> by_cases a3 : 0 < x <;>
      simp only [a1, a2, a3, if_true, if_false, Option.bind_none, Option.bind_some, reduceCtorEq] at h
    by_cases b1 : 0 < p1.2 <;> by_cases b2 : 0 < p2.2 <;>
      simp only [b1, b2, if_true, if_false, Option.bind_none, Option.bind_some, reduceCtorEq] at h
    split_ifs at h
    simp only [Option.some.injEq] at h
    exact ⟨fun _ => ⟨a1, a2, a3⟩, _, rfl,
      .inr ⟨b1, b2, by rw [← h, Real.log_exp, hdiv], by rw [← h]; exact Real.exp_pos _, trivial⟩⟩

theorem mix_le {a b t : ℝ} (h0 : 0 ≤ t) (h1 : t ≤ 1) : a + (b - a) * t ≤ max a b := by
  have ha := le_max_left a b
  have hb := le_max_right a b
  nlinarith

theorem le_mix {a b t : ℝ} (h0 : 0 ≤ t) (h1 : t ≤ 1) : min a b ≤ a + (b - a) * t := by
  have ha := min_le_left a b
  have hb := min_le_right a b
  nlinarith

/-- Where a point of the range lies on the scale. -/
theorem scale_between {m : Marley.Grid.Interp} {x1 x2 x : ℝ} (h12 : x1 < x2)
    (hp : Marley.Grid.logX m = true → 0 < x1) (hx1 : x1 ≤ x) (hx2 : x ≤ x2) :
    gridScale m x1 < gridScale m x2 ∧
    0 ≤ (gridScale m x - gridScale m x1) / (gridScale m x2 - gridScale m x1) ∧
    (gridScale m x - gridScale m x1) / (gridScale m x2 - gridScale m x1) ≤ 1 := by
  have key : gridScale m x1 < gridScale m x2 ∧ gridScale m x1 ≤ gridScale m x ∧ gridScale m x ≤ gridScale m x2 := by
    unfold gridScale
    split_ifs with h
    · have := hp h
      exact ⟨Real.log_lt_log this h12, Real.log_le_log this hx1, Real.log_le_log (this.trans_le hx1) hx2⟩
    · exact ⟨h12, hx1, hx2⟩
  have hd : 0 < gridScale m x2 - gridScale m x1 := by linarith [key.1]
  refine ⟨key.1, div_nonneg (by linarith [key.2.1]) hd.le, ?_⟩
  rw [div_le_one hd]
  linarith [key.2.2]

theorem formula_le {m : Marley.Grid.Interp} {p1 p2 : ℝ × ℝ} {x v : ℝ} (h12 : p1.1 < p2.1) (hx1 : p1.1 ≤ x)
    (hx2 : x ≤ p2.1) (h : Marley.Grid.formula m p1 p2 x = some v) : v ≤ max p1.2 p2.2 := by
  obtain ⟨hp, t, ht, h⟩ := formula_value h
  obtain ⟨-, t0, t1⟩ := scale_between h12 (fun h => (hp h).1) hx1 hx2
  rw [← ht] at t0 t1
  rcases h with ⟨rfl, -⟩ | ⟨y1, y2, h, hv, -⟩
  · exact mix_le t0 t1
  · have := mix_le (a := Real.log p1.2) (b := Real.log p2.2) t0 t1
    rw [← h] at this
    rcases le_max_iff.1 this with h' | h'
    · exact ((Real.log_le_log_iff hv y1).1 h').trans (le_max_left _ _)
    · exact ((Real.log_le_log_iff hv y2).1 h').trans (le_max_right _ _)

/-- On a part of each bin with a positive end the density is not small. -/
theorem formula_middle {m : Marley.Grid.Interp} {p1 p2 : ℝ × ℝ} (h12 : p1.1 < p2.1)
    (hp : Marley.Grid.logX m = true → 0 < p1.1) (hy1 : 0 ≤ p1.2) (hy2 : 0 ≤ p2.2) (hpos : 0 < p1.2 ∨ 0 < p2.2)
    (hly : Marley.Grid.logY m = true → 0 < p1.2 ∧ 0 < p2.2) :
    ∃ c d δ, p1.1 ≤ c ∧ c < d ∧ d ≤ p2.1 ∧ 0 < δ ∧
      ∀ x ∈ Set.Ioo c d, ∀ v, Marley.Grid.formula m p1 p2 x = some v → δ ≤ v := by
  obtain ⟨c, d, hc, hcd, hd, hm⟩ : ∃ c d, p1.1 ≤ c ∧ c < d ∧ d ≤ p2.1 ∧ ∀ x ∈ Set.Ioo c d,
      (3 * gridScale m p1.1 + gridScale m p2.1) / 4 ≤ gridScale m x ∧
      gridScale m x ≤ (gridScale m p1.1 + 3 * gridScale m p2.1) / 4 := by
    unfold gridScale
    split_ifs with h
    · have h1 := hp h
      have h2 : 0 < p2.1 := h1.trans h12
      have hl := Real.log_lt_log h1 h12
      refine ⟨Real.exp ((3 * Real.log p1.1 + Real.log p2.1) / 4), Real.exp ((Real.log p1.1 + 3 * Real.log p2.1) / 4),
        ?_, Real.exp_lt_exp.2 (by linarith), ?_, fun x hx => ?_⟩
      · rw [← Real.log_le_iff_le_exp h1]; linarith
      · rw [← Real.le_log_iff_exp_le h2]; linarith
      · have hx0 : 0 < x := (Real.exp_pos _).trans hx.1
        exact ⟨(Real.le_log_iff_exp_le hx0).2 hx.1.le, (Real.log_le_iff_le_exp hx0).2 hx.2.le⟩
    · refine ⟨(3 * p1.1 + p2.1) / 4, (p1.1 + 3 * p2.1) / 4, by linarith, by linarith, by linarith, fun x hx => ?_⟩
      exact ⟨hx.1.le, hx.2.le⟩
  obtain ⟨hs, -⟩ := scale_between (m := m) h12 hp le_rfl h12.le
  have hsd : 0 < gridScale m p2.1 - gridScale m p1.1 := by linarith
  have hδ : 0 < (if Marley.Grid.logY m = true then min p1.2 p2.2 else (p1.2 + p2.2) / 4) := by
    split_ifs with h
    · exact lt_min (hly h).1 (hly h).2
    · rcases hpos with h | h <;> linarith
  refine ⟨c, d, _, hc, hcd, hd, hδ, fun x hx v e => ?_⟩
  obtain ⟨-, t, ht, h⟩ := formula_value e
  have t0 : 1 / 4 ≤ t := by rw [ht, le_div_iff₀ hsd]; linarith [(hm x hx).1]
  have t1 : t ≤ 3 / 4 := by rw [ht, div_le_iff₀ hsd]; linarith [(hm x hx).2]
  rcases h with ⟨rfl, h⟩ | ⟨y1, y2, h, hv, hl⟩
  · rw [h, if_neg (by simp)]
    nlinarith
  · rw [if_pos hl]
    have := le_mix (a := Real.log p1.2) (b := Real.log p2.2) (t := t) (by linarith) (by linarith)
    rw [← h] at this
    rcases min_le_iff.1 this with h' | h'
    · exact (min_le_left _ _).trans ((Real.log_le_log_iff y1 hv).1 h')
    · exact (min_le_right _ _).trans ((Real.log_le_log_iff y2 hv).1 h')

theorem sum_not_pos : ∀ {l : List ℝ}, (∀ y ∈ l, y ≤ 0) → l.sum ≤ 0
  | [], _ => by simp
  | y :: l, h => by
    rw [List.sum_cons]
    have := sum_not_pos fun z hz => h z (List.mem_cons_of_mem _ hz)
    linarith [h y List.mem_cons_self]

theorem points_bounded (l : Marley.Grid.Points) : ∃ M, ∀ p ∈ l, p.2 ≤ M := by
  induction l with
  | nil => exact ⟨0, by simp⟩
  | cons q l ih =>
    obtain ⟨M, h⟩ := ih
    refine ⟨max q.2 M, fun p hp => ?_⟩
    rcases List.mem_cons.1 hp with rfl | hp
    · exact le_max_left _ _
    · exact (h p hp).trans (le_max_right _ _)

/-- **C134**: and grids of points with any rule that are not zero everywhere; with the constant rule (histograms) they
may not be zero before their last point, and what is put on a logarithmic scale must be positive. -/
theorem C134_grid (pid : Int) {g : Marley.Grid.Grid} (hi : Increasing g.points) (hn : ∀ p ∈ g.points, 0 ≤ p.2)
    (hr : Representable g.interp g.points)
    {i : Nat} {p1 p2 : ℝ × ℝ} (h1 : g.points[i]? = some p1) (h2 : g.points[i + 1]? = some p2)
    (hm : 0 < p1.2 ∨ (0 < p2.2 ∧ g.interp ≠ .constant)) : Samplable ⟨pid, .grid g⟩ := by
  have hlen : i + 1 < g.points.length := (List.getElem?_eq_some_iff.1 h2).1
  obtain ⟨a, ha⟩ : ∃ a, g.points.head? = some a := by
    cases h : g.points with
    | nil => rw [h] at hlen; simp at hlen
    | cons a l => exact ⟨a, rfl⟩
  obtain ⟨b, hb⟩ : ∃ b, g.points.getLast? = some b := by
    rw [List.getLast?_eq_getElem?]
    exact ⟨_, List.getElem?_eq_getElem (by omega)⟩
  have ha' : g.points[0]? = some a := by rw [← List.head?_eq_getElem?]; exact ha
  have hb' : g.points[g.points.length - 1]? = some b := by rw [← List.getLast?_eq_getElem?]; exact hb
  have hlt := hi.lt h1 h2 (by omega)
  have hal := hi.sorted.le ha' h1 (by omega)
  have hlb := hi.sorted.le h2 hb' (by omega)
  have m1 := List.mem_of_getElem? h1
  have m2 := List.mem_of_getElem? h2
  obtain ⟨M, hM⟩ := points_bounded g.points
  obtain ⟨c, d, δ, hc, hcd, hd, hδ, hv⟩ : ∃ c d δ, p1.1 ≤ c ∧ c < d ∧ d ≤ p2.1 ∧ 0 < δ ∧
      ∀ x ∈ Set.Ioo c d, ∀ v, Marley.Grid.inBin g.interp false p1 p2 x = some v → δ ≤ v := by
    by_cases hcst : g.interp = .constant
    · refine ⟨p1.1, p2.1, p1.2, le_rfl, hlt, le_rfl, hm.resolve_right fun h => h.2 hcst, fun x _ v e => ?_⟩
      rw [hcst] at e
      simp only [Marley.Grid.inBin, if_true, Option.some.injEq] at e
      exact e.le
    · obtain ⟨c, d, δ, h⟩ := formula_middle (m := g.interp) hlt
        (fun h => hr.1 (by revert h; cases g.interp <;> simp [Marley.Grid.logX]) p1 m1) (hn p1 m1) (hn p2 m2)
        (hm.imp_right And.left)
        (fun h => have hr2 := hr.2 (by revert h; cases g.interp <;> simp [Marley.Grid.logY]); ⟨hr2 p1 m1, hr2 p2 m2⟩)
      refine ⟨c, d, δ, h.1, h.2.1, h.2.2.1, h.2.2.2.1, fun x hx v e => h.2.2.2.2 x hx v ?_⟩
      rwa [Marley.Grid.inBin, if_neg hcst] at e
  refine Or.inr ⟨a.1, b.1, by simp [Emin, ha], by simp [Emax, hb], ⟨M, fun x hx v e => ?_⟩,
    c, d, δ, hal.trans hc, hcd, hd.trans hlb, hδ, fun x hx v e => ?_⟩
  · have e : Marley.Grid.interpolate g x = .ok (some v) := e
    obtain ⟨ex, j, q1, q2, ef, g1, g2, hcase⟩ := bin_spec hi.sorted (by omega) x
    have hq := hi.lt g1 g2 (by omega)
    have n1 := hM q1 (List.mem_of_getElem? g1)
    have n2 := hM q2 (List.mem_of_getElem? g2)
    rcases hcase with ⟨rfl, x1, x2, -⟩ | ⟨-, rfl, x1⟩ | ⟨-, x1, x2⟩
    · rw [interpolate_inside ef g1 g2] at e
      simp only [Except.ok.injEq] at e
      by_cases hcst : g.interp = .constant
      · simp only [Marley.Grid.inBin, hcst, if_true, Option.some.injEq] at e
        rw [← e]; exact n1
      · rw [Marley.Grid.inBin, if_neg hcst] at e
        exact (formula_le hq x1 x2 e).trans (max_le n1 n2)
    · rw [ha'] at g1; cases g1; exact absurd hx.1 (not_le.2 x1)
    · rw [show j + 1 = g.points.length - 1 by omega, hb'] at g2
      cases g2; exact absurd hx.2 (not_le.2 x2)
  · have e : Marley.Grid.interpolate g x = .ok (some v) := e
    have x1 : p1.1 < x := hc.trans_lt hx.1
    rcases Marley.Grid.bin_between hi h1 h2 x1.le (hx.2.le.trans hd) with ⟨ef, -⟩ | ⟨-, ef, -⟩
    · rw [interpolate_inside ef h1 h2] at e
      exact hv x hx v (by simpa using e)
    · exact absurd ef x1.ne'

/-- A grid with three points meets the hypotheses with all rules. -/
example (m : Marley.Grid.Interp) (e : Marley.Grid.Extrap) : Samplable ⟨12, .grid (sampleGrid m e)⟩ := by
  refine C134_grid 12 (sampleGrid_increasing m e) ?_ (sampleGrid_representable m e) (i := 0) (p1 := (1, 5))
    (p2 := (2, 7)) (by simp [sampleGrid]) (by simp [sampleGrid]) (Or.inl (by norm_num))
  intro p hp
  simp only [sampleGrid, List.mem_cons, List.not_mem_nil, or_false] at hp
  rcases hp with rfl | rfl | rfl <;> norm_num

/-- **C134**: so energies can be sampled from every table that the constructor accepts, if its energies increase, its
densities are positive where their logarithms are taken, and, for a histogram, one before the last is positive. -/
theorem C134_table {pid : Int} {g : Marley.Grid.Grid} {s : Source} (h : mkGrid pid g = .ok s)
    (hi : Increasing g.points) (hz : ∀ p ∈ g.points, p.1 = 0 ∨ tiny < p.1)
    (hl : g.interp = .logLinear ∨ g.interp = .logLog → ∀ p ∈ g.points, 0 < p.2)
    (hm : g.interp = .constant → ∃ p ∈ g.points, ∃ q ∈ g.points, p.1 < q.1 ∧ 0 < p.2) : Samplable s := by
  obtain ⟨hpid, hspid⟩ := mkGrid_pid h
  obtain ⟨h2, hn, hsum⟩ := (C44_table_accepted ((allowed_iff pid).1 hpid) g).1.2 ⟨s, h⟩
  obtain ⟨g', hs, hint, -, hpts, hpos⟩ := C44_table_stored h
  have hi' : Increasing g'.points := by
    rw [hpts]
    refine List.Pairwise.map _ ?_ (hi.imp_of_mem (S := fun p q => p.1 < q.1 ∧ 0 ≤ p.1 ∧ (q.1 = 0 ∨ tiny < q.1)) ?_)
    · intro p q ⟨hpq, hp, hq⟩
      dsimp only
      have hq0 : q.1 ≠ 0 := by intro e; linarith
      rw [if_neg hq0]
      split_ifs
      · exact hq.resolve_left hq0
      · exact hpq
    · intro p q hp hq hpq
      exact ⟨hpq, (hn p hp).1, hz q hq⟩
  have hr : Representable g'.interp g'.points := by
    refine ⟨fun _ p hp => (hpos p hp).1, fun h p hp => ?_⟩
    rw [hpts, List.mem_map] at hp
    obtain ⟨q, hq, rfl⟩ := hp
    exact hl (by rwa [hint] at h) q hq
  obtain ⟨pid', sp⟩ := s
  cases hs
  have hget : ∀ {i : Nat} {p : ℝ × ℝ}, g.points[i]? = some p →
      g'.points[i]? = some (if p.1 = 0 then tiny else p.1, p.2) := by
    intro i p e
    rw [hpts, List.getElem?_map, e]
    rfl
  by_cases hcst : g.interp = .constant
  · obtain ⟨p, hp, q, hq, hpq, hp0⟩ := hm hcst
    obtain ⟨i, hip⟩ := List.mem_iff_getElem?.1 hp
    obtain ⟨j, hjq⟩ := List.mem_iff_getElem?.1 hq
    have hij : i < j := by
      by_contra hno
      have := hi.sorted.le hjq hip (by omega)
      linarith
    have hjl : j < g.points.length := (List.getElem?_eq_some_iff.1 hjq).1
    exact C134_grid _ hi' (fun p hp => (hpos p hp).2) hr (hget hip)
      (hget (List.getElem?_eq_getElem (show i + 1 < g.points.length by omega))) (Or.inl hp0)
  · obtain ⟨p, hp, hp0⟩ : ∃ p ∈ g.points, 0 < p.2 := by
      by_contra hno
      push Not at hno
      have : (g.points.map Prod.snd).sum ≤ 0 :=
        sum_not_pos (by simpa using fun y x (hab : (x, y) ∈ g.points) => hno _ hab)
      linarith
    obtain ⟨i, hip⟩ := List.mem_iff_getElem?.1 hp
    have hil : i < g.points.length := (List.getElem?_eq_some_iff.1 hip).1
    by_cases hlast : i + 1 < g.points.length
    · exact C134_grid _ hi' (fun p hp => (hpos p hp).2) hr (hget hip) (hget (List.getElem?_eq_getElem hlast))
        (Or.inl hp0)
    · obtain ⟨k, rfl⟩ : ∃ k, i = k + 1 := ⟨i - 1, by omega⟩
      exact C134_grid _ hi' (fun p hp => (hpos p hp).2) hr (hget (List.getElem?_eq_getElem (by omega))) (hget hip)
        (Or.inr ⟨hp0, by rwa [hint]⟩)

/-- The grid with three points is such a table. -/
example (e : Marley.Grid.Extrap) : ∃ s, mkGrid 12 (sampleGrid .linearLinear e) = .ok s ∧ Samplable s := by
  have hp : Neutrino 12 := by simp [Neutrino]
  obtain ⟨s, h⟩ := (C44_table_accepted hp (sampleGrid .linearLinear e)).1.1
    ⟨by simp [sampleGrid], by simp [sampleGrid], by norm_num [sampleGrid]⟩
  have ht : tiny < 1 := by unfold tiny; exact zpow_lt_one_of_neg₀ (by norm_num) (by norm_num)
  refine ⟨s, h, C134_table h (sampleGrid_increasing _ _) ?_ (by simp [sampleGrid]) (by simp [sampleGrid])⟩
  intro p hp
  simp only [sampleGrid, List.mem_cons, List.not_mem_nil, or_false] at hp
  rcases hp with rfl | rfl | rfl <;> exact Or.inr (by linarith)

/-- **C44**: a positive total does not mean that the density is positive anywhere: a histogram with only its last
value positive is accepted, and its density is zero at every energy. -/
theorem C44_zero_density_violated :
    ∃ s, mkGridVectors 12 [1, 2] [0, 1] .constant = .ok s ∧ ∀ x, s.pdf x = .ok (some 0) := by
  have hc : checkForErrors ⟨.constant, .zero, [(1, 0), (2, 1)]⟩ = .ok ⟨.constant, .zero, [(1, 0), (2, 1)]⟩ := by
    norm_num [checkForErrors, checkLoop]
  refine ⟨⟨12, .grid ⟨.constant, .zero, [(1, 0), (2, 1)]⟩⟩, ?_, fun x => ?_⟩
  · rw [(C44_vectors 12 [1, 2] [0, 1] _).1 rfl]
    unfold mkGrid
    simp only [List.zip_cons_cons, List.zip_nil_right]
    rw [hc]; rfl
  · obtain ⟨ex, i, p1, p2, e, h1, h2, -⟩ :=
      bin_spec (l := [(1, 0), (2, 1)]) (by simp [Sorted]) (by simp) x
    have hi : i = 0 := by
      have := (List.getElem?_eq_some_iff.1 h2).1
      simp only [List.length_cons, List.length_nil] at this
      omega
    subst hi
    simp only [Source.pdf, Marley.Grid.interpolate, e]
    cases ex <;> simp [Marley.Grid.inBin]

/-- Three sources in turn. -/
example : ∀ᵐ ω ∂coins, ∀ max, Ends fun n => sampleHistory exact reader n
    [⟨12, .mono 10⟩, ⟨-12, .fermiDirac 0 50 (7 / 2) 0 (some 1)⟩, ⟨14, .decayAtRest⟩] max ω :=
  C134_sources coin_ideal (by
    simp only [List.mem_cons, List.not_mem_nil, or_false, forall_eq_or_imp, forall_eq]
    exact ⟨C134_mono _ _, C134_fermiDirac _ le_rfl (by norm_num) (by norm_num) one_pos, C134_decayAtRest _⟩)

end Marley.Props
