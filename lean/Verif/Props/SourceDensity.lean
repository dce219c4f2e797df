import Verif.Props.SourceConfig
import Mathlib.MeasureTheory.Integral.IntervalIntegral.Basic

/-!
# C69 and C85: the densities of histograms and of the other sources a configuration describes

Specification.  `histogram pdg lefts weights Emax` is what the configuration makes of a
histogram; `lefts ++ [Emax]` are the edges of the bins.
-/

set_option autoImplicit false

namespace Marley.Props
open Marley Marley.Source Marley.Gen Marley.Sampling Marley.Json
open Marley.Grid (Interp Extrap Points Sorted Increasing)
open MeasureTheory

/-! ## C69 -/

/-- What the conversion of weights to densities gives for increasing edges. -/
theorem densities_ok (edges ws : List ℝ) (hl : edges.length = ws.length + 1)
    (hi : edges.Pairwise (· < ·)) :
    ∃ ys, densities edges (ws ++ [0]) = .ok ys ∧ ys.length = edges.length ∧
      (∀ (j : Nat) (a b w : ℝ), edges[j]? = some a → edges[j + 1]? = some b → ws[j]? = some w →
        ys[j]? = some (w / (b - a))) ∧
      ((∀ w ∈ ws, 0 ≤ w) → ∀ y ∈ ys, 0 ≤ y) ∧
      ((∀ w ∈ ws, 0 ≤ w) → 0 < ws.sum → 0 < ys.sum) := by
  induction ws generalizing edges with
  | nil =>
    match edges, hl with
    | [e], _ =>
      refine ⟨[0], by simp [densities], rfl, ?_, by simp, by simp⟩
      intro j a b w _ _ hw
      simp at hw
  | cons w ws ih =>
    match edges, hl with
    | E :: E' :: Es, hl =>
      obtain ⟨h1, h2⟩ := List.pairwise_cons.1 hi
      have hlt : E < E' := h1 E' (by simp)
      obtain ⟨ys, e, hlen, hj, hnn, hpos⟩ := ih (E' :: Es) (by simpa using hl) h2
      refine ⟨w / (E' - E) :: ys, ?_, by simpa using hlen, ?_, ?_, ?_⟩
      · rw [List.cons_append, densities, if_neg (by linarith), e]
      · intro j a b v ha hb hv
        cases j with
        | zero =>
          simp only [List.getElem?_cons_zero, Option.some.injEq, List.getElem?_cons_succ,
            zero_add] at ha hb hv ⊢
          rw [ha, hb, hv]
        | succ j =>
          simp only [List.getElem?_cons_succ] at ha hb hv ⊢
          exact hj j a b v ha (by simpa using hb) hv
      · intro h y hy
        rcases List.mem_cons.1 hy with rfl | hy
        · exact div_nonneg (h w (by simp)) (by linarith)
        · exact hnn (fun w hw => h w (by simp [hw])) y hy
      · intro h hs
        have hw := h w (by simp)
        have hws : ∀ w ∈ ws, 0 ≤ w := fun w hw => h w (by simp [hw])
        have hd : 0 ≤ w / (E' - E) := div_nonneg hw (by linarith)
        rw [List.sum_cons] at hs ⊢
        rcases hw.lt_or_eq with h0 | h0
        · have : 0 < w / (E' - E) := div_pos h0 (by linarith)
          have := List.sum_nonneg (hnn hws)
          linarith
        · have := hpos hws (by rw [← h0] at hs; linarith)
          linarith

/-- Edges that do not increase are rejected with `marley::Error`. -/
theorem densities_bad (edges ws : List ℝ) (hl : edges.length = ws.length + 1)
    (hi : ¬ edges.IsChain (· < ·)) : densities edges (ws ++ [0]) = .error .marleyError := by
  induction ws generalizing edges with
  | nil =>
    match edges, hl with
    | [e], _ => simp at hi
  | cons w ws ih =>
    match edges, hl with
    | E :: E' :: Es, hl =>
      rw [List.cons_append, densities]
      by_cases h : E' - E ≤ 0
      · rw [if_pos h]
      · rw [if_neg h, ih (E' :: Es) (by simpa using hl)]
        intro hc
        exact hi (List.isChain_cons_cons.2 ⟨by linarith, hc⟩)

/-- A histogram that can be used: as many weights as bins, edges that increase and are
representable as doubles (zero, or more than the smallest positive double), weights that are
nonnegative and not all zero. -/
structure GoodHistogram (lefts ws : List ℝ) (Emax : ℝ) : Prop where
  size : lefts.length = ws.length
  edges : (lefts ++ [Emax]).Pairwise (· < ·)
  doubles : ∀ E ∈ lefts ++ [Emax], E = 0 ∨ tiny < E
  weights : ∀ w ∈ ws, 0 ≤ w
  sum : 0 < ws.sum

/-- An edge as stored. -/
noncomputable def storedEdge (E : ℝ) : ℝ := if E = 0 then tiny else E

theorem getD_sum (l : List ℝ) : ∑ k ∈ Finset.range l.length, l.getD k 0 = l.sum := by
  induction l with
  | nil => simp
  | cons a l ih =>
    rw [List.length_cons, Finset.sum_range_succ', List.sum_cons, ← ih]
    simp only [List.getD_cons_zero, List.getD_cons_succ]
    ring

/-- **C69**, acceptance: a good histogram is accepted, and its density is a nonnegative number at
every energy: on each bin (without its left edge) the weight divided by the width, elsewhere
zero. -/
theorem C69_density {pdg : Int} (hp : Neutrino pdg) {lefts ws : List ℝ} {Emax : ℝ}
    (h : GoodHistogram lefts ws Emax) :
    ∃ (s : Source) (f : ℝ → ℝ), histogram pdg lefts ws Emax = .ok s ∧ s.pid = pdg ∧
      (∀ E, s.pdf E = .ok (some (f E))) ∧
      (∀ (j : Nat) (a b w : ℝ), (lefts ++ [Emax])[j]? = some a → (lefts ++ [Emax])[j + 1]? = some b →
        ws[j]? = some w → ∀ E, storedEdge a < E → E ≤ b → f E = w / (b - a)) ∧
      (∀ a, (lefts ++ [Emax])[0]? = some a → ∀ E, E < storedEdge a → f E = 0) ∧
      (∀ E, Emax < E → f E = 0) := by
  have hl : (lefts ++ [Emax]).length = ws.length + 1 := by simp [h.size]
  have hn : ws ≠ [] := by rintro rfl; have := h.sum; simp at this
  have hn' : 0 < ws.length := List.length_pos_iff.2 hn
  obtain ⟨ys, e, hlen, hj, hnn, hpos⟩ := densities_ok _ ws hl h.edges
  have hz : (lefts ++ [Emax]).length = ys.length := hlen.symm
  obtain ⟨s, hs⟩ := (C44_table_accepted hp ⟨.constant, .zero, (lefts ++ [Emax]).zip ys⟩).1.1 (by
    refine ⟨by simp only [List.length_zip]; omega, ?_, ?_⟩
    · intro p hp
      have := List.of_mem_zip hp
      refine ⟨?_, hnn h.weights _ this.2⟩
      rcases h.doubles _ this.1 with h | h
      · exact h.ge
      · linarith [tiny_pos]
    · dsimp only
      rw [List.map_snd_zip hz.ge]
      exact hpos h.weights h.sum)
  have es : histogram pdg lefts ws Emax = .ok s := by
    unfold histogram
    rw [e]
    dsimp only
    rw [(C44_vectors _ _ _ _).1 hz]
    exact hs
  obtain ⟨g, hg, hm, hx, hpts, -⟩ := C44_table_stored hs
  have hpid := (mkGrid_pid hs).2
  obtain ⟨i, sp⟩ := s
  dsimp only at hg hpid
  subst hg
  have hpts' : g.points = ((lefts ++ [Emax]).zip ys).map (fun p => (storedEdge p.1, p.2)) := hpts
  have hget : ∀ (j : Nat) (a y : ℝ), (lefts ++ [Emax])[j]? = some a → ys[j]? = some y →
      g.points[j]? = some (storedEdge a, y) := by
    intro j a y ha hy
    rw [hpts', List.getElem?_map, (List.getElem?_zip_eq_some (z := (a, y))).2 ⟨ha, hy⟩]
    rfl
  have hinc : Increasing g.points := by
    unfold Increasing
    rw [hpts', List.pairwise_map]
    have : (((lefts ++ [Emax]).zip ys).map Prod.fst).Pairwise (· < ·) := by
      rw [List.map_fst_zip hz.le]; exact h.edges
    rw [List.pairwise_map] at this
    refine this.imp_of_mem (fun {p q} hp hq hpq => ?_)
    have d1 := h.doubles _ (List.of_mem_zip hp).1
    have d2 := h.doubles _ (List.of_mem_zip hq).1
    have t := tiny_pos
    dsimp only [storedEdge]
    have hq0 : q.1 ≠ 0 := by rcases d1 with d1 | d1 <;> linarith
    rw [if_neg hq0]
    split_ifs with hp0
    · rcases d2 with d2 | d2
      · exact absurd d2 hq0
      · exact d2
    · exact hpq
  have hglen : g.points.length = ws.length + 1 := by
    rw [hpts', List.length_map, List.length_zip, ← hz, hl, Nat.min_self]
  have htot : ∀ E, ∃ v, Source.pdf ⟨i, .grid g⟩ E = .ok (some v) := by
    intro E
    obtain ⟨ex, k, p1, p2, hb, g1, g2, -⟩ := Grid.bin_spec hinc.sorted (by omega) E
    simp only [Source.pdf, Grid.interpolate, hb, g1, g2, hx, hm, Grid.inBin]
    cases ex <;> simp
  choose f hf using htot
  have val : ∀ E v, Grid.interpolate g E = .ok (some v) → f E = v := by
    intro E v hv
    have := hf E
    simp only [Source.pdf] at this
    rw [hv] at this
    simpa using this.symm
  obtain ⟨k, hk⟩ : ∃ k, ws.length = k + 1 := ⟨ws.length - 1, by omega⟩
  refine ⟨⟨i, .grid g⟩, f, es, hpid, hf, ?_, ?_, ?_⟩
  · intro j a b w ha hb hw E h1 h2
    apply val
    obtain ⟨y', hy'⟩ : ∃ y, ys[j + 1]? = some y := by
      have := (List.getElem?_eq_some_iff.1 hb).1
      exact ⟨_, List.getElem?_eq_getElem (by omega)⟩
    have q1 := hget j a _ ha (hj j a b w ha hb hw)
    have q2 := hget (j + 1) b y' hb hy'
    have hbne : b ≤ storedEdge b := by
      unfold storedEdge; split_ifs with h0
      · rw [h0]; exact tiny_pos.le
      · exact le_rfl
    exact C13_constant_rule g hm hinc j _ _ q1 q2 E (.inl h1) (h2.trans hbne)
  · intro a ha E hE
    apply val
    obtain ⟨y, hy⟩ : ∃ y, ys[0]? = some y := ⟨_, List.getElem?_eq_getElem (by omega)⟩
    obtain ⟨p', hp1⟩ : ∃ p, g.points[1]? = some p := ⟨_, List.getElem?_eq_getElem (by omega)⟩
    have := (C14_left_of_range g hinc.sorted _ p' (hget 0 a y ha hy) hp1 E hE).1 (by rw [hx]; simp)
    rw [this, hx, outsideSpec]
  · intro E hE
    apply val
    obtain ⟨q, hq⟩ : ∃ q, g.points[k]? = some q := ⟨_, List.getElem?_eq_getElem (by omega)⟩
    obtain ⟨y, hy⟩ : ∃ y, ys[k + 1]? = some y := ⟨_, List.getElem?_eq_getElem (by omega)⟩
    have hlast : (lefts ++ [Emax])[k + 1]? = some Emax := by
      rw [← hk, ← h.size]; simp
    have hne : Emax ≠ 0 := by
      intro h0
      have h1 : (lefts ++ [Emax])[k]? = some ((lefts ++ [Emax])[k]'(by omega)) :=
        List.getElem?_eq_getElem _
      have hlt := List.pairwise_iff_getElem.1 h.edges k (k + 1) (by omega) (by omega) (by omega)
      have h2 := (List.getElem?_eq_some_iff.1 hlast).2
      rw [h2] at hlt
      rcases h.doubles _ (List.getElem_mem (h := (by omega : k < (lefts ++ [Emax]).length))) with h | h
      · linarith
      · linarith [tiny_pos]
    have hst : storedEdge Emax = Emax := by unfold storedEdge; rw [if_neg hne]
    have := (C14_right_of_range g hinc.sorted k q _ (by omega) hq (hget (k + 1) Emax y hlast hy) E
      (by dsimp only; rw [hst]; exact hE)).1 (by rw [hx]; simp)
    rw [this, hx, outsideSpec]

theorem integral_bin {f : ℝ → ℝ} {a b v : ℝ} (hab : a ≤ b) (h : ∀ x, a < x → x < b → f x = v) :
    ∫ x in a..b, f x = v * (b - a) ∧ IntervalIntegrable f volume a b := by
  have hc : Set.EqOn f (fun _ => v) (Set.Ioo a b) := fun x hx => h x hx.1 hx.2
  constructor
  · rw [intervalIntegral.integral_of_le hab, integral_Ioc_eq_integral_Ioo,
      setIntegral_congr_fun measurableSet_Ioo hc, ← integral_Ioc_eq_integral_Ioo,
      ← intervalIntegral.integral_of_le hab, intervalIntegral.integral_const, smul_eq_mul, mul_comm]
  · rw [intervalIntegrable_iff_integrableOn_Ioo_of_le hab]
    exact IntegrableOn.congr_fun (by simp) hc.symm measurableSet_Ioo

/-- **C69** (partial).  For every good histogram, with bins of any widths, the integral of the
density over each bin is the weight of the bin, the integral over all energies is the sum of
the weights, and so the probability of the bin is its weight divided by the sum.  Assumed: the
first edge is not zero (see `C69_zero_edge`). -/
theorem C69_bins_partial {pdg : Int} (hp : Neutrino pdg) {lefts ws : List ℝ} {Emax : ℝ}
    (h : GoodHistogram lefts ws Emax) (h0 : (0 : ℝ) ∉ lefts) :
    ∃ (s : Source) (f : ℝ → ℝ), histogram pdg lefts ws Emax = .ok s ∧
      (∀ E, s.pdf E = .ok (some (f E))) ∧ (∫ E, f E) = ws.sum ∧
      ∀ (j : Nat) (a b w : ℝ), (lefts ++ [Emax])[j]? = some a → (lefts ++ [Emax])[j + 1]? = some b →
        ws[j]? = some w → (∫ E in a..b, f E) = w ∧ (∫ E in a..b, f E) / (∫ E, f E) = w / ws.sum := by
  obtain ⟨s, f, e, -, hf, hbin, hleft, hright⟩ := C69_density hp h
  have hl : (lefts ++ [Emax]).length = ws.length + 1 := by simp [h.size]
  have hlt : ∀ (j : Nat) (a b : ℝ), (lefts ++ [Emax])[j]? = some a →
      (lefts ++ [Emax])[j + 1]? = some b → a < b := by
    intro j a b ha hb
    obtain ⟨h1, rfl⟩ := List.getElem?_eq_some_iff.1 ha
    obtain ⟨h2, rfl⟩ := List.getElem?_eq_some_iff.1 hb
    exact List.pairwise_iff_getElem.1 h.edges j (j + 1) h1 h2 (by omega)
  have hst : ∀ (j : Nat) (a : ℝ), j < ws.length → (lefts ++ [Emax])[j]? = some a →
      storedEdge a = a := by
    intro j a hj ha
    rw [List.getElem?_append_left (by rw [h.size]; exact hj)] at ha
    have hmem := List.mem_of_getElem? ha
    have hne : a ≠ 0 := by rintro rfl; exact h0 hmem
    unfold storedEdge
    rw [if_neg hne]
  have key : ∀ (j : Nat) (a b w : ℝ), (lefts ++ [Emax])[j]? = some a →
      (lefts ++ [Emax])[j + 1]? = some b → ws[j]? = some w →
      (∫ E in a..b, f E) = w ∧ IntervalIntegrable f volume a b := by
    intro j a b w ha hb hw
    have hab := hlt j a b ha hb
    have hj := (List.getElem?_eq_some_iff.1 hw).1
    obtain ⟨h1, h2⟩ := integral_bin (f := f) (v := w / (b - a)) hab.le (fun x hx1 hx2 =>
      hbin j a b w ha hb hw x (by rw [hst j a hj ha]; exact hx1) hx2.le)
    refine ⟨?_, h2⟩
    rw [h1, div_mul_cancel₀]
    linarith
  have hn : 0 < ws.length := by
    rw [List.length_pos_iff]; rintro rfl; have := h.sum; simp at this
  have tot : (∫ E, f E) = ws.sum := by
    set ed : ℕ → ℝ := fun k => (lefts ++ [Emax]).getD k 0 with hed
    have get : ∀ k, k ≤ ws.length → (lefts ++ [Emax])[k]? = some (ed k) := by
      intro k hk
      rw [hed]
      dsimp only
      rw [List.getD_eq_getElem?_getD, List.getElem?_eq_getElem (by omega)]
      rfl
    have getw : ∀ k, k < ws.length → ws[k]? = some (ws.getD k 0) := by
      intro k hk
      rw [List.getD_eq_getElem?_getD, List.getElem?_eq_getElem hk]
      rfl
    have hsum := intervalIntegral.sum_integral_adjacent_intervals (f := f) (μ := volume) (a := ed)
      (n := ws.length) (fun k hk => (key k _ _ _ (get k hk.le) (get (k + 1) hk) (getw k hk)).2)
    have heq : ∑ k ∈ Finset.range ws.length, ∫ x in ed k..ed (k + 1), f x = ws.sum := by
      rw [← getD_sum]
      apply Finset.sum_congr rfl
      intro k hk
      rw [Finset.mem_range] at hk
      exact (key k _ _ _ (get k hk.le) (get (k + 1) hk) (getw k hk)).1
    have hlast : ed ws.length = Emax := by
      have := get ws.length le_rfl
      rw [← h.size] at this
      simp only [List.getElem?_concat_length, Option.some.injEq] at this
      rw [h.size] at this
      exact this.symm
    have hfirst : storedEdge (ed 0) = ed 0 := hst 0 _ hn (get 0 (by omega))
    have hle : ed 0 ≤ Emax := by
      rw [← hlast]
      obtain ⟨h1, h1'⟩ := List.getElem?_eq_some_iff.1 (get 0 (by omega))
      obtain ⟨h2, h2'⟩ := List.getElem?_eq_some_iff.1 (get ws.length le_rfl)
      rw [← h1', ← h2']
      exact (List.pairwise_iff_getElem.1 h.edges 0 ws.length h1 h2 hn).le
    rw [← heq, hsum, hlast, intervalIntegral.integral_of_le hle, ← integral_Icc_eq_integral_Ioc,
      setIntegral_eq_integral_of_forall_compl_eq_zero]
    intro x hx
    by_cases h1 : x < ed 0
    · exact hleft _ (get 0 (by omega)) x (by rw [hfirst]; exact h1)
    · apply hright
      by_contra h2
      exact hx ⟨not_lt.1 h1, not_lt.1 h2⟩
  refine ⟨s, f, e, hf, tot, ?_⟩
  intro j a b w ha hb hw
  have := (key j a b w ha hb hw).1
  exact ⟨this, by rw [this, tot]⟩

/-- **C69** with first edge zero: the first bin lacks the interval below the smallest positive
double, which is the fraction `tiny / b` of its weight; the other bins have their weights. -/
theorem C69_zero_edge {pdg : Int} (hp : Neutrino pdg) {lefts ws : List ℝ} {Emax : ℝ}
    (h : GoodHistogram (0 :: lefts) ws Emax) :
    ∃ (s : Source) (f : ℝ → ℝ), histogram pdg (0 :: lefts) ws Emax = .ok s ∧
      (∀ E, s.pdf E = .ok (some (f E))) ∧
      (∀ b w, (lefts ++ [Emax])[0]? = some b → ws[0]? = some w →
        (∫ E in (0 : ℝ)..b, f E) = w * (1 - tiny / b)) ∧
      ∀ (j : Nat) (a b w : ℝ), (lefts ++ [Emax])[j]? = some a → (lefts ++ [Emax])[j + 1]? = some b →
        ws[j + 1]? = some w → (∫ E in a..b, f E) = w := by
  obtain ⟨s, f, e, -, hf, hbin, hleft, -⟩ := C69_density hp h
  simp only [List.cons_append] at hbin hleft
  have hed := h.edges
  have hdb := h.doubles
  simp only [List.cons_append] at hed hdb
  obtain ⟨hpos, hed⟩ := List.pairwise_cons.1 hed
  have t := tiny_pos
  have hs0 : storedEdge 0 = tiny := by unfold storedEdge; rw [if_pos rfl]
  refine ⟨s, f, e, hf, ?_, ?_⟩
  · intro b w hb hw
    have hb0 : 0 < b := hpos b (List.mem_of_getElem? hb)
    have hbt : tiny < b := by
      rcases hdb b (List.mem_cons_of_mem _ (List.mem_of_getElem? hb)) with h | h
      · linarith
      · exact h
    obtain ⟨i1, j1⟩ := integral_bin (f := f) (v := 0) t.le (fun x _ hx =>
      hleft 0 (by simp) x (by rw [hs0]; exact hx))
    obtain ⟨i2, j2⟩ := integral_bin (f := f) (v := w / (b - 0)) hbt.le (fun x hx1 hx2 =>
      hbin 0 0 b w (by simp) (by simpa using hb) hw x (by rw [hs0]; exact hx1) hx2.le)
    rw [← intervalIntegral.integral_add_adjacent_intervals j1 j2, i1, i2]
    simp only [sub_zero, zero_mul, zero_add]
    have := hb0.ne'
    field_simp
  · intro j a b w ha hb hw
    have ha0 : 0 < a := hpos a (List.mem_of_getElem? ha)
    have hab : a < b := by
      obtain ⟨h1, rfl⟩ := List.getElem?_eq_some_iff.1 ha
      obtain ⟨h2, rfl⟩ := List.getElem?_eq_some_iff.1 hb
      exact List.pairwise_iff_getElem.1 hed j (j + 1) h1 h2 (by omega)
    have hst : storedEdge a = a := by unfold storedEdge; rw [if_neg ha0.ne']
    obtain ⟨i1, -⟩ := integral_bin (f := f) (v := w / (b - a)) hab.le (fun x hx1 hx2 =>
      hbin (j + 1) a b w (by simpa using ha) (by simpa using hb) hw x (by rw [hst]; exact hx1) hx2.le)
    rw [i1, div_mul_cancel₀]
    linarith

/-- **C69**, rejection: edges that do not increase strictly are rejected with `marley::Error`. -/
theorem C69_rejected (pdg : Int) (lefts ws : List ℝ) (Emax : ℝ) (hl : lefts.length = ws.length)
    (h : ¬ (lefts ++ [Emax]).Pairwise (· < ·)) :
    histogram pdg lefts ws Emax = .error .marleyError := by
  unfold histogram
  rw [densities_bad _ _ (by simp [hl])]
  intro hc
  exact h (List.isChain_iff_pairwise.1 hc)

/-- A histogram with bins of different widths. -/
theorem exHistogram : GoodHistogram [10, 20, 50] [0.2, 0.5, 0.3] 60 where
  size := rfl
  edges := by norm_num
  doubles := by
    intro E hE
    have := tiny_lt_one
    simp only [List.cons_append, List.nil_append, List.mem_cons, List.not_mem_nil, or_false] at hE
    rcases hE with rfl | rfl | rfl | rfl <;> right <;> linarith
  weights := by
    intro w hw
    simp only [List.mem_cons, List.not_mem_nil, or_false] at hw
    rcases hw with rfl | rfl | rfl <;> norm_num
  sum := by norm_num

/-- Its middle bin, three times as wide as the others, has probability one half. -/
example : ∃ (s : Source) (f : ℝ → ℝ), histogram 12 [10, 20, 50] [0.2, 0.5, 0.3] 60 = .ok s ∧
    (∀ E, s.pdf E = .ok (some (f E))) ∧ (∫ E in (20 : ℝ)..50, f E) / (∫ E, f E) = 1 / 2 := by
  obtain ⟨s, f, e, hf, -, h⟩ := C69_bins_partial (pdg := 12) (.inl rfl) exHistogram (by norm_num)
  refine ⟨s, f, e, hf, ?_⟩
  rw [(h 1 20 50 0.5 rfl rfl rfl).2]
  norm_num

/-! ## C85 -/

/-- `f` is the density of `s`: a nonnegative number at every energy. -/
def HasDensity (s : Source) (f : ℝ → ℝ) : Prop :=
  (∀ E, s.pdf E = .ok (some (f E))) ∧ ∀ E, 0 ≤ f E

/-- Dividing by the numerically computed integral gives a density whose numerically computed
integral is one. -/
theorem norm_one {s : Source} {a b : ℝ} {F : ℝ → ℝ} (hab : a < b)
    (h0 : ∀ x, a ≤ x → x ≤ b → 0 ≤ F x) (hm : 0 < F ((b + a) / 2))
    (hs : ∀ E, s.pdf E = .ok (some (if E < a ∨ E > b then 0 else 1 / quad 50 a b F * F E))) :
    ∃ k, 0 < k ∧ HasDensity s (fun E => if E < a ∨ E > b then 0 else k * F E) ∧
      numIntegrate (numeric s.pdf) a b () = .ok (1, ()) := by
  have hq := quad_pos hab h0 hm
  have hk : 0 < 1 / quad 50 a b F := by positivity
  refine ⟨_, hk, ⟨hs, ?_⟩, ?_⟩
  · intro E
    dsimp only
    by_cases hE : E < a ∨ E > b
    · rw [if_pos hE]
    · rw [if_neg hE]
      push Not at hE
      exact mul_nonneg hk.le (h0 E hE.1 hE.2)
  · unfold numIntegrate
    rw [weightedSum_on (numeric s.pdf) (fun E => 1 / quad 50 a b F * F E)]
    · have := quad_smul 50 a b (1 / quad 50 a b F) F
      rw [show ((nodes 50 a b).map (fun p => p.1 * (1 / quad 50 a b F * F p.2))).sum
        = quad 50 a b (fun x => 1 / quad 50 a b F * F x) from rfl, this, zero_add,
        one_div_mul_cancel hq.ne']
    · intro p hp
      obtain ⟨-, h2, h3⟩ := nodes_ok (N := 50) (by norm_num) hab.le hp
      have : ¬ (p.2 < a ∨ p.2 > b) := by rintro (h | h) <;> linarith
      unfold numeric
      rw [hs, if_neg this]

/-- **C85**, Fermi-Dirac: in the range the density is proportional to `E² / (1 + exp(E/T - η))`,
and its numerical integral is one. -/
theorem C85_fermiDirac {pid : Int} {a b T eta : ℝ} (hp : Neutrino pid) (ha : 0 ≤ a) (hab : a < b)
    (hT : 0 < T) :
    ∃ s k, mkFermiDirac pid a b T eta = .ok s ∧ 0 < k ∧
      HasDensity s (fun E => if E < a ∨ E > b then 0
        else k * (E ^ 2 / (1 + Real.exp (E / T - eta)))) ∧
      numIntegrate (numeric s.pdf) a b () = .ok (1, ()) := by
  have hal : allowed pid = true := (allowed_iff pid).2 hp
  have hT4 : T ^ 4 ≠ 0 := by positivity
  set F : ℝ → ℝ := fun E => 1 / T ^ 4 * (E ^ 2 / (1 + Real.exp (E / T - eta))) with hF
  have hpos : ∀ x : ℝ, 0 < 1 + Real.exp (x / T - eta) := fun x => by positivity
  have h0 : ∀ x, a ≤ x → x ≤ b → 0 ≤ F x := fun x _ _ => by
    have := hpos x; rw [hF]; dsimp only; positivity
  have hm : 0 < F ((b + a) / 2) := by
    have := hpos ((b + a) / 2)
    have : 0 < (b + a) / 2 := by linarith
    rw [hF]; dsimp only; positivity
  have form : ∀ c E, fdFormula T eta (some c) E = some (c * F E) := by
    intro c E
    simp only [fdFormula, Utils.fdiv, if_neg hT4, if_neg hT.ne', Option.bind_eq_bind,
      Option.bind_some, hF]
    congr 1
    ring
  have hint : normOf (Source.pdf ⟨pid, .fermiDirac a b T eta (some 1)⟩) a b
      = some (1 / quad 50 a b F) := by
    unfold normOf
    rw [integral_on hab.le (F := F) (fun x h1 h2 => by
      have : ¬ (x < a ∨ x > b) := by rintro (h | h) <;> linarith
      simp only [Source.pdf, if_neg this, form, one_mul])]
    simp [Utils.fdiv, (quad_pos hab h0 hm).ne']
  obtain ⟨k, hk, hd, hn⟩ := norm_one
    (s := ⟨pid, .fermiDirac a b T eta (some (1 / quad 50 a b F))⟩) hab h0 hm (by
      intro E
      simp only [Source.pdf, form]
      split_ifs <;> rfl)
  refine ⟨_, k * (1 / T ^ 4), by unfold mkFermiDirac; rw [if_pos hal, hint], by positivity, ?_, hn⟩
  have e : (fun E => if E < a ∨ E > b then 0 else k * F E) = fun E => if E < a ∨ E > b then 0
      else k * (1 / T ^ 4) * (E ^ 2 / (1 + Real.exp (E / T - eta))) := by
    funext E
    rw [hF]
    dsimp only
    split_ifs
    · rfl
    · ring
  rw [← e]
  exact hd

/-- **C85**, beta-fit: a parameter below 1 is rejected; otherwise the density is in the range
proportional to `(E/m)^(β-1) exp(-β E/m)` and its numerical integral is one. -/
theorem C85_betaFit {pid : Int} {a b m beta : ℝ} (hp : Neutrino pid) (ha : 0 ≤ a) (hab : a < b)
    (hmean : 0 < m) :
    (beta < 1 → mkBetaFit pid a b m beta = .error .marleyError) ∧
    (1 ≤ beta → ∃ s k, mkBetaFit pid a b m beta = .ok s ∧ 0 < k ∧
      HasDensity s (fun E => if E < a ∨ E > b then 0
        else k * ((E / m) ^ (beta - 1) * Real.exp (-beta * E / m))) ∧
      numIntegrate (numeric s.pdf) a b () = .ok (1, ())) := by
  have hal : allowed pid = true := (allowed_iff pid).2 hp
  constructor
  · intro hb; unfold mkBetaFit; rw [if_pos hal, if_pos hb]
  intro hb
  set F : ℝ → ℝ := fun E => (E / m) ^ (beta - 1) * Real.exp (-beta * E / m) with hF
  have h0 : ∀ x, a ≤ x → x ≤ b → 0 ≤ F x := fun x h1 _ => by
    have : 0 ≤ x / m := div_nonneg (ha.trans h1) hmean.le
    rw [hF]; dsimp only
    exact mul_nonneg (Real.rpow_nonneg this _) (Real.exp_pos _).le
  have hm : 0 < F ((b + a) / 2) := by
    have : 0 < (b + a) / 2 / m := div_pos (by linarith) hmean
    rw [hF]; dsimp only
    exact mul_pos (Real.rpow_pos_of_pos this _) (Real.exp_pos _)
  have form : ∀ c E, a ≤ E → bfFormula m beta (some c) E = some (c * F E) := by
    intro c E hE
    have h1 : ¬ (E = 0 ∧ beta < 1) := fun h => by linarith [h.2]
    have hq : 0 ≤ E / m := div_nonneg (ha.trans hE) hmean.le
    have h2 : fpow (E / m) (beta - 1) = some ((E / m) ^ (beta - 1)) := by
      unfold fpow
      rw [if_neg (fun h => by linarith [h.1]), if_neg (fun h => by linarith [h.2])]
    simp only [bfFormula, if_neg h1, Utils.fdiv, if_neg hmean.ne', Option.bind_eq_bind,
      Option.bind_some, h2, hF]
    congr 1
    ring
  have hint : normOf (Source.pdf ⟨pid, .betaFit a b m beta (some 1)⟩) a b
      = some (1 / quad 50 a b F) := by
    unfold normOf
    rw [integral_on hab.le (F := F) (fun x h1 h2 => by
      have : ¬ (x < a ∨ x > b) := by rintro (h | h) <;> linarith
      simp only [Source.pdf, if_neg this, form 1 x h1, one_mul])]
    simp [Utils.fdiv, (quad_pos hab h0 hm).ne']
  obtain ⟨k, hk, hd, hn⟩ := norm_one
    (s := ⟨pid, .betaFit a b m beta (some (1 / quad 50 a b F))⟩) hab h0 hm (by
      intro E
      simp only [Source.pdf]
      by_cases hE : E < a ∨ E > b
      · rw [if_pos hE, if_pos hE]
      · rw [if_neg hE, if_neg hE, form _ E (by push Not at hE; exact hE.1)])
  exact ⟨_, k, by unfold mkBetaFit; rw [if_pos hal, if_neg (by linarith), hint], hk, hd, hn⟩

/-- **C85**, any function that is nonnegative in the range and positive in its middle: the
density is proportional to it and its numerical integral is one. -/
theorem C85_function {pid : Int} {a b : ℝ} {F : ℝ → ℝ} (hp : Neutrino pid) (hab : a < b)
    (h0 : ∀ x, a ≤ x → x ≤ b → 0 ≤ F x) (hm : 0 < F ((b + a) / 2)) :
    ∃ s k, mkFunction pid a b (fun x => some (F x)) = .ok s ∧ 0 < k ∧
      HasDensity s (fun E => if E < a ∨ E > b then 0 else k * F E) ∧
      numIntegrate (numeric s.pdf) a b () = .ok (1, ()) := by
  have hal : allowed pid = true := (allowed_iff pid).2 hp
  have hq := quad_pos hab h0 hm
  have hint : integral (fun x => .ok (some (F x))) a b = some (quad 50 a b F) :=
    integral_on hab.le (fun _ _ _ => rfl)
  obtain ⟨k, hk, hd, hn⟩ := norm_one
    (s := ⟨pid, .function a b (fun x => some (F x)) (some (quad 50 a b F))⟩) hab h0 hm (by
      intro E
      simp only [Source.pdf, Utils.fdiv, if_neg hq.ne', Option.bind_eq_bind, Option.bind_some]
      split_ifs
      · rfl
      · congr 2; ring)
  exact ⟨_, k, by unfold mkFunction; rw [if_pos hal, hint], hk, hd, hn⟩

/-- The hypotheses hold for the default parameters (a supernova spectrum between 0 and 50 MeV). -/
example : ∃ s, mkFermiDirac 12 0 50 3.5 0 = .ok s ∧
    numIntegrate (numeric s.pdf) 0 50 () = .ok (1, ()) := by
  obtain ⟨s, k, h1, -, -, h2⟩ := C85_fermiDirac (pid := 12) (a := 0) (b := 50) (T := 3.5) (eta := 0)
    (.inl rfl) le_rfl (by norm_num) (by norm_num)
  exact ⟨s, h1, h2⟩

example : ∃ s, mkBetaFit 14 0 50 13 4.5 = .ok s ∧
    numIntegrate (numeric s.pdf) 0 50 () = .ok (1, ()) := by
  obtain ⟨s, k, h1, -, -, h2⟩ := (C85_betaFit (pid := 14) (a := 0) (b := 50) (m := 13) (beta := 4.5)
    (.inr (.inr (.inl rfl))) le_rfl (by norm_num) (by norm_num)).2 (by norm_num)
  exact ⟨s, h1, h2⟩

/-- What a configuration may describe: a table whose energies are positive and densities
nonnegative, or a source with a nonnegative density between two nonnegative energies. -/
def Sensible (s : Source) : Prop :=
  Neutrino s.pid ∧
  ((∃ g, s.spectrum = .grid g ∧ 2 ≤ g.points.length ∧ g.extrap = .zero ∧
      ∀ p ∈ g.points, 0 < p.1 ∧ 0 ≤ p.2) ∨
   (∃ a b f, Emin s.spectrum = .ok a ∧ Emax s.spectrum = .ok b ∧ 0 ≤ a ∧ a ≤ b ∧ 0 < b ∧
      HasDensity s f ∧ ∀ E, E < a ∨ b < E → f E = 0))

theorem sensible_vectors {pid : Int} {Es ys : List ℝ} {m : Interp} {s : Source}
    (e : mkGridVectors pid Es ys m = .ok s) : Sensible s := by
  refine ⟨C44_species (.vectors e), .inl ?_⟩
  by_cases hl : Es.length = ys.length
  · rw [(C44_vectors pid Es ys m).1 hl] at e
    have hp := (allowed_iff pid).1 (mkGrid_pid e).1
    obtain ⟨g, h1, -, h2, h3, h4⟩ := C44_table_stored e
    refine ⟨g, h1, ?_, h2, h4⟩
    rw [h3, List.length_map]
    exact ((C44_table_accepted hp _).1.2 ⟨s, e⟩).1
  · rw [(C44_vectors pid Es ys m).2 hl] at e; cases e

theorem bind_ok {α β : Type} {x : Res α} {f : α → Res β} {b : β} (h : (x >>= f) = .ok b) :
    ∃ a, x = .ok a ∧ f a = .ok b := by
  cases x with
  | error _ => cases h
  | ok a => exact ⟨a, rfl, h⟩

theorem sensible_build {type : Str} {pdg : Int} {j : JVal ℝ} {s : Source} (hp : Neutrino pdg)
    (e : build type pdg j = .ok s) : Sensible s := by
  unfold build at e
  split_ifs at e with h1 h2 h3 h4 h5 h6
  · obtain ⟨E, -, e⟩ := bind_ok e
    split_ifs at e with hE
    have hs := C44_species (.mono e)
    unfold mkMono at e
    split_ifs at e with ha
    cases e
    push Not at hE
    refine ⟨hs, .inr ⟨E, E, fun x => if E = x then 1 else 0, rfl, rfl, hE.le, le_rfl, hE,
      ⟨fun x => rfl, fun x => by dsimp only; split_ifs <;> norm_num⟩, ?_⟩⟩
    intro x hx
    exact if_neg (by rintro rfl; rcases hx with h | h <;> exact lt_irrefl _ h)
  · have hs := C44_species (.decayAtRest e)
    obtain ⟨f, hf, h0, hz, -⟩ := C43_density e
    have : s.spectrum = .decayAtRest := by
      unfold mkDecayAtRest at e; split_ifs at e; cases e; rfl
    have hm := mMu_pos
    exact ⟨hs, .inr ⟨0, mMu / 2, f, by rw [this]; rfl, by rw [this]; rfl, le_rfl, by positivity,
      by positivity, ⟨hf, h0⟩, hz⟩⟩
  · obtain ⟨a, -, e⟩ := bind_ok e
    obtain ⟨b, -, e⟩ := bind_ok e
    obtain ⟨T, -, e⟩ := bind_ok e
    obtain ⟨eta, -, e⟩ := bind_ok e
    split_ifs at e with ha hT hb
    push Not at ha hT hb
    obtain ⟨s', k, e', hk, hd, -⟩ := C85_fermiDirac (eta := eta) hp ha hb hT
    rw [e'] at e
    cases e
    have hs := C44_species (.fermiDirac e')
    have : ∃ c, s.spectrum = .fermiDirac a b T eta c := by
      unfold mkFermiDirac at e'; split_ifs at e'; cases e'; exact ⟨_, rfl⟩
    obtain ⟨c, hc⟩ := this
    exact ⟨hs, .inr ⟨a, b, _, by rw [hc]; rfl, by rw [hc]; rfl, ha, hb.le, by linarith, hd,
      fun E hE => if_pos hE⟩⟩
  · obtain ⟨a, -, e⟩ := bind_ok e
    obtain ⟨b, -, e⟩ := bind_ok e
    obtain ⟨m, -, e⟩ := bind_ok e
    obtain ⟨beta, -, e⟩ := bind_ok e
    split_ifs at e with ha hm hb
    push Not at ha hm hb
    have hbf := C85_betaFit (beta := beta) hp ha hb hm
    by_cases h1 : beta < 1
    · rw [hbf.1 h1] at e; cases e
    · obtain ⟨s', k, e', hk, hd, -⟩ := hbf.2 (not_lt.1 h1)
      rw [e'] at e
      cases e
      have hs := C44_species (.betaFit e')
      have : ∃ c, s.spectrum = .betaFit a b m beta c := by
        unfold mkBetaFit at e'; split_ifs at e'; cases e'; exact ⟨_, rfl⟩
      obtain ⟨c, hc⟩ := this
      exact ⟨hs, .inr ⟨a, b, _, by rw [hc]; rfl, by rw [hc]; rfl, ha, hb.le, by linarith, hd,
        fun E hE => if_pos hE⟩⟩
  · obtain ⟨Es, -, e⟩ := bind_ok e
    obtain ⟨ws, -, e⟩ := bind_ok e
    split_ifs at e with hl
    obtain ⟨b, -, e⟩ := bind_ok e
    split_ifs at e with hb
    unfold histogram at e
    cases hd : densities (Es ++ [b]) (ws ++ [0]) with
    | error _ => rw [hd] at e; cases e
    | ok ys => rw [hd] at e; exact sensible_vectors e
  all_goals
    obtain ⟨Es, -, e⟩ := bind_ok e
    obtain ⟨ys, -, e⟩ := bind_ok e
    obtain ⟨rule, -, e⟩ := bind_ok e
    obtain ⟨m, -, e⟩ := bind_ok e
    exact sensible_vectors e

/-- Any neutrino type that a configuration names is one of the six species. -/
theorem neutrinoPdg_ok {nu : Str} {pdg : Int} (e : neutrinoPdg nu = .ok pdg) : Neutrino pdg := by
  unfold neutrinoPdg at e
  split at e
  split_ifs at e with hd
  · split at e
    · cases e
    · split_ifs at e with ha
      cases e
      exact (allowed_iff _).1 ha
  · unfold Utils.stringToNeutrinoPdg at e
    unfold Neutrino
    split_ifs at e <;> cases e <;> simp

/-- **C85**: whatever JSON value describes the source, if it is accepted the source is sensible.
-/
theorem C85_configured (j : JVal ℝ) {s : Source} (e : fromSpec j = .ok (some s)) : Sensible s := by
  unfold fromSpec at e
  split at e
  · cases e
  · obtain ⟨type, -, e⟩ := bind_ok e
    obtain ⟨nu, -, e⟩ := bind_ok e
    obtain ⟨pdg, hp, e⟩ := bind_ok e
    obtain ⟨s', hs, e⟩ := bind_ok e
    cases e
    exact sensible_build (neutrinoPdg_ok hp) hs

/-- A specification that is accepted: monoenergetic electron antineutrinos of 15 MeV. -/
example : fromSpec (.obj [("type".toList, .str "mono".toList), ("neutrino".toList, .str "-12".toList),
    ("energy".toList, .float 15)]) = .ok (some ⟨-12, .mono 15⟩) := by
  have hn : neutrinoPdg "-12".toList = .ok (-12) := by decide +kernel
  have e1 : jsonEscape "mono".toList = "mono".toList := by decide +kernel
  have e2 : jsonEscape "-12".toList = "-12".toList := by decide +kernel
  have k1 : "neutrino".toList ≠ "type".toList := by decide +kernel
  have k2 : "energy".toList ≠ "type".toList := by decide +kernel
  have k3 : "energy".toList ≠ "neutrino".toList := by decide +kernel
  generalize hm : [("type".toList, JVal.str "mono".toList), ("neutrino".toList, .str "-12".toList),
    ("energy".toList, .float (15 : ℝ))] = m
  have m1 : mapFind m "type".toList = some (.str "mono".toList) := by
    rw [← hm, mapFind, if_pos rfl]
  have m2 : mapFind m "neutrino".toList = some (.str "-12".toList) := by
    rw [← hm, mapFind, if_neg k1, mapFind, if_pos rfl]
  have m3 : mapFind m "energy".toList = some (.float 15) := by
    rw [← hm, mapFind, if_neg k2, mapFind, if_neg k3, mapFind, if_pos rfl]
  have t1 : getText (.obj m) "type".toList = .ok "mono".toList := by
    unfold getText hasKey at?
    simp only [m1, Option.isSome_some, if_true]
    rw [toStringOrThrow, e1]
  have t2 : getText (.obj m) "neutrino".toList = .ok "-12".toList := by
    unfold getText hasKey at?
    simp only [m2, Option.isSome_some, if_true]
    rw [toStringOrThrow, e2]
  have t3 : getNumber (.obj m) "energy".toList = .ok 15 := by
    unfold getNumber hasKey at?
    simp only [m3, Option.isSome_some, if_true]
    rfl
  have hb : build "mono".toList (-12) (.obj m) = .ok ⟨-12, .mono 15⟩ := by
    unfold build
    rw [if_pos (.inl rfl), t3]
    change (if (15 : ℝ) ≤ 0 then _ else mkMono (-12) 15) = _
    rw [if_neg (by norm_num)]
    rfl
  unfold fromSpec
  dsimp only
  rw [t1]
  change (getText (.obj m) "neutrino".toList >>= fun nu => neutrinoPdg nu >>= fun pdg =>
    build "mono".toList pdg (.obj m) >>= fun s => Except.ok (some s)) = _
  rw [t2]
  change (neutrinoPdg "-12".toList >>= fun pdg =>
    build "mono".toList pdg (.obj m) >>= fun s => Except.ok (some s)) = _
  rw [hn]
  change (build "mono".toList (-12) (.obj m) >>= fun s => Except.ok (some s)) = _
  rw [hb]
  rfl

end Marley.Props
