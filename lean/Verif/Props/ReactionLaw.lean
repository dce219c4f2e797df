import Verif.Props.RejectionLaw
import Verif.Props.Generator

/-! # C123: energies and reactions follow flux times cross section

The draws are independent and uniform in [0, 1) (`iid`, `stream` in
`Verif/Spec/RejectionLaw.lean`), the arithmetic is exact. -/

set_option autoImplicit false

namespace Marley.Props
open Marley Marley.Sampling Marley.Gen MeasureTheory

/-- `s j E` is the total cross section of reaction `j` at the energy `E`, times the
fraction of its atom; the cross sections are measurable functions of the energy and
not negative. -/
structure CrossSections {G : Type} (g : Gen G) (s : Nat → ℝ → ℝ) : Prop where
  value : ∀ E ∈ Set.Icc g.source.Emin g.source.Emax, ∀ (j : Nat) (r : Rx G),
    g.reactions[j]? = some r →
    ∃ x, r.totalXs g.source.pid E = .ok x ∧ s j E = x * g.share r.atom
  nonneg : ∀ j E, 0 ≤ s j E
  measurable : ∀ j, Measurable (s j)

/-- The sum over all reactions. -/
noncomputable def totalOf {G : Type} (g : Gen G) (s : Nat → ℝ → ℝ) (E : ℝ) : ℝ :=
  ∑ j ∈ Finset.range g.reactions.length, s j E

/-- What `n` trials and one more draw are made with. -/
noncomputable def idealWorld (n : Nat)
    (decay : Event ℝ → List ℝ → Option (Res (Event ℝ × List ℝ))) : World (List ℝ) :=
  ⟨exact, replay, n, decay⟩

section
variable {G : Type} {g : Gen G} {s : Nat → ℝ → ℝ}

theorem weighted_share {r : Rx G} {pdg : Int} {E x : ℝ} (h : r.totalXs pdg E = .ok x) :
    g.weighted r pdg E = .ok (x * g.share r.atom) := by
  unfold Gen.weighted Gen.share
  rw [h]
  cases g.target <;> simp

theorem weights_of (pdg : Int) (E : ℝ) (rs : List (Rx G)) (k : Nat)
    (h : ∀ (j : Nat) (r : Rx G), rs[j]? = some r →
      ∃ x, r.totalXs pdg E = .ok x ∧ s (k + j) E = x * g.share r.atom) :
    g.weights pdg E rs = .ok ((List.range' k rs.length).map (s · E)) := by
  induction rs generalizing k with
  | nil => rfl
  | cons r rs ih =>
    obtain ⟨x, hx, hs⟩ := h 0 r rfl
    rw [Gen.weights, weighted_share hx, ih (k + 1) (fun j r hj => by
      have := h (j + 1) r (by simpa using hj)
      rwa [show k + (j + 1) = k + 1 + j by omega] at this)]
    rw [Nat.add_zero] at hs
    simp [List.range'_succ, hs]

theorem weights_list (hc : CrossSections g s) {E : ℝ}
    (hE : E ∈ Set.Icc g.source.Emin g.source.Emax) :
    g.weights g.source.pid E g.reactions
      = .ok ((List.range g.reactions.length).map (s · E)) := by
  rw [weights_of (s := s) g.source.pid E g.reactions 0 (fun j r hj => by
    rw [Nat.zero_add]; exact hc.value E hE j r hj), List.range_eq_range']

theorem take_sum (s : Nat → ℝ → ℝ) (E : ℝ) {k i : Nat} (h : i ≤ k) :
    (((List.range k).map (s · E)).take i).sum = ∑ j ∈ Finset.range i, s j E := by
  rw [← List.map_take, List.take_range, Nat.min_eq_left h]
  show _ = (Multiset.map (fun j => s j E) (List.range i : Multiset Nat)).sum
  rw [Multiset.map_coe, Multiset.sum_coe]

/-- The numbers that select reaction `i` at the energy `E`. -/
def selects (g : Gen G) (s : Nat → ℝ → ℝ) (i : Nat) (A : Set ℝ) : Set (ℝ × ℝ) :=
  {p | p.1 ∈ A ∧ 0 < totalOf g s p.1 ∧
    ∑ j ∈ Finset.range i, s j p.1 < p.2 * totalOf g s p.1 ∧
    p.2 * totalOf g s p.1 ≤ ∑ j ∈ Finset.range (i + 1), s j p.1}

/-- Draws that do not matter. -/
def unlikely (g : Gen G) (s : Nat → ℝ → ℝ) : Set (ℝ × ℝ) :=
  {p | p.1 ∉ Set.Icc g.source.Emin g.source.Emax ∨ totalOf g s p.1 ≤ 0 ∨
    p.2 ∉ Set.Ioo (0 : ℝ) 1}

theorem sums_measurable (hc : CrossSections g s) (i : Nat) :
    Measurable fun E => ∑ j ∈ Finset.range i, s j E :=
  Finset.measurable_sum _ fun j _ => hc.measurable j

theorem selects_measurable (hc : CrossSections g s) (i : Nat) {A : Set ℝ}
    (hA : MeasurableSet A) : MeasurableSet (selects g s i A) := by
  have h1 := sums_measurable hc i
  have h2 := sums_measurable hc (i + 1)
  have ht : Measurable (totalOf g s) := sums_measurable hc g.reactions.length
  have e1 : MeasurableSet {p : ℝ × ℝ | p.1 ∈ A} := measurable_fst hA
  have e2 : MeasurableSet {p : ℝ × ℝ | 0 < totalOf g s p.1} :=
    measurableSet_lt measurable_const (ht.comp measurable_fst)
  have e3 : MeasurableSet {p : ℝ × ℝ | ∑ j ∈ Finset.range i, s j p.1 < p.2 * totalOf g s p.1} :=
    measurableSet_lt (h1.comp measurable_fst) (measurable_snd.mul (ht.comp measurable_fst))
  have e4 : MeasurableSet {p : ℝ × ℝ |
      p.2 * totalOf g s p.1 ≤ ∑ j ∈ Finset.range (i + 1), s j p.1} :=
    measurableSet_le (measurable_snd.mul (ht.comp measurable_fst)) (h2.comp measurable_fst)
  exact e1.inter (e2.inter (e3.inter e4))

theorem unlikely_measurable (hc : CrossSections g s) : MeasurableSet (unlikely g s) := by
  have ht : Measurable (totalOf g s) := sums_measurable hc g.reactions.length
  have e1 : MeasurableSet {p : ℝ × ℝ | p.1 ∉ Set.Icc g.source.Emin g.source.Emax} :=
    measurable_fst measurableSet_Icc.compl
  have e2 : MeasurableSet {p : ℝ × ℝ | totalOf g s p.1 ≤ 0} :=
    measurableSet_le (ht.comp measurable_fst) measurable_const
  have e3 : MeasurableSet {p : ℝ × ℝ | p.2 ∉ Set.Ioo (0 : ℝ) 1} :=
    measurable_snd measurableSet_Ioo.compl
  exact e1.union (e2.union e3)

theorem total_nonneg (hc : CrossSections g s) (E : ℝ) : 0 ≤ totalOf g s E :=
  Finset.sum_nonneg fun j _ => hc.nonneg j E

theorem chance_selects (hc : CrossSections g s) {i : Nat} (hi : i < g.reactions.length)
    {A : Set ℝ} {E : ℝ} (hE : E ∈ A) (ht : 0 < totalOf g s E) :
    chance (selects g s i A) E = ENNReal.ofReal (s i E / totalOf g s E) := by
  have hset : {w | (E, w) ∈ selects g s i A}
      = Set.Ioc ((∑ j ∈ Finset.range i, s j E) / totalOf g s E)
          ((∑ j ∈ Finset.range (i + 1), s j E) / totalOf g s E) := by
    ext w
    simp only [selects, Set.mem_ofPred_eq, hE, ht, true_and, Set.mem_Ioc, div_lt_iff₀ ht,
      le_div_iff₀ ht]
  have h0 : 0 ≤ (∑ j ∈ Finset.range i, s j E) / totalOf g s E :=
    div_nonneg (Finset.sum_nonneg fun j _ => hc.nonneg j E) ht.le
  have h1 : (∑ j ∈ Finset.range (i + 1), s j E) / totalOf g s E ≤ 1 := by
    rw [div_le_one ht]
    exact Finset.sum_le_sum_of_subset_of_nonneg
      (Finset.range_subset_range.2 hi) fun j _ _ => hc.nonneg j E
  rw [chance, hset, unit, Measure.restrict_congr_set (Ico_ae_eq_Icc.trans Ioc_ae_eq_Icc.symm),
    Measure.restrict_apply measurableSet_Ioc,
    Set.inter_eq_left.2 (Set.Ioc_subset_Ioc h0 h1), Real.volume_Ioc, ← sub_div,
    Finset.sum_range_succ, add_sub_cancel_left]

theorem chance_unlikely {E : ℝ} (hE : E ∈ Set.Icc g.source.Emin g.source.Emax)
    (ht : 0 < totalOf g s E) : chance (unlikely g s) E = 0 := by
  have hset : {w | (E, w) ∈ unlikely g s} = (Set.Ioo (0 : ℝ) 1)ᶜ := by
    ext w
    simp only [unlikely, Set.mem_ofPred_eq, hE, not_true, not_le.2 ht, false_or,
      Set.mem_compl_iff]
  rw [chance, hset, unit, Measure.restrict_congr_set (Ico_ae_eq_Icc.trans Ioo_ae_eq_Icc.symm),
    Measure.restrict_apply measurableSet_Ioo.compl]
  simp

end

section
variable {G : Type} {g : Gen G} {s : Nat → ℝ → ℝ}

/-- The density of the energies, at an energy of the source. -/
noncomputable def densityOf {G : Type} (g : Gen G) (s : Nat → ℝ → ℝ) (E : ℝ) : ℝ :=
  if g.weightFlux then totalOf g s E * g.source.pdf E / g.norm
  else if totalOf g s E ≤ 0 then 0 else g.source.pdf E / g.norm

theorem ePdf_density (hc : CrossSections g s) (hn : g.norm ≠ 0) {E : ℝ}
    (hE : E ∈ Set.Icc g.source.Emin g.source.Emax) {vals : List ℝ} (h : g.Sized vals) :
    g.ePdf E vals
      = .ok (densityOf g s E, (List.range g.reactions.length).map (s · E)) := by
  have hsum : ((List.range g.reactions.length).map (s · E)).sum = totalOf g s E := by
    have := take_sum s E (le_refl g.reactions.length)
    rwa [List.take_of_length_le (by simp)] at this
  rw [ePdf_eq g E h, weights_list hc hE]
  dsimp only
  rw [hsum, densityOf]
  split_ifs <;> rfl

theorem ePdf_evaluates (hc : CrossSections g s) (hn : g.norm ≠ 0) :
    Evaluates g.ePdf (densityOf g s) g.source.Emin g.source.Emax g.Sized := by
  intro E hE st hst
  refine ⟨_, ePdf_density hc hn hE hst, ?_⟩
  simp [Gen.Sized]

theorem densityOf_zero (hc : CrossSections g s) {E : ℝ} (h : ¬ 0 < totalOf g s E) :
    densityOf g s E = 0 := by
  have h0 : totalOf g s E = 0 := le_antisymm (not_lt.1 h) (total_nonneg hc E)
  simp [densityOf, h0]

theorem density_measurable (hc : CrossSections g s) (hp : Measurable g.source.pdf) :
    Measurable (densityOf g s) := by
  have ht : Measurable (totalOf g s) := sums_measurable hc g.reactions.length
  unfold densityOf
  split_ifs
  · exact (ht.mul hp).div_const _
  · exact Measurable.ite (measurableSet_le ht measurable_const) measurable_const (hp.div_const _)

end

section
variable {g : Gen (List ℝ)} {s : Nat → ℝ → ℝ}

/-- Given the energy and the number drawn, the reaction is settled. -/
theorem pickFrom_selects (hc : CrossSections g s) {i : Nat} (hi : i < g.reactions.length)
    {A : Set ℝ} {E : ℝ} {l : List ℝ} (hl : (E, (replay.draw l).1) ∉ unlikely g s) :
    (E ∈ A ∧ ∃ l', pickFrom replay ((List.range g.reactions.length).map (s · E)) l = .ok (i, l'))
      ↔ (E, (replay.draw l).1) ∈ selects g s i A := by
  simp only [unlikely, Set.mem_ofPred_eq, not_or, not_not, not_le] at hl
  obtain ⟨_, ht, hu⟩ := hl
  have hsum : ((List.range g.reactions.length).map (s · E)).sum = totalOf g s E := by
    have := take_sum s E (le_refl g.reactions.length)
    rwa [List.take_of_length_le (by simp)] at this
  have hw : ∀ x ∈ (List.range g.reactions.length).map (s · E), 0 ≤ x := by
    intro x hx
    obtain ⟨j, _, rfl⟩ := List.mem_map.1 hx
    exact hc.nonneg j E
  have hp := pick_iff hw (by rw [hsum]; exact ht) hu.1 hu.2.le i
  rw [hsum, take_sum s E hi.le, take_sum s E hi] at hp
  have hlen : ((List.range g.reactions.length).map (s · E)).length = g.reactions.length := by simp
  have hpf : (∃ l', pickFrom replay ((List.range g.reactions.length).map (s · E)) l = .ok (i, l'))
      ↔ pick ((List.range g.reactions.length).map (s · E)) (replay.draw l).1 = .ok i := by
    unfold pickFrom
    split_ifs with h2
    · have : i = 0 := by omega
      subst this
      simp [pick, hlen ▸ h2]
    · cases pick ((List.range g.reactions.length).map (s · E)) (replay.draw l).1 with
      | error _ => simp
      | ok k => simp
  rw [hpf, hp, hlen]
  simp only [selects, Set.mem_ofPred_eq, hi, ht, true_and]

/-- The law of energy and reaction for any of the two densities. -/
theorem sample_law {n : Nat} {decay : Event ℝ → List ℝ → Option (Res (Event ℝ × List ℝ))}
    {m : ℝ} (hs : g.Sized g.values) (hc : CrossSections g s)
    (hE : g.source.Emin < g.source.Emax) (hp : Measurable g.source.pdf) (hn : g.norm ≠ 0)
    (hb : g.bound (idealWorld n decay) = some (.ok m)) (hm : 0 < m)
    (hr : ∀ E ∈ Set.Icc g.source.Emin g.source.Emax, 0 ≤ densityOf g s E ∧ densityOf g s E ≤ m)
    {i : Nat} (hi : i < g.reactions.length) {A : Set ℝ} (hA : MeasurableSet A) :
    iid n {d | ∃ E g', ({ g with eng := stream d } : Gen (List ℝ)).sampleReaction
        (idealWorld n decay) = some (.ok (i, E, g')) ∧ E ∈ A}
      = ENNReal.ofReal ((∑ k ∈ Finset.range n,
          (1 - share (densityOf g s) g.source.Emin g.source.Emax m) ^ k)
        * ((∫ E in Set.Icc g.source.Emin g.source.Emax ∩ A,
            s i E / totalOf g s E * densityOf g s E)
          / (m * (g.source.Emax - g.source.Emin)))) := by
  have hd := density_measurable hc hp
  have law := fun {B : Set (ℝ × ℝ)} (hB : MeasurableSet B) =>
    loop_law (safety := 1.01) hE hm hd hr (ePdf_evaluates hc hn) hB n g.values hs
  have hN := law (unlikely_measurable hc)
  have hz : ∀ E ∈ Set.Icc g.source.Emin g.source.Emax,
      (chance (unlikely g s) E).toReal * densityOf g s E = 0 := by
    intro E hE
    by_cases ht : 0 < totalOf g s E
    · rw [chance_unlikely hE ht]; simp
    · rw [densityOf_zero hc ht, mul_zero]
  rw [setIntegral_congr_fun measurableSet_Icc hz] at hN
  simp only [integral_zero, zero_div, mul_zero, ENNReal.ofReal_zero] at hN
  have hS := law (selects_measurable hc i hA)
  have hsel : ∀ E ∈ Set.Icc g.source.Emin g.source.Emax,
      (chance (selects g s i A) E).toReal * densityOf g s E
        = A.indicator (fun E => s i E / totalOf g s E * densityOf g s E) E := by
    intro E hE
    by_cases ht : 0 < totalOf g s E
    · by_cases hA : E ∈ A
      · rw [chance_selects hc hi hA ht, Set.indicator_of_mem hA,
          ENNReal.toReal_ofReal (div_nonneg (hc.nonneg i E) ht.le)]
      · rw [Set.indicator_of_notMem hA]
        have : {w | (E, w) ∈ selects g s i A} = ∅ := by
          ext w; simp [selects, hA]
        rw [chance, this]
        simp
    · by_cases hA : E ∈ A
      · rw [Set.indicator_of_mem hA, densityOf_zero hc ht, mul_zero, mul_zero]
      · rw [Set.indicator_of_notMem hA, densityOf_zero hc ht, mul_zero]
  rw [setIntegral_congr_fun measurableSet_Icc hsel, setIntegral_indicator hA] at hS
  rw [← hS]
  refine measure_congr ?_
  filter_upwards [compl_mem_ae_iff.2 hN] with d hd
  refine propext ?_
  show (∃ E g', Gen.sampleReaction _ _ = _ ∧ _) ↔ ∃ r, _ ∧ _
  have hcfg : SameConfig ({ g with eng := stream d } : Gen (List ℝ)) g :=
    ⟨rfl, rfl, rfl, rfl, rfl, rfl, Or.inr rfl, rfl⟩
  have hpdf : Gen.ePdf ({ g with eng := stream d } : Gen (List ℝ)) = g.ePdf :=
    ePdf_congr hcfg rfl
  have hbound : Gen.bound (idealWorld n decay) ({ g with eng := stream d } : Gen (List ℝ))
      = some (.ok m) := by
    rw [← hb]; unfold Gen.bound; rw [hpdf]
  have hne : ¬ g.reactions.isEmpty := by
    rw [List.isEmpty_iff]; intro h; rw [h] at hi; simp at hi
  rw [sampleReaction_eq _ (g := { g with eng := stream d }) hs, hbound, hpdf]
  dsimp only
  rw [if_neg hne]
  have hd' : ∀ r, rejectLoop exact replay g.ePdf g.source.Emin g.source.Emax 1.01 n m (stream d)
      g.values = some (.ok r) → (r.x, (replay.draw r.gen).1) ∉ unlikely g s :=
    fun r h h' => hd ⟨r, h, h'⟩
  simp only [idealWorld]
  cases hl : rejectLoop exact replay g.ePdf g.source.Emin g.source.Emax 1.01 n m (stream d)
      g.values with
  | none => simp
  | some v =>
    cases v with
    | error _ => simp
    | ok r =>
      have hu := hd' r hl
      obtain ⟨v, hv, _⟩ := rejectLoop_last (ePdf_cached g) _ _ _ hs hl
      have hx : r.x ∈ Set.Icc g.source.Emin g.source.Emax := by
        by_contra h
        exact hu (Or.inl h)
      rw [ePdf_density hc hn hx hs] at hv
      have hst : r.st = (List.range g.reactions.length).map (s · r.x) := by
        injection hv with hv; injection hv with _ hv; exact hv.symm
      have key := pickFrom_selects (A := A) hc hi hu
      rw [← hst] at key
      simp only [Option.some.injEq, Except.ok.injEq, exists_eq_left']
      rw [← key]
      cases hk : pickFrom replay r.st r.gen with
      | error _ => simp
      | ok q =>
        obtain ⟨k, eng⟩ := q
        dsimp only
        constructor
        · rintro ⟨E, g', h, hA⟩
          split_ifs at h
          · simp only [Option.some.injEq, Except.ok.injEq, Prod.mk.injEq] at h
            obtain ⟨rfl, rfl, _⟩ := h
            exact ⟨hA, _, rfl⟩
          · simp at h
        · rintro ⟨hA, l', h⟩
          cases h
          rw [if_pos hi]
          exact ⟨_, _, rfl, hA⟩

/-- **C123**, energies weighted by the cross section (the default): within `n` trials
reaction `i` is chosen at an energy in `A` with the probability
`(1 - (1 - p)^n) * (∫_A φ s_i / ∫ φ ∑ s_j)`: the reacting energies follow the source
spectrum times the total cross section, and the reactions share it. -/
theorem C123_weighted {n : Nat} {decay : Event ℝ → List ℝ → Option (Res (Event ℝ × List ℝ))}
    {m : ℝ} (hw : g.weightFlux = true) (hs : g.values.length = g.reactions.length)
    (hc : CrossSections g s) (hE : g.source.Emin < g.source.Emax)
    (hp : Measurable g.source.pdf) (h0 : ∀ E, 0 ≤ g.source.pdf E) (hn : 0 < g.norm)
    (hb : g.bound (idealWorld n decay) = some (.ok m)) (hm : 0 < m)
    (hr : ∀ E ∈ Set.Icc g.source.Emin g.source.Emax,
      g.source.pdf E * totalOf g s E ≤ m * g.norm)
    (hpos : 0 < ∫ E in Set.Icc g.source.Emin g.source.Emax, g.source.pdf E * totalOf g s E)
    {i : Nat} (hi : i < g.reactions.length) {A : Set ℝ} (hA : MeasurableSet A) :
    iid n {d | ∃ E g', ({ g with eng := stream d } : Gen (List ℝ)).sampleReaction
        (idealWorld n decay) = some (.ok (i, E, g')) ∧ E ∈ A}
      = ENNReal.ofReal ((1 - (1 - (∫ E in Set.Icc g.source.Emin g.source.Emax,
            g.source.pdf E * totalOf g s E)
              / (m * g.norm * (g.source.Emax - g.source.Emin))) ^ n)
        * ((∫ E in Set.Icc g.source.Emin g.source.Emax ∩ A, g.source.pdf E * s i E)
          / ∫ E in Set.Icc g.source.Emin g.source.Emax, g.source.pdf E * totalOf g s E)) := by
  have hdens : ∀ E, densityOf g s E = g.source.pdf E * totalOf g s E / g.norm := by
    intro E
    rw [densityOf, if_pos hw, mul_comm]
  rw [sample_law hs hc hE hp hn.ne' hb hm (fun E hE => by
    rw [hdens]
    exact ⟨div_nonneg (mul_nonneg (h0 E) (total_nonneg hc E)) hn.le,
      (div_le_iff₀ hn).2 (hr E hE)⟩) hi hA]
  have hnum : ∀ E, s i E / totalOf g s E * densityOf g s E = g.source.pdf E * s i E / g.norm := by
    intro E
    rw [hdens]
    by_cases ht : 0 < totalOf g s E
    · field_simp
    · have hz : totalOf g s E = 0 := le_antisymm (not_lt.1 ht) (total_nonneg hc E)
      have hle : s i E ≤ totalOf g s E :=
        Finset.single_le_sum (f := fun j => s j E) (fun j _ => hc.nonneg j E)
          (Finset.mem_range.2 hi)
      have : s i E = 0 := le_antisymm (by rw [hz] at hle; exact hle) (hc.nonneg i E)
      simp [hz, this]
  have hbox : 0 < m * (g.source.Emax - g.source.Emin) := mul_pos hm (by linarith)
  have hg := geometric (p := share (densityOf g s) g.source.Emin g.source.Emax m) n
  have hsh : share (densityOf g s) g.source.Emin g.source.Emax m
      = (∫ E in Set.Icc g.source.Emin g.source.Emax, g.source.pdf E * totalOf g s E)
        / (m * g.norm * (g.source.Emax - g.source.Emin)) := by
    rw [share]
    simp only [hdens]
    rw [integral_div, div_div]
    congr 1
    ring
  rw [hsh] at hg ⊢
  rw [← hg]
  simp only [hnum]
  rw [integral_div]
  congr 1
  have hd : g.source.Emax - g.source.Emin ≠ 0 := by linarith
  field_simp

/-- **C123**, energies not weighted: the reacting energies follow the source spectrum
where some reaction is open, and at each energy the reactions are shared by their
cross sections. -/
theorem C123_unweighted {n : Nat} {decay : Event ℝ → List ℝ → Option (Res (Event ℝ × List ℝ))}
    {m : ℝ} (hw : g.weightFlux = false) (hs : g.values.length = g.reactions.length)
    (hc : CrossSections g s) (hE : g.source.Emin < g.source.Emax)
    (hp : Measurable g.source.pdf) (h0 : ∀ E, 0 ≤ g.source.pdf E) (hn : 0 < g.norm)
    (hb : g.bound (idealWorld n decay) = some (.ok m)) (hm : 0 < m)
    (hr : ∀ E ∈ Set.Icc g.source.Emin g.source.Emax, g.source.pdf E ≤ m * g.norm)
    (hpos : 0 < ∫ E in Set.Icc g.source.Emin g.source.Emax ∩ {E | 0 < totalOf g s E},
      g.source.pdf E)
    {i : Nat} (hi : i < g.reactions.length) {A : Set ℝ} (hA : MeasurableSet A) :
    iid n {d | ∃ E g', ({ g with eng := stream d } : Gen (List ℝ)).sampleReaction
        (idealWorld n decay) = some (.ok (i, E, g')) ∧ E ∈ A}
      = ENNReal.ofReal ((1 - (1 - (∫ E in Set.Icc g.source.Emin g.source.Emax ∩
            {E | 0 < totalOf g s E}, g.source.pdf E)
              / (m * g.norm * (g.source.Emax - g.source.Emin))) ^ n)
        * ((∫ E in Set.Icc g.source.Emin g.source.Emax ∩ A ∩ {E | 0 < totalOf g s E},
            g.source.pdf E * (s i E / totalOf g s E))
          / ∫ E in Set.Icc g.source.Emin g.source.Emax ∩ {E | 0 < totalOf g s E},
            g.source.pdf E)) := by
  have ht : Measurable (totalOf g s) := sums_measurable hc g.reactions.length
  have hT : MeasurableSet {E | 0 < totalOf g s E} := measurableSet_lt measurable_const ht
  have hdens : ∀ E, densityOf g s E
      = {E | 0 < totalOf g s E}.indicator (fun E => g.source.pdf E / g.norm) E := by
    intro E
    rw [densityOf, hw]
    by_cases h : 0 < totalOf g s E
    · rw [if_neg (by simp), if_neg (not_le.2 h), Set.indicator_of_mem (by exact h)]
    · rw [if_neg (by simp), if_pos (not_lt.1 h), Set.indicator_of_notMem (by exact h)]
  have hnum : ∀ E, s i E / totalOf g s E * densityOf g s E = {E | 0 < totalOf g s E}.indicator
      (fun E => g.source.pdf E * (s i E / totalOf g s E) / g.norm) E := by
    intro E
    rw [hdens]
    by_cases h : 0 < totalOf g s E
    · rw [Set.indicator_of_mem (by exact h), Set.indicator_of_mem (by exact h)]
      ring
    · rw [Set.indicator_of_notMem (by exact h), Set.indicator_of_notMem (by exact h), mul_zero]
  rw [sample_law hs hc hE hp hn.ne' hb hm (fun E hE => by
    rw [hdens]
    by_cases h : 0 < totalOf g s E
    · rw [Set.indicator_of_mem (by exact h)]
      exact ⟨div_nonneg (h0 E) hn.le, (div_le_iff₀ hn).2 (hr E hE)⟩
    · rw [Set.indicator_of_notMem (by exact h)]
      exact ⟨le_refl 0, hm.le⟩) hi hA]
  have hbox : 0 < m * (g.source.Emax - g.source.Emin) := mul_pos hm (by linarith)
  have hg := geometric (p := share (densityOf g s) g.source.Emin g.source.Emax m) n
  have hsh : share (densityOf g s) g.source.Emin g.source.Emax m
      = (∫ E in Set.Icc g.source.Emin g.source.Emax ∩ {E | 0 < totalOf g s E}, g.source.pdf E)
        / (m * g.norm * (g.source.Emax - g.source.Emin)) := by
    rw [share]
    simp only [hdens]
    rw [setIntegral_indicator hT, integral_div, div_div]
    congr 1
    ring
  rw [hsh] at hg ⊢
  rw [← hg]
  simp only [hnum]
  rw [setIntegral_indicator hT, integral_div]
  congr 1
  have hd : g.source.Emax - g.source.Emin ≠ 0 := by linarith
  field_simp

end

/-! ## A case -/

/-- A generator for two reactions, whose cross sections are the energy and 2, and for a
flat source from 0 to 1. -/
noncomputable def twoGen (weight : Bool) : Gen (List ℝ) :=
  { demoGen [] 3 3 0 with
    reactions := [{ demoRx 1 with totalXs := fun _ E => .ok |E| }, demoRx 2]
    values := [0, 0]
    weightFlux := weight }

/-- Its cross sections. -/
noncomputable def twoXs (j : Nat) (E : ℝ) : ℝ := if j = 0 then |E| else 2

theorem two_sections (b : Bool) : CrossSections (twoGen b) twoXs where
  value E _ j r hj := by
    have hshare : ∀ a, (twoGen b).share a = 1 := fun _ => rfl
    match j, hj with
    | 0, hj => cases hj; exact ⟨|E|, rfl, by rw [hshare]; simp [twoXs]⟩
    | 1, hj => cases hj; exact ⟨2, rfl, by rw [hshare]; simp [twoXs]⟩
    | _ + 2, hj => simp [twoGen] at hj
  nonneg j E := by unfold twoXs; split_ifs <;> positivity
  measurable j := by
    unfold twoXs
    split_ifs
    · exact continuous_abs.measurable
    · exact measurable_const

theorem two_total (b : Bool) {E : ℝ} (h : 0 ≤ E) : totalOf (twoGen b) twoXs E = E + 2 := by
  simp [totalOf, twoGen, twoXs, Finset.sum_range_succ, abs_of_nonneg h]

theorem two_integral : ∫ E in Set.Icc (0 : ℝ) 1, (E + 2) = 5 / 2 := by
  rw [integral_Icc_eq_integral_Ioc, ← intervalIntegral.integral_of_le zero_le_one,
    intervalIntegral.integral_add (by simp) (by simp), integral_id]
  norm_num

/-- In the long run one event in five comes from the first reaction; one trial gives
an event with the probability 5/6. -/
example : iid 1 {d | ∃ E g', ({ twoGen true with eng := stream d } : Gen (List ℝ)).sampleReaction
    (idealWorld 1 fun _ _ => none) = some (.ok (0, E, g')) ∧ E ∈ Set.univ}
      = ENNReal.ofReal (5 / 6 * (1 / 5)) := by
  have hint : ∫ E in Set.Icc (0 : ℝ) 1, 1 * totalOf (twoGen true) twoXs E = 5 / 2 := by
    rw [← two_integral]
    exact setIntegral_congr_fun measurableSet_Icc fun E hE => by
      rw [one_mul, two_total true hE.1]
  have hnum : ∫ E in Set.Icc (0 : ℝ) 1 ∩ Set.univ, 1 * twoXs 0 E = 1 / 2 := by
    rw [Set.inter_univ, ← ramp_integral]
    exact setIntegral_congr_fun measurableSet_Icc fun E hE => by
      simp [twoXs, abs_of_nonneg hE.1]
  have h := C123_weighted (g := twoGen true) (s := twoXs) (n := 1) (decay := fun _ _ => none)
    (m := 3) rfl rfl (two_sections true) (by norm_num [twoGen, demoGen, demoSource])
    measurable_const (fun _ => by norm_num [twoGen, demoGen, demoSource])
    (by norm_num [twoGen, demoGen]) rfl (by norm_num)
    (fun E hE => by
      rw [two_total true hE.1]
      have : E ≤ 1 := hE.2
      norm_num [twoGen, demoGen, demoSource]
      linarith)
    (lt_of_lt_of_eq (by norm_num) hint.symm) (i := 0) (by simp [twoGen]) MeasurableSet.univ
  rw [h]
  have e1 : ∫ E in Set.Icc (twoGen true).source.Emin (twoGen true).source.Emax,
      (twoGen true).source.pdf E * totalOf (twoGen true) twoXs E = 5 / 2 := hint
  have e2 : ∫ E in Set.Icc (twoGen true).source.Emin (twoGen true).source.Emax ∩ Set.univ,
      (twoGen true).source.pdf E * twoXs 0 E = 1 / 2 := hnum
  rw [e1, e2]
  congr 1
  norm_num [twoGen, demoGen, demoSource]

/-- Without weighting the same generator meets the hypotheses of `C123_unweighted`. -/
example : (twoGen false).weightFlux = false ∧
    (twoGen false).values.length = (twoGen false).reactions.length ∧
    CrossSections (twoGen false) twoXs ∧
    (twoGen false).source.Emin < (twoGen false).source.Emax ∧ 0 < (twoGen false).norm ∧
    (twoGen false).bound (idealWorld 1 fun _ _ => none) = some (.ok 3) ∧
    (∀ E ∈ Set.Icc (twoGen false).source.Emin (twoGen false).source.Emax,
      (twoGen false).source.pdf E ≤ 3 * (twoGen false).norm) ∧
    0 < ∫ E in Set.Icc (twoGen false).source.Emin (twoGen false).source.Emax ∩
      {E | 0 < totalOf (twoGen false) twoXs E}, (twoGen false).source.pdf E := by
  refine ⟨rfl, rfl, two_sections false, by norm_num [twoGen, demoGen, demoSource],
    by norm_num [twoGen, demoGen], rfl, fun E _ => by norm_num [twoGen, demoGen, demoSource], ?_⟩
  have hset : Set.Icc (twoGen false).source.Emin (twoGen false).source.Emax ∩
      {E | 0 < totalOf (twoGen false) twoXs E} = Set.Icc 0 1 := by
    refine Set.inter_eq_left.2 fun E hE => ?_
    have h : (0 : ℝ) ≤ E := hE.1
    show 0 < totalOf (twoGen false) twoXs E
    rw [two_total false h]
    linarith
  rw [hset]
  show 0 < ∫ E in Set.Icc (0 : ℝ) 1, (1 : ℝ)
  simp

end Marley.Props
