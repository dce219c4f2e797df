import Verif.Lemmas.ContinuumEnds
import Verif.Props.EventEnds
import Verif.Props.ExitChannel
import Verif.Props.Quadrature

/-!
# C134: the decays of compound nuclei end with probability one

`Orderly` is in `Verif/Spec/ContinuumEnds.lean`, `Ends` and `Often` in `Verif/Spec/Ends.lean`.  The
arithmetic is exact.
-/

set_option autoImplicit false

namespace Marley.Props
open Marley Marley.Sampling Marley.Gen Marley.Xs MeasureTheory

theorem finish_ends {G : Type} (A : Arith) (E : Engine G) {D : Decay.Data} (hD : Decay.Orderly D)
    (started : Bool) (Ex : ℝ) (ev : Event ℝ) (g : G) :
    ∃ N r, ∀ n, N ≤ n → Decay.finishGammas A E n D started Ex ev g = some r := by
  unfold Decay.finishGammas
  cases ev.final[1]? with
  | none => exact ⟨0, _, fun _ _ => rfl⟩
  | some residue =>
  dsimp only
  cases hs : D.scheme residue.pdg with
  | error e => exact ⟨0, _, fun _ _ => rfl⟩
  | ok ds =>
  cases ds with
  | none => exact ⟨0, _, fun _ _ => rfl⟩
  | some s =>
  obtain ⟨ha, hd⟩ := hD.schemes _ s hs
  dsimp only
  cases Scheme.closestLevel s Ex with
  | error e => exact ⟨0, _, fun _ _ => rfl⟩
  | ok v =>
  cases v with
  | none => exact ⟨0, _, fun _ _ => rfl⟩
  | some a =>
  dsimp only
  cases hl : Scheme.levelAt s a with
  | none => exact ⟨0, _, fun _ _ => rfl⟩
  | some lev =>
  dsimp only
  split_ifs
  · exact ⟨0, _, fun _ _ => rfl⟩
  · have hmem : (a, lev) ∈ s.levels := by
      simp only [Scheme.levelAt, Option.map_eq_some_iff] at hl
      obtain ⟨x, h1, h2⟩ := hl
      have h3 := List.find?_some h1
      have h4 := List.mem_of_find?_eq_some h1
      simp only [decide_eq_true_eq] at h3
      rw [← h3, ← h2]
      exact h4
    obtain ⟨r, hr⟩ := cascade_ends A E D ha hd residue.charge _ a lev hmem le_rfl ev g
    exact ⟨_, r, hr⟩

/-- **C134**, de-excitation: with numbers that come often everywhere, the cascade of fragments and
gamma rays of any excited nucleus ends, whatever its energy is. -/
theorem C134_decays {G : Type} {E : Engine G} {g : G} {D : Decay.Data} (hD : Decay.Orderly D)
    (ev : Event ℝ) (ho : Often E g) : Ends fun n => Decay.decayer exact E n D ev g := by
  suffices h : ∃ N r, ∀ n, N ≤ n → Decay.process exact E n D ev g = some r by
    obtain ⟨N, r, hr⟩ := h
    exact ⟨N, r.2.map (r.1, ·), fun n hn => by simp only [Decay.decayer, hr n hn, Option.map_some]⟩
  have hdx : ∀ residue, ev.final[1]? = some residue →
      ∃ N r, ∀ n, N ≤ n → Decay.deexcite exact E n D residue.pdg ev g = some r := by
    intro residue hres
    unfold Decay.deexcite
    cases D.scheme residue.pdg with
    | error e => exact ⟨0, _, fun _ _ => rfl⟩
    | ok ds =>
    dsimp only
    cases Mass.unboundThresholdPid D.mass (D.frags.map (·.pid)) residue.pdg with
    | error e => exact ⟨0, _, fun _ _ => rfl⟩
    | ok t =>
    dsimp only
    obtain ⟨N, r, hN⟩ := Decay.loop_ends hD _ (decide (ev.Ex > t) || ds.isNone) ev.Ex ev.twoJ ev.parity ev
      residue g hres rfl ho
    obtain ⟨ev', r⟩ := r
    cases r with
    | error e => exact ⟨N, (ev', .error e), fun n hn => by rw [hN n n hn hn]⟩
    | ok r =>
    obtain ⟨⟨c, Ex⟩, g'⟩ := r
    obtain ⟨N', r', hN'⟩ := finish_ends exact E hD (decide (ev.Ex > t) || ds.isNone) Ex ev' g'
    refine ⟨max N N', if c = false then r' else (ev', .ok g'), fun n hn => ?_⟩
    have h1 := le_of_max_le_left hn
    rw [hN n n h1 h1]
    dsimp only
    split_ifs
    · exact hN' n (le_of_max_le_right hn)
    · rfl
  unfold Decay.process
  split_ifs
  · exact ⟨0, _, fun _ _ => rfl⟩
  · exact ⟨0, _, fun _ _ => rfl⟩
  cases hres : ev.final[1]? with
  | none => exact ⟨0, _, fun _ _ => rfl⟩
  | some residue =>
  dsimp only
  split_ifs
  · exact ⟨0, _, fun _ _ => rfl⟩
  cases Mass.atomicMassPid D.mass residue.pdg true with
  | error e => exact ⟨0, _, fun _ _ => rfl⟩
  | ok mAtom =>
  cases mAtom with
  | none => exact ⟨0, _, fun _ _ => rfl⟩
  | some mAtom =>
  dsimp only
  cases Mass.particleMass D.mass Mass.ELECTRON with
  | error e => exact ⟨0, _, fun _ _ => rfl⟩
  | ok me =>
  dsimp only
  split_ifs
  · exact ⟨0, _, fun _ _ => rfl⟩
  · exact ⟨0, _, fun _ _ => rfl⟩
  · exact hdx residue hres

/-- **C134**, the reactions and the decayer of MARLEY, also above the threshold for the emission of
fragments: with an ideal engine, runs end with probability one.  Missing: rounding. -/
theorem C134_compound_partial {Ω : Type} [MeasurableSpace Ω] {μ : Measure Ω} {E : Engine Ω} {F : Family}
    {s : Nat → ℝ → ℝ} (hI : Ideal E μ) (h : Workable F s) {B : Env Unit} (hB : B.arith = exact)
    {D : Decay.Data} (hD : Decay.Orderly D) (h0 : 0 ≤ F.base.source.Emin)
    (hr : ∀ r ∈ F.rx, (∃ n, r = nuclearLoops B n) ∨ ∃ x, r = electronLoops B x ∧ ElectronGood x)
    (hd : F.dec = fun n ev _ E g => Decay.decayer exact E n D ev g) :
    ∀ᵐ ω ∂μ, ∀ k, Ends fun n => (((F.plan n).gen E ω).createEvents ((F.plan n).world E) k).map
      (Except.map fun x => (x.1, x.2.eng)) := by
  have hfin : ∀ r ∈ F.rx, ∀ n pdg e, Determined (r.create n pdg e) := by
    intro r hr' n pdg e
    rcases hr r hr' with ⟨x, rfl⟩ | ⟨x, rfl, -⟩
    · exact C133_nuclear (fueled B n) x pdg e
    · exact C133_electron (fueled B n) x pdg e
  refine C134_ends_partial hI h ⟨fun n => ⟨fun r hr' pdg e => ?_, fun ev => ?_⟩,
    fun r hr' e he g ho => ?_, fun hde r hr' e he g ho n ev g' hcr => ?_⟩
  · obtain ⟨r, hm, rfl⟩ := List.mem_map.1 hr'
    exact hfin r hm n pdg e
  · rw [show (F.plan n).decay = F.dec n from rfl, hd]
    exact C133_decays exact n D ev
  · rcases hr r hr' with ⟨x, rfl⟩ | ⟨x, rfl, hx⟩
    · exact C134_nuclear hB x _ e ho
    · exact C134_electron hB hx _ (h0.trans he.1) ho
  · rw [hd]
    obtain ⟨k, rfl⟩ := determined_after (hfin r hr' n _ e) hcr
    exact C134_decays hD ev (ho.after k)

/-! ### Examples -/

/-- Masses in units, for up to 300 nucleons. -/
noncomputable def someMasses : Mass.Table :=
  ⟨fun id => if id = 2112 ∨ id = 2212 then some 1 else if id = 11 then some 0 else none,
    fun pid => if 0 < Pdg.getA pid ∧ Pdg.getA pid ≤ 300 then some (Pdg.getA pid) else none⟩

theorem some_masses (Z A : Int) (h1 : -9 ≤ A) (h2 : A ≤ 0) :
    someMasses.atomic (Pdg.nucleusPid Z A) = none := by
  have : ¬ (0 < Pdg.getA (Pdg.nucleusPid Z A) ∧ Pdg.getA (Pdg.nucleusPid Z A) ≤ 300) := by
    simp only [Pdg.nucleusPid, Pdg.getA, Pdg.PROTON, Pdg.NEUTRON]
    split_ifs <;> first
      | omega
      | (rw [Int.tmod_eq_emod_of_nonneg (by omega), Int.tdiv_eq_ediv_of_nonneg (by omega)]; omega)
  simp only [someMasses, if_neg this]

/-- Nuclei without known levels that give off neutrons and protons. -/
noncomputable def looseData : Decay.Data := { unitData with mass := someMasses }

/-- They are orderly: above the cutoff the energy is never barely above 0. -/
theorem loose_orderly : Decay.Orderly looseData where
  schemes := fun pdg s h => by cases h
  fragments := fun f hf => by
    simp only [looseData, unitData, List.mem_cons, List.not_mem_nil, or_false] at hf
    rcases hf with rfl | rfl <;> decide
  masses := some_masses
  shares := fun pdg ds h => by
    cases h
    refine ⟨1, one_pos, fun nucleus Ex twoJ P s _ h1 _ h2 => ?_⟩
    simp only [Decay.contMin] at h2
    unfold Decay.cutoff at h1
    norm_num at h1 h2
    linarith

/-- A nucleus of 40 nucleons with 10 MeV. -/
example : ∀ᵐ ω ∂coins, Ends fun n => Decay.decayer exact reader n looseData
    ⟨[], [⟨11, 1, 0, 0, 0, 1, -1⟩, ⟨1000190400, 40 * Mass.microAmu + 10, 0, 0, 0,
      40 * Mass.microAmu + 10, 0⟩], 10, 2, ⟨true⟩⟩ ω := by
  filter_upwards [often_ae coin_ideal] with ω ho
  exact C134_decays loose_orderly _ ho

/-- Two levels. -/
def pairScheme : Scheme.Scheme ℝ := ⟨19, 40, [(0, ⟨0, 2, ⟨true⟩, []⟩), (1, ⟨1, 2, ⟨true⟩, [⟨1, 1, some 0⟩]⟩)], 2⟩

/-- Nuclei with these levels and a continuum above. -/
noncomputable def topData : Decay.Data :=
  { looseData with frags := [], scheme := fun _ => .ok (some pairScheme), gamLMax := 1 }

theorem upTo_spins (J : Int) : (Decay.upTo 1 |J - 2 * 1| (J + 2 * 1)).length ≤ 3 := by
  by_cases h : 2 ≤ J
  · rw [abs_of_nonneg (by omega), Decay.upTo_pos (by omega), Decay.upTo_pos (by push_cast; omega),
      Decay.upTo_pos (by push_cast; omega), Decay.upTo_neg (by push_cast; omega)]
    simp
  · rw [abs_of_neg (by omega)]
    by_cases h0 : 0 ≤ J
    · rw [Decay.upTo_pos (by omega)]
      by_cases h1 : J = 1
      · rw [Decay.upTo_pos (by push_cast; omega), Decay.upTo_neg (by push_cast; omega)]
        simp
      · rw [Decay.upTo_neg (by push_cast; omega)]
        simp
    · rw [Decay.upTo_neg (by omega)]
      simp

theorem upTo_empty {J : Int} (h : J < 0) : Decay.upTo 1 |J - 2 * 1| (J + 2 * 1) = [] := by
  rw [abs_of_neg (by omega), Decay.upTo_neg (by omega)]

/-- How many final states a gamma ray can lead to. -/
theorem top_states (J : Int) : (Decay.radStates J 1 1).length
    = 2 * (Decay.upTo 1 |J - 2 * 1| (J + 2 * 1)).length := by
  unfold Decay.radStates
  rw [Decay.upTo_pos le_rfl, Decay.upTo_neg (by norm_num)]
  simp only [List.flatMap_cons, List.flatMap_nil, List.append_nil, List.length_map, List.length_flatMap,
    List.length_cons, List.length_nil, List.map_const', List.sum_replicate, smul_eq_mul]
  ring

theorem top_cont {c : Decay.Parent} (h : 1 ≤ c.Ex) :
    Decay.contWidth topData c (.gamCont 1)
      = .ok (c.norm * (Decay.radStates c.twoJ 1 1).length * (c.Ex - 1)) := by
  have hd : ∀ x, 1 ≤ x → x ≤ c.Ex → ((Decay.Kind.gamCont 1).diff topData c x).map (fun a => (a.1, ()))
      = .ok (c.norm * (Decay.radStates c.twoJ 1 1).length, ()) := by
    intro x h1 h2
    have ht : (0 : ℝ) < Decay.tiny := by unfold Decay.tiny; norm_num
    simp only [Decay.Kind.diff, Decay.gamDiff]
    rw [if_neg (by linarith), if_neg (by rintro (h | h) <;> linarith), Decay.glLoop_eq]
    simp [topData, looseData, unitData, Except.map]
    ring
  unfold Decay.contWidth
  simp only [Decay.Kind.bounds]
  rw [if_neg (by linarith), C80_inside _ (fun _ s => .ok (c.norm * (Decay.radStates c.twoJ 1 1).length, s)) h
    (fun x h1 h2 => by funext u; exact hd x h1 h2)]
  have := Gen.quad_const (N := 50) (by norm_num) 1 c.Ex (c.norm * (Decay.radStates c.twoJ 1 1).length)
  unfold Gen.quad at this
  unfold Gen.numIntegrate
  rw [Gen.weightedSum_pure (fun _ => c.norm * (Decay.radStates c.twoJ 1 1).length), this, zero_add]

theorem top_level {c : Decay.Parent} (hn : 0 ≤ c.norm) (hE : 1 < c.Ex) {e : ℝ} (he : e ≤ 1)
    (gs : List (Scheme.Gamma ℝ)) : 0 ≤ Decay.gamDiscreteWidth topData c ⟨e, 2, ⟨true⟩, gs⟩ ∧
      (0 ≤ c.twoJ → c.norm ≤ Decay.gamDiscreteWidth topData c ⟨e, 2, ⟨true⟩, gs⟩) := by
  have h0 : ∀ l : List Int, 0 ≤ (l.map fun _ : Int => c.norm * 1).sum := by
    intro l
    refine List.sum_nonneg fun x hx => ?_
    obtain ⟨_, _, rfl⟩ := List.mem_map.1 hx
    simpa using hn
  unfold Decay.gamDiscreteWidth
  rw [if_neg (by simp only; linarith), Decay.mpolLoop_eq, zero_add]
  refine ⟨h0 _, fun hJ => ?_⟩
  rw [Decay.upTo_pos (by
    simp only
    rw [Int.tdiv_eq_ediv_of_nonneg (abs_nonneg _), Int.tdiv_eq_ediv_of_nonneg (by omega)]
    rcases abs_cases (c.twoJ - 2) with ⟨h, _⟩ | ⟨h, _⟩ <;> rw [h] <;> omega), List.map_cons, List.sum_cons]
  have := h0 (Decay.upTo 0 (max 1 (|c.twoJ - 2|.tdiv 2) + ((0 : Nat) + 1)) ((c.twoJ + 2).tdiv 2))
  have e1 : c.norm * topData.strength c.pdg (Decay.transitionType c.P (max 1 (|c.twoJ - 2|.tdiv 2)) ⟨true⟩)
      (max 1 (|c.twoJ - 2|.tdiv 2)) (Decay.gammaEnergy c e) = c.norm := mul_one _
  rw [e1]
  exact le_add_of_nonneg_right this

/-- They are orderly: barely above the highest level the known levels have most of the width. -/
theorem top_orderly : Decay.Orderly topData where
  schemes := fun pdg s h => by
    cases h
    refine ⟨by simp [pairScheme], fun l hl x hx => ?_⟩
    simp only [pairScheme, List.mem_cons, List.not_mem_nil, or_false] at hl
    rcases hl with rfl | rfl
    · simp at hx
    · simp only [List.mem_singleton] at hx
      subst hx
      exact ⟨(0, ⟨0, 2, ⟨true⟩, []⟩), by simp [pairScheme], rfl, by norm_num⟩
  fragments := fun f hf => by simp [topData] at hf
  masses := some_masses
  shares := fun pdg ds h => by
    cases h
    refine ⟨1 / 2, by norm_num, fun nucleus Ex J P s _ _ h2 h3 h4 => ?_⟩
    have hc : Decay.contMin (some pairScheme) = 1 := by simp [Decay.contMin, pairScheme]
    rw [hc] at h2 h3
    have h4 := build_ok h4
    have hn : (0 : ℝ) < (Decay.parent topData nucleus Ex J P).norm := by
      simp only [Decay.parent, Decay.initialDensity, topData, looseData, unitData]
      have := Real.pi_pos
      positivity
    have hEx : (Decay.parent topData nucleus Ex J P).Ex = Ex := rfl
    have hJ : (Decay.parent topData nucleus Ex J P).twoJ = J := rfl
    generalize Decay.parent topData nucleus Ex J P = c at *
    have hw := top_cont (c := c) (by rw [hEx]; exact h2.le)
    have w0 := top_level (c := c) hn.le (by rw [hEx]; exact h2) (e := 0) zero_le_one []
    have w1 := top_level (c := c) hn.le (by rw [hEx]; exact h2) (e := 1) le_rfl [⟨1, 1, some 0⟩]
    have hlist : s = ((0 : ℝ) + Decay.gamDiscreteWidth topData c ⟨0, 2, ⟨true⟩, []⟩
          + Decay.gamDiscreteWidth topData c ⟨1, 2, ⟨true⟩, [⟨1, 1, some 0⟩]⟩
          + c.norm * (Decay.radStates c.twoJ 1 1).length * (c.Ex - 1),
        [⟨.gamLevel ⟨0, 2, ⟨true⟩, []⟩, Decay.gamDiscreteWidth topData c ⟨0, 2, ⟨true⟩, []⟩⟩,
          ⟨.gamLevel ⟨1, 2, ⟨true⟩, [⟨1, 1, some 0⟩]⟩,
            Decay.gamDiscreteWidth topData c ⟨1, 2, ⟨true⟩, [⟨1, 1, some 0⟩]⟩⟩,
          ⟨.gamCont 1, c.norm * (Decay.radStates c.twoJ 1 1).length * (c.Ex - 1)⟩]) := by
      unfold Decay.channels at h4
      rw [show topData.frags = [] from rfl] at h4
      simp only [Decay.fragmentLoop, Decay.addGammas, show topData.scheme c.pdg = .ok (some pairScheme) from rfl,
        Decay.addChannels, hc, hEx] at h4
      have hl : pairScheme.levels = [(0, ⟨0, 2, ⟨true⟩, []⟩), (1, ⟨1, 2, ⟨true⟩, [⟨1, 1, some 0⟩]⟩)] := rfl
      rw [hl] at h4
      simp only [Decay.levelLoop, if_pos h2, if_pos (show (0 : ℝ) < Ex by linarith), hw,
        Decay.Channels.push, Except.ok.injEq] at h4
      exact h4.symm
    have hK : (Decay.radStates c.twoJ 1 1).length * (c.Ex - 1) ≤ (6 : ℝ) * 1e-12 := by
      have h6 : ((Decay.radStates c.twoJ 1 1).length : ℝ) ≤ 6 := by
        have := upTo_spins c.twoJ
        rw [top_states]
        exact_mod_cast (by omega : 2 * (Decay.upTo 1 |c.twoJ - 2 * 1| (c.twoJ + 2 * 1)).length ≤ 6)
      rw [hEx]
      exact mul_le_mul h6 (by linarith) (by linarith) (by norm_num)
    have hle : c.norm * (Decay.radStates c.twoJ 1 1).length * (c.Ex - 1)
        ≤ Decay.gamDiscreteWidth topData c ⟨0, 2, ⟨true⟩, []⟩ := by
      by_cases hJ0 : 0 ≤ c.twoJ
      · refine le_trans ?_ (w0.2 hJ0)
        rw [mul_assoc]
        exact mul_le_of_le_one_right hn.le (hK.trans (by norm_num))
      · rw [top_states, upTo_empty (by omega)]
        simpa using w0.1
    rw [hlist]
    simp only [Decay.otherWidth, List.filter, Decay.Kind.other, List.map_cons, List.map_nil, List.sum_cons,
      List.sum_nil]
    linarith [w0.1, w1.1]

/-- A nucleus of 40 nucleons with 10 MeV and these levels. -/
example : ∀ᵐ ω ∂coins, Ends fun n => Decay.decayer exact reader n topData
    ⟨[], [⟨11, 1, 0, 0, 0, 1, -1⟩, ⟨1000190400, 40 * Mass.microAmu + 10, 0, 0, 0,
      40 * Mass.microAmu + 10, 0⟩], 10, 2, ⟨true⟩⟩ ω := by
  filter_upwards [often_ae coin_ideal] with ω ho
  exact C134_decays top_orderly _ ho

/-- The generator of `endsFamily` with compound nuclei. -/
noncomputable def compoundFamily (B : Env Unit) (r : Nuc) : Family :=
  { endsFamily B r with dec := fun n ev _ E g => Decay.decayer exact E n looseData ev g }

/-- It meets the hypotheses of `C134_compound_partial`, wherever its nuclear reaction leads. -/
example {B : Env Unit} (hB : B.arith = exact) {r : Nuc} (hr : r.pdgA ≠ 12) :
    ∀ᵐ ω ∂coins, ∀ k, Ends fun n => ((((compoundFamily B r).plan n).gen reader ω).createEvents
      (((compoundFamily B r).plan n).world reader) k).map (Except.map fun x => (x.1, x.2.eng)) := by
  have hw := ends_workable B hr
  refine C134_compound_partial (s := endsXs) coin_ideal
    ⟨hw.arith, hw.cached, ⟨hw.sections.value, hw.sections.nonneg, hw.sections.measurable⟩, hw.norm,
      hw.bounded, hw.somewhere⟩ hB loose_orderly le_rfl (fun x hx => ?_) rfl
  simp only [compoundFamily, endsFamily, List.mem_cons, List.not_mem_nil, or_false] at hx
  rcases hx with rfl | rfl
  · exact Or.inr ⟨_, rfl, unit_good⟩
  · exact Or.inl ⟨r, rfl⟩

end Marley.Props
