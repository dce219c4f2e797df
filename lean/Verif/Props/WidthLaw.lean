import Verif.Lemmas.PickLaw
import Verif.Props.HauserFeshbach

/-!
# C129: compound nuclei decay in proportion to the widths
-/

set_option autoImplicit false

namespace Marley.Decay
open Marley

/-- The energy of the level at which a channel ends, nothing for the continuum
(include/marley/ExitChannel.hh:160-171, 258-265). -/
def Kind.landing : Kind → Option ℝ
  | .fragLevel _ lev | .gamLevel lev => some lev.energy
  | .fragCont _ _ | .gamCont _ => none

end Marley.Decay

namespace Marley.Props
open Marley Marley.Decay Marley.Sampling MeasureTheory
open Marley.Scheme (Scheme Level)
open Marley.Structure (Fragment)
open Marley.Kin (OnShell)

/-- What shows of the channel after the decay. -/
theorem decay_shows {G : Type} {A : Arith} {E : Engine G} {fuel : Nat} {D : Data} {c : Parent}
    {nucleus : Particle ℝ} {k : Kind} {g g' : G} {p : Product}
    (h : k.decay A E fuel D c nucleus g = some (.ok (p, g'))) :
    p.emitted.pdg = k.emitted ∧
      (if k.continuum then none else some p.Ex) = k.landing := by
  have level : ∀ lev, levelDecay A E D c k nucleus lev g = .ok (p, g') →
      p.emitted.pdg = k.emitted ∧ p.Ex = lev.energy := by
    intro lev h
    unfold levelDecay at h
    cases h1 : prepareProducts A E D c k nucleus lev.energy g with
    | error e => rw [h1] at h; simp at h
    | ok x =>
      rw [h1] at h
      simp only [Except.ok.injEq, Prod.mk.injEq] at h
      obtain ⟨rfl, -⟩ := h
      obtain ⟨x, g1⟩ := x
      exact ⟨(products_ok h1).emitted, rfl⟩
  have cont : contDecay A E fuel D c k nucleus g = some (.ok (p, g')) →
      p.emitted.pdg = k.emitted := by
    intro h
    unfold contDecay at h
    cases h1 : sampleExf A E fuel D c k g with
    | none => rw [h1] at h; simp at h
    | some r =>
      rw [h1] at h
      cases r with
      | error e => simp at h
      | ok y =>
        obtain ⟨Exf, g1⟩ := y
        dsimp only at h
        cases h2 : sampleSpinParity E D c k Exf g1 with
        | error e => rw [h2] at h; simp at h
        | ok jp =>
          rw [h2] at h
          dsimp only at h
          cases h3 : prepareProducts A E D c k nucleus Exf jp.2 with
          | error e => rw [h3] at h; simp at h
          | ok x =>
            rw [h3] at h
            simp only [Option.some.injEq, Except.ok.injEq, Prod.mk.injEq] at h
            obtain ⟨rfl, -⟩ := h
            obtain ⟨x, g2⟩ := x
            exact (products_ok h3).emitted
  unfold Kind.decay at h
  cases k with
  | fragLevel f lev =>
    simp only [Option.some.injEq] at h
    obtain ⟨a1, a2⟩ := level lev h
    exact ⟨a1, by simp [Kind.continuum, Kind.landing, a2]⟩
  | gamLevel lev =>
    simp only [Option.some.injEq] at h
    obtain ⟨a1, a2⟩ := level lev h
    exact ⟨a1, by simp [Kind.continuum, Kind.landing, a2]⟩
  | fragCont f Emin => exact ⟨cont h, by simp [Kind.continuum, Kind.landing]⟩
  | gamCont Emin => exact ⟨cont h, by simp [Kind.continuum, Kind.landing]⟩

theorem sampleExit_iff {G : Type} {E : Engine G} {s : Channels} (h : 0 < s.1) {g g' : G} {x : Exit} :
    sampleExit E s g = .ok (x, g') ↔
      ∃ i, pickFrom E (s.2.map (·.width)) g = .ok (i, g') ∧ s.2[i]? = some x := by
  unfold sampleExit
  rw [if_neg (not_le.2 h)]
  cases h1 : pickFrom E (s.2.map (·.width)) g with
  | error e => simp
  | ok y =>
    obtain ⟨i, g1⟩ := y
    dsimp only
    cases h2 : s.2[i]? with
    | none =>
      simp only [reduceCtorEq, Except.ok.injEq, Prod.mk.injEq, false_iff]
      rintro ⟨j, ⟨rfl, rfl⟩, h3⟩
      rw [h2] at h3
      cases h3
    | some z =>
      simp only [Except.ok.injEq, Prod.mk.injEq]
      constructor
      · rintro ⟨rfl, rfl⟩
        exact ⟨i, ⟨rfl, rfl⟩, h2⟩
      · rintro ⟨j, ⟨rfl, rfl⟩, h3⟩
        rw [h2] at h3
        cases h3
        exact ⟨rfl, rfl⟩

/-- C129: the probability that a channel with a given property is sampled is the sum of the widths
of such channels, divided by the sum of all widths. -/
theorem C129_channel {D : Data} {nucleus : Particle ℝ} {Ex : ℝ} {twoJ : Int} {P : Parity}
    {s : Channels} (hb : build D nucleus Ex twoJ P = .ok s) (hw : ∀ x ∈ s.2, 0 ≤ x.width)
    (hs : 0 < (s.2.map (·.width)).sum) (q : Kind → Bool) (rest : List ℝ) :
    unit {u | ∃ x g, sampleExit replay s (u :: rest) = .ok (x, g) ∧ q x.kind = true}
      = ENNReal.ofReal (((s.2.filter fun x => q x.kind).map (·.width)).sum /
        (s.2.map (·.width)).sum) := by
  have h1 : 0 < s.1 := by rw [(build_total hb).1]; exact hs
  rw [← pickFrom_where s.2 hw hs (fun x => q x.kind) rest]
  congr 1
  ext u
  simp only [Set.mem_ofPred_eq, sampleExit_iff h1]
  constructor
  · rintro ⟨x, g, ⟨i, a, b⟩, c⟩
    exact ⟨i, x, g, a, b, c⟩
  · rintro ⟨i, x, g, a, b, c⟩
    exact ⟨x, g, ⟨i, a, b⟩, c⟩

theorem pickFrom_rest {w : List ℝ} {u : ℝ} {rest g : List ℝ} {i : Nat}
    (h : pickFrom replay w (u :: rest) = .ok (i, g)) : g = u :: rest ∨ g = rest := by
  unfold pickFrom at h
  by_cases hl : w.length < 2
  · rw [if_pos hl] at h
    simp only [Except.ok.injEq, Prod.mk.injEq] at h
    exact Or.inl h.2.symm
  · rw [if_neg hl] at h
    simp only [replay, List.headD_cons, List.tail_cons] at h
    cases hp : pick w u with
    | error e => rw [hp] at h; simp at h
    | ok j =>
      rw [hp] at h
      simp only [Except.ok.injEq, Prod.mk.injEq] at h
      exact Or.inr h.2.symm

/-- C129 for the decay as a whole: the particle that is emitted and the level that is reached (or
the continuum) have a given property with the probability that is the sum of the widths of such
channels, divided by the sum of all widths, whatever numbers are drawn later, as long as these
channels can decay at all. -/
theorem C129_decay {fuel : Nat} {D : Data} {nucleus : Particle ℝ} {Ex : ℝ} {twoJ : Int} {P : Parity}
    {s : Channels} (hb : build D nucleus Ex twoJ P = .ok s) (hw : ∀ x ∈ s.2, 0 ≤ x.width)
    (hs : 0 < (s.2.map (·.width)).sum) (q : Int → Option ℝ → Bool) (rest : List ℝ)
    (hok : ∀ x ∈ s.2, q x.kind.emitted x.kind.landing = true → ∀ u : ℝ, 0 ≤ u → u < 1 →
      ∀ g, g = u :: rest ∨ g = rest → ∃ p g',
        x.kind.decay exact replay fuel D (parent D nucleus Ex twoJ P) nucleus g = some (.ok (p, g'))) :
    unit {u | ∃ p b g, hfDecay exact replay fuel D nucleus Ex twoJ P (u :: rest)
          = some (.ok ((p, b), g)) ∧ q p.emitted.pdg (if b then none else some p.Ex) = true}
      = ENNReal.ofReal (((s.2.filter fun x => q x.kind.emitted x.kind.landing).map (·.width)).sum /
        (s.2.map (·.width)).sum) := by
  have h1 : 0 < s.1 := by rw [(build_total hb).1]; exact hs
  rw [← C129_channel hb hw hs (fun k => q k.emitted k.landing) rest]
  apply measure_congr
  have hI : ∀ᵐ u : ℝ ∂unit, u ∈ Set.Ico (0 : ℝ) 1 := ae_restrict_mem measurableSet_Ico
  filter_upwards [hI] with u hu
  apply propext
  constructor
  · rintro ⟨p, b, g, h, hq⟩
    unfold hfDecay at h
    rw [hb] at h
    dsimp only at h
    cases h2 : sampleExit replay s (u :: rest) with
    | error e => rw [h2] at h; simp at h
    | ok y =>
      obtain ⟨x, g1⟩ := y
      rw [h2] at h
      dsimp only at h
      cases h3 : x.kind.decay exact replay fuel D (parent D nucleus Ex twoJ P) nucleus g1 with
      | none => rw [h3] at h; simp at h
      | some r =>
        rw [h3] at h
        cases r with
        | error e => simp at h
        | ok y =>
          simp only [Option.some.injEq, Except.ok.injEq, Prod.mk.injEq] at h
          obtain ⟨⟨rfl, rfl⟩, -⟩ := h
          obtain ⟨e1, e2⟩ := decay_shows h3
          rw [e1, e2] at hq
          exact ⟨x, g1, h2, hq⟩
  · rintro ⟨x, g, h2, hq⟩
    obtain ⟨i, k1, k2⟩ := (sampleExit_iff h1).1 h2
    obtain ⟨p, g', h3⟩ := hok x (List.mem_of_getElem? k2) hq u hu.1 hu.2 g (pickFrom_rest k1)
    obtain ⟨e1, e2⟩ := decay_shows h3
    refine ⟨p, x.kind.continuum, g', ?_, by rw [e1, e2]; exact hq⟩
    unfold hfDecay
    rw [hb]
    dsimp only
    rw [h2]
    dsimp only
    rw [h3]

theorem spin_law {D : Data} {c : Parent} {k : Kind} {Exf : ℝ} {a : Acc} (hd : k.diff D c Exf = .ok a)
    (h1 : a.1 = (a.2.map (·.width)).sum) (hw : ∀ x ∈ a.2, 0 ≤ x.width) (hpos : 0 < a.1)
    (twoJf : Int) (Pf : Parity) (rest : List ℝ) :
    unit {u | ∃ g, sampleSpinParity replay D c k Exf (u :: rest) = .ok ((twoJf, Pf), g)}
      = ENNReal.ofReal (((a.2.filter fun x => x.twoJf = twoJf ∧ x.Pf = Pf).map (·.width)).sum
        / (a.2.map (·.width)).sum) := by
  rw [← pickFrom_where a.2 hw (by rw [← h1]; exact hpos)
    (fun x => decide (x.twoJf = twoJf ∧ x.Pf = Pf)) rest]
  congr 1
  ext u
  simp only [Set.mem_ofPred_eq]
  unfold sampleSpinParity
  rw [hd]
  dsimp only
  rw [if_neg (not_le.2 hpos)]
  cases h2 : pickFrom replay (a.2.map (·.width)) (u :: rest) with
  | error e => simp
  | ok y =>
    obtain ⟨i, g⟩ := y
    dsimp only
    cases h3 : a.2[i]? with
    | none =>
      simp only [reduceCtorEq, exists_false, Except.ok.injEq, Prod.mk.injEq, false_iff]
      rintro ⟨j, x, g', ⟨rfl, -⟩, h4, -⟩
      rw [h3] at h4
      cases h4
    | some z =>
      simp only [Except.ok.injEq, Prod.mk.injEq, decide_eq_true_eq]
      constructor
      · rintro ⟨g', ⟨h5, h6⟩, -⟩
        exact ⟨i, z, g, ⟨rfl, rfl⟩, h3, h5, h6⟩
      · rintro ⟨j, x, g', ⟨rfl, -⟩, h4, h5⟩
        rw [h3] at h4
        cases h4
        exact ⟨g, h5, rfl⟩

/-- C129: when a fragment is emitted to the continuum, the final spin and parity come with the
probability that is the sum of the terms of the allowed waves that lead to them, divided by the sum
over all allowed waves. -/
theorem C129_spin_fragment {D : Data} (hn : (D.frags.map (·.pid)).Nodup) {f : Fragment}
    (hf : f ∈ D.frags) {c : Parent} {Sa Emin Exf : ℝ}
    (hS : Mass.separationEnergyPid D.mass c.pdg f.pid true = .ok (some Sa))
    (hc : Emin ≤ Exf) (hE : Exf ≤ c.Ex - Sa) (h1 : 0 ≤ c.twoJ) (h2 : 0 ≤ f.twoS)
    (hnorm : 0 ≤ c.norm) (hopt : ∀ n e p j l s, 0 ≤ D.optical n e p j l s)
    (hden : ∀ n e j P, 0 ≤ D.density n e j P) {a : Acc}
    (ha : fragDiff D c f.pid Emin Exf = .ok a) (hpos : 0 < a.1) (rest : List ℝ) :
    ∃ L : List (Int × Int × Int × Parity), L.Nodup ∧
      (∀ l twoj twoJf Pf, (l, twoj, twoJf, Pf) ∈ L ↔
        l ≤ D.fragLMax ∧ Wave c.twoJ c.P f.twoS f.parity l twoj twoJf Pf) ∧
      ∀ twoJf Pf, unit {u | ∃ g, sampleSpinParity replay D c (.fragCont f.pid Emin) Exf (u :: rest)
          = .ok ((twoJf, Pf), g)}
        = ENNReal.ofReal (((L.filter fun x => x.2.2.1 = twoJf ∧ x.2.2.2 = Pf).map fun x =>
            c.norm * D.optical (remnant c.pdg f.pid) (c.Ex - Sa - Exf) f.pid x.2.1 x.1 f.twoS *
              D.density (remnant c.pdg f.pid) Exf x.2.2.1 x.2.2.2).sum
          / (L.map fun x =>
            c.norm * D.optical (remnant c.pdg f.pid) (c.Ex - Sa - Exf) f.pid x.2.1 x.1 f.twoS *
              D.density (remnant c.pdg f.pid) Exf x.2.2.1 x.2.2.2).sum) := by
  obtain ⟨L, l1, l2, a', e1, e2, e3⟩ := C53_continuum hn hf c hS hc hE h1 h2
  rw [ha] at e1
  cases e1
  refine ⟨L, l1, l2, fun J Q => ?_⟩
  rw [spin_law (k := .fragCont f.pid Emin) ha e2 ?_ hpos J Q rest, e3]
  · simp only [List.filter_map, List.map_map]
    rfl
  · rw [e3]
    intro x hx
    obtain ⟨y, -, rfl⟩ := List.mem_map.1 hx
    exact mul_nonneg (mul_nonneg hnorm (hopt _ _ _ _ _ _)) (hden _ _ _ _)

/-- C129: the same for gamma rays, where the sums run over the allowed types and
multipolarities. -/
theorem C129_spin_gamma {D : Data} {c : Parent} {Emin Exf : ℝ} (hc : Emin ≤ Exf) (hE : Exf ≤ c.Ex)
    (h1 : 0 ≤ c.twoJ) (hnorm : 0 ≤ c.norm) (hstr : ∀ n t l e, 0 ≤ D.strength n t l e)
    (hden : ∀ n e j P, 0 ≤ D.density n e j P) {a : Acc}
    (ha : gamDiff D c Emin Exf = .ok a) (hpos : 0 < a.1) (rest : List ℝ) :
    ∃ L : List (Rad × Int × Int × Parity), L.Nodup ∧
      (∀ t l twoJf Pf, (t, l, twoJf, Pf) ∈ L ↔ l ≤ D.gamLMax ∧ Radiates c.twoJ c.P t l twoJf Pf) ∧
      ∀ twoJf Pf, unit {u | ∃ g, sampleSpinParity replay D c (.gamCont Emin) Exf (u :: rest)
          = .ok ((twoJf, Pf), g)}
        = ENNReal.ofReal (((L.filter fun x => x.2.2.1 = twoJf ∧ x.2.2.2 = Pf).map fun x =>
            c.norm * D.strength c.pdg x.1 x.2.1 (c.Ex - Exf) *
              D.density c.pdg Exf x.2.2.1 x.2.2.2).sum
          / (L.map fun x => c.norm * D.strength c.pdg x.1 x.2.1 (c.Ex - Exf) *
              D.density c.pdg Exf x.2.2.1 x.2.2.2).sum) := by
  obtain ⟨L, l1, l2, a', e1, e2, e3⟩ := C54_continuum D c hc hE h1
  rw [ha] at e1
  cases e1
  refine ⟨L, l1, l2, fun J Q => ?_⟩
  rw [spin_law (k := .gamCont Emin) ha e2 ?_ hpos J Q rest, e3]
  · simp only [List.filter_map, List.map_map]
    rfl
  · rw [e3]
    intro x hx
    obtain ⟨y, -, rfl⟩ := List.mem_map.1 hx
    exact mul_nonneg (mul_nonneg hnorm (hstr _ _ _ _)) (hden _ _ _ _)

/-! ### Examples -/

/-- Three waves lead to the emission of a neutron, one to that of a gamma ray: neutrons come with
probability 3/4. -/
example : unit {u | ∃ p b g, hfDecay exact replay 1 (pairData 1) pairNucleus 10 2 ⟨false⟩
      (u :: [1 / 2, 1 / 2]) = some (.ok ((p, b), g)) ∧
      decide (p.emitted.pdg = 2112) = true} = ENNReal.ofReal (3 / 4) := by
  obtain ⟨s, h1, h2, -⟩ := pair_build 1
  have hp : (0 : ℝ) < 1 / (2 * Real.pi) := by have := Real.pi_pos; positivity
  have hw : ∀ x ∈ s.2, 0 ≤ x.width := by
    rw [h2]
    intro x hx
    simp only [List.mem_cons, List.not_mem_nil, or_false] at hx
    rcases hx with rfl | rfl <;> dsimp only <;> linarith
  have hs : 0 < (s.2.map (·.width)).sum := by
    rw [h2]
    simp only [List.map_cons, List.map_nil, List.sum_cons, List.sum_nil]
    linarith
  have h := C129_decay (fuel := 1) h1 hw hs (fun e _ => decide (e = 2112)) [1 / 2, 1 / 2] ?_
  · rw [h, h2]
    congr 1
    simp only [Kind.emitted, List.filter_cons, List.filter_nil, decide_true, if_true, List.map_cons,
      List.map_nil, List.sum_cons, List.sum_nil]
    rw [if_neg (by decide)]
    simp only [List.map_nil, List.sum_nil]
    have := Real.pi_pos
    field_simp
    norm_num
  · rw [h2]
    intro x hx hq u hu0 hu1 g hg
    simp only [List.mem_cons, List.not_mem_nil, or_false] at hx
    rcases hx with rfl | rfl
    · have hu : (0 : ℝ) < Mass.microAmu := by norm_num [Mass.microAmu]
      have hu' : 40 * Mass.microAmu < 50 := by norm_num [Mass.microAmu]
      have e2 : Pdg.getA (remnant 1000190400 2112) = 39 := by decide
      have e3 : Pdg.charge 2112 = .ok 0 := by decide
      have hc : (uniform exact replay (-1) 1 true g).1 ^ 2 ≤ 1 := by
        rcases hg with rfl | rfl
        · simp only [uniform, exact, id, if_true, replay, List.headD_cons]
          nlinarith
        · simp only [uniform, exact, id, if_true, replay, List.headD_cons]
          norm_num
      obtain ⟨a, b, k1, -⟩ := Marley.Props.C47_conserves (t := pairNucleus)
        (a := ⟨2112, 0, 0, 0, 0, Mass.microAmu * 1, 0⟩)
        (b := ⟨remnant 1000190400 2112, 39 * Mass.microAmu - (0 : Int) * 0 + 0, 0, 0, 0,
          39 * Mass.microAmu - (0 : Int) * 0 + 0, 0⟩)
        (uniform exact replay 0 (2 * Real.pi) false (uniform exact replay (-1) 1 true g).2).1
        (by constructor <;> norm_num [pairNucleus]) (by norm_num [pairNucleus]) (by dsimp only; linarith)
        (by dsimp only; push_cast; linarith) (by simp only [pairNucleus]; push_cast; linarith) hc
      have m1 : Mass.particleMass (pairData 1).mass 2112 = .ok (Mass.microAmu * 1) := by
        simp [Mass.particleMass, pairData, unitData]
      have m2 : Mass.particleMass (pairData 1).mass Mass.ELECTRON = .ok 0 := by
        simp [Mass.particleMass, Mass.ELECTRON, pairData, unitData]
      have m3 : Mass.atomicMassPid (pairData 1).mass (remnant 1000190400 2112) true
          = .ok (some (39 * Mass.microAmu)) := by
        simp [Mass.atomicMassPid, Mass.lookupPid, Mass.toMeV, pairData, unitData, e2]
      refine ⟨⟨0, 3, ⟨true⟩, a, b⟩,
        (uniform exact replay 0 (2 * Real.pi) false (uniform exact replay (-1) 1 true g).2).2, ?_⟩
      simp only [Kind.decay, levelDecay, prepareProducts, Kind.emitted, Kind.final, m1, m2, e3,
        show (parent (pairData 1) pairNucleus 10 2 ⟨false⟩).pdg = 1000190400 from rfl, m3,
        show (parent (pairData 1) pairNucleus 10 2 ⟨false⟩).q - Pdg.getZ 2112 = 0 by decide]
      rw [k1]
    · simp [Kind.emitted] at hq

/-- The hypotheses of the theorems on spins hold for neutrons and for gamma rays. -/
example : (∃ a, fragDiff unitData unitParent 2112 1 5 = .ok a ∧ 0 < a.1) ∧
    ∃ a, gamDiff unitData unitParent 1 5 = .ok a ∧ 0 < a.1 := by
  have pos : ∀ (l : List ℝ), (∀ x ∈ l, x = 1) → l ≠ [] → 0 < l.sum := by
    intro l h1 h2
    cases l with
    | nil => exact absurd rfl h2
    | cons x t =>
      have : 0 ≤ t.sum := List.sum_nonneg fun y hy => by rw [h1 y (by simp [hy])]; exact zero_le_one
      rw [List.sum_cons, h1 x (by simp)]
      linarith
  constructor
  · obtain ⟨L, -, l2, a, e1, e2, e3⟩ := C53_continuum (D := unitData) (by decide)
      (f := ⟨2112, 1, ⟨true⟩⟩) (by simp [unitData]) unitParent (Emin := 1) (Exf := 5) unit_separation
      (by norm_num) (by norm_num [unitParent]) (by decide) (by decide)
    refine ⟨a, e1, ?_⟩
    have hm := (l2 3 5 3 ⟨true⟩).2 ⟨by norm_num [unitData],
      ⟨by decide, by unfold Triangle; decide, by unfold Triangle; decide, by decide⟩⟩
    rw [e2, e3]
    refine pos _ ?_ ?_
    · intro x hx
      simp only [List.map_map, List.mem_map, Function.comp] at hx
      obtain ⟨y, -, rfl⟩ := hx
      simp [unitData, unitParent]
    · simp only [ne_eq, List.map_eq_nil_iff]
      exact List.ne_nil_of_mem hm
  · obtain ⟨L, -, l2, a, e1, e2, e3⟩ := C54_continuum unitData unitParent (Emin := 1) (Exf := 5)
      (by norm_num) (by norm_num [unitParent]) (by decide)
    refine ⟨a, e1, ?_⟩
    have hm := (l2 .electric 2 4 ⟨false⟩).2 ⟨by norm_num [unitData],
      ⟨by decide, by unfold Triangle; decide, by decide⟩⟩
    rw [e2, e3]
    refine pos _ ?_ ?_
    · intro x hx
      simp only [List.map_map, List.mem_map, Function.comp] at hx
      obtain ⟨y, -, rfl⟩ := hx
      simp [unitData, unitParent]
    · simp only [ne_eq, List.map_eq_nil_iff]
      exact List.ne_nil_of_mem hm

end Marley.Props
