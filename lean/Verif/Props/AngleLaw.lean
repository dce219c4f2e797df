import Verif.Props.RejectionLaw
import Verif.Props.CrossSection
import Verif.Props.Electron

/-! # C126: scattering angles follow the differential cross sections

The numbers drawn are independent and uniform in [0, 1), the arithmetic is exact. -/

set_option autoImplicit false

namespace Marley.Props
open Marley Marley.Reaction Marley.Sampling Marley.Kin Marley.Xs MeasureTheory

/-- **C126**, nuclear reactions: within `n` trials the cosine of the ejectile is
returned and lies in `A` with a probability that is proportional to the integral over
`A` of `(1 + β cos θ) / 2` for Fermi and `(3 - β cos θ) / 6` for Gamow-Teller
transitions; the factor tends to one as `n` grows. -/
theorem C126_nuclear {E : Env (List ℝ)} (hEa : E.arith = exact) (hEe : E.engine = replay)
    {m : MatEl} (ht : m.type = 0 ∨ m.type = 1) {beta : ℝ} (h0 : 0 ≤ beta) (h1 : beta ≤ 1)
    {A : Set ℝ} (hA : MeasurableSet A) :
    iid E.fuel {d | ∃ c g, sampleCos E m beta (stream d) = some (.ok (c, g)) ∧ c ∈ A}
      = ENNReal.ofReal
        ((1 - (1 - 1 / (2 * if m.type = 0 then (1 + beta) / 2 else (3 + beta) / 6)) ^ E.fuel)
          * ∫ c in Set.Icc (-1) 1 ∩ A,
            if m.type = 0 then (1 + beta * c) / 2 else (3 - beta * c) / 6) := by
  have hd : ∀ c, cosDensity m c beta
      = .ok (if m.type = 0 then (1 + beta * c) / 2 else (3 - beta * c) / 6) := by
    intro c
    unfold cosDensity
    rw [cosPdf_num ht]
  have hmax : cosMax m beta = .ok (if m.type = 0 then (1 + beta) / 2 else (3 + beta) / 6) := by
    unfold cosMax
    by_cases h : m.type = 0
    · rw [if_pos h, if_pos h, hd, if_pos h, mul_one]
    · rw [if_neg h, if_pos (ht.resolve_left h), if_neg h, hd, if_neg h]
      congr 1; ring
  have hint : ∫ c in Set.Icc (-1 : ℝ) 1,
      (if m.type = 0 then (1 + beta * c) / 2 else (3 - beta * c) / 6) = 1 := by
    rw [integral_Icc_eq_integral_Ioc, ← intervalIntegral.integral_of_le (by norm_num)]
    exact cosPdf_integral _ _
  have hv : Measurable fun c : ℝ =>
      if m.type = 0 then (1 + beta * c) / 2 else (3 - beta * c) / 6 := by
    by_cases h : m.type = 0
    · simp only [if_pos h]
      fun_prop
    · simp only [if_neg h]
      fun_prop
  have hr : ∀ c ∈ Set.Icc (-1 : ℝ) 1,
      0 ≤ (if m.type = 0 then (1 + beta * c) / 2 else (3 - beta * c) / 6) ∧
      (if m.type = 0 then (1 + beta * c) / 2 else (3 - beta * c) / 6)
        ≤ if m.type = 0 then (1 + beta) / 2 else (3 + beta) / 6 := by
    rintro c ⟨k1, k2⟩
    split_ifs <;> constructor <;> nlinarith
  have hm : 0 < if m.type = 0 then (1 + beta) / 2 else (3 + beta) / 6 := by
    split_ifs <;> linarith
  have h := C122_density (σ := Unit) (f := fun c _ => (cosDensity m c beta).map (·, ())) (a := -1)
    (b := 1) (I := fun _ => True) 1.01 1e-8 (by norm_num) hm hv hr (by rw [hint]; exact one_pos)
    (fun x _ st _ => ⟨(), by simp only [hd]; rfl, trivial⟩) hA E.fuel () trivial
  rw [hint, div_one] at h
  have e : ∀ M : ℝ, M * (1 - -1) = 2 * M := fun M => by ring
  rw [e] at h
  rw [← h]
  congr 1
  ext d
  simp only [sampleCos, hmax, hEa, hEe, Set.mem_ofPred_eq]
  constructor
  · rintro ⟨c, g, hs, hc⟩
    split at hs
    · cases hs
    · cases hs
    · rename_i r hr
      cases hs
      exact ⟨r, hr, hc⟩
  · rintro ⟨r, hr, hc⟩
    exact ⟨r.x, r.gen, by rw [hr], hc⟩

theorem elDiff_measurable (r : Electron) (pdg : Int) (KEa : ℝ) :
    Measurable fun c => elDiff r pdg KEa c := by
  unfold elDiff
  by_cases h1 : pdg ≠ r.pdgA
  · simp only [if_pos h1]
    fun_prop
  · by_cases h2 : KEa < threshold (elMasses r)
    · simp only [if_neg h1, if_pos h2]
      fun_prop
    · simp only [if_neg h1, if_neg h2]
      fun_prop

/-- **C126**, electrons: where the total cross section is positive, within `n` trials an
event in `S` is made with a probability proportional to the differential cross section
of the cosine, averaged over a uniform azimuth. -/
theorem C126_electron {E : Env (List ℝ)} (hEa : E.arith = exact) (hEe : E.engine = replay)
    {r : Electron} (hr : ElectronGood r) {KEa : ℝ} (hK : 0 ≤ KEa)
    (hpos : 0 < elTotal r r.pdgA KEa) {S : Set (Event ℝ)}
    (hS : MeasurableSet {q : ℝ × ℝ | ∃ ev ∈ S, makeEvent (elMasses r) KEa
      (twoTwoScatter (elMasses r) KEa) q.1 q.2 0 1 ⟨true⟩ = .ok ev}) :
    ∃ p, 0 < p ∧ p ≤ 1 ∧
      iid E.fuel {d | ∃ ev g, elCreate E r r.pdgA KEa (stream d) = some (.ok (ev, g)) ∧ ev ∈ S}
        = ENNReal.ofReal ((1 - (1 - p) ^ E.fuel) *
          ((∫ c in Set.Icc (-1 : ℝ) 1, (unit {u | ∃ ev ∈ S, makeEvent (elMasses r) KEa
              (twoTwoScatter (elMasses r) KEa) c (2 * Real.pi * u) 0 1 ⟨true⟩ = .ok ev}).toReal
              * elDiff r r.pdgA KEa c) / elTotal r r.pdgA KEa)) := by
  set M := elBound r r.pdgA KEa (twoTwoScatter (elMasses r) KEa).s with hM
  have hint : ∫ c in Set.Icc (-1 : ℝ) 1, elDiff r r.pdgA KEa c = elTotal r r.pdgA KEa := by
    rw [integral_Icc_eq_integral_Ioc, ← intervalIntegral.integral_of_le (by norm_num)]
    exact C40_integral _ _ _
  have hb : ∀ c ∈ Set.Icc (-1 : ℝ) 1, 0 ≤ elDiff r r.pdgA KEa c ∧ elDiff r r.pdgA KEa c ≤ M :=
    fun c hc => ⟨(C40_nonneg hr _ hK hc.1 hc.2).1, C41_bound r _ _ c hc.1 hc.2⟩
  have hm : 0 < M := by
    by_contra h
    have h2 : ∫ c in Set.Icc (-1 : ℝ) 1, elDiff r r.pdgA KEa c ≤ 0 :=
      setIntegral_nonpos measurableSet_Icc fun c hc => (hb c hc).2.trans (not_lt.1 h)
    linarith
  have hth : ¬KEa < threshold (elMasses r) := by
    intro h
    rw [elTotal, if_neg (by simp), if_pos h] at hpos
    exact lt_irrefl _ hpos
  have hv := elDiff_measurable r r.pdgA KEa
  have hsb := share_bounds (a := -1) (b := 1) (by norm_num) hm hv hb
  have hsp : 0 < share (fun c => elDiff r r.pdgA KEa c) (-1) 1 M := by
    rw [share, hint]
    exact div_pos hpos (mul_pos hm (by norm_num))
  refine ⟨_, hsp, hsb.2, ?_⟩
  have hB : MeasurableSet {q : ℝ × ℝ | ∃ ev ∈ S, makeEvent (elMasses r) KEa
      (twoTwoScatter (elMasses r) KEa) q.1 (2 * Real.pi * q.2) 0 1 ⟨true⟩ = .ok ev} :=
    (show Measurable fun q : ℝ × ℝ => (q.1, 2 * Real.pi * q.2) by fun_prop) hS
  have h := loop_law (σ := Unit) (f := fun c _ => .ok (elDiff r r.pdgA KEa c, ())) (safety := 1.01)
    (I := fun _ => True) (by norm_num : (-1 : ℝ) < 1) hm hv hb
    (fun x _ st _ => ⟨(), rfl, trivial⟩) hB E.fuel () trivial
  have hset : {d : (Fin E.fuel → ℝ × ℝ) × ℝ | ∃ ev g,
      elCreate E r r.pdgA KEa (stream d) = some (.ok (ev, g)) ∧ ev ∈ S}
      = {d | ∃ r_1, rejectLoop exact replay (fun c (_ : Unit) => .ok (elDiff r r.pdgA KEa c, ()))
          (-1) 1 1.01 E.fuel M (stream d) () = some (.ok r_1) ∧
          (r_1.x, (replay.draw r_1.gen).1) ∈ {q : ℝ × ℝ | ∃ ev ∈ S, makeEvent (elMasses r) KEa
            (twoTwoScatter (elMasses r) KEa) q.1 (2 * Real.pi * q.2) 0 1 ⟨true⟩ = .ok ev}} := by
    have hphi : ∀ g, (uniform exact replay 0 (2 * Real.pi) false g).1
        = 2 * Real.pi * (replay.draw g).1 := by
      intro g
      simp [uniform, exact]
      ring
    ext d
    simp only [elCreate, hEa, hEe, rejectionSample, Set.mem_ofPred_eq, ne_eq, not_true_eq_false,
      if_false, if_neg hth, ← hM]
    constructor
    · rintro ⟨ev, g, he, hev⟩
      split at he
      · cases he
      · cases he
      · rename_i x hx
        split at he
        · cases he
        · rename_i ev' hmk
          cases he
          refine ⟨x, hx, ev, hev, ?_⟩
          rw [← hphi]
          exact hmk
    · rintro ⟨x, hx, ev, hev, hmk⟩
      rw [← hphi] at hmk
      exact ⟨ev, (uniform exact replay 0 (2 * Real.pi) false x.gen).2, by rw [hx]; simp only [hmk],
        hev⟩
  rw [hset, h]
  have hbox : 0 < M * (1 - -1) := mul_pos hm (by norm_num)
  have hg := geometric (p := share (fun c => elDiff r r.pdgA KEa c) (-1) 1 M) E.fuel
  rw [← hg]
  congr 1
  have e : ∀ X : ℝ, X / (M * (1 - -1))
      = share (fun c => elDiff r r.pdgA KEa c) (-1) 1 M * (X / elTotal r r.pdgA KEa) := by
    intro X
    rw [share, hint]
    field_simp
  rw [e, mul_assoc]
  rfl

/-- Events whose ejectile has an energy and a momentum in `T`. -/
def ejectileIn (T : Set (ℝ × ℝ × ℝ × ℝ)) : Set (Event ℝ) :=
  {ev | ∃ ej l, ev.final = ej :: l ∧ (ej.E, ej.px, ej.py, ej.pz) ∈ T}

theorem ejectile_measurable (r : Masses) (KEa : ℝ) (sc : Scatter) (Elevel : ℝ) (twoJ : Int)
    (P : Parity) {T : Set (ℝ × ℝ × ℝ × ℝ)} (hT : MeasurableSet T) :
    MeasurableSet {q : ℝ × ℝ | ∃ ev ∈ ejectileIn T,
      makeEvent r KEa sc q.1 q.2 Elevel twoJ P = .ok ev} := by
  have hsq : ∀ x : ℝ, Utils.realSqrt x = √x := by
    intro x
    unfold Utils.realSqrt
    split_ifs with h
    · exact (Real.sqrt_eq_zero_of_nonpos h.le).symm
    · rfl
  have none : (∀ (q : ℝ × ℝ) ev, makeEvent r KEa sc q.1 q.2 Elevel twoJ P ≠ .ok ev) →
      MeasurableSet {q : ℝ × ℝ | ∃ ev ∈ ejectileIn T,
        makeEvent r KEa sc q.1 q.2 Elevel twoJ P = .ok ev} := by
    intro h
    have : {q : ℝ × ℝ | ∃ ev ∈ ejectileIn T,
        makeEvent r KEa sc q.1 q.2 Elevel twoJ P = .ok ev} = ∅ := by
      ext q
      simp [h q]
    rw [this]
    exact MeasurableSet.empty
  by_cases hk : KnownCodes r
  swap
  · exact none fun q ev h => hk (makeEvent_known h)
  obtain ⟨⟨qa, ha⟩, ⟨qb, hb⟩, ⟨qc, hc⟩, ⟨qd, hd⟩⟩ := hk
  cases hβ : beta2 0 0 (-(√(KEa * (KEa + 2 * r.ma)) / (KEa + r.ma + r.mb))) with
  | error e =>
    exact none fun q ev => by
      simp [makeEvent, Particle.mk6, ha, hb, hc, hd, lorentzBoost, hsq, hβ]
  | ok β =>
    generalize hbz : √(KEa * (KEa + 2 * r.ma)) / (KEa + r.ma + r.mb) = bz at hβ
    by_cases h0 : β = 0
    · have hset : {q : ℝ × ℝ | ∃ ev ∈ ejectileIn T,
          makeEvent r KEa sc q.1 q.2 Elevel twoJ P = .ok ev}
          = (fun q : ℝ × ℝ => (sc.Ec, √(1 - q.1 ^ 2) * Real.cos q.2 * sc.pc,
            √(1 - q.1 ^ 2) * Real.sin q.2 * sc.pc, q.1 * sc.pc)) ⁻¹' T := by
        ext q
        simp only [makeEvent, Particle.mk6, ha, hb, hc, hd, lorentzBoost, hbz, hβ, if_pos h0, hsq,
          Set.mem_ofPred_eq, Set.mem_preimage, ejectileIn]
        constructor
        · rintro ⟨ev, ⟨ej, l, h1, h2⟩, h3⟩
          cases h3
          cases h1
          exact h2
        · intro h
          exact ⟨_, ⟨_, _, rfl, h⟩, rfl⟩
      rw [hset]
      exact (by fun_prop : Measurable _) hT
    · have hset : {q : ℝ × ℝ | ∃ ev ∈ ejectileIn T,
          makeEvent r KEa sc q.1 q.2 Elevel twoJ P = .ok ev}
          = (fun q : ℝ × ℝ =>
            (if 1 / √(1 - β) * (sc.Ec - (0 * (√(1 - q.1 ^ 2) * Real.cos q.2 * sc.pc)
                + 0 * (√(1 - q.1 ^ 2) * Real.sin q.2 * sc.pc) + -bz * (q.1 * sc.pc))) < r.mc then r.mc
              else 1 / √(1 - β) * (sc.Ec - (0 * (√(1 - q.1 ^ 2) * Real.cos q.2 * sc.pc)
                + 0 * (√(1 - q.1 ^ 2) * Real.sin q.2 * sc.pc) + -bz * (q.1 * sc.pc))),
            (-(1 / √(1 - β)) * sc.Ec + (1 / √(1 - β) - 1) * (0 * (√(1 - q.1 ^ 2) * Real.cos q.2 * sc.pc)
                + 0 * (√(1 - q.1 ^ 2) * Real.sin q.2 * sc.pc) + -bz * (q.1 * sc.pc)) / β) * 0
              + √(1 - q.1 ^ 2) * Real.cos q.2 * sc.pc,
            (-(1 / √(1 - β)) * sc.Ec + (1 / √(1 - β) - 1) * (0 * (√(1 - q.1 ^ 2) * Real.cos q.2 * sc.pc)
                + 0 * (√(1 - q.1 ^ 2) * Real.sin q.2 * sc.pc) + -bz * (q.1 * sc.pc)) / β) * 0
              + √(1 - q.1 ^ 2) * Real.sin q.2 * sc.pc,
            (-(1 / √(1 - β)) * sc.Ec + (1 / √(1 - β) - 1) * (0 * (√(1 - q.1 ^ 2) * Real.cos q.2 * sc.pc)
                + 0 * (√(1 - q.1 ^ 2) * Real.sin q.2 * sc.pc) + -bz * (q.1 * sc.pc)) / β) * -bz
              + q.1 * sc.pc)) ⁻¹' T := by
        ext q
        simp only [makeEvent, Particle.mk6, ha, hb, hc, hd, lorentzBoost, hbz, hβ, if_neg h0, hsq,
          Set.mem_ofPred_eq, Set.mem_preimage, ejectileIn]
        constructor
        · rintro ⟨ev, ⟨ej, l, h1, h2⟩, h3⟩
          cases h3
          cases h1
          exact h2
        · intro h
          exact ⟨_, ⟨_, _, rfl, h⟩, rfl⟩
      rw [hset]
      refine Measurable.prodMk (Measurable.ite (measurableSet_lt (by fun_prop) measurable_const)
        measurable_const (by fun_prop)) (by fun_prop) hT

/-- **C126**, electrons: the law of energy and momentum of the ejectile. -/
theorem C126_ejectile {E : Env (List ℝ)} (hEa : E.arith = exact) (hEe : E.engine = replay)
    {r : Electron} (hr : ElectronGood r) {KEa : ℝ} (hK : 0 ≤ KEa)
    (hpos : 0 < elTotal r r.pdgA KEa) {T : Set (ℝ × ℝ × ℝ × ℝ)} (hT : MeasurableSet T) :
    ∃ p, 0 < p ∧ p ≤ 1 ∧
      iid E.fuel {d | ∃ ev g, elCreate E r r.pdgA KEa (stream d) = some (.ok (ev, g)) ∧
          ev ∈ ejectileIn T}
        = ENNReal.ofReal ((1 - (1 - p) ^ E.fuel) *
          ((∫ c in Set.Icc (-1 : ℝ) 1, (unit {u | ∃ ev ∈ ejectileIn T, makeEvent (elMasses r) KEa
              (twoTwoScatter (elMasses r) KEa) c (2 * Real.pi * u) 0 1 ⟨true⟩ = .ok ev}).toReal
              * elDiff r r.pdgA KEa c) / elTotal r r.pdgA KEa)) :=
  C126_electron hEa hEe hr hK hpos (ejectile_measurable _ _ _ _ _ _ hT)

-- a Gamow-Teller transition at half the speed of light, with five trials
example : iid 5 {d | ∃ c g, sampleCos ⟨exact, replay, 5, fun _ v => v, fun _ => .error .marleyError,
      fun _ => .error .marleyError⟩ ⟨0, 1, 1, none⟩ (1 / 2) (stream d) = some (.ok (c, g)) ∧
      c ∈ Set.Ici (0 : ℝ)}
    = ENNReal.ofReal ((1 - (1 - 1 / (2 * ((3 + 1 / 2) / 6))) ^ 5)
      * ∫ c in Set.Icc (-1 : ℝ) 1 ∩ Set.Ici 0, (3 - 1 / 2 * c) / 6) := by
  have h := C126_nuclear (E := ⟨exact, replay, 5, fun _ v => v, fun _ => .error .marleyError,
    fun _ => .error .marleyError⟩) rfl rfl (m := ⟨0, 1, 1, none⟩) (Or.inr rfl)
    (beta := 1 / 2) (by norm_num) (by norm_num) (measurableSet_Ici (a := (0 : ℝ)))
  simpa using h

-- electron neutrinos on argon: electrons that the neutrino leaves behind with less energy
example : MeasurableSet {q : ℝ × ℝ × ℝ × ℝ | q.1 < 1} ∧ ElectronGood exElectron ∧
    0 < elTotal exElectron exElectron.pdgA (3 / 2) := by
  refine ⟨measurableSet_lt measurable_fst measurable_const, exElectron_good, ?_⟩
  have e1 : threshold (elMasses exElectron) = 0 := by norm_num [threshold, elMasses, exElectron]
  have e3 : Pdg.getZ exElectron.atom = 18 := by decide +kernel
  exact C40_positive exElectron_good (by norm_num) (by rw [e1]; norm_num)
    (by rw [e3]; norm_num) (Or.inl (by norm_num [exElectron])) rfl

end Marley.Props
