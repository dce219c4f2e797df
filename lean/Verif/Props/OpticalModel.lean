import Verif.Lemmas.OpticalModel
import Mathlib.Analysis.Calculus.Deriv.Pow

/-!
# C91 and C92: transmission coefficients and the optical potential
-/

set_option autoImplicit false

namespace Marley.Props
open Marley Marley.Optical
open Marley.Spec (restEnergy cmMomentum2 relVelocity MatchingPoints ScatteringElement couplings)

/-- An object for nuclide `Z`, `A` and step `h`, after a series of calls. -/
def OpticalObject (t : Mass.Table) (H : Int → ℝ → ℝ → Option ℂ) (Z A : Int) (h : ℝ) (m : Om) : Prop :=
  ∃ k w m0 cs, Om.make t Z A h k w = .ok m0 ∧ m = m0.after t H cs

theorem opticalObject_members {t : Mass.Table} {H : Int → ℝ → ℝ → Option ℂ} {Z A : Int} {h : ℝ} {m : Om}
    (hm : OpticalObject t H Z A h m) : 1 ≤ A ∧ m.Z = Z ∧ m.A = A ∧ m.h = h ∧ m.par = params Z A := by
  obtain ⟨k, w, m0, cs, h0, rfl⟩ := hm
  obtain ⟨M', k', w', he⟩ := after_put t H cs m0 m0.targetMass m0.kin m0.work
  rw [← put_self] at he
  rw [he]
  unfold Om.make at h0
  split_ifs at h0 with hA
  split at h0
  · cases h0
  · cases h0
  · cases h0
    exact ⟨by omega, rfl, rfl, rfl, rfl⟩

/-- Masses of a target of given charge and of a fragment of `n` neutrons and `z` protons. -/
structure OpticalCollision (t : Mass.Table) (Z A charge frag : Int) (n z : ℕ) (M mf : ℝ) : Prop where
  protons : Pdg.getZ frag = z
  nucleons : Pdg.getA frag = n + z
  some : 1 ≤ n + z
  target : ∃ atom me, Mass.atomicMass t Z A true = .ok (Option.some atom) ∧
    Mass.particleMass t 11 = .ok me ∧ M = atom - charge * me
  fragment : Mass.particleMass t frag = .ok mf
  target_pos : 0 < M
  fragment_nonneg : 0 ≤ mf

theorem OpticalCollision.frag {t : Mass.Table} {Z A charge frag : Int} {n z : ℕ} {M mf : ℝ}
    (hc : OpticalCollision t Z A charge frag n z M mf) : Nucleons frag n z := ⟨hc.protons, hc.nucleons, hc.some⟩

theorem OpticalCollision.targetOf {t : Mass.Table} {Z A charge frag : Int} {n z : ℕ} {M mf : ℝ}
    (hc : OpticalCollision t Z A charge frag n z M mf) : targetOf t Z A charge = .ok M := by
  obtain ⟨a, me, h1, h2, rfl⟩ := hc.target
  unfold Optical.targetOf
  rw [h1]
  dsimp only
  rw [show Mass.ELECTRON = 11 from rfl, h2]

/-! ## C91 -/

/-- A transmission coefficient is a probability, and zero without kinetic energy. -/
theorem C91_range (t : Mass.Table) (H : Int → ℝ → ℝ → Option ℂ) (m : Om) (KE : ℝ) (frag twoJ l twoS charge : Int) :
    (∀ T, (m.transmission t H KE frag twoJ l twoS charge).1 = .ok T → 0 ≤ T ∧ T ≤ 1) ∧
    (KE ≤ 0 → (m.transmission t H KE frag twoJ l twoS charge).1 = .ok 0) := by
  obtain ⟨M', k', w', h⟩ := transmission_eq t H m m.targetMass m.kin m.work KE frag twoJ l twoS charge
  rw [← put_self] at h
  rw [h]
  dsimp only
  unfold Om.tOf
  constructor
  · intro T hT
    split_ifs at hT with hK
    · cases hT; exact ⟨le_rfl, zero_le_one⟩
    · split at hT
      · cases hT
      · split at hT
        · cases hT
        · split at hT
          · cases hT
          · cases hT; exact ⟨le_rfl, zero_le_one⟩
          · cases hT
            rename_i S _
            have h1 : min 1 (max 0 (Complex.normSq S)) ≤ 1 := min_le_left _ _
            have h2 : 0 ≤ min 1 (max 0 (Complex.normSq S)) := le_min zero_le_one (le_max_left _ _)
            exact ⟨by linarith, by linarith⟩
  · intro hK
    rw [if_pos hK]

/-- The result of a call depends neither on the calls made before on the same object nor on the values of members
that the constructor leaves without value. -/
theorem C91_history {t : Mass.Table} {H : Int → ℝ → ℝ → Option ℂ} {Z A : Int} {h : ℝ} {m m' : Om}
    (hm : OpticalObject t H Z A h m) (hm' : OpticalObject t H Z A h m') :
    (∀ KE frag twoJ l twoS charge, (m.transmission t H KE frag twoJ l twoS charge).1
      = (m'.transmission t H KE frag twoJ l twoS charge).1) ∧
    (∀ r lab frag twoJ l twoS charge, (m.potential t r lab frag twoJ l twoS charge).1
      = (m'.potential t r lab frag twoJ l twoS charge).1) ∧
    (∀ lab frag twoS lMax charge, (m.crossSection t H lab frag twoS lMax charge).1
      = (m'.crossSection t H lab frag twoS lMax charge).1) := by
  obtain ⟨-, a1, a2, a3, a4⟩ := opticalObject_members hm
  obtain ⟨-, b1, b2, b3, b4⟩ := opticalObject_members hm'
  have e : m' = m.put m'.targetMass m'.kin m'.work := by
    cases m; cases m'
    simp only [Om.put] at *
    simp [*]
  rw [e]
  refine ⟨fun KE frag twoJ l twoS charge => ?_, fun r lab frag twoJ l twoS charge => ?_,
    fun lab frag twoS lMax charge => ?_⟩
  · obtain ⟨_, _, _, h1⟩ := transmission_eq t H m m.targetMass m.kin m.work KE frag twoJ l twoS charge
    obtain ⟨_, _, _, h2⟩ := transmission_eq t H m m'.targetMass m'.kin m'.work KE frag twoJ l twoS charge
    rw [← put_self] at h1
    rw [h1, h2]
  · obtain ⟨_, _, _, h1⟩ := potential_eq t m m.targetMass m.kin m.work r lab frag twoJ l twoS charge
    obtain ⟨_, _, _, h2⟩ := potential_eq t m m'.targetMass m'.kin m'.work r lab frag twoJ l twoS charge
    rw [← put_self] at h1
    rw [h1, h2]
  · obtain ⟨_, _, _, h1⟩ := crossSection_eq t H m m.targetMass m.kin m.work lab frag twoS lMax charge
    obtain ⟨_, _, _, h2⟩ := crossSection_eq t H m m'.targetMass m'.kin m'.work lab frag twoS lMax charge
    rw [← put_self] at h1
    rw [h1, h2]

/-- `x` is the element of the scattering matrix, `none` if it cannot be computed, for the potential that the object
reports, where the Coulomb functions are `H`. -/
def IsElement (t : Mass.Table) (H : Int → ℝ → ℝ → Option ℂ) (m : Om) (Z A : Int) (h : ℝ) (z : ℕ) (M mf KE : ℝ)
    (frag twoJ : Int) (l : ℕ) (twoS charge : Int) (x : Option ℂ) : Prop :=
  ∃ (U : ℝ → ℂ) (n1 n2 : ℕ),
    (∀ r, 0 < r → (m.potential t r (restEnergy mf M KE - mf) frag twoJ l twoS charge).1 = .ok (some (U r))) ∧
    MatchingPoints h (fun r => U r - Spec.KD.coulombPot z Z (Spec.KD.radius A (Spec.KD.rC A)) r) n1 n2 ∧
    ∀ S, x = some S ↔ ScatteringElement h U l KE (Real.sqrt (cmMomentum2 mf M KE) / Spec.KD.ħc)
      (fun ρ => H l (Z * z * Spec.KD.α / relVelocity mf M KE) ρ) n1 n2 S

theorem IsElement.unique {t : Mass.Table} {H : Int → ℝ → ℝ → Option ℂ} {m : Om} {Z A : Int} {h : ℝ} {z : ℕ}
    {M mf KE : ℝ} {frag twoJ : Int} {l : ℕ} {twoS charge : Int} {x x' : Option ℂ} (hh : 0 < h)
    (h1 : IsElement t H m Z A h z M mf KE frag twoJ l twoS charge x)
    (h2 : IsElement t H m Z A h z M mf KE frag twoJ l twoS charge x') : x = x' := by
  obtain ⟨U, n1, n2, a1, a2, a3⟩ := h1
  obtain ⟨U', n1', n2', b1, b2, b3⟩ := h2
  have hU : ∀ r, 0 < r → U r = U' r := by
    intro r hr
    have := (a1 r hr).symm.trans (b1 r hr)
    exact Option.some.inj (Except.ok.inj this)
  obtain ⟨rfl, rfl⟩ := matching_unique hh (fun r hr => by rw [hU r hr]) a2 b2
  ext S
  rw [a3 S, b3 S]
  exact ⟨scattering_congr hh hU, scattering_congr hh (fun r hr => (hU r hr).symm)⟩

theorem element_exists {t : Mass.Table} {H : Int → ℝ → ℝ → Option ℂ} {Z A : Int} {h : ℝ} {m : Om}
    (hm : OpticalObject t H Z A h m) (hA : A ≤ 3000) (hh : 0 < h) {charge frag : Int} {n z : ℕ} {M mf : ℝ}
    (hc : OpticalCollision t Z A charge frag n z M mf) {KE : ℝ} (hK : 0 < KE) (twoJ twoS : Int) (l : ℕ) :
    ∃ x, m.sOf H ⟨KE, mf, restEnergy mf M KE - mf, cmMomentum2 mf M KE⟩ frag twoJ l twoS = .ok x ∧
      IsElement t H m Z A h z M mf KE frag twoJ l twoS charge x := by
  obtain ⟨a0, a1, a2, a3, a4⟩ := opticalObject_members hm
  obtain ⟨U, hU, n1, n2, hn, x, hx, hS⟩ := sOf_scat H a0 hA a1 a4 hc.frag (a3 ▸ hh) hc.target_pos hc.fragment_nonneg
    hK twoJ twoS l rfl
  rw [a3] at hn hS
  refine ⟨x, hx, U, n1, n2, fun r hr => ?_, hn, hS⟩
  obtain ⟨_, _, _, h1⟩ := potential_eq t m m.targetMass m.kin m.work r (restEnergy mf M KE - mf) frag twoJ l twoS charge
  rw [← put_self] at h1
  rw [h1]
  unfold Om.pOf
  rw [a1, a2, hc.targetOf]
  dsimp only
  rw [hc.fragment]
  dsimp only
  rw [cmOf_rest hc.target_pos hc.fragment_nonneg hK.le,
    kinOf_eq hc.fragment hc.target_pos hc.fragment_nonneg hK.le]
  dsimp only
  have h2 := hU r hr
  rw [a1, a2] at h2
  rw [h2]

/-- For a positive step and kinetic energy, the calculation ends, and the transmission coefficient is one minus the
squared modulus of the element of the scattering matrix, limited to one.  That element belongs to the solution by
Numerov's method of the radial equation for the potential that the object reports. -/
theorem C91_scattering {t : Mass.Table} {H : Int → ℝ → ℝ → Option ℂ} {Z A : Int} {h : ℝ} {m : Om}
    (hm : OpticalObject t H Z A h m) (hA : A ≤ 3000) (hh : 0 < h) {charge frag : Int} {n z : ℕ} {M mf : ℝ}
    (hc : OpticalCollision t Z A charge frag n z M mf) {KE : ℝ} (hK : 0 < KE) (twoJ twoS : Int) (l : ℕ) :
    ∃ x, IsElement t H m Z A h z M mf KE frag twoJ l twoS charge x ∧
      (∀ x', IsElement t H m Z A h z M mf KE frag twoJ l twoS charge x' → x' = x) ∧
      (m.transmission t H KE frag twoJ l twoS charge).1 = .ok (match x with
        | none => 0
        | some S => 1 - min 1 (‖S‖ ^ 2)) := by
  obtain ⟨a0, a1, a2, a3, a4⟩ := opticalObject_members hm
  obtain ⟨x, hx, hE⟩ := element_exists hm hA hh hc hK twoJ twoS l
  refine ⟨x, hE, fun x' h' => h'.unique hh hE, ?_⟩
  obtain ⟨_, _, _, h1⟩ := transmission_eq t H m m.targetMass m.kin m.work KE frag twoJ l twoS charge
  rw [← put_self] at h1
  rw [h1]
  unfold Om.tOf
  rw [if_neg (not_le.2 hK), a1, a2, hc.targetOf]
  dsimp only
  rw [kinOf_eq hc.fragment hc.target_pos hc.fragment_nonneg hK.le]
  dsimp only
  rw [hx]
  rcases x with _ | S
  · rfl
  · dsimp only
    rw [max_eq_right (Complex.normSq_nonneg S), Complex.normSq_eq_norm_sq]

/-- Where the potential does not absorb, nothing is transmitted. -/
theorem C91_unitary {t : Mass.Table} {H : Int → ℝ → ℝ → Option ℂ} {Z A : Int} {h : ℝ} {m : Om}
    (hm : OpticalObject t H Z A h m) (hA : A ≤ 3000) (hh : 0 < h) {charge frag : Int} {n z : ℕ} {M mf : ℝ}
    (hc : OpticalCollision t Z A charge frag n z M mf) {KE : ℝ} (hK : 0 < KE) (twoJ twoS : Int) (l : ℕ)
    (hU : ∀ r V, 0 < r → (m.potential t r (restEnergy mf M KE - mf) frag twoJ l twoS charge).1 = .ok (some V) →
      V.im = 0) :
    (m.transmission t H KE frag twoJ l twoS charge).1 = .ok 0 := by
  obtain ⟨x, ⟨U, n1, n2, e1, e2, e3⟩, -, hT⟩ := C91_scattering hm hA hh hc hK twoJ twoS l
  rw [hT]
  rcases x with _ | S
  · rfl
  · have := scattering_real e2.2.1 hh ((e3 S).1 rfl) (fun r hr => hU r _ hr (e1 r hr))
    dsimp only
    rw [← Complex.normSq_eq_norm_sq, this, min_self, sub_self]

/-- The total cross section is the sum over partial waves up to `lMax`, if all elements of the scattering matrix can
be computed. -/
theorem C91_total {t : Mass.Table} {H : Int → ℝ → ℝ → Option ℂ} {Z A : Int} {h : ℝ} {m : Om}
    (hm : OpticalObject t H Z A h m) (hA : A ≤ 3000) (hh : 0 < h) {charge frag : Int} {n z : ℕ} {M mf : ℝ}
    (hc : OpticalCollision t Z A charge frag n z M mf) {KE : ℝ} (hK : 0 < KE) {twoS : Int} (hs : 0 ≤ twoS) (lMax : ℕ) :
    ∃ S : ℕ → Int → Option ℂ,
      (∀ l twoJ, IsElement t H m Z A h z M mf KE frag twoJ l twoS charge (S l twoJ)) ∧
      (∀ s : ℕ → Int → ℂ, (∀ l, l ≤ lMax → ∀ twoJ ∈ couplings l twoS, S l twoJ = some (s l twoJ)) →
        (m.crossSection t H (restEnergy mf M KE - mf) frag twoS lMax charge).1
          = .ok (some (2 * Real.pi / ((twoS + 1) * cmMomentum2 mf M KE) *
            ∑ l ∈ Finset.range (lMax + 1), ∑ twoJ ∈ couplings l twoS, ((twoJ : ℝ) + 1) * (1 - (s l twoJ).re)))) ∧
      ((∃ l, l ≤ lMax ∧ ∃ twoJ ∈ couplings l twoS, S l twoJ = none) →
        (m.crossSection t H (restEnergy mf M KE - mf) frag twoS lMax charge).1 = .ok none) := by
  obtain ⟨a0, a1, a2, a3, a4⟩ := opticalObject_members hm
  have hex := fun (l : ℕ) (twoJ : Int) => element_exists hm hA hh hc hK twoJ twoS l
  choose S hS hE using hex
  obtain ⟨_, _, _, h1⟩ := crossSection_eq t H m m.targetMass m.kin m.work (restEnergy mf M KE - mf) frag twoS lMax charge
  rw [← put_self] at h1
  rw [h1]
  dsimp only
  unfold Om.xOf
  rw [a1, a2, hc.targetOf]
  dsimp only
  rw [hc.fragment]
  dsimp only
  rw [cmOf_rest hc.target_pos hc.fragment_nonneg hK.le,
    kinOf_eq hc.fragment hc.target_pos hc.fragment_nonneg hK.le]
  dsimp only
  refine ⟨S, hE, fun s hs' => ?_, ?_⟩
  · rw [sumOf_some H m _ frag twoS (fun w => s w.1.toNat w.2) (waves twoS lMax) 0 (by
      intro w hw
      obtain ⟨l, hl, e1, e2⟩ := (mem_waves hs).1 hw
      rw [e1, hS l w.2, hs' l hl w.2 e2]
      rfl)]
    dsimp only
    rw [waves_sum hs lMax (fun w => ((w.2 : ℝ) + 1) * (1 - (s w.1.toNat w.2).re))]
    have hs0 : (0 : ℝ) ≤ twoS := by exact_mod_cast hs
    have hp := momentum_pos hc.target_pos hc.fragment_nonneg hK
    simp only [Option.bind_eq_bind, Option.bind_some, Int.toNat_natCast, zero_add, Utils.fdiv]
    rw [if_neg (by positivity)]
    congr 2
    ring
  · rintro ⟨l, hl, twoJ, hj, hn⟩
    rw [sumOf_fails H m _ frag twoS (fun w => S w.1.toNat w.2) (waves twoS lMax) _ (by
      intro w hw
      obtain ⟨l, hl, e1, e2⟩ := (mem_waves hs).1 hw
      rw [e1, hS l w.2]
      rfl) ⟨((l : Int), twoJ), (mem_waves hs).2 ⟨l, hl, rfl, hj⟩, by simpa using hn⟩]
    rfl

/-! ## C92 -/

/-- Twice the product of spin and orbital angular momentum. -/
noncomputable def spinOrbit (twoJ : Int) (l : ℕ) (twoS : Int) : ℝ :=
  let j : ℝ := twoJ / 2
  let s : ℝ := twoS / 2
  j * (j + 1) - l * (l + 1) - s * (s + 1)

theorem spinOrbit_eq {twoJ : Int} {l : ℕ} {twoS : Int} (h0 : twoS = 0 → twoJ = 2 * l) :
    spinOrbit twoJ l twoS = if twoS = 0 then 0
      else 0.25 * (((twoJ - twoS) * (twoJ + twoS + 2) : Int) : ℝ) - (((l : Int) * ((l : Int) + 1) : Int) : ℝ) := by
  unfold spinOrbit
  by_cases h : twoS = 0
  · rw [if_pos h, h, h0 h]
    push_cast
    ring
  · rw [if_neg h]
    push_cast
    ring

theorem potential_reached {t : Mass.Table} {H : Int → ℝ → ℝ → Option ℂ} {Z A : Int} {h : ℝ} {m : Om}
    (hm : OpticalObject t H Z A h m) {charge frag : Int} {n z : ℕ} {M mf : ℝ}
    (hc : OpticalCollision t Z A charge frag n z M mf) {E : ℝ} (hE : 0 ≤ E) (twoJ l twoS : Int) (r : ℝ) :
    ∃ k : Kin, k.lab = E ∧ (m.potential t r E frag twoJ l twoS charge).1
      = .ok (({ m with work := m.workOf k frag twoJ l twoS } : Om).omp r) := by
  obtain ⟨a0, a1, a2, a3, a4⟩ := opticalObject_members hm
  obtain ⟨_, _, _, h1⟩ := potential_eq t m m.targetMass m.kin m.work r E frag twoJ l twoS charge
  rw [← put_self] at h1
  rw [h1]
  unfold Om.pOf
  rw [a1, a2, hc.targetOf]
  dsimp only
  rw [hc.fragment]
  dsimp only
  have hcm : 0 ≤ cmOf M mf E := le_max_left _ _
  rw [kinOf_eq hc.fragment hc.target_pos hc.fragment_nonneg hcm]
  exact ⟨_, rest_cmOf hc.target_pos hc.fragment_nonneg hE, rfl⟩

/-- The potential is the published one, except more than a hundred times the diffuseness away from the surface. -/
theorem C92_potential {t : Mass.Table} {H : Int → ℝ → ℝ → Option ℂ} {Z A : Int} {h : ℝ} {m : Om}
    (hm : OpticalObject t H Z A h m) (hA : A ≤ 3000) {charge frag : Int} {n z : ℕ} {M mf : ℝ}
    (hc : OpticalCollision t Z A charge frag n z M mf) {E : ℝ} (hE : 0 ≤ E) {twoJ : Int} {l : ℕ} {twoS : Int}
    (h0 : twoS = 0 → twoJ = 2 * l) {r : ℝ} (hr : 0 < r)
    (hD : |r - Spec.KD.radius A (Spec.KD.rD A)| ≤ 100 * Spec.KD.mean n z (Spec.KD.aD A))
    (hS : |r - Spec.KD.radius A (Spec.KD.rSO A)| ≤ 100 * Spec.KD.aSO) :
    (m.potential t r E frag twoJ l twoS charge).1
      = .ok (some (Spec.KD.potential Z A n z E (spinOrbit twoJ l twoS) r)) := by
  obtain ⟨a0, a1, a2, a3, a4⟩ := opticalObject_members hm
  obtain ⟨k, rfl, h1⟩ := potential_reached hm hc hE twoJ l twoS r
  rw [h1, omp_eq a0 hA a1 a4 hc.frag twoJ l twoS hr hD hS (spinOrbit_eq h0)]

/-- Everywhere, the potential is the published one up to a factor `e^(-100)` of the depths. -/
theorem C92_everywhere {t : Mass.Table} {H : Int → ℝ → ℝ → Option ℂ} {Z A : Int} {h : ℝ} {m : Om}
    (hm : OpticalObject t H Z A h m) (hA : A ≤ 3000) {charge frag : Int} {n z : ℕ} {M mf : ℝ}
    (hc : OpticalCollision t Z A charge frag n z M mf) {E : ℝ} (hE : 0 ≤ E) {twoJ : Int} {l : ℕ} {twoS : Int}
    (h0 : twoS = 0 → twoJ = 2 * l) {r : ℝ} (hr : 0 < r) :
    ∃ U, (m.potential t r E frag twoJ l twoS charge).1 = .ok (some U) ∧
      |U.re - (Spec.KD.potential Z A n z E (spinOrbit twoJ l twoS) r).re|
        ≤ Real.exp (-100) * |Spec.KD.soFactor n z * Spec.KD.kinds n z (fun q => Spec.KD.VSOdepth A q E)
            * spinOrbit twoJ l twoS| * ((Spec.KD.ħc / Spec.KD.mπ) ^ 2 / (Spec.KD.aSO * r)) ∧
      |U.im - (Spec.KD.potential Z A n z E (spinOrbit twoJ l twoS) r).im|
        ≤ Real.exp (-100) * (4 * |Spec.KD.total n z (fun q => Spec.KD.Ddepth Z A q (E / (n + z)))|
          + |Spec.KD.soFactor n z * Spec.KD.kinds n z (fun q => Spec.KD.WSOdepth A q E) * spinOrbit twoJ l twoS|
            * ((Spec.KD.ħc / Spec.KD.mπ) ^ 2 / (Spec.KD.aSO * r))) := by
  obtain ⟨a0, a1, a2, a3, a4⟩ := opticalObject_members hm
  obtain ⟨k, rfl, h1⟩ := potential_reached hm hc hE twoJ l twoS r
  obtain ⟨U, h2, h3, h4, -⟩ := omp_close (k := k) a0 hA a1 a4 hc.frag twoJ l twoS hr (spinOrbit_eq h0)
  exact ⟨U, by rw [h1, h2], h3, h4⟩

/-- Without spin-orbit term, the potential absorbs. -/
theorem C92_absorbs {t : Mass.Table} {H : Int → ℝ → ℝ → Option ℂ} {Z A : Int} {h : ℝ} {m : Om}
    (hm : OpticalObject t H Z A h m) (hA : A ≤ 3000) (hZ : 0 ≤ Z) (hZA : Z ≤ A) {charge frag : Int} {n z : ℕ}
    {M mf : ℝ} (hc : OpticalCollision t Z A charge frag n z M mf) {E : ℝ} (hE : 0 ≤ E) {twoJ : Int} {l : ℕ} {twoS : Int}
    (h0 : twoS = 0 → twoJ = 2 * l) (hso : spinOrbit twoJ l twoS = 0) {r : ℝ} (hr : 0 < r) :
    ∃ U, (m.potential t r E frag twoJ l twoS charge).1 = .ok (some U) ∧ U.im ≤ 0 := by
  obtain ⟨a0, a1, a2, a3, a4⟩ := opticalObject_members hm
  obtain ⟨k, rfl, h1⟩ := potential_reached hm hc hE twoJ l twoS r
  obtain ⟨U, h2, -, -, h5⟩ := omp_close (k := k) a0 hA a1 a4 hc.frag twoJ l twoS hr (spinOrbit_eq h0)
  obtain ⟨w, d⟩ := absorb a0 hZ hZA n z (k.lab / (n + z))
  exact ⟨U, by rw [h1, h2], h5 hso w d⟩

/-- The Coulomb part is that of a uniformly charged sphere: by Gauss's law the force at distance `r` is that of the
charge within that distance. -/
theorem C92_gauss {Q q R r : ℝ} (hR : 0 < R) (hr : 0 < r) (hn : r ≠ R) :
    HasDerivAt (Spec.KD.coulombPot Q q R)
      (-(Q * q * (Spec.KD.α * Spec.KD.ħc)) * min 1 ((r / R) ^ 3) / r ^ 2) r := by
  rcases lt_or_gt_of_ne hn with h | h
  · have h1 : HasDerivAt (fun x : ℝ => Q * q * (Spec.KD.α * Spec.KD.ħc) / (2 * R) * (3 - x ^ 2 / R ^ 2))
        (Q * q * (Spec.KD.α * Spec.KD.ħc) / (2 * R) * (-((2 * r) / R ^ 2))) r := by
      have := (((hasDerivAt_pow 2 r).div_const (R ^ 2)).const_sub 3).const_mul
        (Q * q * (Spec.KD.α * Spec.KD.ħc) / (2 * R))
      simpa using this
    have h2 : Spec.KD.coulombPot Q q R =ᶠ[nhds r]
        fun x : ℝ => Q * q * (Spec.KD.α * Spec.KD.ħc) / (2 * R) * (3 - x ^ 2 / R ^ 2) := by
      filter_upwards [eventually_lt_nhds h] with x hx
      exact if_pos hx.le
    refine (h1.congr_of_eventuallyEq h2).congr_deriv ?_
    have : (r / R) ^ 3 ≤ 1 := pow_le_one₀ (by positivity) ((div_le_one hR).2 h.le)
    rw [min_eq_right this]
    field_simp
  · have h1 : HasDerivAt (fun x : ℝ => Q * q * (Spec.KD.α * Spec.KD.ħc) / x)
        (Q * q * (Spec.KD.α * Spec.KD.ħc) * (-(r ^ 2)⁻¹)) r := by
      have := (hasDerivAt_inv hr.ne').const_mul (Q * q * (Spec.KD.α * Spec.KD.ħc))
      simpa [div_eq_mul_inv] using this
    have h2 : Spec.KD.coulombPot Q q R =ᶠ[nhds r] fun x : ℝ => Q * q * (Spec.KD.α * Spec.KD.ħc) / x := by
      filter_upwards [eventually_gt_nhds h] with x hx
      exact if_neg (not_le.2 hx)
    refine (h1.congr_of_eventuallyEq h2).congr_deriv ?_
    have : 1 ≤ (r / R) ^ 3 := one_le_pow₀ ((one_le_div hR).2 h.le)
    rw [min_eq_left this]
    field_simp

/-! ## Examples -/

/-- A table with the same mass for all particles, and the same for all atoms. -/
noncomputable def flatTable : Mass.Table :=
  { particle := fun _ => some 1e6, atomic := fun _ => some 4e7 }

/-- Some Coulomb functions. -/
noncomputable def someCoulomb : Int → ℝ → ℝ → Option ℂ := fun _ _ ρ => some (Complex.exp (ρ * Complex.I))

theorem flat_collision (Z A frag : Int) (n z : ℕ) (h1 : Pdg.getZ frag = z) (h2 : Pdg.getA frag = n + z)
    (h3 : 1 ≤ n + z) (h4 : 0 ≤ frag) :
    OpticalCollision flatTable Z A 0 frag n z (4e7 * Mass.microAmu) (Mass.microAmu * 1e6) := by
  refine ⟨h1, h2, h3, ⟨4e7 * Mass.microAmu, Mass.microAmu * 1e6, rfl, ?_, by simp⟩, ?_, ?_, ?_⟩
  · norm_num [Mass.particleMass, flatTable]
  · unfold Mass.particleMass
    rw [if_neg (by omega)]
    rfl
  · norm_num [Mass.microAmu]
  · norm_num [Mass.microAmu]

theorem flat_object (Z A : Int) (hA : 1 ≤ A) (cs : List Call) (k : Kin) (w : Work) :
    ∃ m, OpticalObject flatTable someCoulomb Z A 0.1 m := by
  have h : ∃ m0, Om.make flatTable Z A 0.1 k w = .ok m0 := by
    unfold Om.make
    rw [if_neg (by omega)]
    exact ⟨_, rfl⟩
  obtain ⟨m0, h⟩ := h
  exact ⟨_, k, w, m0, cs, h, rfl⟩

/-- Neutrons on argon, after a call for alpha particles. -/
example : ∃ m x, OpticalObject flatTable someCoulomb 18 40 0.1 m ∧
    IsElement flatTable someCoulomb m 18 40 0.1 0 (4e7 * Mass.microAmu) (Mass.microAmu * 1e6) 5 2112 3 1 1 0 x := by
  obtain ⟨m, hm⟩ := flat_object 18 40 (by norm_num) [.transmission 7 1000020040 0 0 0 0] ⟨1, 2, 3, 4⟩
    ⟨1, 2, 3, 4, 5, 6, 7, 8, 9, 10, 11, 12, 13⟩
  obtain ⟨x, hx, -⟩ := C91_scattering hm (by norm_num) (by norm_num)
    (flat_collision 18 40 2112 1 0 (by decide) (by decide) (by decide) (by norm_num)) (KE := 5) (by norm_num) 3 1 1
  exact ⟨m, x, hm, hx⟩

/-- Protons on argon with 5 MeV, total angular momentum 1/2 and orbital angular momentum 1, at the surface. -/
example : ∃ m, OpticalObject flatTable someCoulomb 18 40 0.1 m ∧
    (m.potential flatTable (Spec.KD.radius 40 (Spec.KD.rD 40)) 5 2212 1 1 1 0).1 =
      .ok (some (Spec.KD.potential 18 40 0 1 5 (-2) (Spec.KD.radius 40 (Spec.KD.rD 40)))) := by
  obtain ⟨m, hm⟩ := flat_object 18 40 (by norm_num) [] ⟨1, 2, 3, 4⟩ ⟨1, 2, 3, 4, 5, 6, 7, 8, 9, 10, 11, 12, 13⟩
  refine ⟨m, hm, ?_⟩
  obtain ⟨c, hc1, hc2, e⟩ : ∃ c : ℝ, 3 ≤ c ∧ c ≤ 4 ∧ (40 : ℝ) ^ (1 / 3 : ℝ) = c := by
    refine ⟨_, ?_, ?_, rfl⟩
    · have h3 : (27 : ℝ) ^ (1 / 3 : ℝ) = 3 := by
        rw [show (27 : ℝ) = 3 ^ (3 : ℝ) by norm_num, ← Real.rpow_mul (by norm_num)]; norm_num
      exact h3.symm.le.trans (Real.rpow_le_rpow (by norm_num) (by norm_num) (by norm_num))
    · rw [show (4 : ℝ) = (64 : ℝ) ^ (1 / 3 : ℝ) by
        rw [show (64 : ℝ) = 4 ^ (3 : ℝ) by norm_num, ← Real.rpow_mul (by norm_num)]; norm_num]
      exact Real.rpow_le_rpow (by norm_num) (by norm_num) (by norm_num)
  have hso : spinOrbit 1 1 1 = -2 := by norm_num [spinOrbit]
  have e2 : (40 : ℝ) ^ (-(1 / 3) : ℝ) = c⁻¹ := by rw [Real.rpow_neg (by norm_num), e]
  have hrc : (1.3424 - 0.01585 * c) * c - (1.1854 - 0.647 * c⁻¹) * c = 0.157 * c - 0.01585 * c ^ 2 + 0.647 := by
    field_simp
    ring
  have := C92_potential hm (by norm_num) (flat_collision 18 40 2212 0 1 (by decide) (by decide) (by decide) (by norm_num))
    (E := 5) (by norm_num) (twoJ := 1) (l := 1) (twoS := 1) (by norm_num) (r := Spec.KD.radius 40 (Spec.KD.rD 40))
    (by unfold Spec.KD.radius Spec.KD.rD; rw [e]; nlinarith)
    (by push_cast; rw [sub_self]; norm_num [Spec.KD.mean, Spec.KD.aD])
    (by
      push_cast
      unfold Spec.KD.radius Spec.KD.rD Spec.KD.rSO Spec.KD.aSO
      rw [e, e2, hrc, abs_le]
      constructor <;> nlinarith)
  rw [hso] at this
  exact_mod_cast this

/-- The element for no total angular momentum other than `l ± 1/2` enters for spin one half. -/
example : couplings 2 1 = {3, 5} := by decide

/-- Spin-orbit values for spin one half. -/
example (l : ℕ) : spinOrbit (2 * l + 1) l 1 = l ∧ spinOrbit (2 * l - 1) l 1 = -(l + 1) := by
  constructor <;> (unfold spinOrbit; push_cast; ring)

/-- The Coulomb force inside and outside. -/
example : HasDerivAt (Spec.KD.coulombPot 2 18 4) (-(2 * 18 * (Spec.KD.α * Spec.KD.ħc)) * min 1 ((1 / 4) ^ 3) / 1 ^ 2) 1 :=
  C92_gauss (by norm_num) (by norm_num) (by norm_num)

/-- An alpha particle on argon is absorbed. -/
example : ∃ m U, OpticalObject flatTable someCoulomb 18 40 0.1 m ∧
    (m.potential flatTable 3 20 1000020040 4 2 0 0).1 = .ok (some U) ∧ U.im ≤ 0 := by
  obtain ⟨m, hm⟩ := flat_object 18 40 (by norm_num) [] ⟨1, 2, 3, 4⟩ ⟨1, 2, 3, 4, 5, 6, 7, 8, 9, 10, 11, 12, 13⟩
  obtain ⟨U, h1, h2⟩ := C92_absorbs hm (by norm_num) (by norm_num) (by norm_num)
    (flat_collision 18 40 1000020040 2 2 (by decide) (by decide) (by decide) (show (0 : Int) ≤ 1000020040 by norm_num))
    (E := 20) (by norm_num) (twoJ := 4) (l := 2) (twoS := 0) (by norm_num) (by norm_num [spinOrbit])
    (r := 3) (by norm_num)
  exact ⟨m, U, hm, h1, h2⟩

/-- Neutrons at the Fermi energy of a nucleus with 500 nucleons are not absorbed. -/
example : ∃ m KE, OpticalObject flatTable someCoulomb 200 500 0.1 m ∧ 0 < KE ∧
    (m.transmission flatTable someCoulomb KE 2112 1 1 1 0).1 = .ok 0 := by
  obtain ⟨m, hm⟩ := flat_object 200 500 (by norm_num) [] ⟨1, 2, 3, 4⟩ ⟨1, 2, 3, 4, 5, 6, 7, 8, 9, 10, 11, 12, 13⟩
  have hc := flat_collision 200 500 2112 1 0 (by decide) (by decide) (by decide) (by norm_num)
  have hf : (0 : ℝ) < Spec.KD.fermi 500 .neutron := by norm_num [Spec.KD.fermi]
  have hK : 0 ≤ cmOf (4e7 * Mass.microAmu) (Mass.microAmu * 1e6) (Spec.KD.fermi 500 .neutron) := le_max_left _ _
  have hE' := rest_cmOf hc.target_pos hc.fragment_nonneg hf.le
  generalize cmOf _ _ _ = KE at hK hE'
  have hK0 : 0 < KE := by
    rcases hK.lt_or_eq with h | h
    · exact h
    · rw [← h] at hE'
      have h0 : restEnergy (Mass.microAmu * 1e6) (4e7 * Mass.microAmu) 0 - Mass.microAmu * 1e6 = 0 := by
        norm_num [restEnergy, Mass.microAmu]
      linarith
  refine ⟨m, KE, hm, hK0, C91_unitary hm (by norm_num) (by norm_num) hc hK0 1 1 1 ?_⟩
  intro r V hr hV
  obtain ⟨U, h1, -, h3⟩ := C92_everywhere hm (by norm_num) hc hf.le (twoJ := 1) (l := 1) (twoS := 1) (by norm_num) hr
  rw [hE', Nat.cast_one] at hV
  rw [Nat.cast_one, hV] at h1
  cases h1
  have z0 : ((500 : Int) : ℝ) = 500 := by norm_num
  have hD : Spec.KD.total ((1 : ℕ) : ℝ) ((0 : ℕ) : ℝ) (fun q => Spec.KD.Ddepth ((200 : Int) : ℝ) ((500 : Int) : ℝ) q
      (Spec.KD.fermi 500 .neutron / (((1 : ℕ) : ℝ) + ((0 : ℕ) : ℝ)))) = 0 := by
    simp [Spec.KD.total, Spec.KD.Ddepth]
  have hW : Spec.KD.total ((1 : ℕ) : ℝ) ((0 : ℕ) : ℝ) (fun q => Spec.KD.Wdepth ((500 : Int) : ℝ) q
      (Spec.KD.fermi 500 .neutron / (((1 : ℕ) : ℝ) + ((0 : ℕ) : ℝ)))) = 0 := by
    simp [Spec.KD.total, Spec.KD.Wdepth]
  have hS : Spec.KD.kinds 1 0 (fun q => Spec.KD.WSOdepth ((500 : Int) : ℝ) q (Spec.KD.fermi 500 .neutron)) = 0 := by
    simp [Spec.KD.kinds, Spec.KD.WSOdepth]
  rw [hD, hS] at h3
  simp only [Spec.KD.potential, hD, hS, hW] at h3
  have := abs_nonpos_iff.1 (h3.trans (le_of_eq (by simp)))
  linarith

end Marley.Props
