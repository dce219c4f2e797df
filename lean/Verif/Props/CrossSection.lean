import Verif.Lemmas.CrossSection
import Verif.Props.Scatter
import Verif.Props.Electron
import Verif.Props.Reaction
import Verif.Props.Generator

/-!
# Cross sections and events of nuclear reactions (C36-C39, C42, C81, C83, C84)
-/

set_option autoImplicit false

namespace Marley.Props
open Marley Marley.Reaction Marley.Sampling Marley.Kin Marley.Xs
open Marley.Utils (CoulombMode)

variable {G : Type}

theorem Nuc.Good.masses {n : Nuc} (h : n.Good) {E : ℝ} (hE : 0 ≤ E) : GoodMasses (n.masses E) :=
  ⟨h.a, h.b, h.c, add_nonneg h.d.le hE⟩

/-! ## C36: which level is reached -/

/-- C36: the level chosen is one of the tabulated ones and can be reached at this energy,
whatever the strengths. -/
theorem C36_accessible {E : Env G} (hE : E.engine.Lawful) {n : Nuc} (hn : n.Good) {pdg : Int} {KEa : ℝ}
    {g g' : G} {m : MatEl} (e : n.choose E pdg KEa g = .ok (m, g')) :
    m ∈ n.elements ∧ n.Reaches KEa m := by
  obtain ⟨-, -, hK, w, i, h1, h2, h3, h4⟩ := choose_parts e
  have hne : w ≠ [] := by rintro rfl; simp at h2
  obtain ⟨m', h5, h6⟩ := partials_reach h1 (pickFrom_lt hE hne h3)
  rw [h4] at h5
  cases h5
  exact ⟨List.mem_of_getElem? h4, (reaches_iff hn hK.le m).2 h6⟩

/-- C36, for reactions none of whose tabulated strengths is zero: the list of weights
has, in the same order, the partial cross section of each accessible transition, and
the transition returned is the one at the index that is drawn with these weights.  Its
partial cross section is positive, except possibly if the random number is exactly
zero.  Missing: reactions with a strength of zero (`C36_violated`). -/
theorem C36_weights_partial {E : Env G} (hE : E.engine.Lawful) {n : Nuc} (hn : n.Good)
    (hf : ∀ b, (E.fermi n b).NonNeg) (hz : ∀ m ∈ n.elements, m.strength ≠ 0)
    {pdg : Int} {KEa : ℝ} {g g' : G} {m : MatEl} (e : n.choose E pdg KEa g = .ok (m, g')) :
    ∃ w i, (∀ (j : Nat) (x : ℝ), w[j]? = some x →
        ∃ mj, n.elements[j]? = some mj ∧ n.Reaches KEa mj ∧ Partial E.fermi n KEa mj x) ∧
      (n.Sorted → ∀ (j : Nat) (mj : MatEl), n.elements[j]? = some mj → n.Reaches KEa mj → j < w.length) ∧
      0 < w.sum ∧ pickFrom E.engine w g = .ok (i, g') ∧ i < w.length ∧ n.elements[i]? = some m ∧
      ((E.engine.draw g).1 ≠ 0 → ∃ x, Partial E.fermi n KEa m x ∧ 0 < x) := by
  obtain ⟨-, -, hK, w, i, h1, h2, h3, h4⟩ := choose_parts e
  have hne : w ≠ [] := by rintro rfl; simp at h2
  have hw := partials_nonneg hn hK.le hf n.elements (fun _ h => h) h1
  refine ⟨w, i, ?_, ?_, h2, h3, pickFrom_lt hE hne h3, h4, ?_⟩
  · intro j x hj
    obtain ⟨mj, k1, k2, k3⟩ := partials_get _ hz h1 hj
    exact ⟨mj, k1, (reaches_iff hn hK.le mj).2 k2, k3⟩
  · intro hs j mj hj hr
    exact partials_complete hn hK.le _ hz hs h1 hj ((reaches_iff hn hK.le mj).1 hr)
  · intro hd
    have key : ∀ x, w[i]? = some x → 0 < x → ∃ x, Partial E.fermi n KEa m x ∧ 0 < x := by
      intro x hx hx0
      obtain ⟨mj, k1, -, k3⟩ := partials_get _ hz h1 hx
      rw [h4] at k1
      cases k1
      exact ⟨x, k3, hx0⟩
    rcases C19_choice_partial hE hw h2 h3 with ⟨q1, q2, -⟩ | ⟨-, q, -⟩ | ⟨-, -, -, -, x, q1, q2⟩
    · obtain ⟨x, rfl⟩ := List.length_eq_one_iff.1 q1
      exact key x (by rw [q2]; rfl) (by simpa using h2)
    · exact absurd q hd
    · exact key x q1 q2

/-- C36: the excitation energy of the event is that of the level chosen, and the
scattering is done with the residue in this level. -/
theorem C36_event {E : Env G} {n : Nuc} {pdg : Int} {KEa : ℝ} {g g' : G} {ev : Event ℝ}
    (e : n.createEvent E pdg KEa g = some (.ok (ev, g'))) :
    ∃ m g1, n.choose E pdg KEa g = .ok (m, g1) ∧ ev.Ex = m.levelEnergy := by
  obtain ⟨m, g1, beta, c, g2, J, P, J', P', ev', h1, -, -, -, -, h6, h7⟩ := createEvent_parts e
  exact ⟨m, g1, h1, by rw [(setCharges_labels h7).1, (makeEvent_labels h6).1]⟩

/-! ## C37: total cross sections -/

/-- C37: if the level energies are in order, the total cross section is the sum of the
partial cross sections of all transitions (that of an inaccessible transition is
zero).  Missing: level energies out of order, see `C37_unsorted_violated`. -/
theorem C37_sum_partial {fermi : Nuc → Val → Val} {n : Nuc} (hn : n.Good) (hs : n.Sorted) {KEa : ℝ}
    (hK : 0 < KEa) {t : ℝ} (e : n.totalXs fermi n.pdgA KEa = .ok t) :
    ∃ xs, List.Forall₂ (Partial fermi n KEa) n.elements xs ∧ t = xs.sum := by
  unfold Nuc.totalXs summed at e
  simp only [ne_eq, not_true_eq_false, if_false, Bool.false_eq_true, if_neg (not_le.2 hK)] at e
  cases h : partials fermi n KEa none n.elements with
  | error _ => rw [h] at e; cases e
  | ok l =>
    rw [h] at e
    cases e
    exact partials_sum hn hK.le _ hs h

/-- C37: a transition that cannot be reached has no cross section. -/
theorem C37_inaccessible {fermi : Nuc → Val → Val} {n : Nuc} (hn : n.Good) {KEa : ℝ} (hK : 0 ≤ KEa)
    {m : MatEl} (h : ¬ n.Reaches KEa m) : transitionXs fermi n m KEa = .ok (.num 0, none) := by
  have h' : (n.maxLevel KEa).lt (.num m.levelEnergy) = true := by
    rw [← Bool.not_eq_false]
    exact fun q => h ((reaches_iff hn hK m).2 q)
  unfold transitionXs
  split_ifs <;> rfl

/-- C37: the total cross section is not negative. -/
theorem C37_nonneg {fermi : Nuc → Val → Val} {n : Nuc} (hn : n.Good)
    (hf : ∀ b, (fermi n b).NonNeg) {pdg : Int} {KEa t : ℝ} (e : n.totalXs fermi pdg KEa = .ok t) :
    0 ≤ t := by
  unfold Nuc.totalXs summed at e
  split_ifs at e with h1 h2 h3
  · cases e; exact le_refl _
  · cases e; exact le_refl _
  · cases e; exact le_refl _
  · cases h : partials fermi n KEa none n.elements with
    | error _ => rw [h] at e; cases e
    | ok l =>
      rw [h] at e
      cases e
      exact List.sum_nonneg (partials_nonneg hn (not_le.1 h3).le hf _ (fun _ h => h) h)

/-- C37: it is zero for another projectile, without kinetic energy and below
threshold. -/
theorem C37_zero {fermi : Nuc → Val → Val} {n : Nuc} (hn : n.Good) {pdg : Int} {KEa : ℝ}
    (h : pdg ≠ n.pdgA ∨ KEa ≤ 0 ∨ KEa < threshold (n.masses 0)) : n.totalXs fermi pdg KEa = .ok 0 := by
  unfold Nuc.totalXs summed
  by_cases h1 : pdg ≠ n.pdgA
  · rw [if_pos h1]; rfl
  rw [if_neg h1]
  simp only [Bool.false_eq_true, if_false]
  by_cases h2 : KEa ≤ 0
  · rw [if_pos h2]; rfl
  rw [if_neg h2]
  have h3 : KEa < threshold (n.masses 0) := by tauto
  have hK := (not_le.1 h2).le
  cases he : n.elements with
  | nil => rfl
  | cons m ms =>
    have hm : m ∈ n.elements := by rw [he]; simp
    have : (n.maxLevel KEa).lt (.num m.levelEnergy) = true := by
      rw [maxLevel_eq hn hK, Val.num_lt, decide_eq_true_eq]
      exact C35_below_threshold (Nuc.Good.masses hn (le_refl 0)) hK (hn.energy m hm) h3
    rw [partials, if_pos this]
    rfl

/-! ## C38: spin and parity of the residue -/

/-- C38: the spin and parity of the residue are those of the discrete level if the
chosen transition leads to one; otherwise those of the target ground state for a Fermi
transition, and the same parity with an allowed spin for a Gamow-Teller transition. -/
theorem C38_spin_parity {E : Env G} (hE : E.engine.Lawful) {n : Nuc} {pdg : Int} {KEa : ℝ} {g g' : G}
    {ev : Event ℝ} {J : Int} {P : Parity} (hJ : 0 ≤ J) (hgs : E.gs n.pdgB = .ok (J, P))
    (e : n.createEvent E pdg KEa g = some (.ok (ev, g'))) :
    ∃ m g1, n.choose E pdg KEa g = .ok (m, g1) ∧
      match m.level with
      | some l => ev.twoJ = l.2.twoJ ∧ ev.parity = l.2.parity
      | none => ev.parity = P ∧
        (m.type = 0 ∧ ev.twoJ = J ∨ m.type = 1 ∧ SpinAllowed J ev.twoJ) := by
  obtain ⟨m, g1, beta, c, g2, J0, P0, J', P', ev', h1, -, -, h4, h5, h6, h7⟩ := createEvent_parts e
  rw [hgs] at h4
  cases h4
  refine ⟨m, g1, h1, ?_⟩
  have k1 : ev.twoJ = J' := by rw [(setCharges_labels h7).2.1, (makeEvent_labels h6).2.1]
  have k2 : ev.parity = P' := by rw [(setCharges_labels h7).2.2, (makeEvent_labels h6).2.2]
  rw [k1, k2]
  unfold spinParity at h5
  cases hl : m.level with
  | some l =>
    rw [hl] at h5
    cases h5
    exact ⟨rfl, rfl⟩
  | none =>
    rw [hl] at h5
    simp only at h5
    by_cases t0 : m.type = 0
    · rw [if_pos t0] at h5
      cases h5
      exact ⟨rfl, Or.inl ⟨t0, rfl⟩⟩
    rw [if_neg t0] at h5
    by_cases t1 : m.type = 1
    · rw [if_pos t1] at h5
      by_cases j0 : J = 0
      · rw [if_pos j0] at h5
        cases h5
        refine ⟨rfl, Or.inr ⟨t1, ?_⟩⟩
        rw [j0]
        unfold SpinAllowed
        decide
      · rw [if_neg j0] at h5
        cases hd : E.density n.pdgD with
        | error _ => rw [hd] at h5; cases h5
        | ok rho =>
          rw [hd] at h5
          simp only at h5
          split at h5
          · cases h5
          · split at h5
            · cases h5
            · rename_i hk
              cases h5
              have hm := gtSpins_mem (List.mem_of_getElem? hk)
              refine ⟨rfl, Or.inr ⟨t1, ?_, hm.2.1, hm.2.2, by omega⟩⟩
              rw [Int.abs_eq_natAbs]
              exact hm.1
    · rw [if_neg t1] at h5; cases h5

/-- C38: the spin of a Gamow-Teller transition to the continuum from a target with spin
is drawn among all allowed spins, with the densities of levels of that spin and parity
at the excitation energy as weights. -/
theorem C38_weights {E : Env G} {n : Nuc} {m : MatEl} {J J' : Int} {P P' : Parity} (hJ : 0 < J) {g g' : G}
    (hl : m.level = none) (ht : m.type = 1) (e : spinParity E n m J P g = .ok (J', P', g')) :
    ∃ (spins : List Int) (rho : ℝ → Int → Parity → ℝ) (i : Nat), E.density n.pdgD = .ok rho ∧ spins.Nodup ∧ (∀ x, x ∈ spins ↔ SpinAllowed J x) ∧
      pickFrom E.engine (spins.map (fun x => rho m.levelEnergy x P)) g = .ok (i, g') ∧
      spins[i]? = some J' := by
  unfold spinParity at e
  rw [hl] at e
  simp only at e
  rw [if_neg (by rw [ht]; decide), if_pos ht, if_neg hJ.ne'] at e
  cases hd : E.density n.pdgD with
  | error _ => rw [hd] at e; cases e
  | ok rho =>
    rw [hd] at e
    simp only at e
    split at e
    · cases e
    · rename_i i g1 hp
      split at e
      · cases e
      · rename_i J1 hk
        cases e
        refine ⟨gtSpins J, rho, i, rfl, ?_, ?_, hp, hk⟩
        · unfold gtSpins
          refine List.Nodup.map ?_ List.nodup_range
          intro a b hab
          simp only at hab
          omega
        · intro x
          constructor
          · intro hx
            have := gtSpins_mem hx
            exact ⟨by rw [Int.abs_eq_natAbs]; exact this.1, this.2.1, this.2.2, by omega⟩
          · rintro ⟨q1, q2, q3, -⟩
            exact mem_gtSpins (by rwa [Int.abs_eq_natAbs] at q1) q2 q3

/-! ## C39: Coulomb corrections -/

/-- C39: neutral-current cross sections do not depend on the Coulomb mode nor on the Fermi
function, and the factor is one when corrections are switched off. -/
theorem C39_one (fermi fermi' : Nuc → Val → Val) (n : Nuc) :
    (n.proc = .nc → ∀ mode m KEa, levelXs fermi { n with mode := mode } m KEa = levelXs fermi' n m KEa) ∧
    (n.mode = .noCorrection → ∀ beta, coulomb fermi n beta = .ok (.num 1)) := by
  constructor
  · intro h mode m KEa
    unfold levelXs
    simp only [h]
    rfl
  · intro h beta
    unfold coulomb
    rw [h]

/-- C39: with the Fermi function requested the factor is the Fermi function. -/
theorem C39_fermi {fermi : Nuc → Val → Val} {n : Nuc} (h : n.mode = .fermiFunction) (beta : Val) :
    coulomb fermi n beta = .ok (fermi n beta) := by
  unfold coulomb
  rw [h]

/-- The factor of the effective momentum approximation, in its simple and in its
modified form. -/
theorem C39_ema_value {n : Nuc} (hc : 0 < n.mc) (hA : 0 < n.Af) {beta : ℝ} (h0 : 0 < beta) (h1 : beta < 1)
    {q : Ema} (hq : Ema.Is n beta q) :
    (emaFactor n (.num beta) false).2 = decide (n.mc ≤ q.Eeff) ∧
    (emaFactor n (.num beta) true).2 = decide (n.mc ≤ q.Eeff) ∧
    (n.mc ≤ q.Eeff → (emaFactor n (.num beta) false).1 = .num ((q.peff / q.p) ^ 2) ∧
      (emaFactor n (.num beta) true).1 = .num (q.peff * q.Eeff / (q.p * q.E))) := by
  obtain ⟨e1, e2, e3, e4, e5⟩ := hq
  have hb : 0 < 1 - beta ^ 2 := by nlinarith
  have hs : 0 < Real.sqrt (1 - beta ^ 2) := Real.sqrt_pos.2 hb
  have hE : 1 / Real.sqrt (1 - beta ^ 2) * n.mc = q.E := by
    rw [← e1]; field_simp
  have hE0 : 0 < q.E := by rw [← hE]; positivity
  have hp0 : 0 < q.p := by rw [e2]; positivity
  have hAr : (0 : ℝ) < (n.Af : ℝ) := by exact_mod_cast hA
  have hpow : 0 < (n.Af : ℝ) ^ (1 / 3 : ℝ) := Real.rpow_pos_of_pos hAr _
  have hh : 0 < hbarC := by unfold hbarC; norm_num
  have hr0 : 0 < r0 := by unfold r0; norm_num
  have hR : 0 < r0 * (n.Af : ℝ) ^ (1 / 3 : ℝ) / hbarC := by positivity
  have hR2 : 2 * (r0 * (n.Af : ℝ) ^ (1 / 3 : ℝ) / hbarC) ≠ 0 := by positivity
  have hV : (if n.pdgC > 0 then -3 * (n.Zf : ℝ) * alpha / (2 * (r0 * (n.Af : ℝ) ^ (1 / 3 : ℝ) / hbarC))
      else -(-3 * (n.Zf : ℝ) * alpha / (2 * (r0 * (n.Af : ℝ) ^ (1 / 3 : ℝ) / hbarC)))) = q.E - q.Eeff := by
    rw [mul_div_assoc] at e3
    split_ifs with hp
    · rw [if_pos hp] at e3
      rw [div_eq_iff hR2, e3]; ring
    · rw [if_neg hp] at e3
      rw [neg_eq_iff_eq_neg, div_eq_iff hR2, neg_mul (q.E - q.Eeff), e3]; ring
  have hVc : (if n.pdgC > 0 then Val.num (-3 * (n.Zf : ℝ) * alpha) / (Val.num 2 * radius n.Af)
      else -(Val.num (-3 * (n.Zf : ℝ) * alpha) / (Val.num 2 * radius n.Af))) = .num (q.E - q.Eeff) := by
    have hrad : radius n.Af = .num (r0 * (n.Af : ℝ) ^ (1 / 3 : ℝ) / hbarC) := by
      unfold radius; rw [if_neg (by omega)]
    rw [hrad, Val.num_mul, Val.num_div hR2, Val.num_neg, ← hV]
    split_ifs <;> rfl
  have hpe : n.mc ≤ q.Eeff → Utils.realSqrt (q.Eeff ^ 2 - n.mc * n.mc) = q.peff := by
    intro h
    have : q.Eeff ^ 2 - n.mc * n.mc = q.peff ^ 2 := by rw [e5 h]; ring
    rw [this, Xs.realSqrt_eq (sq_nonneg _), Real.sqrt_sq e4]
  unfold emaFactor
  simp only [hVc, Val.num_sq, Val.num_sub, Val.num_rsqrt hb, Val.num_mul, hE, ← e2, sub_sub_cancel,
    Val.num_le, Val.num_realSqrt, Val.num_div hp0.ne', Val.num_div (mul_pos hp0 hE0).ne']
  refine ⟨trivial, trivial, fun h => ?_⟩
  rw [hpe h]
  exact ⟨rfl, rfl⟩

/-- C39: where the (modified) effective momentum approximation is requested, its factor is
used if it is valid and an error is thrown otherwise. -/
theorem C39_ema {fermi : Nuc → Val → Val} {n : Nuc} (hc : 0 < n.mc) (hA : 0 < n.Af) {beta : ℝ}
    (h0 : 0 < beta) (h1 : beta < 1) {q : Ema} (hq : Ema.Is n beta q) :
    (n.mode = .ema → coulomb fermi n (.num beta) =
      if n.mc ≤ q.Eeff then .ok (.num ((q.peff / q.p) ^ 2)) else .error .marleyError) ∧
    (n.mode = .mema → coulomb fermi n (.num beta) =
      if n.mc ≤ q.Eeff then .ok (.num (q.peff * q.Eeff / (q.p * q.E))) else .error .marleyError) := by
  obtain ⟨k1, k2, k3⟩ := C39_ema_value hc hA h0 h1 hq
  constructor <;> intro hm <;> unfold coulomb <;> rw [hm] <;> simp only [k1, k2, decide_eq_true_eq]
  · split_ifs with h
    · rw [(k3 h).1]
    · rfl
  · split_ifs with h
    · rw [(k3 h).2]
    · rfl

/-- C39: in the combined modes the factor is the Fermi function if the approximation is not
valid, and otherwise the one of the two that is closer to one. -/
theorem C39_combined {fermi : Nuc → Val → Val} {n : Nuc} (hc : 0 < n.mc) (hA : 0 < n.Af) {beta : ℝ}
    (h0 : 0 < beta) (h1 : beta < 1) {q : Ema} (hq : Ema.Is n beta q) {f : ℝ}
    (hf : fermi n (.num beta) = .num f) {x : ℝ}
    (hm : n.mode = .fermiAndEma ∧ x = (q.peff / q.p) ^ 2 ∨
      n.mode = .fermiAndMema ∧ x = q.peff * q.Eeff / (q.p * q.E)) :
    ∃ y, coulomb fermi n (.num beta) = .ok (.num y) ∧
      (q.Eeff < n.mc → y = f) ∧
      (n.mc ≤ q.Eeff → (y = f ∨ y = x) ∧ |y - 1| ≤ |f - 1| ∧ |y - 1| ≤ |x - 1|) := by
  obtain ⟨k1, k2, k3⟩ := C39_ema_value hc hA h0 h1 hq
  have main : ∀ b : Bool, (emaFactor n (.num beta) b).2 = decide (n.mc ≤ q.Eeff) →
      (n.mc ≤ q.Eeff → (emaFactor n (.num beta) b).1 = .num x) →
      ∃ y, (if (emaFactor n (.num beta) b).2 = false then (.ok (fermi n (.num beta)) : Res Val)
        else if (fermi n (.num beta) - .num 1).abs.lt ((emaFactor n (.num beta) b).1 - .num 1).abs then
          .ok (fermi n (.num beta)) else .ok (emaFactor n (.num beta) b).1) = .ok (.num y) ∧
        (q.Eeff < n.mc → y = f) ∧
        (n.mc ≤ q.Eeff → (y = f ∨ y = x) ∧ |y - 1| ≤ |f - 1| ∧ |y - 1| ≤ |x - 1|) := by
    intro b hb1 hb2
    rw [hb1, hf]
    by_cases hv : n.mc ≤ q.Eeff
    · rw [hb2 hv, if_neg (by simpa using hv)]
      simp only [Val.num_sub, Val.num_abs, Val.num_lt, decide_eq_true_eq]
      by_cases hlt : |f - 1| < |x - 1|
      · rw [if_pos hlt]
        exact ⟨f, rfl, fun _ => rfl, fun _ => ⟨Or.inl rfl, le_refl _, hlt.le⟩⟩
      · rw [if_neg hlt]
        exact ⟨x, rfl, fun h => absurd h (not_lt.2 hv), fun _ => ⟨Or.inr rfl, not_lt.1 hlt, le_refl _⟩⟩
    · rw [if_pos (by simpa using hv)]
      exact ⟨f, rfl, fun _ => rfl, fun h => absurd h hv⟩
  rcases hm with ⟨hm, hx⟩ | ⟨hm, hx⟩
  · unfold coulomb
    rw [hm]
    exact main false k1 (fun h => by rw [(k3 h).1, hx])
  · unfold coulomb
    rw [hm]
    exact main true k2 (fun h => by rw [(k3 h).2, hx])

/-! ## C83: the partial cross sections -/

/-- C83: the cross section of an accessible transition is
`GF²/π · E_b E_d / s · E_c p_c · B` with the energies of the centre-of-momentum frame,
times `Vud²` and the Coulomb factor at the relative speed of ejectile and residue for
charged currents, times a quarter of the squared weak charge `N - (1 - 4 sin²θ) Z` for neutral-current
Fermi transitions. -/
theorem C83_value {fermi : Nuc → Val → Val} {n : Nuc} (hn : n.Good) {KEa : ℝ} (hK : 0 ≤ KEa)
    {m : MatEl} (hm : m ∈ n.elements) (hst : m.strength ≠ 0) (hr : n.Reaches KEa m) {k : Cm}
    (hk : k.Is n KEa m) {x : ℝ}
    (hx : x = GF ^ 2 / Real.pi * (k.Eb * k.Ed / k.rs ^ 2) * k.Ec * k.pc * m.strength) :
    (n.proc = .nc ∧ m.type = 1 → ∃ b, transitionXs fermi n m KEa = .ok (.num x, b)) ∧
    (n.proc = .nc ∧ m.type = 0 → ∀ N : Int, N + n.Zi = n.Ai → ∃ b, transitionXs fermi n m KEa
      = .ok (.num (x * (((N : ℝ) - (1 - 4 * sin2thetaw) * n.Zi) ^ 2 / 4)), b)) ∧
    (n.proc ≠ .nc → ∀ rel f : ℝ, 0 ≤ rel →
      (rel * (k.Ec * k.Ed + k.pc ^ 2)) ^ 2
        = (k.Ec * k.Ed + k.pc ^ 2) ^ 2 - (n.mc * (n.md + m.levelEnergy)) ^ 2 → k.Ec ≠ 0 →
      coulomb fermi n (.num rel) = .ok (.num f) →
      ∃ b, transitionXs fermi n m KEa = .ok (.num (x * Vud ^ 2 * f), b)) ∧
    (n.proc ≠ .nc → ∀ (rel : ℝ) (err : Exc), 0 ≤ rel →
      (rel * (k.Ec * k.Ed + k.pc ^ 2)) ^ 2
        = (k.Ec * k.Ed + k.pc ^ 2) ^ 2 - (n.mc * (n.md + m.levelEnergy)) ^ 2 → k.Ec ≠ 0 →
      coulomb fermi n (.num rel) = .error err → transitionXs fermi n m KEa = .error err) := by
  have hu := cm_unique hn hK hk
  have hd : 0 < n.md + m.levelEnergy := add_pos_of_pos_of_nonneg hn.d (hn.energy m hm)
  obtain ⟨-, -, c3, c4, c5, -, -⟩ := cm_spec hn hK hd hr
  rw [← hu] at c3 c4 c5
  have hb : n.base (n.md + m.levelEnergy) KEa * m.strength = x := by
    unfold Nuc.base
    rw [← hu, hx, hk.2.1]
    ring_nf
  have hrel : ∀ rel : ℝ, 0 ≤ rel → (rel * (k.Ec * k.Ed + k.pc ^ 2)) ^ 2
        = (k.Ec * k.Ed + k.pc ^ 2) ^ 2 - (n.mc * (n.md + m.levelEnergy)) ^ 2 → k.Ec ≠ 0 →
      n.rel (n.md + m.levelEnergy) KEa = .num rel := by
    intro rel h0 h1 h2
    unfold Nuc.rel
    rw [← hu]
    have hEc : 0 < k.Ec := lt_of_le_of_ne (hn.c.trans c3) (Ne.symm h2)
    have hdot : 0 < k.Ed * k.Ec + k.pc ^ 2 := by
      have : 0 < k.Ed := hd.trans_le c5
      positivity
    have e : (k.Ed * k.Ec + k.pc ^ 2) ^ 2 - n.mc * n.mc * (n.md + m.levelEnergy) ^ 2
        = (rel * (k.Ed * k.Ec + k.pc ^ 2)) ^ 2 := by
      rw [mul_comm k.Ed k.Ec, h1]; ring
    rw [e, Xs.realSqrt_eq (sq_nonneg _), Real.sqrt_sq (mul_nonneg h0 hdot.le), Val.num_div hdot.ne',
      mul_div_assoc, div_self hdot.ne', mul_one]
  have hlt : (n.maxLevel KEa).lt (.num m.levelEnergy) = false := (reaches_iff hn hK m).1 hr
  have ht : transitionXs fermi n m KEa = match levelXs fermi n m KEa with
      | .error e => .error e
      | .ok (x, b) => .ok (x, some b) := by
    unfold transitionXs
    rw [if_neg hst, if_neg (by simp [hlt])]
    rfl
  rw [ht, levelXs_eq hn hK, hb]
  refine ⟨?_, ?_, ?_, ?_⟩
  · rintro ⟨hp, hty⟩
    rw [hp]
    simp only [if_neg (show ¬ m.type = 0 by omega), mul_one]
    exact ⟨_, rfl⟩
  · rintro ⟨hp, hty⟩ N hN
    have hw : (0.25 : ℝ) * weakCharge n ^ 2 = ((N : ℝ) - (1 - 4 * sin2thetaw) * n.Zi) ^ 2 / 4 := by
      unfold weakCharge
      rw [show n.Ai - n.Zi = N by omega]
      ring
    rw [hp]
    simp only [if_pos hty, hw]
    exact ⟨_, rfl⟩
  · intro hp rel f h0 h1 h2 hf
    rw [hrel rel h0 h1 h2]
    rcases hn.proc with h | h | h
    · rw [h]; simp only [hf, Val.num_mul]
      exact ⟨_, by rw [show x * (Vud * Vud * f) = x * Vud ^ 2 * f by ring]⟩
    · rw [h]; simp only [hf, Val.num_mul]
      exact ⟨_, by rw [show x * (Vud * Vud * f) = x * Vud ^ 2 * f by ring]⟩
    · exact absurd h hp
  · intro hp rel err h0 h1 h2 hf
    rw [hrel rel h0 h1 h2]
    rcases hn.proc with h | h | h
    · rw [h]; simp only [hf]
    · rw [h]; simp only [hf]
    · exact absurd h hp

/-- The energies exist whenever the level can be reached. -/
theorem C83_energies {n : Nuc} (hn : n.Good) {KEa : ℝ} (hK : 0 ≤ KEa) {m : MatEl} (hm : m ∈ n.elements)
    (hr : n.Reaches KEa m) : ∃! k : Cm, k.Is n KEa m := by
  have hd : 0 < n.md + m.levelEnergy := add_pos_of_pos_of_nonneg hn.d (hn.energy m hm)
  obtain ⟨c1, c2, c3, c4, c5, c6, c7⟩ := cm_spec hn hK hd hr
  refine ⟨n.cm (n.md + m.levelEnergy) KEa, ?_, fun k hk => cm_unique hn hK hk⟩
  have hs := hn.s_pos hK
  have e1 : (n.cm (n.md + m.levelEnergy) KEa).rs ^ 2 = (n.ma + n.mb) ^ 2 + 2 * n.mb * KEa :=
    Real.sq_sqrt hs.le
  have e2 : (n.cm (n.md + m.levelEnergy) KEa).Ed = (n.cm (n.md + m.levelEnergy) KEa).rs
      - (n.cm (n.md + m.levelEnergy) KEa).Ec := rfl
  have e3 : (n.cm (n.md + m.levelEnergy) KEa).Eb = ((n.ma + n.mb) ^ 2 + 2 * n.mb * KEa + n.mb * n.mb
      - n.ma * n.ma) / (2 * (n.cm (n.md + m.levelEnergy) KEa).rs) := rfl
  generalize n.cm (n.md + m.levelEnergy) KEa = k at *
  refine ⟨c1, by rw [e1]; ring, by rw [e2]; ring, c6, c6.symm.trans c7, c4, ?_, c2.le⟩
  rw [← e1] at e3
  have : k.Eb * (2 * k.rs) = k.rs ^ 2 + n.mb * n.mb - n.ma * n.ma := by
    rw [e3]; field_simp
  nlinarith

/-! ## C42: angular densities -/

/-- C42: the density of the scattering cosine of a Fermi or Gamow-Teller transition is
nonnegative, integrates to one, is zero nowhere beyond its maximum, and that maximum is
the bound used for rejection sampling. -/
theorem C42_density {m : MatEl} (ht : m.type = 0 ∨ m.type = 1) {beta : ℝ} (h0 : 0 ≤ beta) (h1 : beta ≤ 1) :
    ∃ (d : ℝ → ℝ) (M : ℝ), (∀ c, cosDensity m c beta = .ok (d c)) ∧ cosMax m beta = .ok M ∧
      (∀ c, -1 ≤ c → c ≤ 1 → 0 ≤ d c ∧ d c ≤ M) ∧ (∃ c, -1 ≤ c ∧ c ≤ 1 ∧ d c = M) ∧
      ∫ c in (-1 : ℝ)..1, d c = 1 := by
  have hd : ∀ c, cosDensity m c beta
      = .ok (if m.type = 0 then (1 + beta * c) / 2 else (3 - beta * c) / 6) := by
    intro c
    unfold cosDensity
    rw [cosPdf_num ht]
  refine ⟨fun c => if m.type = 0 then (1 + beta * c) / 2 else (3 - beta * c) / 6,
    if m.type = 0 then (1 + beta) / 2 else (3 + beta) / 6, hd, ?_, ?_, ?_, cosPdf_integral _ _⟩
  · unfold cosMax
    by_cases h : m.type = 0
    · rw [if_pos h, if_pos h, hd, if_pos h, mul_one]
    · rw [if_neg h, if_pos (ht.resolve_left h), if_neg h, hd, if_neg h]
      congr 1; ring
  · intro c k1 k2
    split_ifs <;> constructor <;> nlinarith
  · by_cases h : m.type = 0
    · exact ⟨1, by norm_num, le_refl _, by simp [h]⟩
    · exact ⟨-1, le_refl _, by norm_num, by simp [h]⟩

/-! ## C81: differential cross sections -/

/-- C81: the differential cross section of a nuclear reaction is zero outside of [-1, 1]
and its integral over the scattering cosine is the total cross section. -/
theorem C81_integral {fermi : Nuc → Val → Val} {n : Nuc} (hn : n.Good) {pdg : Int} {KEa t : ℝ}
    (e : n.totalXs fermi pdg KEa = .ok t) :
    ∃ d : ℝ → ℝ, (∀ c, n.diffXs fermi pdg KEa c = .ok (d c)) ∧ (∀ c, 1 < |c| → d c = 0) ∧
      ∫ c in (-1 : ℝ)..1, d c = t := by
  have zero : (∀ c, n.diffXs fermi pdg KEa c = .ok 0) → t = 0 →
      ∃ d : ℝ → ℝ, (∀ c, n.diffXs fermi pdg KEa c = .ok (d c)) ∧ (∀ c, 1 < |c| → d c = 0) ∧
      ∫ c in (-1 : ℝ)..1, d c = t :=
    fun h1 h2 => ⟨fun _ => 0, h1, fun _ _ => rfl, by simp [h2]⟩
  unfold Nuc.totalXs summed at e
  by_cases h1 : pdg ≠ n.pdgA
  · rw [if_pos h1] at e
    cases e
    refine zero (fun c => ?_) rfl
    unfold Nuc.diffXs summed
    rw [if_pos h1]; rfl
  rw [if_neg h1] at e
  simp only [Bool.false_eq_true, if_false] at e
  by_cases h2 : KEa ≤ 0
  · rw [if_pos h2] at e
    cases e
    refine zero (fun c => ?_) rfl
    unfold Nuc.diffXs summed
    rw [if_neg h1]
    simp only [if_pos h2]
    split_ifs <;> rfl
  rw [if_neg h2] at e
  cases hp : partials fermi n KEa none n.elements with
  | error _ => rw [hp] at e; cases e
  | ok l =>
    rw [hp] at e
    cases e
    obtain ⟨fs, k1, k2, k3⟩ := partials_diff hn (not_le.1 h2).le n.elements (fun _ h => h) hp
    obtain ⟨-, q⟩ := integral_list_sum fs k1
    refine ⟨fun c => if 1 < |c| then 0 else (fs.map (· c)).sum, ?_, ?_, ?_⟩
    · intro c
      unfold Nuc.diffXs summed
      rw [if_neg h1]
      simp only [gt_iff_lt, decide_eq_true_eq, if_neg h2, k3]
      split_ifs <;> rfl
    · intro c hc
      exact if_pos hc
    · rw [k2, ← q]
      refine intervalIntegral.integral_congr (fun c hc => ?_)
      rw [Set.uIcc_of_le (by norm_num)] at hc
      exact if_neg (by rw [not_lt, abs_le]; exact ⟨hc.1, hc.2⟩)

/-! ## C84: events -/

/-- C84: every event of a nuclear reaction is a collision of that projectile with the target
at rest which leaves the residue in the chosen level: energy and momentum are conserved,
and the mass of the residue includes the excitation energy. -/
theorem C84_nuclear {E : Env G} (hA : E.arith = exact) (hE : E.engine.Lawful) {n : Nuc} (hn : n.Good)
    {pdg : Int} {KEa : ℝ} {g g' : G} {ev : Event ℝ}
    (e : n.createEvent E pdg KEa g = some (.ok (ev, g'))) :
    pdg = n.pdgA ∧ Collision (n.masses ev.Ex) KEa ev ∧
    (∃ m ∈ n.elements, ev.Ex = m.levelEnergy) := by
  obtain ⟨m, g1, beta, c, g2, J, P, J', P', ev', h1, h2, h3, h4, h5, h6, h7⟩ := createEvent_parts e
  obtain ⟨r1, r2, hK, -⟩ := choose_parts h1
  obtain ⟨hm, hr⟩ := C36_accessible hE hn h1
  have hx : ev.Ex = m.levelEnergy := by rw [(setCharges_labels h7).1, (makeEvent_labels h6).1]
  have hc : c ^ 2 ≤ 1 := by
    unfold sampleCos at h3
    split at h3
    · cases h3
    · split at h3
      · cases h3
      · cases h3
      · rename_i hx
        cases h3
        rw [hA] at hx
        have := rejectLoop_range hE (by norm_num) _ hx
        nlinarith [this.1, this.2]
  have hd : 0 < n.md + m.levelEnergy := add_pos_of_pos_of_nonneg hn.d (hn.energy m hm)
  have hgm := Nuc.Good.masses hn (hn.energy m hm)
  have hR : Reachable (n.masses m.levelEnergy) KEa := by
    have := (C35_level (Nuc.Good.masses hn (le_refl 0)) hK.le (hn.energy m hm)).1 (by
      have := (reaches_iff hn hK.le m).1 hr
      rw [maxLevel_eq hn hK.le, Val.num_lt, decide_eq_false_iff_not, not_lt] at this
      exact this)
    simpa [Reachable, Nuc.masses] using this
  have hk' : KnownCodes (n.masses m.levelEnergy) := makeEvent_known h6
  obtain ⟨pr, tg, ej, re, hm', q1, q2, q3, q4, q5, -⟩ :=
    C34_conserves (uniform E.arith E.engine 0 (2 * Real.pi) false g2).1 m.levelEnergy J' P' hgm hk' hK.le hR hc
  rw [h6] at hm'
  cases hm'
  unfold setCharges at h7
  simp only [Event.setChargeAt, List.getElem?_cons_succ, List.getElem?_cons_zero] at h7
  cases h7
  refine ⟨r1, ?_, m, hm, hx⟩
  rw [hx]
  refine ⟨pr, { tg with charge := 0 }, ej, { re with charge := n.qD }, rfl, rfl, q1, q2, q3, ?_, q5⟩
  exact ⟨q4.1, q4.2.1, ⟨q4.2.2.1, q4.2.2.2, q4.2.2.3⟩⟩

/-- C84: in an event of a reaction loaded from a file charge is conserved: the target is a
neutral atom and the residue an ion. -/
theorem C84_charge {c : Ctx} {file : Option Json.Str} {rs : List Reaction} {r : Nuclear}
    (h : load c file = .ok rs) (hr : Reaction.nuclear r ∈ rs) {mode : CoulombMode} {n : Nuc}
    (hn : Nuc.of r mode = some n) {E : Env G} {pdg : Int} {KEa : ℝ} {g g' : G} {ev : Event ℝ}
    (e : n.createEvent E pdg KEa g = some (.ok (ev, g'))) :
    ∃ pr tg ej re, ev.initial = [pr, tg] ∧ ev.final = [ej, re] ∧ tg.charge = 0 ∧
      Pdg.charge n.pdgA = .ok pr.charge ∧ Pdg.charge n.pdgC = .ok ej.charge ∧ re.charge = n.qD ∧
      pr.charge + tg.charge = ej.charge + re.charge := by
  obtain ⟨m, g1, beta, co, g2, J, P, J', P', ev', h1, h2, h3, h4, h5, h6, h7⟩ := createEvent_parts e
  obtain ⟨pr, tg, ej, re, k1, k2, k3, k4⟩ := makeEvent_charges h6
  unfold setCharges at h7
  rw [k1, k2] at h7
  simp only [Event.setChargeAt, List.getElem?_cons_succ, List.getElem?_cons_zero] at h7
  cases h7
  obtain ⟨-, -, ⟨qa, qc, q1, q2, -, q3⟩, -, -⟩ := C31_conserved h hr
  have hn' : n.pdgA = r.pdgA ∧ n.pdgC = r.pdgC ∧ n.qD = r.qD := by
    unfold Nuc.of at hn
    split at hn
    · cases hn; exact ⟨rfl, rfl, rfl⟩
    · cases hn
  refine ⟨pr, { tg with charge := 0 }, ej, { re with charge := n.qD }, rfl, rfl, rfl, k3, k4, rfl, ?_⟩
  rw [show (n.masses m.levelEnergy).pdgA = n.pdgA from rfl, hn'.1, q1] at k3
  rw [show (n.masses m.levelEnergy).pdgC = n.pdgC from rfl, hn'.2.1, q2] at k4
  cases k3
  cases k4
  simp only
  rw [hn'.2.2]
  omega

/-! ## Examples and counterexamples -/

/-- Neutrinos on argon by neutral currents, in units of the mass of the nucleus. -/
def exNuc (es : List MatEl) : Nuc :=
  { proc := .nc, pdgA := 12, pdgB := 1000180400, pdgC := 12, pdgD := 1000180400, qD := 0, Zi := 18,
    Ai := 40, Zf := 18, Af := 40, ma := 0, mb := 1, mc := 0, md := 1, elements := es,
    mode := .noCorrection }

theorem exNuc_good {es : List MatEl}
    (h : ∀ m ∈ es, 0 ≤ m.strength ∧ 0 ≤ m.levelEnergy ∧ (m.type = 0 ∨ m.type = 1)) : (exNuc es).Good where
  a := le_refl _
  b := one_pos
  c := le_refl _
  d := one_pos
  strength := fun m hm => (h m hm).1
  energy := fun m hm => (h m hm).2.1
  type := fun m hm => (h m hm).2.2
  proc := Or.inr (Or.inr rfl)

/-- A Gamow-Teller transition below the maximal level energy has a positive cross
section. -/
theorem exNuc_level {es : List MatEl} (h : (exNuc es).Good) {KEa : ℝ} (hK : 0 ≤ KEa) {m : MatEl}
    (hE : 0 ≤ m.levelEnergy) (hs : 0 < m.strength) (ht : m.type = 1)
    (hr : (1 + m.levelEnergy) ^ 2 < 1 + 2 * KEa) (fermi : Nuc → Val → Val) :
    ((exNuc es).maxLevel KEa).lt (.num m.levelEnergy) = false ∧
    ∃ x b, levelXs fermi (exNuc es) m KEa = .ok (.num x, b) ∧ 0 < x := by
  have hr' : (exNuc es).mc + ((exNuc es).md + m.levelEnergy) <
      Real.sqrt (((exNuc es).ma + (exNuc es).mb) ^ 2 + 2 * (exNuc es).mb * KEa) := by
    refine Real.lt_sqrt_of_sq_lt ?_
    simp only [exNuc]
    nlinarith
  have hb := base_pos h hK (show 0 < (exNuc es).md + m.levelEnergy by simp only [exNuc]; linarith) hr'
  refine ⟨(reaches_iff h hK m).1 hr'.le, ?_⟩
  rw [levelXs_eq h hK]
  simp only [show (exNuc es).proc = .nc from rfl, if_neg (show ¬ m.type = 0 by omega), mul_one]
  exact ⟨_, _, rfl, mul_pos hb.1 hs⟩

/-- An environment with the constant random number 1/2. -/
noncomputable def exEnv : Env Unit :=
  ⟨exact, half, 1, fun _ _ => .num 1, fun _ => .ok (3, ⟨true⟩), fun _ => .ok (fun _ _ _ => 1)⟩

/-- Two levels, both accessible at `KEa = 3/2`. -/
noncomputable def exElements : List MatEl := [⟨0, 1, 1, none⟩, ⟨1 / 2, 2, 1, none⟩]

theorem exElements_good : (exNuc exElements).Good := by
  refine exNuc_good ?_
  simp [exElements, MatEl.levelEnergy]

theorem exElements_sorted : (exNuc exElements).Sorted := by
  simp [Nuc.Sorted, exNuc, exElements, MatEl.levelEnergy]

theorem exElements_partials (fermi : Nuc → Val → Val) :
    ∃ x y, 0 < x ∧ 0 < y ∧ partials fermi (exNuc exElements) (3 / 2) none exElements = .ok [x, y] := by
  obtain ⟨a1, x, b, a2, a3⟩ := exNuc_level (m := ⟨0, 1, 1, none⟩) exElements_good (KEa := 3 / 2) (by norm_num)
    (by simp [MatEl.levelEnergy]) (by norm_num) rfl (by norm_num [MatEl.levelEnergy]) fermi
  obtain ⟨c1, y, d, c2, c3⟩ := exNuc_level (m := ⟨1 / 2, 2, 1, none⟩) exElements_good (KEa := 3 / 2) (by norm_num)
    (by simp [MatEl.levelEnergy]) (by norm_num) rfl (by norm_num [MatEl.levelEnergy]) fermi
  refine ⟨x, y, a3, c3, ?_⟩
  unfold exElements
  rw [show (exNuc exElements) = exNuc [⟨0, 1, 1, none⟩, ⟨1 / 2, 2, 1, none⟩] from rfl] at a1 a2 c1 c2
  rw [partials, if_neg (Bool.eq_false_iff.1 a1), if_neg (by norm_num), a2]
  simp only [counted]
  rw [partials, if_neg (Bool.eq_false_iff.1 c1), if_neg (by norm_num), c2]
  simp only [counted, partials]

/-- The hypotheses of C36 hold here, and an element is chosen. -/
theorem exNuc_choose (fermi : Nuc → Val → Val) {E : Env Unit} (hE : E.engine = half) (hf : E.fermi = fermi) :
    ∃ m, (exNuc exElements).choose E 12 (3 / 2) () = .ok (m, ()) := by
  obtain ⟨x, y, h1, h2, h3⟩ := exElements_partials fermi
  obtain ⟨i, g', h4, h5⟩ := Gen.pickFrom_pos (E := E.engine) (by rw [hE]; exact half_lawful) (w := [x, y])
    (by simp [h1, h2]) (by simp) ()
  have ht : ¬ (3 / 2 : ℝ) < threshold ((exNuc exElements).masses 0) := by
    norm_num [threshold, Nuc.masses, exNuc]
  have hi : i < exElements.length := by simpa [exElements] using h5
  refine ⟨exElements[i], ?_⟩
  unfold Nuc.choose summed
  rw [if_neg (by simp [exNuc]), if_neg ht, if_neg (by simp [exNuc]), hf]
  simp only [Bool.false_eq_true, if_false]
  rw [if_neg (by norm_num), show (exNuc exElements).elements = exElements from rfl, h3]
  simp only [List.isEmpty_cons, Bool.false_eq_true, if_false]
  rw [if_neg (by simp; linarith), h4]
  simp only [List.getElem?_eq_getElem hi]

example : exEnv.engine.Lawful ∧ (exNuc exElements).Good ∧ (exNuc exElements).Sorted ∧
    (∀ b, (exEnv.fermi (exNuc exElements) b).NonNeg) ∧ (∀ m ∈ (exNuc exElements).elements, m.strength ≠ 0) ∧
    (exEnv.engine.draw ()).1 ≠ 0 ∧
    ∃ m, (exNuc exElements).choose exEnv 12 (3 / 2) () = .ok (m, ()) := by
  refine ⟨half_lawful, exElements_good, exElements_sorted, fun b => zero_le_one, ?_, ?_,
    exNuc_choose _ rfl rfl⟩
  · simp [exNuc, exElements]
  · simp [exEnv, half]

/-- C36 does not hold for reactions with a strength of zero: no weight is stored for that
transition, so the index drawn is used for the wrong one, and here the transition without
strength is always chosen. -/
theorem C36_violated : ∃ n : Nuc, n.Good ∧ n.Sorted ∧ ∀ (G : Type) (E : Env G) (g : G),
    ∃ m, n.choose E 12 (3 / 2) g = .ok (m, g) ∧ m.strength = 0 ∧ Partial E.fermi n (3 / 2) m 0 := by
  have hg : (exNuc [⟨0, 0, 1, none⟩, ⟨1 / 2, 2, 1, none⟩]).Good :=
    exNuc_good (by simp [MatEl.levelEnergy])
  refine ⟨exNuc [⟨0, 0, 1, none⟩, ⟨1 / 2, 2, 1, none⟩], hg, ?_, fun G E g => ?_⟩
  · simp [Nuc.Sorted, exNuc, MatEl.levelEnergy]
  obtain ⟨c1, y, d, c2, c3⟩ := exNuc_level (m := ⟨1 / 2, 2, 1, none⟩) hg (KEa := 3 / 2) (by norm_num)
    (by simp [MatEl.levelEnergy]) (by norm_num) rfl (by norm_num [MatEl.levelEnergy]) E.fermi
  have hr : (exNuc [⟨0, 0, 1, none⟩, ⟨1 / 2, 2, 1, none⟩]).Reaches (3 / 2) ⟨0, 0, 1, none⟩ := by
    unfold Nuc.Reaches
    refine Real.le_sqrt_of_sq_le ?_
    norm_num [exNuc, MatEl.levelEnergy]
  have c0 := (reaches_iff hg (by norm_num) _).1 hr
  have hp : partials E.fermi (exNuc [⟨0, 0, 1, none⟩, ⟨1 / 2, 2, 1, none⟩]) (3 / 2) none
      [⟨0, 0, 1, none⟩, ⟨1 / 2, 2, 1, none⟩] = .ok [y] := by
    rw [partials, if_neg (Bool.eq_false_iff.1 c0), if_pos rfl, partials, if_neg (Bool.eq_false_iff.1 c1), if_neg (by norm_num), c2]
    simp only [counted, partials]
  have ht : ¬ (3 / 2 : ℝ) < threshold
      ((exNuc [⟨0, 0, 1, none⟩, ⟨1 / 2, 2, 1, none⟩]).masses 0) := by
    norm_num [threshold, Nuc.masses, exNuc]
  refine ⟨⟨0, 0, 1, none⟩, ?_, rfl, transition_zero (Or.inl rfl)⟩
  unfold Nuc.choose summed
  rw [if_neg (by simp [exNuc]), if_neg ht, if_neg (by simp [exNuc])]
  simp only [Bool.false_eq_true, if_false]
  rw [if_neg (by norm_num)]
  rw [show (exNuc [⟨0, 0, 1, none⟩, ⟨1 / 2, 2, 1, none⟩]).elements
    = [⟨0, 0, 1, none⟩, ⟨1 / 2, 2, 1, none⟩] from rfl, hp]
  simp only [List.isEmpty_cons, Bool.false_eq_true, if_false]
  rw [if_neg (by simp; linarith)]
  simp [pickFrom]

/-- A total cross section for C37 and C81. -/
example : ∃ t, (exNuc exElements).totalXs exEnv.fermi 12 (3 / 2) = .ok t ∧ 0 < t := by
  obtain ⟨x, y, h1, h2, h3⟩ := exElements_partials exEnv.fermi
  refine ⟨x + y, ?_, by linarith⟩
  unfold Nuc.totalXs summed
  rw [if_neg (by simp [exNuc])]
  simp only [Bool.false_eq_true, if_false]
  rw [if_neg (by norm_num), show (exNuc exElements).elements = exElements from rfl, h3]
  simp [Except.map]

example : threshold (({ exNuc exElements with md := 2 } : Nuc).masses 0) = 3 / 2 := by
  norm_num [threshold, Nuc.masses, exNuc]

/-- C37 does not hold if level energies are out of order, which happens when a matrix
element is matched to a level above the energy of a later one: the loop ends at the
first inaccessible level, so accessible ones after it are left out. -/
theorem C37_unsorted_violated : ∃ (n : Nuc) (KEa : ℝ) (m : MatEl), n.Good ∧ 0 < KEa ∧ m ∈ n.elements ∧
    n.Reaches KEa m ∧ (n.elements.map (·.energy)).Pairwise (· < ·) ∧
    ∀ fermi, n.totalXs fermi n.pdgA KEa = .ok 0 ∧ ∃ x, Partial fermi n KEa m x ∧ 0 < x := by
  let l : Scheme.Level ℝ := ⟨3 / 4, 2, ⟨true⟩, []⟩
  have hg : (exNuc [⟨1 / 2, 1, 1, some (0, l)⟩, ⟨9 / 16, 1, 1, none⟩]).Good :=
    exNuc_good (by simp [MatEl.levelEnergy, l]; norm_num)
  have key := fun fermi => exNuc_level (m := ⟨9 / 16, 1, 1, none⟩) hg (KEa := 105 / 128) (by norm_num)
    (by norm_num [MatEl.levelEnergy]) (by norm_num) rfl (by norm_num [MatEl.levelEnergy]) fermi
  refine ⟨exNuc [⟨1 / 2, 1, 1, some (0, l)⟩, ⟨9 / 16, 1, 1, none⟩], 105 / 128, ⟨9 / 16, 1, 1, none⟩, hg,
    by norm_num, by simp [exNuc], (reaches_iff hg (by norm_num) _).2 (key exEnv.fermi).1, ?_, ?_⟩
  · simp [exNuc]; norm_num
  · intro fermi
    obtain ⟨k1, x, b, k2, k3⟩ := key fermi
    refine ⟨?_, x, transition_level k1 (by norm_num) k2 rfl, k3⟩
    have hr : ¬ (exNuc [⟨1 / 2, 1, 1, some (0, l)⟩, ⟨9 / 16, 1, 1, none⟩]).Reaches (105 / 128)
        ⟨1 / 2, 1, 1, some (0, l)⟩ := by
      unfold Nuc.Reaches
      rw [not_le, Real.sqrt_lt' (by norm_num [exNuc, MatEl.levelEnergy, l])]
      norm_num [exNuc, MatEl.levelEnergy, l]
    have hlt : ((exNuc [⟨1 / 2, 1, 1, some (0, l)⟩, ⟨9 / 16, 1, 1, none⟩]).maxLevel (105 / 128)).lt
        (.num (MatEl.levelEnergy ⟨1 / 2, 1, 1, some (0, l)⟩)) = true := by
      rw [← Bool.not_eq_false]
      exact fun q => hr ((reaches_iff hg (by norm_num) _).2 q)
    unfold Nuc.totalXs summed
    simp only [ne_eq, not_true_eq_false, if_false, Bool.false_eq_true]
    rw [if_neg (by norm_num)]
    rw [show (exNuc [⟨1 / 2, 1, 1, some (0, l)⟩, ⟨9 / 16, 1, 1, none⟩]).elements
      = [⟨1 / 2, 1, 1, some (0, l)⟩, ⟨9 / 16, 1, 1, none⟩] from rfl]
    rw [partials, if_pos hlt]
    rfl

/-- C81 does not hold for the differential cross section of one transition that has no
strength or cannot be reached: the speed of the ejectile, which is then not
initialised, is read. -/
theorem C81_single_violated {fermi : Nuc → Val → Val} {n : Nuc} {KEa c : ℝ} {m : MatEl} (hc : |c| ≤ 1)
    (h : m.strength = 0 ∨ (n.maxLevel KEa).lt (.num m.levelEnergy) = true) :
    transitionDiff fermi n m KEa c = .error .ub := by
  have ht : transitionXs fermi n m KEa = .ok (.num 0, none) := by
    unfold transitionXs
    split_ifs with h1 h2
    · rfl
    · rfl
    · exact absurd h (by simp [h1, h2])
  unfold transitionDiff
  rw [if_neg (not_lt.2 hc), ht]

/-- An event, for C36, C38 and C84: the target has spin 3/2. -/
example : exEnv.arith = exact ∧ exEnv.engine.Lawful ∧ KnownCodes ((exNuc exElements).masses 0) ∧
    exEnv.gs (exNuc exElements).pdgB = .ok (3, ⟨true⟩) ∧
    ∃ ev, (exNuc exElements).createEvent exEnv 12 (3 / 2) () = some (.ok (ev, ())) := by
  have hk : KnownCodes ((exNuc exElements).masses 0) := by
    constructor
    · exact ⟨0, by decide⟩
    · exact ⟨18, by decide⟩
    · exact ⟨0, by decide⟩
    · exact ⟨18, by decide⟩
  refine ⟨rfl, half_lawful, hk, rfl, ?_⟩
  obtain ⟨m, hm⟩ := exNuc_choose exEnv.fermi (E := exEnv) rfl rfl
  obtain ⟨hme, hr⟩ := C36_accessible half_lawful exElements_good hm
  have hK : (0 : ℝ) ≤ 3 / 2 := by norm_num
  have hE := exElements_good.energy m hme
  have hty : m.type = 1 ∧ m.level = none ∧ m.levelEnergy ≤ 1 / 2 := by
    simp only [exNuc, exElements, List.mem_cons, List.not_mem_nil, or_false] at hme
    rcases hme with rfl | rfl <;> norm_num [MatEl.levelEnergy]
  have h4 : Real.sqrt 4 = 2 := by
    rw [show (4 : ℝ) = 2 ^ 2 by norm_num]; exact Real.sqrt_sq (by norm_num)
  have hEc : (twoTwoScatter ((exNuc exElements).masses m.levelEnergy) (3 / 2)).Ec
      = (4 - (1 + m.levelEnergy) * (1 + m.levelEnergy)) / 4 := by
    unfold twoTwoScatter
    simp only [Nuc.masses, exNuc]
    norm_num [h4]
  have hpc : (twoTwoScatter ((exNuc exElements).masses m.levelEnergy) (3 / 2)).pc
      = (twoTwoScatter ((exNuc exElements).masses m.levelEnergy) (3 / 2)).Ec := by
    have : 0 ≤ (twoTwoScatter ((exNuc exElements).masses m.levelEnergy) (3 / 2)).Ec := by
      rw [hEc]; nlinarith [hty.2.2]
    have e : (twoTwoScatter ((exNuc exElements).masses m.levelEnergy) (3 / 2)).pc
      = Utils.realSqrt ((twoTwoScatter ((exNuc exElements).masses m.levelEnergy) (3 / 2)).Ec ^ 2 - 0 * 0) := rfl
    rw [e, mul_zero, sub_zero, Xs.realSqrt_eq (sq_nonneg _), Real.sqrt_sq this]
  have hEc0 : (twoTwoScatter ((exNuc exElements).masses m.levelEnergy) (3 / 2)).Ec ≠ 0 := by
    rw [hEc]; nlinarith [hty.2.2]
  have hfd : Utils.fdiv (twoTwoScatter ((exNuc exElements).masses m.levelEnergy) (3 / 2)).pc
      (twoTwoScatter ((exNuc exElements).masses m.levelEnergy) (3 / 2)).Ec = some 1 := by
    rw [hpc]
    unfold Utils.fdiv
    rw [if_neg hEc0, div_self hEc0]
  have hsc : sampleCos exEnv m 1 () = some (.ok (0, ())) := by
    unfold sampleCos cosMax
    have hd : ∀ c, cosDensity m c 1 = .ok ((3 - 1 * c) / 6) := by
      intro c
      unfold cosDensity
      rw [cosPdf_num (Or.inr hty.1), if_neg (by rw [hty.1]; decide)]
    rw [if_neg (by rw [hty.1]; decide), if_pos hty.1, hd]
    simp only [hd, rejectionSample, exEnv, rejectLoop, uniform, exact, half, Except.map]
    norm_num
  obtain ⟨i, g', hp1, hp2⟩ := Gen.pickFrom_pos (E := half) half_lawful
    (w := (gtSpins 3).map (fun _ => (1 : ℝ))) (by simp) (by decide +kernel) ()
  rw [List.length_map] at hp2
  have hsp : spinParity exEnv (exNuc exElements) m 3 ⟨true⟩ () = .ok ((gtSpins 3)[i], ⟨true⟩, ()) := by
    unfold spinParity
    rw [hty.2.1]
    simp only [exEnv]
    rw [if_neg (by rw [hty.1]; decide), if_pos hty.1, if_neg (by decide), hp1]
    simp only [List.getElem?_eq_getElem hp2]
  have hR : Reachable ((exNuc exElements).masses m.levelEnergy) (3 / 2) := by
    unfold Reachable
    simp only [Nuc.masses, exNuc]
    nlinarith [hty.2.2]
  obtain ⟨pr, tg, ej, re, hev, -⟩ := C34_conserves (c := 0) (uniform exEnv.arith exEnv.engine 0
    (2 * Real.pi) false ()).1 m.levelEnergy (gtSpins 3)[i] ⟨true⟩ (Nuc.Good.masses exElements_good hE)
    ⟨hk.a, hk.b, hk.c, hk.d⟩ hK hR (by norm_num)
  unfold Nuc.createEvent
  rw [hm]
  simp only [hfd, hsc]
  simp only [show exEnv.gs (exNuc exElements).pdgB = .ok (3, ⟨true⟩) from rfl]
  rw [show (uniform exEnv.arith exEnv.engine 0 (2 * Real.pi) false ()).2 = () from rfl, hsp]
  simp only [hev, setCharges, Event.setChargeAt, List.getElem?_cons_succ, List.getElem?_cons_zero]
  exact ⟨_, rfl⟩

/-- Quantities of the effective momentum approximation exist for every speed: here for a
lepton of mass 3 with speed 4/5 that leaves argon. -/
example : ∃ q, Ema.Is { exNuc [] with pdgC := 11, mc := 3 } (4 / 5) q ∧ q.E = 5 ∧ q.p = 4 ∧ 3 ≤ q.Eeff := by
  have hR : 0 < 2 * (r0 * ((40 : Int) : ℝ) ^ (1 / 3 : ℝ)) / hbarC := by
    have : 0 < ((40 : Int) : ℝ) ^ (1 / 3 : ℝ) := Real.rpow_pos_of_pos (by norm_num) _
    have : 0 < hbarC := by unfold hbarC; norm_num
    have : 0 < r0 := by unfold r0; norm_num
    positivity
  have hV : 0 < 3 * ((18 : Int) : ℝ) * alpha := by unfold alpha; norm_num
  have hE : (3 : ℝ) ≤ 5 + 3 * ((18 : Int) : ℝ) * alpha / (2 * (r0 * ((40 : Int) : ℝ) ^ (1 / 3 : ℝ)) / hbarC) := by
    have := div_pos hV hR
    linarith
  refine ⟨⟨5, 4, 5 + 3 * ((18 : Int) : ℝ) * alpha / (2 * (r0 * ((40 : Int) : ℝ) ^ (1 / 3 : ℝ)) / hbarC),
    Real.sqrt ((5 + 3 * ((18 : Int) : ℝ) * alpha / (2 * (r0 * ((40 : Int) : ℝ) ^ (1 / 3 : ℝ)) / hbarC)) ^ 2 - 3 ^ 2)⟩,
    ⟨?_, ?_, ?_, Real.sqrt_nonneg _, ?_⟩, rfl, rfl, hE⟩
  · have : Real.sqrt (1 - (4 / 5) ^ 2) = 3 / 5 := by
      rw [show (1 - (4 / 5 : ℝ) ^ 2) = (3 / 5) ^ 2 by norm_num]; exact Real.sqrt_sq (by norm_num)
    rw [this]; norm_num
  · norm_num
  · simp only [exNuc]
    rw [if_pos (by norm_num), sub_add_cancel_left, neg_mul, div_mul_cancel₀ _ hR.ne']
    ring
  · intro _
    exact Real.sq_sqrt (by nlinarith)

end Marley.Props
