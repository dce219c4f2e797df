import Verif.Spec.Decay
import Verif.Lemmas.ExitChannel
import Verif.Lemmas.Discrete
import Mathlib.Tactic.FieldSimp

/-!
# C53, C54: selection rules of compound-nucleus decays
-/

set_option autoImplicit false

namespace Marley.Props
open Marley Marley.Decay
open Marley.Scheme (Level)
open Marley.Structure (Fragment)

/-! ## Parities -/

theorem orbital_even {l : Int} (h : 2 ∣ l) : orbital l = 1 := by
  unfold orbital
  exact Even.neg_one_pow (by rw [Nat.even_iff]; omega)

theorem orbital_odd {l : Int} (h : ¬ 2 ∣ l) : orbital l = -1 := by
  unfold orbital
  exact Odd.neg_one_pow (by rw [Nat.odd_iff]; omega)

theorem parity_step (Pi PfPa : Parity) {l m : Int} (hl : 0 ≤ l) :
    (Pi = if 2 ∣ m - l then PfPa.mul (Parity.ofBool !decide (l.tmod 2 ≠ 0))
      else (PfPa.mul (Parity.ofBool !decide (l.tmod 2 ≠ 0))).flip) ↔
    Pi.toInt = PfPa.toInt * orbital m := by
  have e : l.tmod 2 = l % 2 := Int.tmod_eq_emod_of_nonneg hl
  rw [e]
  obtain ⟨p⟩ := Pi
  obtain ⟨q⟩ := PfPa
  by_cases h1 : (2 : Int) ∣ m - l <;> by_cases h2 : (2 : Int) ∣ l
  · rw [if_pos h1, orbital_even (by omega : (2 : Int) ∣ m), show decide (l % 2 ≠ 0) = false by
      rw [decide_eq_false_iff_not]; omega]
    cases p <;> cases q <;> simp [Parity.mul, Parity.ofBool, Parity.toInt]
  · rw [if_pos h1, orbital_odd (by omega : ¬ (2 : Int) ∣ m), show decide (l % 2 ≠ 0) = true by
      rw [decide_eq_true_iff]; omega]
    cases p <;> cases q <;> simp [Parity.mul, Parity.ofBool, Parity.toInt]
  · rw [if_neg h1, orbital_odd (by omega : ¬ (2 : Int) ∣ m), show decide (l % 2 ≠ 0) = false by
      rw [decide_eq_false_iff_not]; omega]
    cases p <;> cases q <;> simp [Parity.mul, Parity.ofBool, Parity.toInt, Parity.flip]
  · rw [if_neg h1, orbital_even (by omega : (2 : Int) ∣ m), show decide (l % 2 ≠ 0) = true by
      rw [decide_eq_true_iff]; omega]
    cases p <;> cases q <;> simp [Parity.mul, Parity.ofBool, Parity.toInt, Parity.flip]

theorem mul_toInt (p q : Parity) : (p.mul q).toInt = p.toInt * q.toInt := by
  obtain ⟨p⟩ := p
  obtain ⟨q⟩ := q
  cases p <;> cases q <;> simp [Parity.mul, Parity.toInt]

/-! ## C53 -/

theorem mem_waves (twoJi : Int) (Pi : Parity) (twoS : Int) (Pa : Parity) (twoJf : Int) (Pf : Parity)
    (hi : 0 ≤ twoJi) (hs : 0 ≤ twoS) (hf : 0 ≤ twoJf) (he : 2 ∣ twoJi + twoJf + twoS) (l twoj : Int) :
    (l, twoj) ∈ waves Pi (Pf.mul Pa) twoS |twoJi - twoJf| (twoJi + twoJf) ↔
      Wave twoJi Pi twoS Pa l twoj twoJf Pf := by
  unfold waves lList
  simp only [List.mem_flatMap, List.mem_map, List.mem_filter, decide_eq_true_eq, mem_upTo,
    Prod.mk.injEq, Nat.cast_one, Nat.cast_zero]
  constructor
  · rintro ⟨j, ⟨h1, h2, h3⟩, m, ⟨⟨h4, h5, h6⟩, h7⟩, rfl, rfl⟩
    rw [parity_step _ _ (Int.tdiv_nonneg (abs_nonneg _) (by norm_num)), mul_toInt] at h7
    rw [Int.tdiv_eq_ediv_of_nonneg (abs_nonneg _)] at h4
    rw [Int.tdiv_eq_ediv_of_nonneg (by have := abs_nonneg (twoJi - twoJf); omega)] at h5
    refine ⟨?_, ⟨?_, ?_, ?_⟩, ⟨?_, ?_, ?_⟩, h7⟩
    · have := abs_nonneg (j - twoS)
      omega
    · rw [abs_le]
      rcases abs_cases (j - twoS) with h | h <;> rcases abs_cases (twoJi - twoJf) with h' | h' <;> omega
    · rcases abs_cases (j - twoS) with h | h <;> rcases abs_cases (twoJi - twoJf) with h' | h' <;> omega
    · rcases abs_cases (j - twoS) with h | h <;> rcases abs_cases (twoJi - twoJf) with h' | h' <;> omega
    · rw [abs_le]
      rcases abs_cases (twoJi - twoJf) with h' | h' <;> omega
    · rcases abs_cases (twoJi - twoJf) with h' | h' <;> omega
    · rcases abs_cases (twoJi - twoJf) with h' | h' <;> omega
  · rintro ⟨h1, ⟨h2, h3, h4⟩, ⟨h5, h6, h7⟩, h8⟩
    have a1 := abs_le.1 h2
    have a2 := abs_le.1 h5
    have hj : 0 ≤ twoj := le_trans (abs_nonneg _) h2
    refine ⟨twoj, ⟨?_, ?_, ?_⟩, l, ⟨⟨?_, ?_, ?_⟩, ?_⟩, rfl, rfl⟩
    · rw [abs_le]; omega
    · omega
    · rcases abs_cases (twoJi - twoJf) with h' | h' <;> omega
    · rw [Int.tdiv_eq_ediv_of_nonneg (abs_nonneg _)]
      rcases abs_cases (twoj - twoS) with h' | h' <;> omega
    · rw [Int.tdiv_eq_ediv_of_nonneg (by omega)]; omega
    · norm_num
    · rw [parity_step _ _ (Int.tdiv_nonneg (abs_nonneg _) (by norm_num)), mul_toInt]; exact h8

theorem fragment_eq {D : Data} (hn : (D.frags.map (·.pid)).Nodup) {f : Fragment} (hf : f ∈ D.frags) :
    fragment D f.pid = some f := by
  unfold fragment
  generalize D.frags = l at hn hf
  induction l with
  | nil => simp at hf
  | cons x t ih =>
    rw [List.map_cons, List.nodup_cons] at hn
    rcases List.mem_cons.1 hf with rfl | h
    · simp
    · have : ¬ x.pid = f.pid := fun e => hn.1 (e ▸ List.mem_map_of_mem h)
      rw [List.find?_cons_of_neg (by simpa using this)]
      exact ih hn.2 h

/-- C53: the width for emission to a discrete level is the sum over exactly the allowed
partial waves, each once, if the level is below the bound.  Part: the spins must agree
with one another, so that some wave could be allowed at all
(`C53_discrete_violated`); transmission coefficients are arbitrary. -/
theorem C53_discrete_partial {D : Data} (hn : (D.frags.map (·.pid)).Nodup) {f : Fragment}
    (hf : f ∈ D.frags) (c : Parent) (lev : Level ℝ) {Sa : ℝ}
    (hS : Mass.separationEnergyPid D.mass c.pdg f.pid true = .ok (some Sa))
    (hE : lev.energy < c.Ex - Sa) (h1 : 0 ≤ c.twoJ) (h2 : 0 ≤ f.twoS) (h3 : 0 ≤ lev.twoJ)
    (he : 2 ∣ c.twoJ + lev.twoJ + f.twoS) :
    ∃ L : List (Int × Int), L.Nodup ∧
      (∀ l twoj, (l, twoj) ∈ L ↔ Wave c.twoJ c.P f.twoS f.parity l twoj lev.twoJ lev.parity) ∧
      fragDiscreteWidth D c f.pid lev = .ok (L.map (fun x => c.norm * D.optical (remnant c.pdg f.pid)
        (c.Ex - Sa - lev.energy) f.pid x.2 x.1 f.twoS)).sum := by
  refine ⟨_, nodup_waves c.P (lev.parity.mul f.parity) f.twoS |c.twoJ - lev.twoJ|
    (c.twoJ + lev.twoJ), fun l j => mem_waves _ _ _ _ _ _ h1 h2 h3 he l j, ?_⟩
  unfold fragDiscreteWidth maxExf
  rw [fragment_eq hn hf, hS]
  simp only [Option.map_some]
  rw [if_neg (not_le.2 hE), jLoop_eq]
  simp

/-- C53: there is no emission to a level at or above the bound. -/
theorem C53_discrete_closed {D : Data} (hn : (D.frags.map (·.pid)).Nodup) {f : Fragment}
    (hf : f ∈ D.frags) (c : Parent) (lev : Level ℝ) {Sa : ℝ}
    (hS : Mass.separationEnergyPid D.mass c.pdg f.pid true = .ok (some Sa))
    (hE : c.Ex - Sa ≤ lev.energy) : fragDiscreteWidth D c f.pid lev = .ok 0 := by
  unfold fragDiscreteWidth maxExf
  rw [fragment_eq hn hf, hS]
  simp only [Option.map_some]
  rw [if_pos hE]

theorem mem_states (twoJi : Int) (Pi : Parity) (twoS : Int) (Pa : Parity)
    (hi : 0 ≤ twoJi) (hs : 0 ≤ twoS) (lmax l twoj twoJf : Int) (Pf : Parity) :
    (l, twoj, twoJf, Pf) ∈ states twoJi twoS lmax 0 (if Pi = Pa then ⟨true⟩ else ⟨false⟩) ↔
      l ≤ lmax ∧ Wave twoJi Pi twoS Pa l twoj twoJf Pf := by
  have hp : ∀ m : Int, (if 2 ∣ m - 0 then (if Pi = Pa then (⟨true⟩ : Parity) else ⟨false⟩)
      else Parity.flip (if Pi = Pa then ⟨true⟩ else ⟨false⟩)) = Pf ↔
      Pi.toInt = Pf.toInt * Pa.toInt * orbital m := by
    intro m
    rw [sub_zero]
    obtain ⟨p⟩ := Pi
    obtain ⟨q⟩ := Pa
    obtain ⟨r⟩ := Pf
    by_cases h : (2 : Int) ∣ m
    · rw [if_pos h, orbital_even h]
      cases p <;> cases q <;> cases r <;> simp [Parity.toInt]
    · rw [if_neg h, orbital_odd h]
      cases p <;> cases q <;> cases r <;> simp [Parity.toInt, Parity.flip]
  unfold states spins
  simp only [List.mem_flatMap, List.mem_map, mem_upTo, Prod.mk.injEq, Nat.cast_one, Nat.cast_zero,
    Prod.exists]
  constructor
  · rintro ⟨m, ⟨h1, h2, -⟩, j, J, ⟨j', ⟨h3, h4, h5⟩, J', ⟨h6, h7, h8⟩, rfl, rfl⟩, rfl, rfl, rfl, h9⟩
    refine ⟨h2, h1, ⟨h3, h4, ?_⟩, ⟨?_, ?_, ?_⟩, (hp _).1 h9⟩
    · rcases abs_cases (2 * m - twoS) with h' | h' <;> omega
    · rw [abs_le]
      rcases abs_cases (twoJi - j') with h' | h' <;> omega
    · rcases abs_cases (twoJi - j') with h' | h' <;> omega
    · rcases abs_cases (twoJi - j') with h' | h' <;> omega
  · rintro ⟨h1, h2, ⟨h3, h4, h5⟩, ⟨h6, h7, h8⟩, h9⟩
    have a1 := abs_le.1 h3
    have a2 := abs_le.1 h6
    refine ⟨l, ⟨h2, h1, by norm_num⟩, twoj, twoJf, ⟨twoj, ⟨h3, h4, ?_⟩, twoJf, ⟨?_, ?_, ?_⟩, rfl, rfl⟩,
      rfl, rfl, rfl, (hp _).2 h9⟩
    · rcases abs_cases (2 * l - twoS) with h' | h' <;> omega
    · rw [abs_le]; omega
    · omega
    · rcases abs_cases (twoJi - twoj) with h' | h' <;> omega

/-- C53: the differential width for emission to the continuum is the sum over exactly the
allowed waves with orbital angular momentum up to the maximum and all final spins and
parities they lead to, each once; the table of spins and parities has one entry for
each term. -/
theorem C53_continuum {D : Data} (hn : (D.frags.map (·.pid)).Nodup) {f : Fragment}
    (hf : f ∈ D.frags) (c : Parent) {Sa Emin Exf : ℝ}
    (hS : Mass.separationEnergyPid D.mass c.pdg f.pid true = .ok (some Sa))
    (hc : Emin ≤ Exf) (hE : Exf ≤ c.Ex - Sa) (h1 : 0 ≤ c.twoJ) (h2 : 0 ≤ f.twoS) :
    ∃ L : List (Int × Int × Int × Parity), L.Nodup ∧
      (∀ l twoj twoJf Pf, (l, twoj, twoJf, Pf) ∈ L ↔
        l ≤ D.fragLMax ∧ Wave c.twoJ c.P f.twoS f.parity l twoj twoJf Pf) ∧
      ∃ a, fragDiff D c f.pid Emin Exf = .ok a ∧ a.1 = (a.2.map (·.width)).sum ∧
        a.2 = L.map (fun x => ⟨x.2.2.1, x.2.2.2, c.norm * D.optical (remnant c.pdg f.pid)
          (c.Ex - Sa - Exf) f.pid x.2.1 x.1 f.twoS *
          D.density (remnant c.pdg f.pid) Exf x.2.2.1 x.2.2.2⟩) := by
  have ht : (0 : ℝ) < tiny := by unfold tiny; norm_num
  refine ⟨_, nodup_states c.twoJ f.twoS D.fragLMax 0 (if c.P = f.parity then ⟨true⟩ else ⟨false⟩),
    fun l j J P => mem_states _ _ _ _ h1 h2 _ l j J P, ?_⟩
  unfold fragDiff maxExf
  rw [hS]
  simp only [Option.map_some]
  rw [if_neg (by linarith), if_neg (by rw [not_or, not_lt, gt_iff_lt, not_lt]; constructor <;> linarith),
    fragment_eq hn hf]
  dsimp only
  rw [flLoop_eq]
  refine ⟨_, rfl, ?_, ?_⟩
  · simp only [List.nil_append, List.map_map, zero_add]
    rfl
  · simp

/-- C53: outside the continuum the differential width is zero; for impossible bounds an
error is thrown. -/
theorem C53_outside {D : Data} (c : Parent) (frag : Int) {Sa Emin Exf : ℝ}
    (hS : Mass.separationEnergyPid D.mass c.pdg frag true = .ok (some Sa)) :
    (c.Ex - Sa < Emin → fragDiff D c frag Emin Exf = .error .marleyError) ∧
    (Emin ≤ c.Ex - Sa → Exf < Emin - 1e-6 ∨ Exf > c.Ex - Sa + 1e-6 →
      fragDiff D c frag Emin Exf = .ok (0, [])) := by
  unfold fragDiff maxExf
  rw [hS]
  simp only [Option.map_some]
  refine ⟨fun h => by rw [if_pos h], fun h h' => by
    rw [if_neg (not_lt.2 h), if_pos (by unfold tiny; exact h')]⟩

/-- C53: a spin and parity sampled after emission to the continuum can be reached by an
allowed wave. -/
theorem C53_sampled {G : Type} (E : Sampling.Engine G) {D : Data}
    (hn : (D.frags.map (·.pid)).Nodup) {f : Fragment}
    (hf : f ∈ D.frags) (c : Parent) {Sa Emin Exf : ℝ}
    (hS : Mass.separationEnergyPid D.mass c.pdg f.pid true = .ok (some Sa))
    (hc : Emin ≤ Exf) (hE : Exf ≤ c.Ex - Sa) (h1 : 0 ≤ c.twoJ) (h2 : 0 ≤ f.twoS)
    {g g' : G} {twoJf : Int} {Pf : Parity}
    (h : sampleSpinParity E D c (.fragCont f.pid Emin) Exf g = .ok ((twoJf, Pf), g')) :
    ∃ l twoj, l ≤ D.fragLMax ∧ Wave c.twoJ c.P f.twoS f.parity l twoj twoJf Pf := by
  obtain ⟨L, -, h3, a, h4, -, h5⟩ := C53_continuum hn hf c hS hc hE h1 h2
  unfold sampleSpinParity Kind.diff at h
  dsimp only at h
  rw [h4] at h
  dsimp only at h
  by_cases h6 : a.1 ≤ 0
  · rw [if_pos h6] at h; simp at h
  rw [if_neg h6] at h
  cases h7 : Sampling.pickFrom E (a.2.map (·.width)) g with
  | error e => rw [h7] at h; simp at h
  | ok x =>
    rw [h7] at h
    dsimp only at h
    cases h8 : a.2[x.1]? with
    | none => rw [h8] at h; simp at h
    | some y =>
      rw [h8] at h
      simp only [Except.ok.injEq, Prod.mk.injEq] at h
      have hm := List.mem_of_getElem? h8
      rw [h5] at hm
      obtain ⟨⟨l, j, J, P⟩, h9, rfl⟩ := List.mem_map.1 hm
      obtain ⟨⟨rfl, rfl⟩, -⟩ := h
      exact ⟨l, j, (h3 l j _ _).1 h9⟩

/-! ## C54 -/

theorem transition_iff (Pi : Parity) {l : Int} (hl : 0 ≤ l) (Pf : Parity) (t : Rad) :
    transitionType Pi l Pf = t ↔ Pi.toInt = Pf.toInt * t.parity l := by
  unfold transitionType
  have e : l.tmod 2 = l % 2 := Int.tmod_eq_emod_of_nonneg hl
  dsimp only
  rw [e]
  obtain ⟨p⟩ := Pi
  obtain ⟨q⟩ := Pf
  by_cases h : (2 : Int) ∣ l
  · rw [show decide (l % 2 ≠ 0) = false by rw [decide_eq_false_iff_not]; omega]
    unfold Rad.parity
    rw [orbital_even h]
    cases p <;> cases q <;> cases t <;> simp [Parity.mul, Parity.ofBool, Parity.toInt]
  · rw [show decide (l % 2 ≠ 0) = true by rw [decide_eq_true_iff]; omega]
    unfold Rad.parity
    rw [orbital_odd h]
    cases p <;> cases q <;> cases t <;> simp [Parity.mul, Parity.ofBool, Parity.toInt]

/-- The type of transition for each multipolarity. -/
theorem typed {α : Type} (s : List α) (ty : α → Rad) (h : s.Nodup) :
    (s.map (fun x => (ty x, x))).Nodup := h.map (fun a b e => by simpa using (Prod.ext_iff.1 e).2)

/-- C54: the width for gamma emission to a discrete level below the initial energy is the
sum over exactly the allowed multipolarities with their types, each once.  Part: the
two spins must both be whole or both be half (`C54_discrete_violated`); transmission
coefficients are arbitrary. -/
theorem C54_discrete_partial (D : Data) (c : Parent) (lev : Level ℝ) (hE : lev.energy < c.Ex)
    (h1 : 0 ≤ c.twoJ) (h3 : 0 ≤ lev.twoJ) (he : 2 ∣ c.twoJ + lev.twoJ) :
    ∃ L : List (Rad × Int), L.Nodup ∧
      (∀ t l, (t, l) ∈ L ↔ Radiates c.twoJ c.P t l lev.twoJ lev.parity) ∧
      gamDiscreteWidth D c lev =
        (L.map (fun x => c.norm * D.strength c.pdg x.1 x.2 (c.Ex - lev.energy))).sum := by
  refine ⟨_, typed _ (fun l => transitionType c.P l lev.parity) (nodup_upTo 0
    (max 1 (|c.twoJ - lev.twoJ|.tdiv 2)) ((c.twoJ + lev.twoJ).tdiv 2)), fun t l => ?_, ?_⟩
  · rw [Int.tdiv_eq_ediv_of_nonneg (abs_nonneg _), Int.tdiv_eq_ediv_of_nonneg (by omega)]
    simp only [List.mem_map, mem_upTo, Prod.mk.injEq, Nat.cast_zero, max_le_iff]
    constructor
    · rintro ⟨m, ⟨⟨a1, a2⟩, a3, -⟩, a4, rfl⟩
      refine ⟨a1, ⟨?_, ?_, ?_⟩, (transition_iff c.P (by omega) lev.parity t).1 a4⟩
      · rw [abs_le]
        rcases abs_cases (c.twoJ - lev.twoJ) with h' | h' <;> omega
      · rcases abs_cases (c.twoJ - lev.twoJ) with h' | h' <;> omega
      · omega
    · rintro ⟨a1, ⟨a2, a3, a4⟩, a5⟩
      have a6 := abs_le.1 a2
      refine ⟨l, ⟨⟨a1, ?_⟩, ?_, by norm_num⟩, (transition_iff c.P (by omega) lev.parity t).2 a5, rfl⟩
      · rcases abs_cases (c.twoJ - lev.twoJ) with h' | h' <;> omega
      · omega
  · unfold gamDiscreteWidth
    rw [if_neg (not_le.2 hE), mpolLoop_eq, List.map_map]
    simp only [zero_add]
    rfl

/-- C54: the multipolarities are all whole numbers from the greater of 1 and the difference of
the spins to their sum, and there are none from spin zero to spin zero. -/
theorem C54_range (twoJi twoJf : Int) (Pi Pf : Parity) (h1 : 0 ≤ twoJi) (h3 : 0 ≤ twoJf)
    (he : 2 ∣ twoJi + twoJf) :
    (∀ l, (∃ t, Radiates twoJi Pi t l twoJf Pf) ↔
      max 2 |twoJi - twoJf| ≤ 2 * l ∧ 2 * l ≤ twoJi + twoJf) ∧
    (∀ l, ∃ t : Rad, Pi.toInt = Pf.toInt * t.parity l ∧
      ∀ t' : Rad, Pi.toInt = Pf.toInt * t'.parity l → t' = t) ∧
    (twoJi = 0 → twoJf = 0 → ∀ t l, ¬ Radiates twoJi Pi t l twoJf Pf) := by
  have ht : ∀ l, ∃ t : Rad, Pi.toInt = Pf.toInt * t.parity l ∧
      ∀ t' : Rad, Pi.toInt = Pf.toInt * t'.parity l → t' = t := by
    intro l
    obtain ⟨p⟩ := Pi
    obtain ⟨q⟩ := Pf
    by_cases h : (2 : Int) ∣ l
    · by_cases hpq : p = q
      · refine ⟨.electric, ?_, fun t' => ?_⟩
        · simp only [Rad.parity, orbital_even h, hpq]; ring
        · cases t' <;> subst hpq <;> cases p <;> simp [Rad.parity, orbital_even h, Parity.toInt]
      · refine ⟨.magnetic, ?_, fun t' => ?_⟩
        · cases p <;> cases q <;> simp_all [Rad.parity, orbital_even h, Parity.toInt]
        · cases t' <;> cases p <;> cases q <;> simp_all [Rad.parity, orbital_even h, Parity.toInt]
    · by_cases hpq : p = q
      · refine ⟨.magnetic, ?_, fun t' => ?_⟩
        · simp only [Rad.parity, orbital_odd h, hpq]; ring
        · cases t' <;> subst hpq <;> cases p <;> simp [Rad.parity, orbital_odd h, Parity.toInt]
      · refine ⟨.electric, ?_, fun t' => ?_⟩
        · cases p <;> cases q <;> simp_all [Rad.parity, orbital_odd h, Parity.toInt]
        · cases t' <;> cases p <;> cases q <;> simp_all [Rad.parity, orbital_odd h, Parity.toInt]
  refine ⟨fun l => ⟨?_, ?_⟩, ht, ?_⟩
  · rintro ⟨t, a1, ⟨a2, a3, a4⟩, -⟩
    have := abs_le.1 a2
    refine ⟨max_le (by omega) ?_, by omega⟩
    rw [abs_le]; omega
  · rintro ⟨a1, a2⟩
    obtain ⟨a3, a4⟩ := max_le_iff.1 a1
    have := abs_le.1 a4
    obtain ⟨t, a5, -⟩ := ht l
    refine ⟨t, by omega, ⟨?_, by omega, by omega⟩, a5⟩
    rw [abs_le]; omega
  · rintro rfl rfl t l ⟨a1, ⟨a2, a3, a4⟩, -⟩
    have := abs_le.1 a2
    omega

/-- C54: no gamma ray leads to a level at or above the initial energy. -/
theorem C54_closed (D : Data) (c : Parent) (lev : Level ℝ) (hE : c.Ex ≤ lev.energy) :
    gamDiscreteWidth D c lev = 0 := by
  unfold gamDiscreteWidth
  rw [if_pos hE]

theorem mem_radStates (twoJi lmax l twoJf : Int) (Pf : Parity) :
    (l, twoJf, Pf) ∈ radStates twoJi lmax 1 ↔ 1 ≤ l ∧ l ≤ lmax ∧ Triangle twoJf (2 * l) twoJi := by
  unfold radStates
  simp only [List.mem_flatMap, List.mem_map, mem_upTo, Prod.mk.injEq, Nat.cast_one, Nat.cast_zero,
    Prod.exists, List.mem_cons, List.not_mem_nil, or_false]
  constructor
  · rintro ⟨m, ⟨a1, a2, -⟩, J, P, ⟨J', ⟨a3, a4, a5⟩, a6⟩, rfl, rfl, rfl⟩
    have hJ : J = J' := by rcases a6 with ⟨h, -⟩ | ⟨h, -⟩ <;> exact h
    subst hJ
    refine ⟨a1, a2, ?_, ?_, ?_⟩
    · rw [abs_le]
      rcases abs_cases (twoJi - 2 * m) with h' | h' <;> omega
    · rcases abs_cases (twoJi - 2 * m) with h' | h' <;> omega
    · rcases abs_cases (twoJi - 2 * m) with h' | h' <;> omega
  · rintro ⟨a1, a2, a3, a4, a5⟩
    have := abs_le.1 a3
    refine ⟨l, ⟨a1, a2, by norm_num⟩, twoJf, Pf, ⟨twoJf, ⟨?_, ?_, ?_⟩, ?_⟩, rfl, rfl, rfl⟩
    · rw [abs_le]; omega
    · omega
    · rcases abs_cases (twoJi - 2 * l) with h' | h' <;> omega
    · obtain ⟨p⟩ := Pf
      cases p <;> simp

/-- C54: the differential width for gamma emission to the continuum is the sum over exactly
the allowed types and multipolarities up to the maximum and all final spins and parities
they lead to, each once; the table has one entry for each term. -/
theorem C54_continuum (D : Data) (c : Parent) {Emin Exf : ℝ} (hc : Emin ≤ Exf) (hE : Exf ≤ c.Ex)
    (h1 : 0 ≤ c.twoJ) :
    ∃ L : List (Rad × Int × Int × Parity), L.Nodup ∧
      (∀ t l twoJf Pf, (t, l, twoJf, Pf) ∈ L ↔ l ≤ D.gamLMax ∧ Radiates c.twoJ c.P t l twoJf Pf) ∧
      ∃ a, gamDiff D c Emin Exf = .ok a ∧ a.1 = (a.2.map (·.width)).sum ∧
        a.2 = L.map (fun x => ⟨x.2.2.1, x.2.2.2, c.norm * D.strength c.pdg x.1 x.2.1 (c.Ex - Exf) *
          D.density c.pdg Exf x.2.2.1 x.2.2.2⟩) := by
  have ht : (0 : ℝ) < tiny := by unfold tiny; norm_num
  refine ⟨_, typed _ (fun x => transitionType c.P x.1 x.2.2) (nodup_radStates c.twoJ D.gamLMax 1),
    fun t l J P => ?_, ?_⟩
  · simp only [List.mem_map, Prod.mk.injEq]
    constructor
    · rintro ⟨⟨l', J', P'⟩, hx, a4, h⟩
      simp only [Prod.mk.injEq] at h
      obtain ⟨rfl, rfl, rfl⟩ := h
      obtain ⟨a1, a2, a3⟩ := (mem_radStates _ _ _ _ _).1 hx
      exact ⟨a2, a1, a3, (transition_iff c.P (by omega) _ t).1 a4⟩
    · rintro ⟨a2, a1, a3, a4⟩
      exact ⟨(l, J, P), (mem_radStates _ _ _ _ _).2 ⟨a1, a2, a3⟩,
        (transition_iff c.P (by omega) _ t).2 a4, rfl⟩
  · unfold gamDiff
    rw [if_neg (by linarith),
      if_neg (by rw [not_or, not_lt, gt_iff_lt, not_lt]; constructor <;> linarith), glLoop_eq]
    refine ⟨_, rfl, ?_, ?_⟩
    · simp only [List.nil_append, List.map_map, zero_add]
      rfl
    · simp only [List.nil_append, List.map_map]
      rfl

/-- C54: outside the continuum the differential width is zero; for impossible bounds an
error is thrown. -/
theorem C54_outside (D : Data) (c : Parent) (Emin Exf : ℝ) :
    (c.Ex < Emin → gamDiff D c Emin Exf = .error .marleyError) ∧
    (Emin ≤ c.Ex → Exf < Emin - 1e-6 ∨ Exf > c.Ex + 1e-6 → gamDiff D c Emin Exf = .ok (0, [])) := by
  unfold gamDiff
  exact ⟨fun h => by rw [if_pos h], fun h h' => by
    rw [if_neg (not_lt.2 h), if_pos (by unfold tiny; exact h')]⟩

/-- C54: a spin and parity sampled after gamma emission to the continuum can be reached. -/
theorem C54_sampled {G : Type} (E : Sampling.Engine G) (D : Data) (c : Parent) {Emin Exf : ℝ}
    (hc : Emin ≤ Exf) (hE : Exf ≤ c.Ex) (h1 : 0 ≤ c.twoJ) {g g' : G} {twoJf : Int} {Pf : Parity}
    (h : sampleSpinParity E D c (.gamCont Emin) Exf g = .ok ((twoJf, Pf), g')) :
    ∃ t l, l ≤ D.gamLMax ∧ Radiates c.twoJ c.P t l twoJf Pf := by
  obtain ⟨L, -, h3, a, h4, -, h5⟩ := C54_continuum D c hc hE h1
  unfold sampleSpinParity Kind.diff at h
  dsimp only at h
  rw [h4] at h
  dsimp only at h
  by_cases h6 : a.1 ≤ 0
  · rw [if_pos h6] at h; simp at h
  rw [if_neg h6] at h
  cases h7 : Sampling.pickFrom E (a.2.map (·.width)) g with
  | error e => rw [h7] at h; simp at h
  | ok x =>
    rw [h7] at h
    dsimp only at h
    cases h8 : a.2[x.1]? with
    | none => rw [h8] at h; simp at h
    | some y =>
      rw [h8] at h
      simp only [Except.ok.injEq, Prod.mk.injEq] at h
      have hm := List.mem_of_getElem? h8
      rw [h5] at hm
      obtain ⟨⟨t, l, J, P⟩, h9, rfl⟩ := List.mem_map.1 hm
      obtain ⟨⟨rfl, rfl⟩, -⟩ := h
      exact ⟨t, l, (h3 t l _ _).1 h9⟩

/-! ## Examples -/

/-- Data with neutrons and protons as fragments, one mass unit each; every other mass is
its number of units. -/
noncomputable def unitData : Data where
  mass := ⟨fun id => if id = 2112 ∨ id = 2212 then some 1 else if id = 11 then some 0 else none,
    fun pid => some (Pdg.getA pid)⟩
  frags := [⟨2112, 1, ⟨true⟩⟩, ⟨2212, 1, ⟨true⟩⟩]
  scheme := fun _ => .ok none
  optical := fun _ _ _ _ _ _ => 1
  density := fun _ _ _ _ => 1
  strength := fun _ _ _ _ => 1
  fragLMax := 5
  gamLMax := 5

theorem unit_separation : Mass.separationEnergyPid unitData.mass 1000190400 2112 true = .ok (some 0) := by
  have e1 : Pdg.getZ 1000190400 = 19 := by decide
  have e2 : Pdg.getA 1000190400 = 40 := by decide
  have e3 : Pdg.getZ 2112 = 0 := by decide
  have e4 : Pdg.getA 2112 = 1 := by decide
  have e5 : Pdg.getA (Pdg.nucleusPid 19 40) = 40 := by decide
  have e6 : Pdg.getA (Pdg.nucleusPid 19 39) = 39 := by decide
  simp only [Mass.separationEnergyPid, Mass.separationEnergy, Mass.at', Mass.lookup, unitData,
    Mass.ELECTRON, e1, e2, e3, e4, sub_zero, show (40 : Int) - 1 = 39 by norm_num, e5, e6]
  norm_num

/-- The parent at 10 MeV with spin 4 and negative parity. -/
noncomputable def unitParent : Parent := ⟨1000190400, 1, 10, 8, ⟨false⟩, 1⟩

/-- The hypotheses of `C53_discrete_partial`, `C53_continuum` and `C54_discrete_partial` hold
for emission of a neutron, and of a gamma ray. -/
example : (unitData.frags.map (·.pid)).Nodup ∧ (⟨2112, 1, ⟨true⟩⟩ : Fragment) ∈ unitData.frags ∧
    Mass.separationEnergyPid unitData.mass unitParent.pdg 2112 true = .ok (some 0) ∧
    (1.5 : ℝ) < unitParent.Ex - 0 ∧ 0 ≤ unitParent.twoJ ∧ (2 : Int) ∣ unitParent.twoJ + 3 + 1 ∧
    (2 : Int) ∣ unitParent.twoJ + 4 := by
  refine ⟨by decide, by simp [unitData], unit_separation, by norm_num [unitParent], by decide,
    by decide, by decide⟩

/-- There are allowed waves and radiations: `l = 3`, `j = 5/2` to spin 3/2 and positive parity,
and quadrupole radiation to spin 2 and negative parity. -/
example : Wave 8 ⟨false⟩ 1 ⟨true⟩ 3 5 3 ⟨true⟩ ∧ Radiates 8 ⟨false⟩ .electric 2 4 ⟨false⟩ :=
  ⟨⟨by decide, by unfold Triangle; decide, by unfold Triangle; decide, by decide⟩,
    ⟨by decide, by unfold Triangle; decide, by decide⟩⟩

/-- C53 does not hold if the spins do not fit: from spin 0 no nucleon can be emitted to spin 0,
but the width counts an S wave. -/
theorem C53_discrete_violated :
    ∃ (D : Data) (c : Parent) (lev : Level ℝ) (f : Fragment), f ∈ D.frags ∧
      0 ≤ c.twoJ ∧ 0 ≤ f.twoS ∧ 0 ≤ lev.twoJ ∧
      (∀ l twoj, ¬ Wave c.twoJ c.P f.twoS f.parity l twoj lev.twoJ lev.parity) ∧
      ∃ w > 0, fragDiscreteWidth D c f.pid lev = .ok w := by
  refine ⟨unitData, ⟨1000190400, 1, 10, 0, ⟨true⟩, 1⟩, ⟨1, 0, ⟨true⟩, []⟩, ⟨2112, 1, ⟨true⟩⟩,
    by simp [unitData], le_rfl, by norm_num, le_rfl, ?_, 1, one_pos, ?_⟩
  · rintro l twoj ⟨-, ⟨a1, a2, a3⟩, ⟨b1, b2, b3⟩, -⟩
    have := abs_le.1 b1
    dsimp only at a1 a2 a3 b2 b3
    omega
  · unfold fragDiscreteWidth maxExf
    rw [show fragment unitData 2112 = some ⟨2112, 1, ⟨true⟩⟩ by
      simp [fragment, unitData], unit_separation]
    simp only [Option.map_some]
    rw [if_neg (by norm_num), jLoop_eq]
    have : waves ⟨true⟩ (Parity.mul ⟨true⟩ ⟨true⟩) 1 |0 - 0| (0 + 0) = [(0, 0)] := by
      decide +kernel
    rw [this]
    simp [unitData]

/-- C54 does not hold if the spins do not fit: no radiation can lead from spin 1/2 to spin 1,
but the width counts dipole radiation. -/
theorem C54_discrete_violated :
    ∃ (D : Data) (c : Parent) (lev : Level ℝ), 0 ≤ c.twoJ ∧ 0 ≤ lev.twoJ ∧
      (∀ t l, ¬ Radiates c.twoJ c.P t l lev.twoJ lev.parity) ∧ 0 < gamDiscreteWidth D c lev := by
  refine ⟨unitData, ⟨1000190400, 1, 10, 1, ⟨true⟩, 1⟩, ⟨1, 2, ⟨true⟩, []⟩, by norm_num, by norm_num,
    ?_, ?_⟩
  · rintro t l ⟨-, ⟨a1, a2, a3⟩, -⟩
    dsimp only at a3
    omega
  · unfold gamDiscreteWidth
    rw [if_neg (by norm_num), mpolLoop_eq]
    have : upTo 0 (max 1 (|(1 : Int) - 2|.tdiv 2)) (((1 : Int) + 2).tdiv 2) = [1] := by
      decide +kernel
    rw [this]
    simp [unitData]

end Marley.Props
