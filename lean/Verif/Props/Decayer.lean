import Verif.Lemmas.Decayer

/-!
# C50 and C51: the nucleus decayer
-/

set_option autoImplicit false

namespace Marley.Props
open Marley Marley.Decay
open Marley.Scheme (Scheme Level levelAt closestLevel)
open Marley.Sampling (Arith Engine exact)

variable {G : Type}

/-! ## C50: what is conserved -/

/-- The decayer does nothing to events without residue; otherwise a sequence of emissions. -/
theorem process_history {A : Arith} {E : Engine G} {fuel : Nat} {D : Data} {ev ev' : Event ℝ} {g : G}
    {r : Res G} {ej re : Particle ℝ} {rest : List (Particle ℝ)} (hev : ev.final = ej :: re :: rest)
    (h : process A E fuel D ev g = some (ev', r)) :
    ∃ re' ps, ev' = leave ev ej re' rest ps ∧ History D (Thrown A E D) re ps re' := by
  have stop : ∀ (x r : Res G), some (ev, x) = some (ev', r) →
      ∃ re' ps, ev' = leave ev ej re' rest ps ∧ History D (Thrown A E D) re ps re' := by
    intro e r h
    simp only [Option.some.injEq, Prod.mk.injEq] at h
    obtain ⟨rfl, rfl⟩ := h
    exact ⟨re, [], (leave_nil hev).symm, .done re⟩
  unfold process at h
  by_cases h1 : ev.Ex = 0
  · rw [if_pos h1] at h; exact stop _ _ h
  rw [if_neg h1] at h
  by_cases h2 : ev.Ex < 0
  · rw [if_pos h2] at h; exact stop _ _ h
  rw [if_neg h2, hev] at h
  simp only [List.getElem?_cons_succ, List.getElem?_cons_zero] at h
  by_cases h3 : Pdg.isIon re.pdg = false
  · rw [if_pos h3] at h; exact stop _ _ h
  rw [if_neg h3] at h
  cases h4 : Mass.atomicMassPid D.mass re.pdg true with
  | error e => rw [h4] at h; exact stop _ _ h
  | ok o =>
    rw [h4] at h
    cases o with
    | none => exact stop _ _ h
    | some m =>
      dsimp only at h
      cases h5 : Mass.particleMass D.mass Mass.ELECTRON with
      | error e => rw [h5] at h; exact stop _ _ h
      | ok me =>
        rw [h5] at h
        dsimp only at h
        by_cases h6 : |re.mass - (m - re.charge * me + ev.Ex)| > tolerance
        · rw [if_pos h6] at h
          by_cases h7 : |re.mass - (m - re.charge * me)| ≤ tolerance
          · rw [if_pos h7] at h; exact stop _ _ h
          · rw [if_neg h7] at h; exact stop _ _ h
        · rw [if_neg h6] at h
          obtain ⟨re', ps, e1, e2, -⟩ := deexcite_history hev h
          exact ⟨re', ps, e1, e2⟩

/-- C50: initial particles, ejectile and the stored properties of the residue are unchanged, the
residue stays in the second place, other particles keep theirs and products are only
appended, whatever happens, also if an exception is thrown. -/
theorem C50_kept {A : Arith} {E : Engine G} {fuel : Nat} {D : Data} {ev ev' : Event ℝ} {g : G}
    {r : Res G} (h : process A E fuel D ev g = some (ev', r)) :
    ev' = ev ∨ ∃ ejectile residue others residue' products,
      ev.final = ejectile :: residue :: others ∧
      ev' = { ev with final := ejectile :: residue' :: (others ++ products) } := by
  have short : ev.final[1]? = none → ev' = ev := by
    intro h0
    unfold process at h
    rw [h0] at h
    split_ifs at h <;> simp only [Option.some.injEq, Prod.mk.injEq] at h <;> exact h.1.symm
  match hf : ev.final with
  | [] => exact Or.inl (short (by simp [hf]))
  | [x] => exact Or.inl (short (by simp [hf]))
  | ej :: re :: rest =>
    obtain ⟨re', ps, e1, -⟩ := process_history hf h
    exact Or.inr ⟨ej, re, rest, re', ps, rfl, e1⟩

theorem nuclear_charge {pid q : Int} (h : pid = 2112 ∨ pid = 2212 ∨ pid > 1000000000)
    (hq : Pdg.charge pid = .ok q) : Pdg.getZ pid = q := by
  rcases h with rfl | rfl | h
  · rw [show Pdg.charge 2112 = .ok 0 by decide] at hq
    cases hq
    decide
  · rw [show Pdg.charge 2212 = .ok 1 by decide] at hq
    cases hq
    decide
  · unfold Pdg.charge at hq
    rw [if_pos h] at hq
    simp only [Except.ok.injEq] at hq
    unfold Pdg.getZ
    rw [if_neg (by simp only [Pdg.PROTON]; omega), if_neg (by simp only [Pdg.NEUTRON]; omega), if_pos h, hq]

theorem history_charge {D : Data} {R : Particle ℝ → Particle ℝ → Particle ℝ → Prop}
    (hF : NuclearFragments D) {re re' : Particle ℝ}
    {ps : List (Particle ℝ)} (h : History D R re ps re') :
    re'.charge + (ps.map (·.charge)).sum = re.charge := by
  induction h with
  | done => simp
  | @emit re nuc em re' ps s _ _ ih =>
    rw [List.map_cons, List.sum_cons]
    cases s with
    | gamma _ h1 h2 _ => rw [h1, ← h2]; linarith
    | fragment f hf _ h1 h2 _ _ _ =>
      have := nuclear_charge (hF f hf) h1
      linarith

/-- C50: the total charge of the final particles is conserved, also if an exception is thrown.
The fragments must be nucleons or nuclei. -/
theorem C50_charge {A : Arith} {E : Engine G} {fuel : Nat} {D : Data} (hF : NuclearFragments D)
    {ev ev' : Event ℝ} {g : G} {r : Res G} (h : process A E fuel D ev g = some (ev', r)) :
    (ev'.final.map (·.charge)).sum = (ev.final.map (·.charge)).sum := by
  rcases C50_kept h with rfl | ⟨ej, re, rest, re', ps, h1, h2⟩
  · rfl
  · obtain ⟨re'', ps', e1, e2⟩ := process_history h1 h
    have hc := history_charge hF e2
    rw [e1, h1]
    simp only [leave, List.map_cons, List.map_append, List.sum_cons, List.sum_append]
    linarith

theorem getZ_range (pid : Int) : 0 ≤ Pdg.getZ pid ∧ Pdg.getZ pid < 1000 := by
  unfold Pdg.getZ
  split_ifs with h1 h2 h3
  · omega
  · omega
  · rw [Int.tmod_eq_emod_of_nonneg (by omega), Int.tdiv_eq_ediv_of_nonneg (by omega)]
    omega
  · omega

theorem getA_range (pid : Int) : 0 ≤ Pdg.getA pid ∧ Pdg.getA pid < 1000 := by
  unfold Pdg.getA
  split_ifs with h1 h2 h3
  · omega
  · omega
  · rw [Int.tmod_eq_emod_of_nonneg (by omega), Int.tdiv_eq_ediv_of_nonneg (by omega)]
    omega
  · omega

theorem code_numbers {Z A : Int} (hZ : 0 ≤ Z) (hZ' : Z < 1000) (hA : 0 ≤ A) (hA' : A < 1000) :
    Pdg.getZ (Pdg.nucleusPid Z A) = Z ∧ Pdg.getA (Pdg.nucleusPid Z A) = A := by
  simp only [Pdg.nucleusPid, Pdg.getZ, Pdg.getA, Pdg.PROTON, Pdg.NEUTRON]
  constructor
  · split_ifs <;> first
      | omega
      | (rw [Int.tmod_eq_emod_of_nonneg (by omega), Int.tdiv_eq_ediv_of_nonneg (by omega)]; omega)
  · split_ifs <;> first
      | omega
      | (rw [Int.tmod_eq_emod_of_nonneg (by omega), Int.tdiv_eq_ediv_of_nonneg (by omega)]; omega)

/-- A fragment with a separation energy leaves something behind. -/
theorem separation_left {t : Mass.Table} (ht : NuclearCodes t) {n pid : Int} {S : ℝ}
    (h : Mass.separationEnergyPid t n pid true = .ok (some S)) (hs : Pdg.getA pid < 500) :
    0 < Pdg.getA n - Pdg.getA pid := by
  by_contra hc
  unfold Mass.separationEnergyPid Mass.separationEnergy at h
  dsimp only at h
  have hn := getA_range n
  rw [lookup_none ht (Pdg.getZ n - Pdg.getZ pid) (not_lt.1 hc) (by omega)] at h
  split at h
  · simp at h
  split at h
  · simp at h
  split at h
  · simp at h
  · rename_i mi _ _
    cases mi <;> simp at h

/-- A nucleus without protons enough has no mass. -/
theorem code_massive {t : Mass.Table} (ht : NuclearCodes t) {Z A : Int} (hA : A < 1000) {m : ℝ}
    (h : Mass.atomicMassPid t (Pdg.nucleusPid Z A) true = .ok (some m)) : 0 ≤ Z := by
  by_contra hc
  have hn : Pdg.nucleusPid Z A = 10000 * Z + 10 * A + 1000000000 := by
    unfold Pdg.nucleusPid
    rw [if_neg (by omega), if_neg (by omega)]
  have hlt : Pdg.nucleusPid Z A < 1000000000 := by omega
  have hat : t.atomic (Pdg.nucleusPid Z A) = none := by
    cases hl : t.atomic (Pdg.nucleusPid Z A) with
    | none => rfl
    | some x =>
      obtain ⟨Z', A', h1, h2, -, h3⟩ := ht _ _ hl
      omega
  have hlook : Mass.lookupPid t (Pdg.nucleusPid Z A) true = .ok (none, false) := by
    unfold Mass.lookupPid
    rw [hat]
    have : Pdg.getA (Pdg.nucleusPid Z A) = 0 := by
      unfold Pdg.getA
      rw [if_neg (by simp only [Pdg.PROTON]; omega), if_neg (by simp only [Pdg.NEUTRON]; omega),
        if_neg (by omega)]
    simp [this, liquidDropMass_none]
  unfold Mass.atomicMassPid at h
  rw [hlook] at h
  simp [Mass.toMeV] at h

theorem history_numbers {D : Data} {R : Particle ℝ → Particle ℝ → Particle ℝ → Prop} (hfile : Filed D) (ht : NuclearCodes D.mass)
    (hs : ∀ f ∈ D.frags, Pdg.getA f.pid < 500) {re re' : Particle ℝ} {ps : List (Particle ℝ)}
    (h : History D R re ps re') :
    Pdg.getZ re'.pdg + (ps.map (fun p => Pdg.getZ p.pdg)).sum = Pdg.getZ re.pdg ∧
      Pdg.getA re'.pdg + (ps.map (fun p => Pdg.getA p.pdg)).sum = Pdg.getA re.pdg := by
  induction h with
  | done => simp
  | @emit re nuc em re' ps s _ _ ih =>
    rw [List.map_cons, List.map_cons, List.sum_cons, List.sum_cons]
    cases s with
    | gamma h1 _ _ h2 =>
      rw [h1, show Pdg.getZ 22 = 0 by decide, show Pdg.getA 22 = 0 by decide, ← h2 hfile]
      omega
    | fragment f hf h1 _ _ h2 h3 h4 =>
      obtain ⟨S, h3⟩ := h3
      obtain ⟨m, h4⟩ := h4
      have hA := separation_left ht h3 (hs f hf)
      have r1 := getZ_range re.pdg
      have r2 := getA_range re.pdg
      have r3 := getZ_range f.pid
      have r4 := getA_range f.pid
      rw [h2, remnant] at h4
      have hZ := code_massive ht (by omega) h4
      obtain ⟨c1, c2⟩ := code_numbers (Z := Pdg.getZ re.pdg - Pdg.getZ f.pid)
        (A := Pdg.getA re.pdg - Pdg.getA f.pid) hZ (by omega) (by omega) (by omega)
      rw [h2, remnant, c1, c2] at ih
      rw [h1]
      omega

/-- C50: the total number of protons and of nucleons of the final particles is conserved, also if
an exception is thrown.  Part: the data must be sane: each decay scheme is filed under its
nucleus, the codes in the mass table are those of nuclei, the fragments are not too heavy.  A
fragment with more protons than the nucleus leaves something without mass, where the model
stops (outcome `.ub`). -/
theorem C50_nucleons_partial {A : Arith} {E : Engine G} {fuel : Nat} {D : Data} (hfile : Filed D)
    (ht : NuclearCodes D.mass) (hs : ∀ f ∈ D.frags, Pdg.getA f.pid < 500) {ev ev' : Event ℝ} {g : G}
    {r : Res G} (h : process A E fuel D ev g = some (ev', r)) :
    (ev'.final.map (fun p => Pdg.getZ p.pdg)).sum = (ev.final.map (fun p => Pdg.getZ p.pdg)).sum ∧
      (ev'.final.map (fun p => Pdg.getA p.pdg)).sum = (ev.final.map (fun p => Pdg.getA p.pdg)).sum := by
  rcases C50_kept h with rfl | ⟨ej, re, rest, re', ps, h1, h2⟩
  · exact ⟨rfl, rfl⟩
  · obtain ⟨re'', ps', e1, e2⟩ := process_history h1 h
    obtain ⟨c1, c2⟩ := history_numbers hfile ht hs e2
    rw [e1, h1]
    simp only [leave, List.map_cons, List.map_append, List.sum_cons, List.sum_append]
    constructor <;> linarith

/-- C50: every product is a gamma ray or one of the fragments. -/
theorem C50_products {A : Arith} {E : Engine G} {fuel : Nat} {D : Data} {ev ev' : Event ℝ} {g : G}
    {r : Res G} (h : process A E fuel D ev g = some (ev', r)) :
    ∀ p ∈ ev'.final.drop ev.final.length, p.pdg = 22 ∧ p.charge = 0 ∨
      ∃ f ∈ D.frags, p.pdg = f.pid ∧ Pdg.charge f.pid = .ok p.charge := by
  rcases C50_kept h with rfl | ⟨ej, re, rest, re', ps, h1, h2⟩
  · simp
  · obtain ⟨re'', ps', e1, e2⟩ := process_history h1 h
    have hd : ev'.final.drop ev.final.length = ps' := by
      rw [e1, h1]
      simp [leave]
    rw [hd]
    clear hd e1 h1 h h2
    induction e2 with
    | done => simp
    | emit s _ _ ih =>
      intro p hp
      rcases List.mem_cons.1 hp with rfl | hp
      · cases s with
        | gamma h1 h2 _ _ => exact Or.inl ⟨h1, h2⟩
        | fragment f hf h1 h2 _ _ _ _ => exact Or.inr ⟨f, hf, h1, h2⟩
      · exact ih p hp

/-! ## C51: decisions -/

theorem groundMass_unique {D : Data} {n q : Int} {m m' : ℝ} (h : GroundMass D n q m)
    (h' : GroundMass D n q m') : m = m' := by
  obtain ⟨a, e, h1, h2, rfl⟩ := h
  obtain ⟨a', e', h1', h2', rfl⟩ := h'
  rw [h1] at h1'
  rw [h2] at h2'
  cases h1'
  cases h2'
  rfl

/-- C51: nothing happens if the excitation energy is zero. -/
theorem C51_zero (A : Arith) (E : Engine G) (fuel : Nat) (D : Data) {ev : Event ℝ} (h : ev.Ex = 0)
    (g : G) : process A E fuel D ev g = some (ev, .ok g) := by
  unfold process
  rw [if_pos h]

/-- C51: `marley::Error` if it is negative. -/
theorem C51_negative (A : Arith) (E : Engine G) (fuel : Nat) (D : Data) {ev : Event ℝ} (h : ev.Ex < 0)
    (g : G) : process A E fuel D ev g = some (ev, .error .marleyError) := by
  unfold process
  rw [if_neg h.ne, if_pos h]

/-- C51: nothing happens if the residue is not an ion. -/
theorem C51_not_ion (A : Arith) (E : Engine G) (fuel : Nat) (D : Data) {ev : Event ℝ} (h : 0 ≤ ev.Ex)
    {re : Particle ℝ} (hre : ev.final[1]? = some re)
    (hi : ¬ (1000000000 < re.pdg ∧ re.pdg < 2000000000)) (g : G) :
    process A E fuel D ev g = some (ev, .ok g) := by
  unfold process
  by_cases h0 : ev.Ex = 0
  · rw [if_pos h0]
  rw [if_neg h0, if_neg (not_lt.2 h), hre]
  dsimp only
  rw [if_pos]
  simp only [Pdg.isIon, Bool.and_eq_false_iff, decide_eq_false_iff_not]
  tauto

/-- The last decision for an ion. -/
theorem process_ion (A : Arith) (E : Engine G) (fuel : Nat) (D : Data) {ev : Event ℝ} (h : 0 < ev.Ex)
    {re : Particle ℝ} (hre : ev.final[1]? = some re) (h1 : 1000000000 < re.pdg)
    (h2 : re.pdg < 2000000000) {m : ℝ} (hm : GroundMass D re.pdg re.charge m) (g : G) :
    process A E fuel D ev g = (if |re.mass - (m + ev.Ex)| > tolerance then
      if |re.mass - m| ≤ tolerance then some (ev, .ok g) else some (ev, .error .marleyError)
      else deexcite A E fuel D re.pdg ev g) := by
  obtain ⟨a, e, ha, he, rfl⟩ := hm
  unfold process
  rw [if_neg h.ne', if_neg (not_lt.2 h.le), hre]
  dsimp only
  rw [if_neg (by simp [Pdg.isIon, h1, h2]), ha]
  dsimp only
  rw [show Mass.ELECTRON = 11 from rfl, he]

theorem excited_iff {D : Data} {p : Particle ℝ} {m : ℝ} (hm : GroundMass D p.pdg p.charge m) (E δ : ℝ) :
    Excited D p E δ ↔ |p.mass - (m + E)| ≤ δ :=
  ⟨fun ⟨_, h, h'⟩ => by rw [groundMass_unique hm h]; exact h', fun h => ⟨m, hm, h⟩⟩

/-- C51: nothing happens if the residue is an ion in its ground state.  Part: its mass must not be
that of the excited residue, too, within the tolerance of 1e-5 MeV
(`C51_twice_violated`). -/
theorem C51_ground_partial (A : Arith) (E : Engine G) (fuel : Nat) {D : Data} {ev : Event ℝ}
    (h : 0 < ev.Ex) {re : Particle ℝ} (hre : ev.final[1]? = some re) (h1 : 1000000000 < re.pdg)
    (h2 : re.pdg < 2000000000) (hg : Excited D re 0 (1 / 100000))
    (hx : ¬ Excited D re ev.Ex (1 / 100000)) (g : G) :
    process A E fuel D ev g = some (ev, .ok g) := by
  obtain ⟨m, hm, hg⟩ := hg
  have ht : tolerance = 1 / 100000 := by norm_num [tolerance]
  rw [process_ion A E fuel D h hre h1 h2 hm, ht, if_pos, if_pos]
  · simpa using hg
  · rw [excited_iff hm] at hx
    exact not_le.1 hx

/-- C51: `marley::Error` if the mass of the ion is neither that of the ground state nor that of the
excited state. -/
theorem C51_inconsistent (A : Arith) (E : Engine G) (fuel : Nat) {D : Data} {ev : Event ℝ}
    (h : 0 < ev.Ex) {re : Particle ℝ} (hre : ev.final[1]? = some re) (h1 : 1000000000 < re.pdg)
    (h2 : re.pdg < 2000000000) {m : ℝ} (hm : GroundMass D re.pdg re.charge m)
    (hg : ¬ Excited D re 0 (1 / 100000)) (hx : ¬ Excited D re ev.Ex (1 / 100000)) (g : G) :
    process A E fuel D ev g = some (ev, .error .marleyError) := by
  have ht : tolerance = 1 / 100000 := by norm_num [tolerance]
  rw [excited_iff hm] at hg hx
  rw [process_ion A E fuel D h hre h1 h2 hm, ht, if_pos (not_le.1 hx), if_neg (by simpa using hg)]

/-- C51: `marley::Error` if the residue is bound, levels are known, but none is near the excitation
energy. -/
theorem C51_no_level (A : Arith) (E : Engine G) (fuel : Nat) {D : Data} (hD : SortedSchemes D)
    {ev : Event ℝ} (h : 0 < ev.Ex) {re : Particle ℝ} (hre : ev.final[1]? = some re)
    (h1 : 1000000000 < re.pdg) (h2 : re.pdg < 2000000000) (hx : Excited D re ev.Ex (1 / 100000))
    {s : Scheme ℝ} (hs : D.scheme re.pdg = .ok (some s)) {threshold : ℝ}
    (hth : Mass.unboundThresholdPid D.mass (D.frags.map (·.pid)) re.pdg = .ok threshold)
    (hb : ev.Ex ≤ threshold) (hd : (s.levels.map (·.1)).Nodup)
    (hl : ∀ lev, Known D re.pdg lev → 1 / 100000 < |ev.Ex - lev.energy|) (g : G) :
    process A E (fuel + 1) D ev g = some (ev, .error .marleyError) := by
  have ht : tolerance = 1 / 100000 := by norm_num [tolerance]
  obtain ⟨m, hm, hx⟩ := hx
  rw [process_ion A E (fuel + 1) D h hre h1 h2 hm, ht, if_neg (not_lt.2 hx)]
  unfold deexcite
  rw [hs, hth]
  dsimp only
  rw [show (decide (ev.Ex > threshold) || (some s).isNone) = false by simp [hb]]
  unfold hfLoop
  rw [if_neg (by simp)]
  dsimp only
  rw [if_pos rfl]
  unfold finishGammas
  rw [hre]
  dsimp only
  rw [hs]
  dsimp only
  by_cases hn : s.levels = []
  · have : closestLevel s ev.Ex = .ok none := by simp [closestLevel, hn]
    rw [this]
  · obtain ⟨a, l, e1, e2, -⟩ := C23_closest (hD _ _ hs).1 hn ev.Ex
    rw [e1]
    dsimp only
    cases e3 : levelAt s a with
    | none =>
      simp only [levelAt, Option.map_eq_none_iff, List.find?_eq_none] at e3
      have := e3 _ e2
      simp at this
    | some lev =>
      dsimp only
      rw [if_pos ⟨rfl, by rw [ht]; exact hl lev ⟨s, a, hs, Scheme.levelAt_mem e3⟩⟩]

/-! ## C51: the end -/

theorem closest_energy {D : Data} (hD : SortedSchemes D) (hd : Distinct D) {n : Int} {s : Scheme ℝ}
    (hs : D.scheme n = .ok (some s)) {lev lev' : Level ℝ} (hk : Known D n lev) {a : Nat}
    (hc : closestLevel s lev.energy = .ok (some a)) (ha : levelAt s a = some lev') :
    lev'.energy = lev.energy := by
  obtain ⟨s', b, h1, h2⟩ := hk
  rw [hs] at h1
  cases h1
  obtain ⟨a', l, e1, e2, e3⟩ := C23_closest (hD n s hs).1 (List.ne_nil_of_mem h2) lev.energy
  rw [hc] at e1
  simp only [Except.ok.injEq, Option.some.injEq] at e1
  subst e1
  have hl : l = lev' := by
    have := List.inj_on_of_nodup_map (hd n s hs) e2 (Scheme.levelAt_mem ha) rfl
    exact (Prod.mk.inj this).2
  have := (e3 _ h2).1
  dsimp only at this
  rw [sub_self, abs_zero] at this
  have := abs_nonpos_iff.1 this
  rw [← hl]
  linarith

/-- C51: if the excitation energy is positive and consistent with the mass of the residue, and no
exception is thrown, the final excitation energy is that of a known level without gammas, or
between zero and the cutoff of 1 keV.  It is found from the mass of the residue: exactly if
anything was emitted, within twice the tolerance otherwise. -/
theorem C51_final {A : Arith} {E : Engine G} (hE : E.Lawful) {fuel : Nat} {D : Data}
    (hD : SortedSchemes D) (hd : Distinct D) (hfile : Filed D) {ev ev' : Event ℝ} {g g' : G}
    (h : process A E fuel D ev g = some (ev', .ok g')) (h0 : 0 < ev.Ex) {re : Particle ℝ}
    (hre : ev.final[1]? = some re) (h1 : 1000000000 < re.pdg) (h2 : re.pdg < 2000000000)
    (hx : Excited D re ev.Ex (1 / 100000)) :
    ∃ re' Ef, ev'.final[1]? = some re' ∧ 0 ≤ Ef ∧
      Excited D re' Ef (if ev'.final.length = ev.final.length then 2 / 100000 else 0) ∧
      (Ef ≤ 1 / 1000 ∨ ∃ lev, Known D re'.pdg lev ∧ lev.gammas = [] ∧ lev.energy = Ef) := by
  have ht : tolerance = 1 / 100000 := by norm_num [tolerance]
  have hcut : cutoff = 1 / 1000 := by norm_num [cutoff]
  obtain ⟨m, hm, hx'⟩ := id hx
  rw [process_ion A E fuel D h0 hre h1 h2 hm, ht, if_neg (not_lt.2 hx')] at h
  obtain ⟨ej, rest, hev⟩ : ∃ ej rest, ev.final = ej :: re :: rest := by
    match hf : ev.final with
    | [] => rw [hf] at hre; simp at hre
    | [x] => rw [hf] at hre; simp at hre
    | ej :: y :: rest =>
      rw [hf] at hre
      simp only [List.getElem?_cons_succ, List.getElem?_cons_zero, Option.some.injEq] at hre
      exact ⟨ej, rest, by rw [hre]⟩
  obtain ⟨re', ps, e1, e2, e3⟩ := deexcite_history hev h
  have hlen : ev'.final.length = ev.final.length ↔ ps = [] := by
    rw [e1, hev]
    simp
  simp only [hlen]
  obtain ⟨started, c, Ex, mid, ps1, ps2, rfl, a1, a2, a3, a4, a5⟩ := e3 g' rfl
  have hre' : ev'.final[1]? = some re' := by rw [e1]; rfl
  -- the energy found by the final cascade
  have finish : ∀ δ : ℝ, 0 ≤ δ → Excited D mid Ex δ → GammaEnd D started Ex mid re' ps2 →
      ∃ Ef, 0 ≤ Ef ∧ (∃ lev, Known D re'.pdg lev ∧ lev.gammas = [] ∧ lev.energy = Ef) ∧
        ((ps2 = [] ∧ ∃ s a, D.scheme mid.pdg = .ok (some s) ∧ closestLevel s Ex = .ok (some a) ∧
          (∃ lev, levelAt s a = some lev ∧ lev.energy = Ef) ∧
          (started = false → |Ex - Ef| ≤ tolerance)) ∨ (ps2 ≠ [] ∧ Excited D re' Ef 0)) := by
    rintro δ hδ hm' ⟨s, a, lev, b1, b2, b3, b4, b, lb, b5, b6, b7⟩
    rcases b7 with ⟨rfl, rfl⟩ | ⟨b7, b8, b9, b10⟩
    · cases a2
      rw [b3] at b5
      cases b5
      have hk : Known D re'.pdg lev := ⟨s, b, b1, Scheme.levelAt_mem b3⟩
      exact ⟨lev.energy, hk.nonneg hD, ⟨lev, hk, b6, rfl⟩, Or.inl ⟨rfl, s, b, b1, b2,
        ⟨lev, b3, rfl⟩, b4⟩⟩
    · have hk : Known D re'.pdg lb := by
        rw [b8, hfile _ _ b1]
        exact ⟨s, b, b1, Scheme.levelAt_mem b5⟩
      exact ⟨lb.energy, hk.nonneg hD, ⟨lb, hk, b6, rfl⟩, Or.inr ⟨b7, b10⟩⟩
  rcases a4 with ⟨rfl, rfl, rfl, a6⟩ | ⟨a6, a7, a8, a9⟩
  · cases a1
    rw [List.nil_append]
    rcases a5 with ⟨rfl, rfl⟩ | ⟨rfl, a5⟩
    · cases a2
      refine ⟨re, ev.Ex, hre', h0.le, ?_, Or.inl ?_⟩
      · rw [if_pos rfl]
        exact ⟨m, hm, le_trans hx' (by norm_num)⟩
      · rw [← hcut]
        simpa using a6
    · obtain ⟨Ef, c1, c2, c3⟩ := finish _ (by norm_num) hx a5
      refine ⟨re', Ef, hre', c1, ?_, Or.inr c2⟩
      rcases c3 with ⟨rfl, s, a, -, -, -, c4⟩ | ⟨c3, c4⟩
      · cases a2
        rw [if_pos rfl]
        refine ⟨m, hm, ?_⟩
        have c4 := c4 rfl
        rw [ht] at c4
        calc |re.mass - (m + Ef)| = |(re.mass - (m + ev.Ex)) + (ev.Ex - Ef)| := by ring_nf
          _ ≤ |re.mass - (m + ev.Ex)| + |ev.Ex - Ef| := abs_add_le _ _
          _ ≤ 2 / 100000 := by linarith
      · rw [if_neg c3]
        exact c4
  · rw [if_neg (by simp [a6])]
    rcases a9 with ⟨rfl, a9⟩ | ⟨rfl, lev, a9, rfl⟩
    · rcases a5 with ⟨-, rfl⟩ | ⟨h3, -⟩
      · cases a2
        exact ⟨_, Ex, hre', a8 ⟨hE, hD⟩, a7, Or.inl (by rw [← hcut]; exact a9)⟩
      · simp at h3
    · rcases a5 with ⟨h3, -⟩ | ⟨-, a5⟩
      · simp at h3
      · obtain ⟨Ef, c1, c2, c3⟩ := finish _ le_rfl a7 a5
        refine ⟨re', Ef, hre', c1, ?_, Or.inr c2⟩
        rcases c3 with ⟨rfl, s, a, d1, d2, ⟨lev', d3, rfl⟩, -⟩ | ⟨-, c4⟩
        · cases a2
          rw [closest_energy hD hd d1 a9 d2 d3]
          exact a7
        · exact c4

/-! ## C51: a second application -/

theorem cascade_still {A : Arith} {E : Engine G} {D : Data} {s : Scheme ℝ} {q : Int} {n : Nat} {a : Nat}
    {ev ev' : Event ℝ} {g : G} {r : Res G} {l : Level ℝ} (hl : levelAt s a = some l) (hg : l.gammas = [])
    (h : cascade A E D s q n a ev g = some (ev', r)) : ev' = ev ∧ r = .ok g := by
  cases n with
  | zero => simp [cascade] at h
  | succ n =>
    unfold cascade at h
    rw [hl] at h
    dsimp only at h
    rw [if_pos hg] at h
    simp only [Option.some.injEq, Prod.mk.injEq] at h
    exact ⟨h.1.symm, h.2.symm⟩

theorem hfLoop_still {A : Arith} {E : Engine G} {fuel n : Nat} {D : Data} {c : Bool} {Ex : ℝ} {twoJ : Int}
    {P : Parity} {ev ev' : Event ℝ} {g : G} {r : Res ((Bool × ℝ) × G)} (hc : ¬ (c = true ∧ Ex > cutoff))
    (h : hfLoop A E fuel D n c Ex twoJ P ev g = some (ev', r)) : ev' = ev ∧ r = .ok ((c, Ex), g) := by
  cases n with
  | zero => simp [hfLoop] at h
  | succ n =>
    unfold hfLoop at h
    rw [if_neg hc] at h
    simp only [Option.some.injEq, Prod.mk.injEq] at h
    exact ⟨h.1.symm, h.2.symm⟩

/-- If a de-excitation emits nothing and ends well, any other does the same. -/
theorem deexcite_still {A : Arith} {E : Engine G} {fuel fuel' : Nat} {D : Data} {ev ev' : Event ℝ}
    {g g1 g2 : G} {r : Res G} {ej re : Particle ℝ} {rest : List (Particle ℝ)}
    (hev : ev.final = ej :: re :: rest)
    (h : deexcite A E fuel D re.pdg ev g = some (ev, .ok g1))
    (h' : deexcite A E fuel' D re.pdg ev g2 = some (ev', r)) : ev' = ev ∧ r = .ok g2 := by
  obtain ⟨re', ps, e1, e2, e3⟩ := deexcite_history hev h
  have hps : ps = [] := by
    have : ev.final.length = (leave ev ej re' rest ps).final.length := by rw [← e1]
    rw [hev] at this
    simpa [leave] using this
  obtain ⟨started, c, Ex, mid, ps1, ps2, hsum, a1, a2, ⟨ds, th, b1, b2, b3⟩, a4, a5⟩ := e3 g1 rfl
  rw [hps] at hsum
  obtain ⟨rfl, rfl⟩ := List.append_eq_nil_iff.1 hsum.symm
  cases a1
  cases a2
  rcases a4 with ⟨-, rfl, rfl, a6⟩ | ⟨a6, -⟩
  swap
  · exact absurd rfl a6
  unfold deexcite at h'
  rw [b1, b2] at h'
  dsimp only at h'
  rw [← b3] at h'
  cases hl : hfLoop A E fuel' D fuel' c ev.Ex ev.twoJ ev.parity ev g2 with
  | none => rw [hl] at h'; simp at h'
  | some y =>
    obtain ⟨ev1, r1⟩ := y
    obtain ⟨rfl, rfl⟩ := hfLoop_still a6 hl
    rw [hl] at h'
    dsimp only at h'
    rcases a5 with ⟨rfl, -⟩ | ⟨rfl, s, a, lev, c1, c2, c3, c4, b, lb, c5, c6, c7⟩
    · rw [if_neg (by simp)] at h'
      simp only [Option.some.injEq, Prod.mk.injEq] at h'
      exact ⟨h'.1.symm, h'.2.symm⟩
    · rw [if_pos rfl] at h'
      rcases c7 with ⟨-, rfl⟩ | ⟨c7, -⟩
      swap
      · exact absurd rfl c7
      rw [c3] at c5
      cases c5
      unfold finishGammas at h'
      rw [hev] at h'
      simp only [List.getElem?_cons_succ, List.getElem?_cons_zero] at h'
      rw [c1] at h'
      dsimp only at h'
      rw [c2] at h'
      dsimp only at h'
      rw [c3] at h'
      dsimp only at h'
      rw [if_neg (by rintro ⟨-, h4⟩; exact absurd (c4 rfl) (not_le.2 h4))] at h'
      exact cascade_still c3 c6 h'

/-- C51: a second application does not change the event.  Part: if the first one emitted anything,
the mass of the residue must not by accident agree with the original excitation energy
(`C51_twice_violated`). -/
theorem C51_twice_partial {A : Arith} {E : Engine G} {fuel fuel' : Nat} {D : Data}
    {ev ev' ev'' : Event ℝ} {g g1 g2 : G} {r : Res G}
    (h : process A E fuel D ev g = some (ev', .ok g1))
    (h' : process A E fuel' D ev' g2 = some (ev'', r))
    (hx : ev' = ev ∨ ∀ re', ev'.final[1]? = some re' → ¬ Excited D re' ev.Ex (1 / 100000)) :
    ev'' = ev' := by
  have ht : tolerance = 1 / 100000 := by norm_num [tolerance]
  have hE : ev'.Ex = ev.Ex := by
    rcases C50_kept h with rfl | ⟨_, _, _, _, _, -, e⟩
    · rfl
    · rw [e]
  have same : ∀ x r : Res G, some (ev', x) = some (ev'', r) → ev'' = ev' := by
    intro x r e
    simp only [Option.some.injEq, Prod.mk.injEq] at e
    exact e.1.symm
  have h0 := h'
  unfold process at h'
  by_cases c1 : ev'.Ex = 0
  · rw [if_pos c1] at h'; exact same _ _ h'
  rw [if_neg c1] at h'
  by_cases c2 : ev'.Ex < 0
  · rw [if_pos c2] at h'; exact same _ _ h'
  rw [if_neg c2] at h'
  cases hf : ev'.final[1]? with
  | none => rw [hf] at h'; exact same _ _ h'
  | some re =>
    rw [hf] at h'
    dsimp only at h'
    by_cases c3 : Pdg.isIon re.pdg = false
    · rw [if_pos c3] at h'; exact same _ _ h'
    rw [if_neg c3] at h'
    cases h4 : Mass.atomicMassPid D.mass re.pdg true with
    | error e => rw [h4] at h'; exact same _ _ h'
    | ok o =>
      rw [h4] at h'
      cases o with
      | none => exact same _ _ h'
      | some m =>
        dsimp only at h'
        cases h5 : Mass.particleMass D.mass Mass.ELECTRON with
        | error e => rw [h5] at h'; exact same _ _ h'
        | ok me =>
          rw [h5] at h'
          dsimp only at h'
          by_cases h6 : |re.mass - (m - re.charge * me + ev'.Ex)| > tolerance
          · rw [if_pos h6] at h'
            by_cases h7 : |re.mass - (m - re.charge * me)| ≤ tolerance
            · rw [if_pos h7] at h'; exact same _ _ h'
            · rw [if_neg h7] at h'; exact same _ _ h'
          · rw [if_neg h6] at h'
            rcases hx with rfl | hx
            · obtain ⟨ej, rest, hev⟩ : ∃ ej rest, ev'.final = ej :: re :: rest := by
                match hf' : ev'.final with
                | [] => rw [hf'] at hf; simp at hf
                | [x] => rw [hf'] at hf; simp at hf
                | ej :: y :: rest =>
                  rw [hf'] at hf
                  simp only [List.getElem?_cons_succ, List.getElem?_cons_zero, Option.some.injEq] at hf
                  exact ⟨ej, rest, by rw [hf]⟩
              unfold process at h
              rw [if_neg c1, if_neg c2, hf] at h
              dsimp only at h
              rw [if_neg c3, h4] at h
              dsimp only at h
              rw [h5] at h
              dsimp only at h
              rw [if_neg h6] at h
              exact (deexcite_still hev h h').1
            · refine absurd ⟨m - re.charge * me, ⟨m, me, h4, h5, rfl⟩, ?_⟩ (hx re hf)
              rw [← ht, ← hE]
              exact not_lt.1 h6

/-! ## An example -/

/-- A ground state, and a level at `d` that decays to it. -/
noncomputable def gapLevels (d : ℝ) : Scheme ℝ :=
  ⟨19, 40, [(0, ⟨0, 0, ⟨true⟩, []⟩), (1, ⟨d, 2, ⟨true⟩, [⟨d, 1, some 0⟩]⟩)], 2⟩

/-- Data in which only potassium-40 has levels; neutrons are strongly bound. -/
noncomputable def gapData (d : ℝ) : Data where
  mass := ⟨fun id => if id = 2112 then some 1 else if id = 11 then some 0 else none,
    fun pid => if pid = 1000190400 then some 40 else if pid = 1000190390 then some 1000000000 else none⟩
  frags := [⟨2112, 1, ⟨true⟩⟩]
  scheme := fun n => .ok (if n = 1000190400 then some (gapLevels d) else none)
  optical := fun _ _ _ _ _ _ => 1
  density := fun _ _ _ _ => 1
  strength := fun _ _ _ _ => 1
  fragLMax := 5
  gamLMax := 5

/-- An ion of potassium-40 at rest. -/
noncomputable def gapIon (m : ℝ) : Particle ℝ := ⟨1000190400, m, 0, 0, 0, m, 1⟩

/-- An event with that ion as residue, and stored excitation energy `d`. -/
noncomputable def gapEvent (d : ℝ) (residue : Particle ℝ) (others : List (Particle ℝ)) : Event ℝ :=
  ⟨[], ⟨11, 0, 0, 0, 0, 0, -1⟩ :: residue :: others, d, 2, ⟨true⟩⟩

theorem gap_sane {d : ℝ} (hd : 0 ≤ d) : SortedSchemes (gapData d) ∧ Distinct (gapData d) ∧
    Filed (gapData d) ∧ NuclearCodes (gapData d).mass ∧ NuclearFragments (gapData d) ∧
    ∀ f ∈ (gapData d).frags, Pdg.getA f.pid < 500 := by
  have key : ∀ n s, (gapData d).scheme n = .ok (some s) → n = 1000190400 ∧ s = gapLevels d := by
    intro n s h
    simp only [gapData, Except.ok.injEq] at h
    split_ifs at h with h1
    · simp only [Option.some.injEq] at h
      exact ⟨h1, h.symm⟩
  refine ⟨?_, ?_, ?_, ?_, ?_, ?_⟩
  · intro n s h
    obtain ⟨-, rfl⟩ := key n s h
    simp [gapLevels, hd]
  · intro n s h
    obtain ⟨-, rfl⟩ := key n s h
    simp [gapLevels]
  · intro n s h
    obtain ⟨rfl, rfl⟩ := key n s h
    show Pdg.nucleusPid 19 40 = 1000190400
    decide
  · intro pid x h
    simp only [gapData] at h
    split_ifs at h with h1 h2
    · exact ⟨19, 40, by norm_num, by norm_num, by norm_num, by rw [h1]; norm_num⟩
    · exact ⟨19, 39, by norm_num, by norm_num, by norm_num, by rw [h2]; norm_num⟩
  · intro f hf
    simp only [gapData, List.mem_singleton] at hf
    subst hf
    exact Or.inl rfl
  · intro f hf
    simp only [gapData, List.mem_singleton] at hf
    subst hf
    decide

theorem gap_mass' (d : ℝ) (q : Int) : GroundMass (gapData d) 1000190400 q (40 * Mass.microAmu) := by
  refine ⟨40 * Mass.microAmu, 0, ?_, ?_, by simp⟩
  · simp [Mass.atomicMassPid, Mass.lookupPid, Mass.toMeV, gapData]
  · simp [Mass.particleMass, gapData]

theorem gap_mass (d : ℝ) : GroundMass (gapData d) 1000190400 1 (40 * Mass.microAmu) := gap_mass' d 1

/-- The nucleus emits one gamma ray whenever its mass agrees with the stored energy. -/
theorem gap_emits {E : Engine G} {g : G} (hg : 0 ≤ (E.draw g).1 ∧ (E.draw g).1 ≤ 1) {d : ℝ}
    (h0 : 0 < d) (h1 : d ≤ 1) {re : Particle ℝ} (hp : re.pdg = 1000190400) (hon : Kin.OnShell re) (hm : 40 * Mass.microAmu ≤ re.mass)
    (hx : |re.mass - (40 * Mass.microAmu + d)| ≤ 1 / 100000) {ej : Particle ℝ} {others : List (Particle ℝ)} {ev : Event ℝ}
    (hfin : ev.final = ej :: re :: others) (hEx : ev.Ex = d) :
    ∃ nuc gam, process exact E 2 (gapData d) ev g =
        some ({ ev with final := ej :: nuc :: (others ++ [gam]) }, .ok (E.draw (E.draw g).2).2) ∧
      nuc.pdg = 1000190400 ∧ nuc.charge = re.charge ∧ Kin.OnShell nuc ∧ nuc.mass = 40 * Mass.microAmu := by
  have hu : (0 : ℝ) < Mass.microAmu := by norm_num [Mass.microAmu]
  have ht : tolerance = 1 / 100000 := by norm_num [tolerance]
  have hmass := gap_mass' d re.charge
  obtain ⟨hsort, hdist, -⟩ := gap_sane h0.le
  have hs : (gapData d).scheme 1000190400 = .ok (some (gapLevels d)) := by simp [gapData]
  have e1 : Pdg.getZ 1000190400 = 19 := by decide
  have e2 : Pdg.getA 1000190400 = 40 := by decide
  have e3 : Pdg.getZ 2112 = 0 := by decide
  have e4 : Pdg.getA 2112 = 1 := by decide
  have e5 : Pdg.nucleusPid 19 40 = 1000190400 := by decide
  have e6 : Pdg.nucleusPid 19 39 = 1000190390 := by decide
  have hsep : Mass.separationEnergy (gapData d).mass 19 40 2112 true
      = .ok (some (Mass.microAmu * (1000000000 - 40 + 1))) := by
    simp only [Mass.separationEnergy, Mass.at', Mass.lookup, gapData, Mass.ELECTRON, e3, e4, sub_zero,
      show (40 : Int) - 1 = 39 by norm_num, e5, e6]
    norm_num
  obtain ⟨th, hth, hth'⟩ : ∃ th, Mass.unboundThresholdPid (gapData d).mass
      ((gapData d).frags.map (·.pid)) 1000190400 = .ok th ∧ d ≤ th := by
    have hbig : (1 : ℝ) ≤ Mass.dblMax := by
      have : (2 : ℝ) ^ (-52 : ℤ) ≤ 1 := by norm_num
      have h2 : (1 : ℝ) ≤ 2 ^ 1023 := one_le_pow₀ (by norm_num)
      unfold Mass.dblMax
      generalize (2 : ℝ) ^ (-52 : ℤ) = t at *
      generalize (2 : ℝ) ^ 1023 = X at *
      nlinarith [mul_nonneg (sub_nonneg.2 this) (sub_nonneg.2 h2)]
    have hS : (1 : ℝ) ≤ Mass.microAmu * (1000000000 - 40 + 1) := by norm_num [Mass.microAmu]
    simp only [Mass.unboundThresholdPid, Mass.unboundThreshold, e1, e2, gapData, List.map_cons, List.map_nil]
    simp only [gapData] at hsep
    unfold Mass.thresholdLoop
    rw [hsep]
    dsimp only
    unfold Mass.thresholdLoop
    refine ⟨_, rfl, ?_⟩
    split_ifs <;> linarith
  have hcl : closestLevel (gapLevels d) d = .ok (some 1) := by
    obtain ⟨a, l, f1, f2, f3⟩ := C23_closest (hsort _ _ hs).1 (by simp [gapLevels]) d
    have f4 := (f3 (1, ⟨d, 2, ⟨true⟩, [⟨d, 1, some 0⟩]⟩) (by simp [gapLevels])).1
    simp only [sub_self, abs_zero] at f4
    have f5 := abs_nonpos_iff.1 f4
    simp only [gapLevels, List.mem_cons, Prod.mk.injEq, List.not_mem_nil, or_false] at f2
    rcases f2 with ⟨rfl, rfl⟩ | ⟨rfl, rfl⟩
    · dsimp only at f5
      linarith
    · exact f1
  have hl1 : levelAt (gapLevels d) 1 = some ⟨d, 2, ⟨true⟩, [⟨d, 1, some 0⟩]⟩ := by
    simp [levelAt, gapLevels]
  have hl0 : levelAt (gapLevels d) 0 = some ⟨0, 0, ⟨true⟩, []⟩ := by simp [levelAt, gapLevels]
  have ham : Mass.atomicMassPid (gapData d).mass 1000190400 true = .ok (some (40 * Mass.microAmu)) := by
    simp [Mass.atomicMassPid, Mass.lookupPid, Mass.toMeV, gapData]
  have hel : Mass.particleMass (gapData d).mass Mass.ELECTRON = .ok 0 := by
    simp [Mass.particleMass, gapData, Mass.ELECTRON]
  have hc : (Sampling.uniform exact E (-1) 1 true g).1 ^ 2 ≤ 1 := by
    simp only [Sampling.uniform, exact, if_true, id]
    nlinarith [hg.1, hg.2]
  obtain ⟨gam, nuc, k1, -, k3, -⟩ := C47_conserves (t := re) (a := ⟨22, 0, 0, 0, 0, 0, 0⟩)
    (b := ⟨1000190400, 40 * Mass.microAmu + 0 - re.charge * 0, 0, 0, 0,
      40 * Mass.microAmu + 0 - re.charge * 0, re.charge⟩)
    (Sampling.uniform exact E 0 (2 * Real.pi) false
      (Sampling.uniform exact E (-1) 1 true g).2).1
    hon (by linarith) le_rfl (by simp; positivity) (by simpa using hm) hc
  obtain ⟨-, s4, s5, s6⟩ := decay_species k1
  refine ⟨nuc, gam, ?_, s4, s6, k3, by rw [s5]; simp⟩
  rw [process_ion exact E 2 (gapData d) (re := re) (by rw [hEx]; exact h0) (by rw [hfin]; rfl)
    (by rw [hp]; norm_num) (by rw [hp]; norm_num) (by rw [hp]; exact hmass), ht, hEx,
    if_neg (not_lt.2 hx), hp]
  unfold deexcite
  rw [hs, hth, hEx]
  dsimp only
  rw [show (decide (d > th) || (some (gapLevels d)).isNone) = false by simp [hth']]
  unfold hfLoop
  rw [if_neg (by simp)]
  dsimp only
  rw [if_pos rfl]
  unfold finishGammas
  rw [hfin]
  simp only [List.getElem?_cons_succ, List.getElem?_cons_zero]
  rw [hp, hs]
  dsimp only
  rw [hcl]
  dsimp only
  rw [hl1]
  dsimp only
  rw [if_neg (by simp [tolerance]; norm_num)]
  unfold cascade
  rw [hl1]
  dsimp only
  rw [if_neg (by simp)]
  have hpick : Sampling.pickFrom E (([⟨d, 1, some 0⟩] : List (Scheme.Gamma ℝ)).map (·.ri)) g
      = .ok (0, g) := by
    simp [Sampling.pickFrom]
  rw [hpick]
  simp only [List.getElem?_cons_zero]
  rw [hl0]
  dsimp only
  rw [show Pdg.nucleusPid (gapLevels d).Z (gapLevels d).A = 1000190400 from e5, ham]
  dsimp only
  rw [hel]
  dsimp only
  rw [hfin]
  simp only [List.getElem?_cons_succ, List.getElem?_cons_zero]
  rw [k1]
  dsimp only
  unfold cascade
  rw [hl0]
  dsimp only
  rw [if_pos rfl]
  obtain ⟨ini, fin, Ex, J, P⟩ := ev
  dsimp only at hfin hEx
  subst hfin
  rw [← hEx]
  rfl

/-- The ion of the example. -/
theorem gap_run {E : Engine G} {g : G} (hg : 0 ≤ (E.draw g).1 ∧ (E.draw g).1 ≤ 1) {d : ℝ}
    (h0 : 0 < d) (h1 : d ≤ 1) {re : Particle ℝ} (hp : re.pdg = 1000190400) (hq : re.charge = 1)
    (hon : Kin.OnShell re) (hm : 40 * Mass.microAmu ≤ re.mass)
    (hx : |re.mass - (40 * Mass.microAmu + d)| ≤ 1 / 100000) (others : List (Particle ℝ)) :
    ∃ nuc gam, process exact E 2 (gapData d) (gapEvent d re others) g =
        some (gapEvent d nuc (others ++ [gam]), .ok (E.draw (E.draw g).2).2) ∧
      nuc.pdg = 1000190400 ∧ nuc.charge = 1 ∧ Kin.OnShell nuc ∧ nuc.mass = 40 * Mass.microAmu := by
  obtain ⟨nuc, gam, k1, k2, k3, k4⟩ := gap_emits hg h0 h1 hp hon hm hx (ev := gapEvent d re others)
    (ej := ⟨11, 0, 0, 0, 0, 0, -1⟩) (others := others) rfl rfl
  exact ⟨nuc, gam, k1, k2, k3.trans hq, k4⟩

/-- The hypotheses of the theorems on C50 and C51 hold for the decay of a level at 1 MeV. -/
example : ∃ ev', process exact Sampling.half 2 (gapData 1)
      (gapEvent 1 (gapIon (40 * Mass.microAmu + 1)) []) () = some (ev', .ok ()) ∧
    ev'.final.length = 3 ∧ Excited (gapData 1) (gapIon (40 * Mass.microAmu + 1)) 1 (1 / 100000) := by
  have hu : (0 : ℝ) < Mass.microAmu := by norm_num [Mass.microAmu]
  obtain ⟨nuc, gam, h, -⟩ := gap_run (E := Sampling.half) (g := ()) (by norm_num [Sampling.half]) (d := 1) one_pos le_rfl
    (re := gapIon (40 * Mass.microAmu + 1)) rfl rfl
    (by constructor <;> simp [gapIon] <;> positivity) (by simp [gapIon]) (by simp [gapIon]) []
  refine ⟨_, h, rfl, _, gap_mass 1, by simp [gapIon]⟩

/-- The hypotheses of `C51_inconsistent` and `C51_ground_partial` hold for other masses. -/
example : ¬ Excited (gapData 1) (gapIon (40 * Mass.microAmu + 2)) 0 (1 / 100000) ∧
    ¬ Excited (gapData 1) (gapIon (40 * Mass.microAmu + 2)) 1 (1 / 100000) ∧
    Excited (gapData 1) (gapIon (40 * Mass.microAmu)) 0 (1 / 100000) ∧
    ¬ Excited (gapData 1) (gapIon (40 * Mass.microAmu)) 1 (1 / 100000) := by
  refine ⟨?_, ?_, ?_, ?_⟩
  · rw [excited_iff (gap_mass 1)]; norm_num [gapIon]
  · rw [excited_iff (gap_mass 1)]; norm_num [gapIon]
  · rw [excited_iff (gap_mass 1)]; norm_num [gapIon]
  · rw [excited_iff (gap_mass 1)]; norm_num [gapIon]

/-- C51: a second application can change the event.  If a level lies within the tolerance above the
ground state, its decay leaves a mass that still agrees with the stored excitation energy:
the residue, now in its ground state, emits another gamma ray. -/
theorem C51_twice_violated :
    ∃ (D : Data) (ev ev' ev'' : Event ℝ), SortedSchemes D ∧ Distinct D ∧ Filed D ∧
      process exact Sampling.half 2 D ev () = some (ev', .ok ()) ∧
      process exact Sampling.half 2 D ev' () = some (ev'', .ok ()) ∧
      (∃ re', ev'.final[1]? = some re' ∧ Excited D re' 0 0) ∧
      ev''.final.length = ev'.final.length + 1 := by
  have hu : (0 : ℝ) < Mass.microAmu := by norm_num [Mass.microAmu]
  obtain ⟨s1, s2, s3, -⟩ := gap_sane (d := 1 / 200000) (by norm_num)
  obtain ⟨nuc, gam, h, p1, p2, p3, p4⟩ := gap_run (E := Sampling.half) (g := ()) (by norm_num [Sampling.half]) (d := 1 / 200000) (by norm_num) (by norm_num)
    (re := gapIon (40 * Mass.microAmu + 1 / 200000)) rfl rfl
    (by constructor <;> simp [gapIon] <;> positivity) (by simp [gapIon]) (by simp [gapIon]) []
  obtain ⟨nuc', gam', h', -⟩ := gap_run (E := Sampling.half) (g := ()) (by norm_num [Sampling.half]) (d := 1 / 200000) (by norm_num) (by norm_num)
    (re := nuc) p1 p2 p3 p4.ge (by rw [p4]; norm_num) [gam]
  refine ⟨_, _, _, _, s1, s2, s3, h, h', ⟨nuc, rfl, ?_⟩, rfl⟩
  refine ⟨40 * Mass.microAmu, by rw [p1, p2]; exact gap_mass _, by rw [p4]; simp⟩

end Marley.Props
