import Verif.Lemmas.Reaction
import Verif.Lemmas.DecayScheme
import Verif.Props.DecayScheme
import Mathlib.Tactic.SplitIfs
import Mathlib.Tactic.Tauto

/-!
# C31 conservation, C32 data lines, C33 matching of levels
-/

set_option autoImplicit false

namespace Marley.Props
open Marley Marley.Reaction
open Marley.Json (Str isSpace isDigit intText)
open Marley.Scheme (Level closestLevel levelAt exDbl exInt)

/-! ## Specification -/

/-! ## C31 -/

/-- C31: for every file the loader accepts, every nuclear reaction conserves the
number of nucleons and electric charge: the residue has the mass number of the
target; its proton number differs by +1, -1 or 0 as the process requires; the
charge carried by the leptons compensates the change, both for the nuclei and
for the ion `qD` that a neutral target atom turns into; the ejectile is the
lepton of the flavour of the projectile that the process requires. -/
theorem C31_conserved {c : Ctx} {file : Option Str} {rs : List Reaction} {r : Nuclear}
    (h : load c file = .ok rs) (hr : Reaction.nuclear r ∈ rs) :
    Pdg.getA r.pdgD = Pdg.getA r.pdgB ∧
    Pdg.getZ r.pdgD = Pdg.getZ r.pdgB + protonChange r.proc ∧
    (∃ qa qc, Pdg.charge r.pdgA = .ok qa ∧ Pdg.charge r.pdgC = .ok qc ∧
      Pdg.getZ r.pdgB + qa = Pdg.getZ r.pdgD + qc ∧ 0 + qa = r.qD + qc) ∧
    (r.pdgA.natAbs = 12 ∨ r.pdgA.natAbs = 14 ∨ r.pdgA.natAbs = 16) ∧
    (r.proc = .neutrinoCC ∧ 0 < r.pdgA ∧ r.pdgC = r.pdgA - 1 ∨
     r.proc = .antiNeutrinoCC ∧ r.pdgA < 0 ∧ r.pdgC = r.pdgA + 1 ∨
     r.proc = .nc ∧ r.pdgC = r.pdgA) := by
  obtain ⟨text, p, b, d, q, ms, ms', l, -, hres, -, -, hl, hn⟩ := load_nuclear h hr
  obtain ⟨ns, e1, -, e3⟩ := nuclearReactions_ok hn
  rw [e1] at hr
  obtain ⟨r', hr', er⟩ := List.mem_map.1 hr
  cases er
  obtain ⟨f1, f2, f3, f4, f5, -⟩ := e3 r hr'
  obtain ⟨g1, g2, g3, g4⟩ := residue_ok hres
  rw [f1, f2, f4, f5, g3]
  simp only [ejectile, hl] at f3
  split_ifs at f3 with m1 m2 m3
  · subst m2
    simp only [projectiles, Except.ok.injEq] at hl; subst hl
    simp only [Except.ok.injEq] at f3
    simp only [protonChange] at g2 ⊢
    simp only [List.mem_cons, List.not_mem_nil, or_false] at m1
    refine ⟨g1, g2, ⟨0, -1, ?_, ?_, by omega, by omega⟩, by omega, Or.inl ⟨trivial, by omega, f3.symm⟩⟩
    · rcases m1 with m | m | m <;> rw [m] <;> decide
    · rcases m1 with m | m | m <;> rw [← f3, m] <;> decide
  · subst m3
    simp only [projectiles, Except.ok.injEq] at hl; subst hl
    simp only [Except.ok.injEq] at f3
    simp only [protonChange] at g2 ⊢
    simp only [List.mem_cons, List.not_mem_nil, or_false] at m1
    refine ⟨g1, g2, ⟨0, 1, ?_, ?_, by omega, by omega⟩, by omega,
      Or.inr (Or.inl ⟨trivial, by omega, f3.symm⟩)⟩
    · rcases m1 with m | m | m <;> rw [m] <;> decide
    · rcases m1 with m | m | m <;> rw [← f3, m] <;> decide
  · have hp : p = .nc := by tauto
    subst hp
    simp only [projectiles, Except.ok.injEq] at hl; subst hl
    simp only [Except.ok.injEq] at f3
    simp only [protonChange] at g2 ⊢
    simp only [List.mem_cons, List.not_mem_nil, or_false] at m1
    refine ⟨g1, g2, ⟨0, 0, ?_, ?_, by omega, by omega⟩, by omega, Or.inr (Or.inr ⟨trivial, f3.symm⟩)⟩
    · rcases m1 with m | m | m | m | m | m <;> rw [m] <;> decide
    · rcases m1 with m | m | m | m | m | m <;> rw [← f3, m] <;> decide

/-- C31: an accepted nuclear file gives exactly one reaction for each projectile of
its process, in order, all with the same target, residue and matrix elements. -/
theorem C31_projectiles {c : Ctx} {file : Option Str} {rs : List Reaction} {r : Nuclear}
    (h : load c file = .ok rs) (hr : Reaction.nuclear r ∈ rs) :
    ∃ ns : List Nuclear, rs = ns.map .nuclear ∧ projectiles r.proc = .ok (ns.map (·.pdgA)) ∧
      ∀ x ∈ ns, x.proc = r.proc ∧ x.pdgB = r.pdgB ∧ x.pdgD = r.pdgD ∧ x.qD = r.qD ∧
        x.elements = r.elements := by
  obtain ⟨text, p, b, d, q, ms, ms', l, -, -, -, -, hl, hn⟩ := load_nuclear h hr
  obtain ⟨ns, e1, e2, e3⟩ := nuclearReactions_ok hn
  rw [e1] at hr
  obtain ⟨r', hr', er⟩ := List.mem_map.1 hr
  cases er
  obtain ⟨f1, f2, -, f4, f5, f6⟩ := e3 r hr'
  refine ⟨ns, e1, by rw [f1, e2, hl], ?_⟩
  intro x hx
  obtain ⟨k1, k2, -, k4, k5, k6⟩ := e3 x hx
  exact ⟨by rw [k1, f1], by rw [k2, f2], by rw [k4, f4], by rw [k5, f5], by rw [k6, f6]⟩

/-! ## Lines of a file -/

/-! ## Numbers of a line -/

/-! ## C33 specification -/

/-! ## C33 lemmas -/

/-! ## C33 -/

/-- C33: whenever levels are assigned from a decay scheme (levels in order, as every
scheme has them by C24), every matrix element keeps what the file said, those
above the threshold get no level, all others a level of the scheme that is
closest to the tabulated energy, and no level is given to two of them. -/
theorem C33_matched {c : Ctx} {B D : Int} {s : Scheme.Scheme ℝ} {thr : ℝ} {ms ms' : List MatEl}
    (hsch : c.scheme D = .ok (some s))
    (hthr : Mass.unboundThresholdPid c.table c.frags D = .ok thr)
    (hs : s.levels.Pairwise (fun a b => a.2.energy ≤ b.2.energy)) (ha : Scheme.Addressed s)
    (h : setLevelPtrs c B D ms = .ok ms') :
    List.Forall₂ (Matched s thr) ms ms' ∧ ms'.Pairwise NoShared := by
  simp only [setLevelPtrs, hsch, hthr] at h
  split_ifs at h with hD
  split at h
  · cases h
  · obtain ⟨new, e1, e2, e3⟩ := setLoop_ok hs ha _ _ _ h .nil
    simp only [List.nil_append] at e1
    subst e1
    exact ⟨e2, e3⟩

/-- C33: for a scheme of the residue with at least one level the assignment either
succeeds or throws `marley::Error`, and it throws exactly if two bound matrix
elements have the same closest level.  (`hw`: the warning about selection rules
can be written, which needs positive mass numbers and, if a log stream takes
warnings, symbols of both elements.) -/
theorem C33_throws_iff_shared {c : Ctx} {B D : Int} {s : Scheme.Scheme ℝ} {thr : ℝ} {J : Int}
    {P : Parity} {ms : List MatEl} (hsch : c.scheme D = .ok (some s))
    (hD : D = Pdg.nucleusPid s.Z s.A)
    (hthr : Mass.unboundThresholdPid c.table c.frags D = .ok thr) (hgs : c.gs B = .ok (J, P))
    (hs : s.levels.Pairwise (fun a b => a.2.energy ≤ b.2.energy)) (ha : Scheme.Addressed s)
    (hn : s.levels ≠ []) (hw : rulesWarning c.warn B D = .ok ()) (hm : ∀ m ∈ ms, m.level = none) :
    let distinct := (ms.filter (fun m => decide (m.energy ≤ thr))).Pairwise
      (fun x y => closestLevel s x.energy ≠ closestLevel s y.energy)
    (distinct → ∃ ms', setLevelPtrs c B D ms = .ok ms') ∧
    (¬ distinct → setLevelPtrs c B D ms = .error .marleyError) := by
  intro distinct
  have e : setLevelPtrs c B D ms = setLoop c.warn B D s thr J P [] ms := by
    have hD' : ¬ (D ≠ Pdg.nucleusPid s.Z s.A) := not_not.2 hD
    simp only [setLevelPtrs, hsch, hthr, hgs, if_neg hD']
  rw [e]
  rcases setLoop_decides (J := J) (P := P) hs ha hn hw ms [] hm with ⟨h1, h2, -⟩ | ⟨h1, h2⟩
  · exact ⟨fun _ => h1, fun h => absurd h2 h⟩
  · exact ⟨fun h => absurd ⟨h, by simp⟩ h2, fun _ => h1⟩

/-- C33: without a decay scheme nothing is assigned. -/
theorem C33_no_scheme {c : Ctx} {B D : Int} (hsch : c.scheme D = .ok none) (ms : List MatEl) :
    setLevelPtrs c B D ms = .ok ms := by
  simp only [setLevelPtrs, hsch]

/-- C33: a scheme of another nuclide is refused. -/
theorem C33_wrong_scheme {c : Ctx} {B D : Int} {s : Scheme.Scheme ℝ}
    (hsch : c.scheme D = .ok (some s)) (hD : D ≠ Pdg.nucleusPid s.Z s.A) (ms : List MatEl) :
    setLevelPtrs c B D ms = .error .marleyError := by
  simp only [setLevelPtrs, hsch, if_pos hD]

/-- C33 does not hold for a decay scheme without levels: the null pointer it gives
for the first bound matrix element is dereferenced. -/
theorem C33_empty_scheme_violated {c : Ctx} {B D : Int} {s : Scheme.Scheme ℝ} {thr : ℝ} {J : Int}
    {P : Parity} (hsch : c.scheme D = .ok (some s)) (hD : D = Pdg.nucleusPid s.Z s.A)
    (hthr : Mass.unboundThresholdPid c.table c.frags D = .ok thr) (hgs : c.gs B = .ok (J, P))
    (hn : s.levels = []) (m : MatEl) (hm : m.energy ≤ thr) (ms : List MatEl) :
    setLevelPtrs c B D (m :: ms) = .error .ub := by
  have hD' : ¬ (D ≠ Pdg.nucleusPid s.Z s.A) := not_not.2 hD
  have hc : closestLevel s m.energy = .ok none := by simp [closestLevel, hn]
  simp only [setLevelPtrs, hsch, hthr, hgs, if_neg hD', setLoop, if_neg (not_lt.2 hm), hc]

/-! ## C32 -/

/-- C32, for files whose lines all end with a newline: the matrix elements of every
loaded reaction are exactly those listed in the file, in file order, and their
tabulated energies increase strictly.  Missing: a last line without newline, see
`C32_last_line_violated`. -/
theorem C32_lines_partial {c : Ctx} {cs : List Str} (hcs : ∀ t ∈ cs, ∀ x ∈ t, x ≠ '\n' ∧ x ≠ '\r')
    {code b : Int} (hcode : intMin ≤ code ∧ code ≤ intMax) (hb : intMin ≤ b ∧ b ≤ intMax)
    {ls : List FileLine} (hls : ∀ l ∈ ls, l.Ok c.fmt)
    (hne : code ≠ 3) {rs : List Reaction} {r : Nuclear}
    (h : load c (some (nuclearFile cs code b ls)) = .ok rs) (hr : Reaction.nuclear r ∈ rs) :
    r.elements.map entryOf = listed ls ∧ ((listed ls).map (·.energy)).Pairwise (· < ·) := by
  have hne' : Proc.ofInt code ≠ .nuElectronElastic := by
    unfold Proc.ofInt; split_ifs <;> simp_all
  have e := load_file (c := c) hcs hcode hb hne' hls (last := []) (by simp)
  rw [List.append_nil, h] at e
  rcases checked_iff (listed ls) none with ⟨⟨ms, hm⟩, hp⟩ | ⟨hm, -⟩
  · refine ⟨?_, by simpa using hp⟩
    rw [hm] at e
    simp only [finish] at e
    cases h1 : residue (Proc.ofInt code) b with
    | error x => rw [h1] at e; cases e
    | ok dq =>
      obtain ⟨d, q⟩ := dq
      rw [h1] at e; dsimp only at e
      cases h2 : setLevelPtrs c b d ms with
      | error x => rw [h2] at e; cases e
      | ok ms' =>
        rw [h2] at e; dsimp only at e
        cases h3 : projectiles (Proc.ofInt code) with
        | error x => rw [h3] at e; cases e
        | ok l =>
          rw [h3] at e
          obtain ⟨ns, e1, -, e3⟩ := nuclearReactions_ok e.symm
          rw [e1] at hr
          obtain ⟨r', hr', er⟩ := List.mem_map.1 hr
          cases er
          rw [(e3 r hr').2.2.2.2.2, setLevelPtrs_entries h2, (checked_ok hm).1]
  · rw [hm] at e; cases e

/-- C32: a file whose energies do not increase strictly is refused. -/
theorem C32_order_enforced {c : Ctx} {cs : List Str}
    (hcs : ∀ t ∈ cs, ∀ x ∈ t, x ≠ '\n' ∧ x ≠ '\r') {code b : Int}
    (hcode : intMin ≤ code ∧ code ≤ intMax) (hb : intMin ≤ b ∧ b ≤ intMax)
    (hne : code ≠ 3) {ls : List FileLine} (hls : ∀ l ∈ ls, l.Ok c.fmt)
    (h : ¬ ((listed ls).map (·.energy)).Pairwise (· < ·)) :
    load c (some (nuclearFile cs code b ls)) = .error .marleyError := by
  have hne' : Proc.ofInt code ≠ .nuElectronElastic := by
    unfold Proc.ofInt; split_ifs <;> simp_all
  have e := load_file (c := c) hcs hcode hb hne' hls (last := []) (by simp)
  rw [List.append_nil] at e
  rcases checked_iff (listed ls) none with ⟨-, hp⟩ | ⟨hm, -⟩
  · exact absurd (by simpa using hp) h
  · rw [e, hm]

/-- C32: whatever the file, the tabulated energies of a loaded reaction increase
strictly. -/
theorem C32_increasing {c : Ctx} {file : Option Str} {rs : List Reaction} {r : Nuclear}
    (h : load c file = .ok rs) (hr : Reaction.nuclear r ∈ rs) :
    (r.elements.map (·.energy)).Pairwise (· < ·) := by
  obtain ⟨text, p, b, d, q, ms, ms', l, -, -, hre, hset, -, hn⟩ := load_nuclear h hr
  obtain ⟨ns, e1, -, e3⟩ := nuclearReactions_ok hn
  rw [e1] at hr
  obtain ⟨r', hr', er⟩ := List.mem_map.1 hr
  cases er
  have h1 := (readElements_increasing _ _ _ _ hre).1
  have h2 := setLevelPtrs_entries hset
  have h3 : r.elements.map (·.energy) = ms.map (·.energy) := by
    rw [(e3 r hr').2.2.2.2.2]
    have : ∀ l : List MatEl, l.map (·.energy) = (l.map entryOf).map (·.energy) := by
      intro l; simp [entryOf]
    rw [this, this, h2]
  rw [h3]; simpa using h1

/-- C32 does not hold for files without a final newline: a last line without one is
ignored, whatever it says. -/
theorem C32_last_line_violated {c : Ctx} {cs : List Str}
    (hcs : ∀ t ∈ cs, ∀ x ∈ t, x ≠ '\n' ∧ x ≠ '\r') {code b : Int}
    (hcode : intMin ≤ code ∧ code ≤ intMax) (hb : intMin ≤ b ∧ b ≤ intMax)
    (hne : code ≠ 3) {ls : List FileLine} (hls : ∀ l ∈ ls, l.Ok c.fmt)
    {last : FileLine} (hlast : ∀ x ∈ last.text, x ≠ '\n') :
    load c (some (nuclearFile cs code b ls ++ last.text)) =
      load c (some (nuclearFile cs code b ls)) := by
  have hne' : Proc.ofInt code ≠ .nuElectronElastic := by
    unfold Proc.ofInt; split_ifs <;> simp_all
  have e := load_file (c := c) hcs hcode hb hne' hls (last := []) (by simp)
  rw [List.append_nil] at e
  rw [e, load_file hcs hcode hb hne' hls hlast]

/-! ## C31, files that are refused -/

/-- C31: a file for a process its target cannot undergo (no neutron for a neutrino,
no proton for an antineutrino, or no known process) is refused. -/
theorem C31_refused {c : Ctx} {cs : List Str} (hcs : ∀ t ∈ cs, ∀ x ∈ t, x ≠ '\n' ∧ x ≠ '\r')
    {code b : Int} (hcode : intMin ≤ code ∧ code ≤ intMax) (hb : intMin ≤ b ∧ b ≤ intMax)
    {ls : List FileLine} (hls : ∀ l ∈ ls, l.Ok c.fmt)
    (h : code = 0 ∧ Pdg.getA b ≤ Pdg.getZ b ∨ code = 1 ∧ Pdg.getZ b ≤ 0 ∨ code < 0 ∨ 3 < code) :
    load c (some (nuclearFile cs code b ls)) = .error .marleyError := by
  have hne' : Proc.ofInt code ≠ .nuElectronElastic := by
    unfold Proc.ofInt; split_ifs <;> first | omega | simp
  have hres : residue (Proc.ofInt code) b = .error .marleyError := by
    rcases h with ⟨rfl, h⟩ | ⟨rfl, h⟩ | h | h
    · have : Proc.ofInt 0 = .neutrinoCC := rfl
      rw [this]; simp only [residue]; rw [if_pos (by omega)]
    · have : Proc.ofInt 1 = .antiNeutrinoCC := rfl
      rw [this]; simp only [residue]; rw [if_pos (by omega)]
    · have : Proc.ofInt code = .other := by unfold Proc.ofInt; split_ifs <;> first | omega | rfl
      rw [this]; rfl
    · have : Proc.ofInt code = .other := by unfold Proc.ofInt; split_ifs <;> first | omega | rfl
      rw [this]; rfl
  have e := load_file (c := c) hcs hcode hb hne' hls (last := []) (by simp)
  rw [List.append_nil] at e
  rw [e]
  rcases checked_iff (listed ls) none with ⟨⟨ms, hm⟩, -⟩ | ⟨hm, -⟩
  · rw [hm]; simp only [finish, hres]
  · rw [hm]

/-! ## Concrete cases -/

theorem demo_set : ∃ ms', setLevelPtrs demoCtx 1000180400 1000190400 demoElements = .ok ms' := by
  refine (C33_throws_iff_shared (c := demoCtx) (s := demoLevels) (thr := 5) (J := 0) (P := ⟨true⟩)
    (by simp [demoCtx]) (by decide) demo_threshold rfl demo_sorted demo_addressed
    (by simp [demoLevels]) demo_warning ?_).1 demo_distinct
  intro m hm
  simp only [demoElements, List.mem_cons, List.not_mem_nil, or_false] at hm
  rcases hm with rfl | rfl | rfl <;> rfl

theorem demo_load : ∃ rs r, load demoCtx (some (nuclearFile [['c']] 0 1000180400 demoLines)) = .ok rs ∧
    Reaction.nuclear r ∈ rs := by
  have e := load_file (c := demoCtx) (cs := [['c']]) (by
      intro t ht x hx
      simp only [List.mem_singleton] at ht; subst ht
      simp only [List.mem_singleton] at hx; subst hx; decide)
    (code := 0) (b := 1000180400) (by decide) (by decide) (by decide) demoLines_ok (last := [])
    (by simp)
  have hch : checked none (listed demoLines) = .ok demoElements := by
    rw [demo_listed]
    simp [checked, demoElements]
    norm_num
  have hres : residue (Proc.ofInt 0) 1000180400 = .ok (1000190400, 1) := by decide
  obtain ⟨ms', hset⟩ := demo_set
  have hp : projectiles (Proc.ofInt 0) = .ok [12, 14, 16] := rfl
  have e1 : ejectile 12 (Proc.ofInt 0) = .ok 11 := by decide
  have e2 : ejectile 14 (Proc.ofInt 0) = .ok 13 := by decide
  have e3 : ejectile 16 (Proc.ofInt 0) = .ok 15 := by decide
  have mk := fun (a cc : Int) (ha : a ≠ -2147483648) (hc : cc ≠ -2147483648) =>
    demo_make (p := Proc.ofInt 0) (a := a) (b := 1000180400) (cc := cc) (d := 1000190400) (q := 1) ms'
      ha hc (by decide) (by decide) symbol18 symbol19
  obtain ⟨r1, m1, -⟩ := mk 12 11 (by decide) (by decide)
  obtain ⟨r2, m2, -⟩ := mk 14 13 (by decide) (by decide)
  obtain ⟨r3, m3, -⟩ := mk 16 15 (by decide) (by decide)
  rw [List.append_nil, hch] at e
  have ht : demoCtx.table = demoTable := rfl
  refine ⟨[.nuclear r1, .nuclear r2, .nuclear r3], r1, ?_, by simp⟩
  rw [e]
  simp only [finish, hres, hset, hp, ht, nuclearReactions, e1, e2, e3, m1, m2, m3]

/-- C31 fails for the mass numbers a reaction keeps for its own use (for the nuclear
radius, src/NuclearReaction.cc:134, 658, and for the description, 721-725): the
residue of an antineutrino on hydrogen is the neutron, whose code is not of the
form they are taken from. -/
theorem C31_members_violated : ∃ (c : Ctx) (text : Str) (rs : List Reaction) (r : Nuclear),
    load c (some text) = .ok rs ∧ Reaction.nuclear r ∈ rs ∧ r.Ai = 1 ∧ r.Af = 211 := by
  have e := load_file (c := demoCtx) (cs := []) (by simp)
    (code := 1) (b := 1000010010) (by decide) (by decide) (by decide) (ls := []) (by simp)
    (last := []) (by simp)
  have hch : checked none (listed []) = .ok [] := rfl
  have hres : residue (Proc.ofInt 1) 1000010010 = .ok (2112, -1) := by decide
  have hset : setLevelPtrs demoCtx 1000010010 2112 [] = .ok [] :=
    C33_no_scheme (by simp [demoCtx]) []
  have hp : projectiles (Proc.ofInt 1) = .ok [-12, -14, -16] := rfl
  have e1 : ejectile (-12) (Proc.ofInt 1) = .ok (-11) := by decide
  have e2 : ejectile (-14) (Proc.ofInt 1) = .ok (-13) := by decide
  have e3 : ejectile (-16) (Proc.ofInt 1) = .ok (-15) := by decide
  have s1 : Utils.elementSymbol (((1000010010 : Int).tmod 10000000).tdiv 10000) = .ok ['H'] := by
    decide +kernel
  have s0 : Utils.elementSymbol (((2112 : Int).tmod 10000000).tdiv 10000) = .ok ['N', 'n'] := by
    decide +kernel
  have mk := fun (a cc : Int) (ha : a ≠ -2147483648) (hc : cc ≠ -2147483648) =>
    demo_make (p := Proc.ofInt 1) (a := a) (b := 1000010010) (cc := cc) (d := 2112) (q := -1) []
      ha hc (by decide) (by decide) s1 s0
  obtain ⟨r1, m1, a1, a2, -⟩ := mk (-12) (-11) (by decide) (by decide)
  obtain ⟨r2, m2, -⟩ := mk (-14) (-13) (by decide) (by decide)
  obtain ⟨r3, m3, -⟩ := mk (-16) (-15) (by decide) (by decide)
  rw [List.append_nil, hch] at e
  have ht : demoCtx.table = demoTable := rfl
  refine ⟨demoCtx, nuclearFile [] 1 1000010010 [], [.nuclear r1, .nuclear r2, .nuclear r3], r1, ?_, by simp,
    by rw [a1]; decide, by rw [a2]; decide⟩
  rw [e]
  simp only [finish, hres, hset, hp, ht, nuclearReactions, e1, e2, e3, m1, m2, m3]

/-- The hypotheses of the theorems on accepted files are met. -/
example : ∃ rs r, load demoCtx (some (nuclearFile [['c']] 0 1000180400 demoLines)) = .ok rs ∧
    Reaction.nuclear r ∈ rs ∧ (∀ l ∈ demoLines, l.Ok demoCtx.fmt) := by
  obtain ⟨rs, r, h1, h2⟩ := demo_load
  exact ⟨rs, r, h1, h2, demoLines_ok⟩

/-- Energies out of order. -/
example : ¬ ((listed (demoLines ++ demoLines)).map (·.energy)).Pairwise (· < ·) := by
  have h0 : Json.digitsVal ['0'] = 0 := by decide
  have h2 : Json.digitsVal ['2'] = 2 := by decide
  have h9 : Json.digitsVal ['9'] = 9 := by decide
  simp [demoLines, listed, demoLine, h0, h2, h9]

/-- A last line that is a matrix element. -/
example : ∀ x ∈ (demoLine '9' 9).text, x ≠ '\n' := by
  have : (demoLine '9' 9).text = [' ', '9', ' ', '1', ' ', '0'] := by
    have : intText 0 = ['0'] := by decide +kernel
    simp [demoLine, FileLine.text, this]
  rw [this]; decide

/-- The hypotheses of C33 are met, and the assignment succeeds. -/
example : ∃ ms', setLevelPtrs demoCtx 1000180400 1000190400 demoElements = .ok ms' ∧
    List.Forall₂ (Matched demoLevels 5) demoElements ms' ∧ ms'.Pairwise NoShared := by
  obtain ⟨ms', h⟩ := demo_set
  exact ⟨ms', h, C33_matched (c := demoCtx) (by simp [demoCtx]) demo_threshold demo_sorted
    demo_addressed h⟩

/-- Two matrix elements with the same closest level. -/
example : ¬ (([⟨0, 1, 0, none⟩, ⟨0, 1, 0, none⟩] : List MatEl).filter
    (fun m => decide (m.energy ≤ 5))).Pairwise
    (fun x y => closestLevel demoLevels x.energy ≠ closestLevel demoLevels y.energy) := by
  simp only [List.filter]
  norm_num

/-- Targets that cannot undergo the process. -/
example : Pdg.getA 1000010010 ≤ Pdg.getZ 1000010010 ∧ Pdg.getZ 2112 ≤ 0 := by decide

end Marley.Props
