import Verif.Lemmas.JobConfig
import Verif.Props.Target
import Verif.Props.Rotation

/-!
# C67 reactions of a job, C86 target, direction and cut-offs of a job
-/

set_option autoImplicit false

namespace Marley.Props
open Marley Marley.Job
open Marley.Json (Str JVal hasKey at?)
open Marley.Reaction (Reaction Proc Ctx load Nuclear Electron)

/-! ## Specification -/

/-- Process, projectile and target atom of a reaction. -/
def identity3 : Reaction → Proc × Int × Int
  | .nuclear r => (r.proc, r.pdgA, r.pdgB)
  | .electron r => (.nuElectronElastic, r.pdgA, r.atom)

/-- Whether it is a reaction on the nucleus. -/
def onNucleus : Reaction → Bool
  | .nuclear _ => true
  | .electron _ => false

/-- The reactions in the file that is found under the listed name. -/
noncomputable def inFile (v : Env) (name : JVal ℝ) : Res (List Reaction) :=
  load v.ctx (v.text (Files.findFileIn v.fs (textOf name) v.path))

/-! ## Lemmas -/

theorem prepare_array {v : Env} {j : JVal ℝ} {names : List (JVal ℝ)}
    (hk : at? j "reactions".toList = .ok (.arr names)) (hh : hasKey j "reactions".toList = true)
    {rs : List Reaction} (h : prepareReactions v j = .ok rs) : reactionLoop v [] names = .ok rs := by
  simp only [prepareReactions, hh, if_true, hk] at h
  cases names with
  | nil => cases h
  | cons n names => exact h

theorem projectiles_nodup {p : Proc} {l : List Int} (h : Reaction.projectiles p = .ok l) : l.Nodup := by
  cases p <;> simp only [Reaction.projectiles, Except.ok.injEq, reduceCtorEq] at h <;> subst h <;> decide

/-- A file with a reaction on a nucleus. -/
theorem filed_nuclear {v : Env} {name : JVal ℝ} {r : Reaction} {t : List Reaction} {k : Int × Proc}
    (hf : Filed v name r t k) {x : Reaction} (hx : x ∈ r :: t) (hn : onNucleus x = true) :
    ∃ (ns : List Nuclear) (l : List Int), r :: t = ns.map Reaction.nuclear ∧ Reaction.projectiles k.2 = .ok l ∧
      ns.map (·.pdgA) = l ∧ ∀ y ∈ ns, y.proc = k.2 ∧ y.pdgB = k.1 := by
  cases x with
  | electron e => cases hn
  | nuclear e =>
    obtain ⟨ns, h1, h2, h3⟩ := C31_projectiles (loadListed_ok hf.1).1 hx
    cases ns with
    | nil => cases h1
    | cons y ys =>
      simp only [List.map_cons, List.cons.injEq] at h1
      obtain ⟨rfl, rfl⟩ := h1
      have hy := h3 y List.mem_cons_self
      have hk1 : k.1 = y.pdgB := atom_ok hf.2.1
      have hk2 : k.2 = y.proc := hf.2.2
      refine ⟨y :: ys, _, rfl, by rw [hk2, hy.1]; exact h2, rfl, ?_⟩
      intro z hz
      have := h3 z hz
      exact ⟨by rw [hk2, this.1, hy.1], by rw [hk1, this.2.1, hy.2.1]⟩

/-! ## C67 -/

/-- C67, for reactions on nuclei, in full: whatever files are listed in a job
configuration that is accepted, every listed file is read; no two reactions on
nuclei in the generator have the same process, projectile and target; for every
such reaction in a listed file the generator has one with the same process,
projectile and target; and all its reactions come from listed files. -/
theorem C67_nuclear {v : Env} {j : JVal ℝ} {names : List (JVal ℝ)} {rs : List Reaction}
    (hh : hasKey j "reactions".toList = true)
    (hk : at? j "reactions".toList = .ok (.arr names)) (h : prepareReactions v j = .ok rs) :
    ((rs.filter onNucleus).map identity3).Nodup ∧
    (∀ name ∈ names, ∃ l, inFile v name = .ok l ∧ l ≠ [] ∧
      ∀ r ∈ l, onNucleus r = true → identity3 r ∈ rs.map identity3) ∧
    (∀ r ∈ rs, ∃ name ∈ names, ∃ l, inFile v name = .ok l ∧ r ∈ l) := by
  have hl := prepare_array hk hh h
  refine ⟨reactionLoop_nodup identity3 onNucleus ?_ ?_ hl, ?_, ?_⟩
  · intro name _ r t k hf
    by_cases hx : ∃ x ∈ r :: t, onNucleus x = true
    · obtain ⟨x, hx, hn⟩ := hx
      obtain ⟨ns, l, e1, e2, e3, e4⟩ := filed_nuclear hf hx hn
      rw [e1, List.filter_eq_self.2 (by
        intro y hy; obtain ⟨z, -, rfl⟩ := List.mem_map.1 hy; rfl), List.map_map]
      have : (identity3 ∘ Reaction.nuclear) = fun r : Nuclear => (r.proc, r.pdgA, r.pdgB) := rfl
      rw [this]
      refine List.Nodup.of_map (fun p : Proc × Int × Int => p.2.1) ?_
      rw [List.map_map]
      change (ns.map (·.pdgA)).Nodup
      rw [e3]
      exact projectiles_nodup e2
    · rw [List.filter_eq_nil_iff.2 (by simpa using hx)]
      simp
  · intro n _ m _ r t k r' t' k' f f' hkk x hx y hy px py e
    obtain ⟨ns, l, e1, -, -, e4⟩ := filed_nuclear f hx px
    obtain ⟨ns', l', e1', -, -, e4'⟩ := filed_nuclear f' hy py
    rw [e1] at hx
    rw [e1'] at hy
    obtain ⟨x', hx', rfl⟩ := List.mem_map.1 hx
    obtain ⟨y', hy', rfl⟩ := List.mem_map.1 hy
    simp only [identity3, Prod.mk.injEq] at e
    apply hkk
    have a := e4 x' hx'
    have b := e4' y' hy'
    exact Prod.ext (by rw [← a.2, ← b.2, e.2.2]) (by rw [← a.1, ← b.1, e.1])
  · intro name hname
    obtain ⟨r, t, k, hf, o⟩ := reactionLoop_all hl name hname
    refine ⟨r :: t, (loadListed_ok hf.1).1, by simp, ?_⟩
    intro x hx hn
    rcases o with o | ⟨n', -, r', t', f', hin⟩
    · simp at o
    · obtain ⟨ns, l, e1, e2, e3, e4⟩ := filed_nuclear hf hx hn
      have hr' : onNucleus r' = true := by
        obtain ⟨y, hy, e⟩ : ∃ y ∈ ns, r = .nuclear y := by
          have : r ∈ ns.map Reaction.nuclear := by rw [← e1]; simp
          obtain ⟨y, hy, e⟩ := List.mem_map.1 this
          exact ⟨y, hy, e.symm⟩
        cases r' with
        | nuclear _ => rfl
        | electron z =>
          exfalso
          have h1 : k.2 = .nuElectronElastic := f'.2.2
          have h2 := (e4 y hy).1
          have := C31_conserved (loadListed_ok hf.1).1 (r := y) (by rw [e1]; exact List.mem_map_of_mem hy)
          rw [h1] at h2
          rw [h2] at this
          simp at this
      obtain ⟨ns', l', e1', e2', e3', e4'⟩ := filed_nuclear f' List.mem_cons_self hr'
      rw [e2] at e2'
      simp only [Except.ok.injEq] at e2'
      subst e2'
      rw [e1] at hx
      obtain ⟨x', hx', rfl⟩ := List.mem_map.1 hx
      have : x'.pdgA ∈ ns'.map (·.pdgA) := by rw [e3', ← e3]; exact List.mem_map_of_mem hx'
      obtain ⟨y, hy, e⟩ := List.mem_map.1 this
      refine List.mem_map.2 ⟨.nuclear y, hin _ (by rw [e1']; exact List.mem_map_of_mem hy), ?_⟩
      simp only [identity3, e, (e4 x' hx').1, (e4 x' hx').2, (e4' y hy).1, (e4' y hy).2]
  · intro r hr
    obtain ⟨name, hn, r', t', k', f', hx, -⟩ := reactionLoop_from hl r hr
    exact ⟨name, hn, r' :: t', (loadListed_ok f'.1).1, hx⟩

/-- Two listed files do not overlap in part: they have the same identities, or none
in common; and the identities of one file are all different.  For files of reactions
on nuclei this is always so. -/
structure NoOverlap (v : Env) (names : List (JVal ℝ)) : Prop where
  distinct : ∀ n ∈ names, ∀ l, inFile v n = .ok l → (l.map identity3).Nodup
  together : ∀ n ∈ names, ∀ m ∈ names, ∀ r l r' l', inFile v n = .ok (r :: l) →
    inFile v m = .ok (r' :: l') → (identity3 r).1 = (identity3 r').1 →
    (identity3 r).2.2 = (identity3 r').2.2 →
    ∀ x ∈ r :: l, identity3 x ∈ (r' :: l').map identity3
  apart : ∀ n ∈ names, ∀ m ∈ names, ∀ r l r' l', inFile v n = .ok (r :: l) →
    inFile v m = .ok (r' :: l') →
    ¬ ((identity3 r).1 = (identity3 r').1 ∧ (identity3 r).2.2 = (identity3 r').2.2) →
    ∀ x ∈ r :: l, identity3 x ∉ (r' :: l').map identity3

theorem filed_pair {v : Env} {name : JVal ℝ} {r : Reaction} {t : List Reaction} {k : Int × Proc}
    (hf : Filed v name r t k) : k = ((identity3 r).2.2, (identity3 r).1) := by
  cases r with
  | nuclear y => exact Prod.ext (atom_ok hf.2.1) hf.2.2
  | electron y =>
    have := hf.2.1
    simp only [targetOf, Except.ok.injEq] at this
    exact Prod.ext this.symm hf.2.2

/-- C67 for all reactions, if no two listed files overlap in part and no file repeats
an atom (full property: without this condition; it fails, see below). -/
theorem C67_all_partial {v : Env} {j : JVal ℝ} {names : List (JVal ℝ)} {rs : List Reaction}
    (hh : hasKey j "reactions".toList = true)
    (hk : at? j "reactions".toList = .ok (.arr names)) (h : prepareReactions v j = .ok rs)
    (ho : NoOverlap v names) :
    (rs.map identity3).Nodup ∧
    ∀ name ∈ names, ∃ l, inFile v name = .ok l ∧ ∀ r ∈ l, identity3 r ∈ rs.map identity3 := by
  have hl := prepare_array hk hh h
  constructor
  · have := reactionLoop_nodup identity3 (fun _ => true) (names := names) (loaded := []) (rs := rs)
      (v := v) ?_ ?_ hl
    · rwa [List.filter_eq_self.2 (fun _ _ => rfl)] at this
    · intro name hn r t k hf
      rw [List.filter_eq_self.2 (fun _ _ => rfl)]
      exact ho.distinct name hn _ (loadListed_ok hf.1).1
    · intro n hn m hm r t k r' t' k' f f' hkk x hx y hy _ _ e
      refine ho.apart n hn m hm r t r' t' (loadListed_ok f.1).1 (loadListed_ok f'.1).1 ?_ x hx ?_
      · rintro ⟨a, b⟩
        apply hkk
        rw [filed_pair f, filed_pair f', a, b]
      · rw [e]; exact List.mem_map_of_mem hy
  · intro name hname
    obtain ⟨r, t, k, hf, o⟩ := reactionLoop_all hl name hname
    refine ⟨r :: t, (loadListed_ok hf.1).1, fun x hx => ?_⟩
    rcases o with o | ⟨n', hn', r', t', f', hin⟩
    · simp at o
    · have e := (filed_pair hf).symm.trans (filed_pair f')
      simp only [Prod.mk.injEq] at e
      obtain ⟨y, hy, e'⟩ := List.mem_map.1 (ho.together name hname n' hn' r t r' t'
        (loadListed_ok hf.1).1 (loadListed_ok f'.1).1 e.2 e.1 x hx)
      exact List.mem_map.2 ⟨y, hin y hy, e'⟩

/-! ### Files of reactions on electrons -/

/-- The six neutrinos. -/
def sixNeutrinos : List Int := [12, 14, 16, -12, -14, -16]

theorem electron_demo {p : Int} (hp : p ∈ sixNeutrinos) {a : Int} (ha : 0 < Pdg.getA a) :
    ∃ e, Reaction.makeElectron demoTable p a = .ok e ∧ e.pdgA = p ∧ e.atom = a := by
  have hA : ¬ Pdg.getA a ≤ 0 := by omega
  simp only [sixNeutrinos, List.mem_cons, List.not_mem_nil, or_false] at hp
  rcases hp with rfl | rfl | rfl | rfl | rfl | rfl <;>
  simp [Reaction.makeElectron, Target.atom, hA, Reaction.ejectile, Reaction.projectiles,
    Mass.particleMass, demoTable, Mass.ELECTRON, Reaction.couplings]

theorem electronReactions_demo {a : Int} (ha : 0 < Pdg.getA a) : ∀ l : List Int, (∀ p ∈ l, p ∈ sixNeutrinos) →
    ∃ rs, Reaction.electronReactions demoTable a l = .ok rs ∧
      rs.map identity3 = l.map (fun p => (.nuElectronElastic, p, a)) := by
  intro l
  induction l with
  | nil => intro _; exact ⟨[], rfl, rfl⟩
  | cons p l ih =>
    intro h
    obtain ⟨rs, h1, h2⟩ := ih (fun q hq => h q (List.mem_cons_of_mem _ hq))
    obtain ⟨e, h3, h4, h5⟩ := electron_demo (h p List.mem_cons_self) ha
    exact ⟨.electron e :: rs, by simp only [Reaction.electronReactions, h3, h1],
      by simp [identity3, h2, h4, h5]⟩

theorem atomReactions_demo : ∀ l : List Int, (∀ a ∈ l, 0 < Pdg.getA a) →
    ∃ rs, Reaction.atomReactions demoTable l = .ok rs ∧
      rs.map identity3 = l.flatMap (fun a => sixNeutrinos.map (fun p => (.nuElectronElastic, p, a))) := by
  intro l
  induction l with
  | nil => intro _; exact ⟨[], rfl, rfl⟩
  | cons a l ih =>
    intro h
    obtain ⟨rs, h1, h2⟩ := ih (fun q hq => h q (List.mem_cons_of_mem _ hq))
    obtain ⟨rs', h3, h4⟩ := electronReactions_demo (h a List.mem_cons_self) sixNeutrinos (fun _ h => h)
    refine ⟨rs' ++ rs, ?_, by simp [h2, h4]⟩
    have : Reaction.projectiles .nuElectronElastic = .ok sixNeutrinos := rfl
    simp only [Reaction.atomReactions, this, h3, h1]

/-- A file with one line of atoms. -/
theorem load_atoms {c : Ctx} {text rest : Str} {atoms : List Int}
    (h1 : Scheme.exInt (some (Reaction.getNextLine ⟨text, true⟩).1) none = (some rest, some 3))
    (h2 : Reaction.readInts (rest.length + 1) rest = atoms)
    (h3 : (Reaction.getNextLine (Reaction.getNextLine ⟨text, true⟩).2).1 = []) :
    load c (some text) = Reaction.atomReactions c.table atoms := by
  have hp : Proc.ofInt 3 = .nuElectronElastic := rfl
  simp only [load, h1, hp, if_true, Option.getD_some, Reaction.electronLines, h2, h3]
  cases Reaction.atomReactions c.table atoms <;> rfl

/-- Files `e1`: argon twice, `e2`: argon and potassium, `e3`: potassium, `e4`: argon. -/
def electronText (name : Str) : Option Str :=
  if name = ['1'] then some "3 1000180400 1000180400\n".toList
  else if name = ['2'] then some "3 1000180400 1000190400\n".toList
  else if name = ['3'] then some "3 1000190400\n".toList
  else some "3 1000180400\n".toList

/-- An environment in which every name is that of a file. -/
noncomputable def electronEnv : Env :=
  ⟨⟨fun _ => some 0, fun _ => none⟩, [], electronText, demoCtx, false⟩

/-- A configuration listing files. -/
def jobFiles (names : List Str) : JVal ℝ :=
  .obj [("reactions".toList, .arr (names.map .str))]

theorem jobFiles_key (names : List Str) : hasKey (jobFiles names) "reactions".toList = true ∧
    at? (jobFiles names) "reactions".toList = .ok (.arr (names.map .str)) := by
  constructor <;> rfl

theorem electron_file {name : Str} {atoms : List Int} {text rest : Str}
    (ht : electronText (Json.jsonEscape name) = some text) (hne : Json.jsonEscape name ≠ [])
    (h1 : Scheme.exInt (some (Reaction.getNextLine ⟨text, true⟩).1) none = (some rest, some 3))
    (h2 : Reaction.readInts (rest.length + 1) rest = atoms)
    (h3 : (Reaction.getNextLine (Reaction.getNextLine ⟨text, true⟩).2).1 = [])
    (ha : ∀ a ∈ atoms, 0 < Pdg.getA a) (h0 : atoms ≠ []) :
    ∃ rs, loadListed electronEnv (.str name) = .ok rs ∧ inFile electronEnv (.str name) = .ok rs ∧
      rs.map identity3 = atoms.flatMap (fun a => sixNeutrinos.map (fun p => (.nuElectronElastic, p, a))) := by
  obtain ⟨rs, e1, e2⟩ := atomReactions_demo atoms ha
  have hf : Files.findFileIn electronEnv.fs (textOf (.str name)) electronEnv.path = Json.jsonEscape name := by
    simp [Files.findFileIn, Files.findFile, Files.fileExists, electronEnv, textOf]
  have hl : load electronEnv.ctx (electronEnv.text (Json.jsonEscape name)) = .ok rs := by
    have : electronEnv.text (Json.jsonEscape name) = some text := ht
    rw [this, load_atoms h1 h2 h3]
    exact e1
  have hrs : rs ≠ [] := by
    rintro rfl
    cases atoms with
    | nil => exact h0 rfl
    | cons a l => simp [sixNeutrinos] at e2
  exact ⟨rs, by simp only [loadListed, hf, if_neg hne, hl, if_neg hrs], by rw [inFile, hf, hl], e2⟩

theorem file1 : ∃ rs, loadListed electronEnv (.str ['1']) = .ok rs ∧
    inFile electronEnv (.str ['1']) = .ok rs ∧ rs.map identity3 =
      [1000180400, 1000180400].flatMap (fun a => sixNeutrinos.map (fun p => (.nuElectronElastic, p, a))) :=
  electron_file (text := "3 1000180400 1000180400\n".toList) (rest := " 1000180400 1000180400".toList)
    (by decide) (by decide) (by decide +kernel) (by decide +kernel) (by decide +kernel)
    (by decide +kernel) (by decide)
theorem file2 : ∃ rs, loadListed electronEnv (.str ['2']) = .ok rs ∧
    inFile electronEnv (.str ['2']) = .ok rs ∧ rs.map identity3 =
      [1000180400, 1000190400].flatMap (fun a => sixNeutrinos.map (fun p => (.nuElectronElastic, p, a))) :=
  electron_file (text := "3 1000180400 1000190400\n".toList) (rest := " 1000180400 1000190400".toList)
    (by decide) (by decide) (by decide +kernel) (by decide +kernel) (by decide +kernel)
    (by decide +kernel) (by decide)
theorem file3 : ∃ rs, loadListed electronEnv (.str ['3']) = .ok rs ∧
    inFile electronEnv (.str ['3']) = .ok rs ∧ rs.map identity3 =
      [1000190400].flatMap (fun a => sixNeutrinos.map (fun p => (.nuElectronElastic, p, a))) :=
  electron_file (text := "3 1000190400\n".toList) (rest := " 1000190400".toList)
    (by decide) (by decide) (by decide +kernel) (by decide +kernel) (by decide +kernel)
    (by decide +kernel) (by decide)
theorem file4 : ∃ rs, loadListed electronEnv (.str ['4']) = .ok rs ∧
    inFile electronEnv (.str ['4']) = .ok rs ∧ rs.map identity3 =
      [1000180400].flatMap (fun a => sixNeutrinos.map (fun p => (.nuElectronElastic, p, a))) :=
  electron_file (text := "3 1000180400\n".toList) (rest := " 1000180400".toList)
    (by decide) (by decide) (by decide +kernel) (by decide +kernel) (by decide +kernel)
    (by decide +kernel) (by decide)

/-- The pair a file of reactions on electrons is filed under. -/
theorem electron_filed {name : JVal ℝ} {rs : List Reaction} {a : Int}
    {l : List Int} (h : loadListed electronEnv name = .ok rs)
    (hm : rs.map identity3 = (a :: l).flatMap (fun a => sixNeutrinos.map (fun p => (.nuElectronElastic, p, a)))) :
    ∃ r t, rs = r :: t ∧ Filed electronEnv name r t (a, .nuElectronElastic) := by
  cases rs with
  | nil => simp [sixNeutrinos] at hm
  | cons r t =>
    refine ⟨r, t, rfl, h, ?_⟩
    have hr : identity3 r = (.nuElectronElastic, 12, a) := by
      simp only [List.map_cons, List.flatMap_cons, sixNeutrinos, List.cons_append, List.cons.injEq] at hm
      exact hm.1
    cases r with
    | electron e => simp only [identity3, Prod.mk.injEq] at hr; exact ⟨by simp [targetOf, hr.2.2], rfl⟩
    | nuclear e =>
      have := C31_conserved (loadListed_ok h).1 (r := e) List.mem_cons_self
      simp only [identity3, Prod.mk.injEq] at hr
      rw [hr.1] at this
      simp at this

theorem loop_step {v : Env} {loaded : List (Int × Proc)} {name : JVal ℝ} {names : List (JVal ℝ)}
    {r : Reaction} {t : List Reaction} {k : Int × Proc} (hf : Filed v name r t k) (hlog : v.log = false) :
    reactionLoop v loaded (name :: names) =
      if k ∈ loaded then reactionLoop v loaded names
      else (reactionLoop v (loaded ++ [k]) names).map (fun rest => r :: t ++ rest) := by
  obtain ⟨a, p⟩ := k
  have h3 : p = procOf r := hf.2.2
  subst h3
  have h2 : targetOf r = .ok a := hf.2.1
  simp only [reactionLoop, hf.1, h2, hlog, logAtom, Bool.false_eq_true, if_false]
  by_cases hk : (a, procOf r) ∈ loaded
  · rw [if_pos hk, if_pos hk]
  · rw [if_neg hk, if_neg hk]
    cases reactionLoop v (loaded ++ [(a, procOf r)]) names <;> rfl

/-- C67 in full fails: duplicates within one file of reactions on electrons, and
duplicates in a second file that begins with another atom, are not detected. -/
theorem C67_duplicates_violated :
    (∃ (v : Env) (j : JVal ℝ) (rs : List Reaction), prepareReactions v j = .ok rs ∧
      j = jobFiles [['1']] ∧ ¬ (rs.map identity3).Nodup) ∧
    (∃ (v : Env) (j : JVal ℝ) (rs : List Reaction), prepareReactions v j = .ok rs ∧
      j = jobFiles [['2'], ['3']] ∧
      (∀ n ∈ [['2'], ['3']], ∀ l, inFile v (.str n) = .ok l → (l.map identity3).Nodup) ∧
      ¬ (rs.map identity3).Nodup) := by
  obtain ⟨l1, a1, b1, c1⟩ := file1
  obtain ⟨l2, a2, b2, c2⟩ := file2
  obtain ⟨l3, a3, b3, c3⟩ := file3
  obtain ⟨r1, t1, rfl, f1⟩ := electron_filed a1 c1
  obtain ⟨r2, t2, rfl, f2⟩ := electron_filed a2 c2
  obtain ⟨r3, t3, rfl, f3⟩ := electron_filed a3 c3
  refine ⟨⟨electronEnv, _, r1 :: t1, ?_, rfl, ?_⟩, ⟨electronEnv, _, (r2 :: t2) ++ (r3 :: t3), ?_, rfl, ?_, ?_⟩⟩
  · have h := jobFiles_key [['1']]
    simp only [prepareReactions, h.1, if_true, h.2, List.map_cons, List.map_nil]
    rw [loop_step f1 rfl]
    simp [reactionLoop, Except.map]
  · rw [c1]; decide
  · have h := jobFiles_key [['2'], ['3']]
    simp only [prepareReactions, h.1, if_true, h.2, List.map_cons, List.map_nil]
    rw [loop_step f2 rfl, if_neg (by simp), loop_step f3 rfl, if_neg (by decide)]
    simp [reactionLoop, Except.map]
  · intro n hn l hl
    simp only [List.mem_cons, List.not_mem_nil, or_false] at hn
    rcases hn with rfl | rfl
    · rw [b2] at hl; cases hl; rw [c2]; decide
    · rw [b3] at hl; cases hl; rw [c3]; decide
  · rw [List.map_append, c2, c3]; decide

/-- C67 in full fails: a file is ignored as a whole if its first atom was seen before,
although it has other atoms. -/
theorem C67_lost_violated : ∃ (v : Env) (j : JVal ℝ) (rs l : List Reaction) (r : Reaction),
    prepareReactions v j = .ok rs ∧ j = jobFiles [['4'], ['2']] ∧ inFile v (.str ['2']) = .ok l ∧
    r ∈ l ∧ identity3 r ∉ rs.map identity3 := by
  obtain ⟨l4, a4, b4, c4⟩ := file4
  obtain ⟨l2, a2, b2, c2⟩ := file2
  obtain ⟨r4, t4, rfl, f4⟩ := electron_filed a4 c4
  obtain ⟨r2, t2, rfl, f2⟩ := electron_filed a2 c2
  have hx : ((.nuElectronElastic, 12, 1000190400) : Proc × Int × Int) ∈ (r2 :: t2).map identity3 := by
    rw [c2]; decide
  obtain ⟨x, hx, e⟩ := List.mem_map.1 hx
  refine ⟨electronEnv, _, r4 :: t4, r2 :: t2, x, ?_, rfl, b2, hx, ?_⟩
  · have h := jobFiles_key [['4'], ['2']]
    simp only [prepareReactions, h.1, if_true, h.2, List.map_cons, List.map_nil]
    rw [loop_step f4 rfl, if_neg (by simp), loop_step f2 rfl, if_pos (by simp)]
    simp [reactionLoop, Except.map]
  · rw [e, c4]; decide

/-- The hypotheses of `C67_nuclear` and `C67_all_partial` are met: two files on
electrons of different atoms. -/
example : ∃ rs, prepareReactions electronEnv (jobFiles [['4'], ['3']]) = .ok rs ∧ rs.length = 12 ∧
    NoOverlap electronEnv [.str ['4'], .str ['3']] := by
  obtain ⟨l4, a4, b4, c4⟩ := file4
  obtain ⟨l3, a3, b3, c3⟩ := file3
  obtain ⟨r4, t4, rfl, f4⟩ := electron_filed a4 c4
  obtain ⟨r3, t3, rfl, f3⟩ := electron_filed a3 c3
  refine ⟨(r4 :: t4) ++ (r3 :: t3), ?_, ?_, ?_, ?_, ?_⟩
  · have h := jobFiles_key [['4'], ['3']]
    simp only [prepareReactions, h.1, if_true, h.2, List.map_cons, List.map_nil]
    rw [loop_step f4 rfl, if_neg (by simp), loop_step f3 rfl, if_neg (by decide)]
    simp [reactionLoop, Except.map]
  · have h4 := congrArg List.length c4
    have h3 := congrArg List.length c3
    rw [List.length_map] at h4 h3
    rw [List.length_append, h4, h3]; decide
  · intro n hn l hl
    simp only [List.mem_cons, List.not_mem_nil, or_false] at hn
    rcases hn with rfl | rfl
    · rw [b4] at hl; cases hl; rw [c4]; decide
    · rw [b3] at hl; cases hl; rw [c3]; decide
  all_goals
    intro n hn m hm r l r' l' hr hr'
    simp only [List.mem_cons, List.not_mem_nil, or_false] at hn hm
    have k4 : identity3 r4 = (.nuElectronElastic, 12, 1000180400) := by
      simp only [List.map_cons, List.flatMap_cons, sixNeutrinos, List.cons_append, List.cons.injEq] at c4
      exact c4.1
    have k3 : identity3 r3 = (.nuElectronElastic, 12, 1000190400) := by
      simp only [List.map_cons, List.flatMap_cons, sixNeutrinos, List.cons_append, List.cons.injEq] at c3
      exact c3.1
    rcases hn with rfl | rfl <;> rcases hm with rfl | rfl <;>
      (first | rw [b4] at hr | rw [b3] at hr) <;> (first | rw [b4] at hr' | rw [b3] at hr') <;>
      cases hr <;> cases hr'
  · intro _ _ x hx; exact List.mem_map_of_mem hx
  · intro _ h; rw [k4, k3] at h; simp at h
  · intro _ h; rw [k4, k3] at h; simp at h
  · intro _ _ x hx; exact List.mem_map_of_mem hx
  · intro h; simp at h
  · intro _ x hx hy
    have hx := List.mem_map_of_mem (f := identity3) hx
    rw [c4] at hx; rw [c3] at hy
    generalize identity3 x = z at hx hy
    revert z; decide
  · intro _ x hx hy
    have hx := List.mem_map_of_mem (f := identity3) hx
    rw [c3] at hx; rw [c4] at hy
    generalize identity3 x = z at hx hy
    revert z; decide
  · intro h; simp at h

end Marley.Props
