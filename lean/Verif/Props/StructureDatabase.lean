import Verif.Lemmas.StructureDatabase
import Verif.Lemmas.DecayScheme
import Mathlib.Tactic.SplitIfs
import Mathlib.Tactic.FinCases
import Mathlib.Tactic.Tauto

/-!
# C55, C56, C57: the structure database
-/

set_option autoImplicit false

namespace Marley.Props
open Marley Marley.Structure
open Marley.Json (Str isSpace isDigit)

variable {K : Type}

/-! ## C55 stable lookups -/

section
variable [Zero K] [LT K] [DecidableLT K]

/-- C55: once a decay scheme has been returned for a nuclide, every later lookup
returns the same object and changes nothing, as long as the scheme is not
removed or replaced and the database is not cleared, whatever the files contain
in the meantime. -/
theorem C55_stable (env env' : Env K) (db db' : Db K) (pid : Int) (a : Nat)
    (h : getScheme env pid 2 db = some (db', .ok (some a))) (ops : List (Op K))
    (hops : ∀ op ∈ ops, ¬ Removes pid op) :
    getScheme env' pid 2 (run db' ops) = some (run db' ops, .ok (some a)) := by
  obtain ⟨s, hs⟩ := (getScheme_keeps env pid 2 db db' _ h).2 a rfl
  rw [getScheme, run_keeps db' ops hops hs]
  rfl

/-- C55: one lookup does not remove or replace the schemes of other nuclides. -/
theorem C55_others_kept (env : Env K) (db db' : Db K) (pid : Int) (r : Res (Option Nat))
    (h : getScheme env pid 2 db = some (db', r)) (q : Int) (p : Option (Nat × Scheme.Scheme K))
    (hq : db.schemes.lookup q = some p) : db'.schemes.lookup q = some p :=
  (getScheme_keeps env pid 2 db db' r h).1 q p hq

end

/-! ### Termination -/

section
variable [Zero K] [LT K] [DecidableLT K]
open Marley.Scheme

/-- C55: lookups terminate: the function calls itself at most once, and the loop
over the file ends, provided reading a number does not put characters back. -/
theorem C55_terminates (env : Env K) (hf : Shrinks env.fmt) (pid : Int) (db : Db K) :
    getScheme env pid 2 db ≠ none := by
  rw [getScheme]
  cases hl : db.schemes.lookup pid with
  | some p => simp
  | none =>
    dsimp only
    cases Target.atom pid with
    | error e => simp
    | ok a =>
      dsimp only
      cases hi : (if db.indexLoaded then .ok db else loadIndex env db : Res (Db K)) with
      | error e => simp
      | ok db1 =>
        dsimp only
        cases db1.filenames.lookup pid with
        | none => simp
        | some name =>
          dsimp only
          cases hm : searchFile env pid name db1 with
          | none =>
            exfalso
            unfold searchFile at hm
            cases hfile : env.file name with
            | none => rw [hfile] at hm; cases hm
            | some text =>
              rw [hfile] at hm
              exact loadFile_total hf pid _ db1 false text (Nat.lt_succ_self _) hm
          | some x =>
            obtain ⟨db2, r2⟩ := x
            cases r2 with
            | error e => simp
            | ok b =>
              cases b with
              | true =>
                dsimp only
                have : ∃ p, db2.schemes.lookup pid = some p := by
                  unfold searchFile at hm
                  cases hfile : env.file name with
                  | none => rw [hfile] at hm; cases hm
                  | some text =>
                    rw [hfile] at hm
                    exact (loadFile_keeps _ _ _ _ _ _ _ _ hm).2 rfl rfl
                obtain ⟨p, hp⟩ := this
                rw [getScheme, hp]
                simp
              | false =>
                dsimp only
                cases (if env.warn then Target.atomName pid else .ok [] : Res Str) with
                | error e => simp
                | ok nm =>
                  dsimp only
                  rw [getScheme]
                  dsimp only
                  rw [lookup_assign, if_pos rfl]
                  simp

end

/-! ### Models -/

section
variable [Zero K] [LT K] [DecidableLT K]

/-- C55: the model objects for a nuclide are created by the first request and
returned by every later one, whatever happens in between. -/
theorem C55_models_once (db : Db K) (ops : List (Op K)) (pid : Int) :
    (getOptical (run (getOptical db pid).1 ops) pid =
      (run (getOptical db pid).1 ops, (getOptical db pid).2)) ∧
    (getDensity (run (getDensity db pid).1 ops) pid =
      (run (getDensity db pid).1 ops, (getDensity db pid).2)) ∧
    (getStrength (run (getStrength db pid).1 ops) pid =
      (run (getStrength db pid).1 ops, (getStrength db pid).2)) := by
  refine ⟨?_, ?_, ?_⟩
  · have : (getOptical db pid).1.optical.lookup pid = some (getOptical db pid).2 := by
      simp only [getOptical]
      cases h : db.optical.lookup pid with
      | some x => exact h
      | none => dsimp only; rw [lookup_emplace, h]; simp
    have h' := (run_models _ ops pid _).1 this
    generalize run (getOptical db pid).1 ops = db' at h' ⊢
    rw [getOptical, h']
  · have : (getDensity db pid).1.density.lookup pid = some (getDensity db pid).2 := by
      simp only [getDensity]
      cases h : db.density.lookup pid with
      | some x => exact h
      | none => dsimp only; rw [lookup_emplace, h]; simp
    have h' := (run_models _ ops pid _).2.1 this
    generalize run (getDensity db pid).1 ops = db' at h' ⊢
    rw [getDensity, h']
  · have : (getStrength db pid).1.strength.lookup
        (Pdg.nucleusPid (Pdg.getZ pid) (Pdg.getA pid)) = some (getStrength db pid).2 := by
      simp only [getStrength, getStrengthZA]
      cases h : db.strength.lookup (Pdg.nucleusPid (Pdg.getZ pid) (Pdg.getA pid)) with
      | some x => exact h
      | none => dsimp only; rw [lookup_emplace, h]; simp
    have h' := (run_models _ ops _ _).2.2 this
    generalize run (getStrength db pid).1 ops = db' at h' ⊢
    simp only [getStrength, getStrengthZA] at h' ⊢
    rw [h']

/-- C55: different nuclides have different objects: what is returned for one at
some time is never returned for another at a later time. -/
theorem C55_models_distinct (before after : List (Op K)) (p q : Int) (hne : p ≠ q) :
    (getOptical (run (getOptical (run init before) p).1 after) q).2 ≠
      (getOptical (run (init : Db K) before) p).2 ∧
    (getDensity (run (getDensity (run init before) p).1 after) q).2 ≠
      (getDensity (run (init : Db K) before) p).2 ∧
    (Pdg.nucleusPid (Pdg.getZ p) (Pdg.getA p) ≠ Pdg.nucleusPid (Pdg.getZ q) (Pdg.getA q) →
      (getStrength (run (getStrength (run init before) p).1 after) q).2 ≠
        (getStrength (run (init : Db K) before) p).2) := by
  have fr : ∀ op, Fresh (run (step (run (init : Db K) before) op) after) := by
    intro op
    have := run_fresh (K := K) (before ++ op :: after)
    simpa [run] using this
  have key : ∀ (m : List (Int × Nat)) (n a : Nat) (p q : Int), p ≠ q →
      FreshTable (fun k => m.lookup k) n → m.lookup p = some a →
      (match m.lookup q with | some x => x | none => n) ≠ a := by
    intro m n a p q hne hf hp
    cases hq : m.lookup q with
    | some x =>
      dsimp only
      rintro rfl
      exact hne (hf.2 p q x hp hq)
    | none =>
      dsimp only
      have := hf.1 p a hp
      omega
  refine ⟨?_, ?_, ?_⟩
  · have h1 : (getOptical (run (init : Db K) before) p).1.optical.lookup p =
        some (getOptical (run (init : Db K) before) p).2 := by
      simp only [getOptical]
      cases h : (run (init : Db K) before).optical.lookup p with
      | some x => exact h
      | none => dsimp only; rw [lookup_emplace, h]; simp
    have h2 := (run_models _ after p _).1 h1
    have := key _ _ _ p q hne (fr (.optical p)).optical h2
    rw [getOptical_snd]
    exact this
  · have h1 : (getDensity (run (init : Db K) before) p).1.density.lookup p =
        some (getDensity (run (init : Db K) before) p).2 := by
      simp only [getDensity]
      cases h : (run (init : Db K) before).density.lookup p with
      | some x => exact h
      | none => dsimp only; rw [lookup_emplace, h]; simp
    have h2 := (run_models _ after p _).2.1 h1
    have := key _ _ _ p q hne (fr (.density p)).density h2
    rw [getDensity_snd]
    exact this
  · intro hne'
    have h1 : (getStrength (run (init : Db K) before) p).1.strength.lookup
        (Pdg.nucleusPid (Pdg.getZ p) (Pdg.getA p)) =
        some (getStrength (run (init : Db K) before) p).2 := by
      simp only [getStrength, getStrengthZA]
      cases h : (run (init : Db K) before).strength.lookup
        (Pdg.nucleusPid (Pdg.getZ p) (Pdg.getA p)) with
      | some x => exact h
      | none => dsimp only; rw [lookup_emplace, h]; simp
    have h2 := (run_models _ after _ _).2.2 h1
    have := key _ _ _ _ _ hne' (fr (.strength p)).strength h2
    rw [getStrength_snd]
    exact this

/-- C55: the same for decay schemes. -/
theorem C55_schemes_distinct (env : Env K) (before : List (Op K)) (p q : Int) (a : Nat)
    (db : Db K) (hp : getScheme env p 2 (run init before) = some (db, .ok (some a)))
    (env' : Env K) (after : List (Op K)) (hops : ∀ op ∈ after, ¬ Removes p op)
    (db' : Db K) (b : Nat) (hq : getScheme env' q 2 (run db after) = some (db', .ok (some b)))
    (hne : p ≠ q) : a ≠ b := by
  obtain ⟨s, hs⟩ := (getScheme_keeps env p 2 _ db _ hp).2 a rfl
  have h1 := run_keeps db after hops hs
  obtain ⟨h2, h3⟩ := getScheme_keeps env' q 2 _ db' _ hq
  obtain ⟨s', hs'⟩ := h3 b rfl
  have h4 := h2 _ _ h1
  have f : Fresh (run db after) := by
    have := run_fresh (K := K) (before ++ .get env p :: after)
    rw [run, List.foldl_append, List.foldl_cons] at this
    have e : step (List.foldl step (init : Db K) before) (.get env p) = db := by
      simp only [step]
      rw [run] at hp
      rw [hp]
    rw [e] at this
    exact this
  have f' := getScheme_fresh env' q 2 _ db' _ f hq
  rintro rfl
  exact hne (f'.schemes.2 p q a (by simp [objectOf, h4]) (by simp [objectOf, hs']))

omit [Zero K] [LT K] [DecidableLT K] in
/-- C55 does not hold for hydrogen, which has two codes: a request by the ion's
code and one by Z and A create two optical models (and two level density
models). -/
theorem C55_hydrogen_violated :
    Pdg.getZ 1000010010 = 1 ∧ Pdg.getA 1000010010 = 1 ∧
    (getOptical (init : Db K) 1000010010).2 ≠
      (getOpticalZA (getOptical (init : Db K) 1000010010).1 1 1).2 ∧
    (getDensity (init : Db K) 1000010010).2 ≠
      (getDensityZA (getDensity (init : Db K) 1000010010).1 1 1).2 := by
  refine ⟨by decide, by decide, ?_, ?_⟩
  · simp [getOptical, getOpticalZA, init, Pdg.nucleusPid, Pdg.PROTON, Structure.emplace, List.lookup]
  · simp [getDensity, getDensityZA, init, Pdg.nucleusPid, Pdg.PROTON, Structure.emplace, List.lookup]

example : Shrinks digitFmt := by
  intro s x t h
  simp only [digitFmt] at h
  split_ifs at h
  cases h
  exact dropWhile_length _ _

example : (getScheme argonEnv 1000190400 2 init).map (·.2) = some (.ok (some 1)) := by
  decide +kernel

example : (getScheme argonEnv 1000180400 2 (run init [.get argonEnv 1000190400,
    .optical 1000190400, .remove 1000190400])).map (·.2) = some (.ok (some 0)) := by
  decide +kernel

example : (getScheme argonEnv 1000200400 2 init).map (·.2) = some (.ok none) := by
  decide +kernel

/-! ## C56 adding schemes -/

/-- C56: an added scheme is the one that is used, if the database had no entry
for the nuclide. -/
theorem C56_add_partial (env : Env K) (db : Db K) (pid : Int) (s : Scheme.Scheme K)
    (h : db.schemes.lookup pid = none) :
    getScheme env pid 2 (addScheme db pid s) = some (addScheme db pid s, .ok (some db.next)) ∧
      (addScheme db pid s).schemes.lookup pid = some (some (db.next, s)) := by
  have : (addScheme db pid s).schemes.lookup pid = some (some (db.next, s)) := by
    simp only [addScheme]; rw [lookup_emplace, h]; simp
  refine ⟨?_, this⟩
  rw [getScheme, this]
  rfl

/-- C56: the function replacing a scheme makes the new one the one used, always. -/
theorem C56_emplace (env : Env K) (db : Db K) (pid : Int) (s : Scheme.Scheme K) :
    (emplaceScheme db pid (.ok s)).2 = .ok () ∧
    getScheme env pid 2 (emplaceScheme db pid (.ok s)).1 =
      some ((emplaceScheme db pid (.ok s)).1, .ok (some db.next)) ∧
      (emplaceScheme db pid (.ok s)).1.schemes.lookup pid = some (some (db.next, s)) := by
  refine ⟨rfl, ?_⟩
  simp only [emplaceScheme]
  exact C56_add_partial env _ pid s (lookup_erase_self _ _)

/-- C56 does not hold if the database has an entry for the nuclide (also a null
one, left by an unsuccessful lookup): the old one stays in use. -/
theorem C56_existing_violated (env : Env K) (db : Db K) (pid : Int) (s : Scheme.Scheme K)
    (p : Option (Nat × Scheme.Scheme K)) (h : db.schemes.lookup pid = some p) :
    getScheme env pid 2 (addScheme db pid s) = some (addScheme db pid s, .ok (p.map (·.1))) := by
  rw [getScheme, addScheme_keeps db pid s _ _ h]

end

example : (getScheme (K := ℚ) ⟨none, fun _ => none, none, ⟨fun _ => [], fun _ => none⟩, false⟩
    1000180400 2
    (addScheme (addScheme init 1000180400 ⟨18, 40, [], 0⟩) 1000180400 ⟨18, 40, [], 5⟩)).map (·.2) =
    some (.ok (some 0)) := by decide +kernel

/-! ## C57 ground-state spins and fragments -/

/-- C57: if the file is well formed and has the six light particles, then however
often it is looked for (at times it may not be found), every call that returns
normally has both tables complete and answers what is in the file. -/
theorem C57_complete_partial (lines : List JpiLine) (hv : ∀ l ∈ lines, l.Valid)
    (h6 : ∀ f ∈ [2112, 2212, 1000010020, 1000010030, 1000020030, 1000020040],
      ∃ l ∈ lines, l.pdg = f)
    (hist : List (Option Str × Call)) (hh : ∀ c ∈ hist, c.1 = none ∨ c.1 = some (tableText lines))
    (file : Option Str) (hf : file = none ∨ file = some (tableText lines))
    (c : Call) (a : Answer) (h : (call file (calls Static.init hist) c).2 = .ok a) :
    Complete lines (call file (calls Static.init hist) c).1 ∧ RightAnswer lines c a := by
  have hsome : ∀ f ∈ fragmentCodes, ∃ x, lastLine lines f = some x := by
    intro f hf
    obtain ⟨l, hl, e⟩ := h6 f hf
    have : (lines.reverse.find? (fun l => l.pdg = f)).isSome := by
      rw [List.find?_isSome]; exact ⟨l, by simpa using hl, by simpa using e⟩
    obtain ⟨y, hy⟩ := Option.isSome_iff_exists.1 this
    exact ⟨_, by rw [lastLine, hy]; rfl⟩
  have ens : ∀ st file, (st = Static.init ∨ (st.loaded = true ∧ Complete lines st)) →
      (file = none ∨ file = some (tableText lines)) →
      (ensure file st = (st, .error .marleyError) ∧ st = Static.init) ∨
      ((ensure file st).2 = .ok () ∧ (ensure file st).1.loaded = true ∧
        Complete lines (ensure file st).1) := by
    intro st file hst hfile
    rcases hst with rfl | ⟨hl, hc⟩
    · rcases hfile with rfl | rfl
      · exact Or.inl ⟨rfl, rfl⟩
      · refine Or.inr ?_
        have e : ensure (some (tableText lines)) Static.init =
            fillFragments ⟨fillTable [] lines, [], true⟩ fragmentCodes := by
          simp only [ensure, Static.init, initTables, readJpi_table lines hv]
          rfl
        rw [e]
        obtain ⟨h1, h2, h3, h4⟩ := fillFragments_spec ⟨fillTable [] lines, [], true⟩ fragmentCodes (by
          intro f hf
          obtain ⟨x, hx⟩ := hsome f hf
          exact ⟨x, by dsimp only; rw [lookup_fillTable, hx]; rfl⟩)
        refine ⟨h1, h3, ?_, ?_⟩
        · intro k; rw [h2, lookup_fillTable]; simp
        · intro k; rw [h4 k]; dsimp only; rw [lookup_fillTable]; simp [fragmentCodes]
    · refine Or.inr ?_
      have e : ensure file st = (st, .ok ()) := by simp [ensure, hl]
      rw [e]; exact ⟨rfl, hl, hc⟩
  have one : ∀ st file c, (st = Static.init ∨ (st.loaded = true ∧ Complete lines st)) →
      (file = none ∨ file = some (tableText lines)) →
      (((call file st c).1 = Static.init ∧ (call file st c).2 = .error .marleyError) ∨
        (((call file st c).1.loaded = true ∧ Complete lines (call file st c).1) ∧
          ∀ a, (call file st c).2 = .ok a → RightAnswer lines c a)) := by
    intro st file c hst hfile
    rcases ens st file hst hfile with ⟨h1, h2⟩ | ⟨h1, h2, h3⟩
    · left
      subst h2
      cases c <;> simp [call, gsSpinParity, getFragment, fragments, h1, Except.map]
    · right
      have e : ensure file st = ((ensure file st).1, .ok ()) := by rw [← h1]
      generalize (ensure file st).1 = st' at e h2 h3
      cases c with
      | spin pdg =>
        simp only [call, gsSpinParity, e]
        cases hl : st'.jpi.lookup pdg with
        | none => exact ⟨⟨h2, h3⟩, by intro a ha; cases ha⟩
        | some x =>
          refine ⟨⟨h2, h3⟩, ?_⟩
          intro a ha; cases ha
          simp only [RightAnswer]
          rw [← h3.1, hl]
      | fragment pdg =>
        simp only [call, getFragment, e]
        refine ⟨⟨h2, h3⟩, ?_⟩
        intro a ha; cases ha
        simp only [RightAnswer]
        rw [h3.2]
      | all =>
        simp only [call, fragments, e]
        refine ⟨⟨h2, h3⟩, ?_⟩
        intro a ha; cases ha
        simp only [RightAnswer]
        exact h3.2
  have inv : ∀ hist st, (st = Static.init ∨ (st.loaded = true ∧ Complete lines st)) →
      (∀ c ∈ hist, c.1 = none ∨ c.1 = some (tableText lines)) →
      (calls st hist = Static.init ∨ ((calls st hist).loaded = true ∧
        Complete lines (calls st hist))) := by
    intro hist
    induction hist with
    | nil => intro st hst _; exact hst
    | cons c t ih =>
      intro st hst hc
      refine ih _ ?_ (fun d hd => hc d (by simp [hd]))
      rcases one st c.1 c.2 hst (hc c (by simp)) with ⟨h1, -⟩ | ⟨h1, -⟩
      · exact Or.inl h1
      · exact Or.inr h1
  rcases one _ file c (inv hist _ (Or.inl rfl) hh) hf with ⟨-, h1⟩ | ⟨⟨-, h1⟩, h2⟩
  · rw [h1] at h; cases h
  · exact ⟨h1, h2 a h⟩

/-- C57: with such a file every call returns normally, except that asking for the
spin of a nucleus that is not in the file is an error. -/
theorem C57_succeeds (lines : List JpiLine) (hv : ∀ l ∈ lines, l.Valid)
    (h6 : ∀ f ∈ [2112, 2212, 1000010020, 1000010030, 1000020030, 1000020040],
      ∃ l ∈ lines, l.pdg = f) (pdg : Int) :
    (∃ a, (call (some (tableText lines)) Static.init (.fragment pdg)).2 = .ok a) ∧
    (∃ a, (call (some (tableText lines)) Static.init .all).2 = .ok a) ∧
    ((∃ a, (call (some (tableText lines)) Static.init (.spin pdg)).2 = .ok a) ↔
      ∃ l ∈ lines, l.pdg = pdg) := by
  have hfind : ∀ f, (∃ l ∈ lines, l.pdg = f) ↔ ∃ x, lastLine lines f = some x := by
    intro f
    rw [← Option.isSome_iff_exists, lastLine, Option.isSome_map, List.find?_isSome]
    simp
  have e : ensure (some (tableText lines)) Static.init =
      fillFragments ⟨fillTable [] lines, [], true⟩ fragmentCodes := by
    simp only [ensure, Static.init, initTables, readJpi_table lines hv]
    rfl
  obtain ⟨h1, h2, -, -⟩ := fillFragments_spec ⟨fillTable [] lines, [], true⟩ fragmentCodes (by
    intro f hf
    obtain ⟨x, hx⟩ := (hfind f).1 (h6 f hf)
    exact ⟨x, by dsimp only; rw [lookup_fillTable, hx]; rfl⟩)
  rw [← e] at h1 h2
  have e' : ensure (some (tableText lines)) Static.init =
      ((ensure (some (tableText lines)) Static.init).1, .ok ()) := by rw [← h1]
  generalize (ensure (some (tableText lines)) Static.init).1 = st' at e' h2
  refine ⟨?_, ?_, ?_⟩
  · simp only [call, getFragment, e']; exact ⟨_, rfl⟩
  · simp only [call, fragments, e']; exact ⟨_, rfl⟩
  · have : st'.jpi.lookup pdg = lastLine lines pdg := by rw [h2, lookup_fillTable]; simp
    rw [hfind]
    simp only [call, gsSpinParity, e', this]
    cases lastLine lines pdg with
    | none => simp [Except.map]
    | some x => exact ⟨fun _ => ⟨x, rfl⟩, fun _ => ⟨_, rfl⟩⟩

/-- C57: if a line of the file has something else than a sign for the parity, no
call ever returns normally. -/
theorem C57_bad_parity (lines : List JpiLine) (hv : ∀ l ∈ lines, l.Valid) (bad : JpiLine)
    (hb : bad.Valid) (ch : Char) (hd : isDigit ch = false) (hs : isSpace ch = false)
    (hp : ch ≠ '+') (hm : ch ≠ '-') (rest : Str)
    (text : Str) (ht : text = tableText lines ++ (Json.intText bad.pdg ++ bad.gap1 ++
      Json.intText bad.twoJ ++ bad.gap2 ++ ch :: rest))
    (hist : List (Option Str × Call)) (hh : ∀ c ∈ hist, c.1 = none ∨ c.1 = some text)
    (file : Option Str) (hf : file = none ∨ file = some text) (c : Call) :
    (call file (calls Static.init hist) c).2 = .error .marleyError := by
  have hr : ∀ m, ∃ m', readJpi (text.length + 1) m text = (m', .error .marleyError) := by
    intro m
    have hl := lines_length lines (Json.intText bad.pdg ++ bad.gap1 ++
      Json.intText bad.twoJ ++ bad.gap2 ++ ch :: rest)
    rw [← ht] at hl
    obtain ⟨ws', hw', h⟩ := readJpi_lines lines hv [] (by simp) (Json.intText bad.pdg ++ bad.gap1 ++
      Json.intText bad.twoJ ++ bad.gap2 ++ ch :: rest) (text.length + 1 - lines.length) m
    rw [List.nil_append, ← ht, show lines.length + (text.length + 1 - lines.length) =
      text.length + 1 by omega, show text.length + 1 - lines.length =
      (text.length - lines.length) + 1 by omega, readJpi_line bad hb ws' hw' ch hd hs] at h
    have : Parity.ofChar ch = .error .marleyError := by simp [Parity.ofChar, hp, hm]
    rw [this] at h
    exact ⟨_, h⟩
  have ens : ∀ st file, st.loaded = false → (file = none ∨ file = some text) →
      ∃ st', ensure file st = (st', .error .marleyError) ∧ st'.loaded = false := by
    intro st file hst hfile
    rcases hfile with rfl | rfl
    · exact ⟨st, by simp [ensure, hst, initTables], hst⟩
    · obtain ⟨m', hm'⟩ := hr st.jpi
      exact ⟨{ st with jpi := m' }, by simp [ensure, hst, initTables, hm'], hst⟩
  have one : ∀ st file c, st.loaded = false → (file = none ∨ file = some text) →
      (call file st c).1.loaded = false ∧ (call file st c).2 = .error .marleyError := by
    intro st file c hst hfile
    obtain ⟨st', h1, h2⟩ := ens st file hst hfile
    cases c <;> simp [call, gsSpinParity, getFragment, fragments, h1, h2, Except.map]
  have inv : ∀ hist st, st.loaded = false → (∀ c ∈ hist, c.1 = none ∨ c.1 = some text) →
      (calls st hist).loaded = false := by
    intro hist
    induction hist with
    | nil => intro st hst _; exact hst
    | cons c t ih =>
      intro st hst hc
      exact ih _ (one st c.1 c.2 hst (hc c (by simp))).1 (fun d hd => hc d (by simp [hd]))
  exact (one _ file c (inv hist _ rfl hh) hf).2

example : ∀ f ∈ [2112, 2212, 1000010020, 1000010030, 1000020030, 1000020040],
    ∃ l ∈ sixLines, l.pdg = f := by decide

example : (call (some (tableText sixLines)) (calls Static.init [(none, .all)])
    (.fragment 1000010020)).2.isOk = true := by decide +kernel

/-- C57 does not hold if one of the light particles is missing: the first call
throws, but later calls return with an incomplete table of fragments. -/
theorem C57_failed_load_violated :
    ∃ text : Str, (call (some text) Static.init .all).2.isOk = false ∧
      ∃ fs, (call (some text) (calls Static.init [(some text, .all)]) .all).2 = .ok (.all fs) ∧
        fs.map (·.1) = [2112, 2212, 1000010020, 1000010030, 1000020030] :=
  ⟨tableText (sixLines.take 5), by decide +kernel,
    [(2112, ⟨2112, 1, ⟨true⟩⟩), (2212, ⟨2212, 1, ⟨true⟩⟩), (1000010020, ⟨1000010020, 2, ⟨true⟩⟩),
      (1000010030, ⟨1000010030, 1, ⟨true⟩⟩), (1000020030, ⟨1000020030, 1, ⟨true⟩⟩)],
    by decide +kernel, by decide⟩

/-- C57 does not hold for a file with a malformed line: the lines after it are
silently ignored. -/
theorem C57_malformed_violated :
    ∃ text, text = tableText sixLines ++ "100018O400 0 +\n".toList ++
        tableText [⟨1000190400, 8, ⟨false⟩, [' '], [' '], ['\n']⟩] ∧
      (call (some text) Static.init .all).2.isOk = true ∧
      (call (some text) Static.init (.spin 1000190400)).2.isOk = false :=
  ⟨_, rfl, by decide +kernel, by decide +kernel⟩

end Marley.Props
