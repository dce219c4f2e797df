import Verif.Spec.StructureDatabase
import Verif.Lemmas.DecayScheme
import Mathlib.Tactic.SplitIfs
import Mathlib.Tactic.FinCases
import Mathlib.Tactic.Tauto

set_option autoImplicit false

/-! Lemmas for the properties of StructureDatabase. -/

namespace Marley.Props
open Marley Marley.Structure
open Marley.Json (Str isSpace isDigit)

variable {K : Type}

section Tables
variable {α : Type}

theorem lookup_append (a b : List (Int × α)) (k : Int) :
    (a ++ b).lookup k = (a.lookup k).or (b.lookup k) := by
  induction a with
  | nil => simp
  | cons x t ih =>
    obtain ⟨i, v⟩ := x
    rw [List.cons_append, List.lookup_cons, List.lookup_cons]
    by_cases h : k = i
    · subst h; simp
    · rw [beq_eq_false_iff_ne.2 h]; exact ih

theorem lookup_erase_ne (m : List (Int × α)) {k j : Int} (h : k ≠ j) :
    (erase m j).lookup k = m.lookup k := by
  induction m with
  | nil => rfl
  | cons x t ih =>
    obtain ⟨i, v⟩ := x
    simp only [erase] at ih ⊢
    by_cases hi : i = j
    · subst hi
      rw [List.filter_cons_of_neg (by simp), ih, List.lookup_cons, beq_eq_false_iff_ne.2 h]
    · rw [List.filter_cons_of_pos (by simp [hi]), List.lookup_cons, List.lookup_cons, ih]

theorem lookup_erase_self (m : List (Int × α)) (k : Int) : (erase m k).lookup k = none := by
  induction m with
  | nil => rfl
  | cons x t ih =>
    obtain ⟨i, v⟩ := x
    simp only [erase] at ih ⊢
    by_cases hi : i = k
    · subst hi; rw [List.filter_cons_of_neg (by simp), ih]
    · rw [List.filter_cons_of_pos (by simp [hi]), List.lookup_cons,
        beq_eq_false_iff_ne.2 (Ne.symm hi), ih]

theorem lookup_assign (m : List (Int × α)) (k j : Int) (v : α) :
    (assign m j v).lookup k = if k = j then some v else m.lookup k := by
  rw [assign, lookup_append]
  split_ifs with h
  · subst h; rw [lookup_erase_self]; simp
  · rw [lookup_erase_ne m h, List.lookup_cons, beq_eq_false_iff_ne.2 h]; simp

theorem lookup_emplace (m : List (Int × α)) (k j : Int) (v : α) :
    (Structure.emplace m j v).lookup k =
      match m.lookup k with
      | some x => some x
      | none => if k = j then some v else none := by
  rw [Structure.emplace]
  by_cases hj : (m.lookup j).isSome
  · rw [if_pos hj]
    cases hk : m.lookup k with
    | some x => rfl
    | none =>
      dsimp only
      rw [if_neg]
      rintro rfl
      rw [hk] at hj; simp at hj
  · rw [if_neg hj, lookup_append]
    cases hk : m.lookup k with
    | some x => simp
    | none =>
      by_cases h : k = j
      · subst h; simp
      · rw [List.lookup_cons, beq_eq_false_iff_ne.2 h]; simp [h]

end Tables

section
variable [Zero K] [LT K] [DecidableLT K]

/-- Entries that are kept. -/
def Keeps (db db' : Db K) : Prop :=
  ∀ pid p, db.schemes.lookup pid = some p → db'.schemes.lookup pid = some p

theorem Keeps.refl (db : Db K) : Keeps db db := fun _ _ h => h
theorem Keeps.trans {a b c : Db K} (h1 : Keeps a b) (h2 : Keeps b c) : Keeps a c :=
  fun pid p h => h2 pid p (h1 pid p h)

theorem addScheme_keeps (db : Db K) (pid : Int) (s : Scheme.Scheme K) :
    Keeps db (addScheme db pid s) := by
  intro k p h
  simp only [addScheme]
  rw [lookup_emplace, h]

theorem loadFile_keeps (env : Env K) (pid : Int) (n : Nat) (db : Db K) (found : Bool) (s : Str)
    (db' : Db K) (r : Res Bool) (h : loadFile env pid n db found s = some (db', r)) :
    Keeps db db' ∧ (r = .ok true → found = false → ∃ p, db'.schemes.lookup pid = some p) := by
  induction n generalizing db found s with
  | zero => cases h
  | succ n ih =>
    simp only [loadFile] at h
    cases hr : Scheme.read env.fmt 0 s with
    | error e => rw [hr] at h; cases h; exact ⟨Keeps.refl _, by rintro ⟨⟩⟩
    | ok x =>
      obtain ⟨sch, o⟩ := x
      rw [hr] at h
      cases o with
      | none => cases h; exact ⟨Keeps.refl _, by intro h1 h2; cases h1; cases h2⟩
      | some t =>
        dsimp only at h
        have hk := addScheme_keeps db (Pdg.nucleusPid sch.Z sch.A) sch
        cases ha : Target.atom (Pdg.nucleusPid sch.Z sch.A) with
        | error e => rw [ha] at h; cases h; exact ⟨hk, by rintro ⟨⟩⟩
        | ok a =>
          rw [ha] at h
          dsimp only at h
          obtain ⟨h1, h2⟩ := ih _ _ _ h
          refine ⟨hk.trans h1, ?_⟩
          intro hr' hf
          subst hf
          by_cases hp : pid = Pdg.nucleusPid sch.Z sch.A
          · have : ∃ p, (addScheme db pid sch).schemes.lookup pid = some p := by
              simp only [addScheme]
              rw [lookup_emplace]
              cases db.schemes.lookup pid with
              | some x => exact ⟨x, rfl⟩
              | none => exact ⟨_, if_pos rfl⟩
            obtain ⟨p, hpp⟩ := this
            rw [← hp] at h1
            exact ⟨p, h1 _ _ hpp⟩
          · rw [if_neg hp] at h2
            exact h2 hr' rfl

theorem loadIndex_schemes {env : Env K} {db db' : Db K} (h : loadIndex env db = .ok db') :
    db'.schemes = db.schemes := by
  unfold loadIndex at h
  cases he : env.index with
  | none => rw [he] at h; cases h
  | some t => rw [he] at h; cases h; rfl

theorem index_schemes {env : Env K} {db db' : Db K}
    (h : (if db.indexLoaded then .ok db else loadIndex env db : Res (Db K)) = .ok db') :
    db'.schemes = db.schemes := by
  split_ifs at h
  · cases h; rfl
  · exact loadIndex_schemes h

/-- What a lookup does when the scheme is not in the table. -/
theorem getScheme_keeps (env : Env K) (pid : Int) (n : Nat) (db db' : Db K)
    (r : Res (Option Nat)) (h : getScheme env pid n db = some (db', r)) :
    Keeps db db' ∧ ∀ a, r = .ok (some a) → ∃ s, db'.schemes.lookup pid = some (some (a, s)) := by
  induction n generalizing db with
  | zero => cases h
  | succ n ih =>
    rw [getScheme] at h
    cases hl : db.schemes.lookup pid with
    | some p =>
      rw [hl] at h; cases h
      refine ⟨Keeps.refl _, ?_⟩
      intro a ha
      cases p with
      | none => cases ha
      | some p => cases ha; exact ⟨p.2, hl⟩
    | none =>
      rw [hl] at h
      dsimp only at h
      cases ha : Target.atom pid with
      | error e => rw [ha] at h; cases h; exact ⟨Keeps.refl _, by rintro a ⟨⟩⟩
      | ok a =>
        rw [ha] at h
        dsimp only at h
        cases hi : (if db.indexLoaded then .ok db else loadIndex env db : Res (Db K)) with
        | error e => rw [hi] at h; cases h; exact ⟨Keeps.refl _, by rintro a ⟨⟩⟩
        | ok db1 =>
          rw [hi] at h
          dsimp only at h
          have e1 := index_schemes hi
          have k1 : Keeps db db1 := by intro k p hk; rw [e1]; exact hk
          cases hf : db1.filenames.lookup pid with
          | none => rw [hf] at h; cases h; exact ⟨k1, by rintro a ⟨⟩⟩
          | some name =>
            rw [hf] at h
            dsimp only at h
            have key : ∀ db2 r2,
                searchFile env pid name db1 = some (db2, r2) →
                Keeps db1 db2 ∧ (r2 = .ok false → True) := by
              intro db2 r2 h2
              unfold searchFile at h2
              cases hfile : env.file name with
              | none => rw [hfile] at h2; cases h2; exact ⟨Keeps.refl _, fun _ => trivial⟩
              | some text =>
                rw [hfile] at h2
                exact ⟨(loadFile_keeps _ _ _ _ _ _ _ _ h2).1, fun _ => trivial⟩
            cases hm : searchFile env pid name db1 with
            | none => rw [hm] at h; cases h
            | some x =>
              obtain ⟨db2, r2⟩ := x
              rw [hm] at h
              have k2 := (key db2 r2 hm).1
              cases r2 with
              | error e => cases h; exact ⟨k1.trans k2, by rintro a ⟨⟩⟩
              | ok b =>
                cases b with
                | true =>
                  obtain ⟨k3, h3⟩ := ih _ h
                  exact ⟨(k1.trans k2).trans k3, h3⟩
                | false =>
                  dsimp only at h
                  cases hn : (if env.warn then Target.atomName pid else .ok [] : Res Str) with
                  | error e => rw [hn] at h; cases h; exact ⟨k1.trans k2, by rintro a ⟨⟩⟩
                  | ok nm =>
                    rw [hn] at h
                    dsimp only at h
                    obtain ⟨k3, h3⟩ := ih _ h
                    refine ⟨?_, h3⟩
                    intro k p hk
                    apply k3
                    dsimp only
                    rw [lookup_assign]
                    have : k ≠ pid := by rintro rfl; rw [hl] at hk; cases hk
                    rw [if_neg this]
                    exact k2 _ _ (k1 _ _ hk)

theorem step_keeps (db : Db K) (op : Op K) {pid : Int} (h : ¬ Removes pid op)
    {p : Option (Nat × Scheme.Scheme K)} (hp : db.schemes.lookup pid = some p) :
    (step db op).schemes.lookup pid = some p := by
  cases op with
  | get env q =>
    simp only [step]
    cases hg : getScheme env q 2 db with
    | none => exact hp
    | some r => exact (getScheme_keeps env q 2 db r.1 r.2 hg).1 _ _ hp
  | add q s => exact addScheme_keeps db q s _ _ hp
  | emplace q s =>
    have hne : pid ≠ q := fun e => h e.symm
    have e : (erase db.schemes q).lookup pid = some p := by rw [lookup_erase_ne _ hne, hp]
    simp only [step, emplaceScheme]
    cases s with
    | error e' => exact e
    | ok s =>
      simp only [addScheme]
      rw [lookup_emplace, e]
  | remove q =>
    have hne : pid ≠ q := fun e => h e.symm
    simp only [step, removeScheme]
    rw [lookup_erase_ne _ hne, hp]
  | clear => exact absurd trivial h
  | optical q => simp only [step, getOptical]; cases db.optical.lookup q <;> exact hp
  | density q => simp only [step, getDensity]; cases db.density.lookup q <;> exact hp
  | strength q =>
    simp only [step, getStrength, getStrengthZA]
    cases db.strength.lookup (Pdg.nucleusPid (Pdg.getZ q) (Pdg.getA q)) <;> exact hp

theorem run_keeps (db : Db K) (ops : List (Op K)) {pid : Int} (h : ∀ op ∈ ops, ¬ Removes pid op)
    {p : Option (Nat × Scheme.Scheme K)} (hp : db.schemes.lookup pid = some p) :
    (run db ops).schemes.lookup pid = some p := by
  induction ops generalizing db with
  | nil => exact hp
  | cons o t ih =>
    exact ih (step db o) (fun op hop => h op (by simp [hop]))
      (step_keeps db o (h o (by simp)) hp)

end

theorem dropWhile_length {α : Type} (p : α → Bool) (l : List α) :
    (l.dropWhile p).length ≤ l.length := by
  induction l with
  | nil => simp
  | cons a t ih =>
    rw [List.dropWhile_cons]
    split_ifs
    · simp; omega
    · exact Nat.le_refl _

theorem takeWhile_dropWhile_length {α : Type} (p : α → Bool) (l : List α) (h : l.takeWhile p ≠ []) :
    (l.dropWhile p).length < l.length := by
  have := congrArg List.length (List.takeWhile_append_dropWhile (p := p) (l := l))
  rw [List.length_append] at this
  have : 0 < (l.takeWhile p).length := List.length_pos_of_ne_nil h
  omega

theorem splitSign2_length (s : Str) : (splitSign2 s).2.length ≤ s.length := by
  cases s with
  | nil => simp [splitSign2]
  | cons c t => simp only [splitSign2]; split_ifs <;> simp

theorem readInt_length {s t : Str} {n : Int} (h : readInt s = some (n, t)) :
    t.length < s.length := by
  simp only [readInt] at h
  split_ifs at h with h1 h2
  all_goals
    simp only [Option.some.injEq, Prod.mk.injEq] at h
    obtain ⟨-, rfl⟩ := h
    have a := takeWhile_dropWhile_length isDigit (splitSign2 (skipBlank s)).2 h1
    have b := splitSign2_length (skipBlank s)
    have c := dropWhile_length isSpace s
    simp only [skipBlank] at *
    omega

section
variable [Zero K] [LT K] [DecidableLT K]
open Marley.Scheme

/-- The stream after reading is not longer. -/
def NotLonger (a b : Option Str) : Prop := ∀ t, b = some t → ∃ s, a = some s ∧ t.length ≤ s.length

theorem NotLonger.refl (a : Option Str) : NotLonger a a := fun t h => ⟨t, h, Nat.le_refl _⟩
theorem NotLonger.trans {a b c : Option Str} (h1 : NotLonger a b) (h2 : NotLonger b c) :
    NotLonger a c := by
  intro t ht
  obtain ⟨s, hs, h3⟩ := h2 t ht
  obtain ⟨u, hu, h4⟩ := h1 s hs
  exact ⟨u, hu, by omega⟩

theorem exInt_notLonger (inp : Option Str) (old : Option Int) :
    NotLonger inp (exInt inp old).1 := by
  cases inp with
  | none => intro t h; cases h
  | some s =>
    simp only [exInt]
    cases hr : readInt s with
    | none => intro t h; cases h
    | some x =>
      obtain ⟨n, u⟩ := x
      intro t h; cases h
      exact ⟨s, rfl, Nat.le_of_lt (readInt_length hr)⟩

omit [LT K] [DecidableLT K] in
theorem exDbl_notLonger {f : DblFmt K} (hf : Shrinks f) (inp : Option Str) (old : Option K) :
    NotLonger inp (exDbl f inp old).1 := by
  cases inp with
  | none => intro t h; cases h
  | some s =>
    simp only [exDbl]
    cases hr : f.get s with
    | none => intro t h; cases h
    | some x =>
      obtain ⟨n, u⟩ := x
      intro t h; cases h
      have := hf _ _ _ hr
      have := dropWhile_length isSpace s
      exact ⟨s, rfl, by simp only [skipBlank] at *; omega⟩

theorem exParity_notLonger {inp o : Option Str} {old p : Parity}
    (h : exParity inp old = .ok (o, p)) : NotLonger inp o := by
  cases inp with
  | none => cases h; exact NotLonger.refl _
  | some s =>
    simp only [exParity, Parity.read] at h
    cases hd : s.dropWhile Parity.isSpace with
    | nil => rw [hd] at h; cases h; intro t h; cases h
    | cons c rest =>
      rw [hd] at h
      dsimp only at h
      cases hc : Parity.ofChar c with
      | error e => rw [hc] at h; cases h
      | ok q =>
        rw [hc] at h; cases h
        intro t ht; cases ht
        have := dropWhile_length Parity.isSpace s
        rw [hd] at this
        exact ⟨s, rfl, by simp at this; omega⟩

omit [LT K] [DecidableLT K] in
theorem readGammas_notLonger {f : DblFmt K} (hf : Shrinks f) (a n : Nat) (s s' : Scheme K)
    (v v' : ReadVars K) (h : readGammas f a n s v = .ok (s', v')) : NotLonger v.inp v'.inp := by
  induction n generalizing s v with
  | zero => cases h; exact NotLonger.refl _
  | succ n ih =>
    simp only [readGammas] at h
    split at h
    · split at h
      · cases h
      · have := ih _ _ h
        exact (((exDbl_notLonger hf v.inp v.energy).trans
          (exDbl_notLonger hf _ v.ri)).trans (exInt_notLonger _ v.idx)).trans this
    · cases h

theorem readLevels_notLonger {f : DblFmt K} (hf : Shrinks f) (n : Nat) (s s' : Scheme K)
    (v v' : ReadVars K) (h : readLevels f n s v = .ok (s', v')) : NotLonger v.inp v'.inp := by
  induction n generalizing s v with
  | zero => cases h; exact NotLonger.refl _
  | succ n ih =>
    simp only [readLevels] at h
    split at h
    · cases h
    · next inp pi hp =>
      split at h
      · split at h
        · cases h
        · next s1 v1 hg =>
          have h1 := readGammas_notLonger hf _ _ _ _ _ _ hg
          have h2 := ih _ _ h
          exact (((((exDbl_notLonger hf v.inp v.energy).trans (exInt_notLonger _ v.twoJ)).trans
            (exParity_notLonger hp)).trans (exInt_notLonger _ v.numGammas)).trans h1).trans h2
      · cases h

theorem read_length {f : DblFmt K} (hf : Shrinks f) {next : Nat} {s t : Str} {sch : Scheme K}
    (h : Scheme.read f next s = .ok (sch, some t)) : t.length < s.length := by
  simp only [Scheme.read] at h
  split at h
  · cases h
  · next Z s1 h1 =>
    split at h
    · cases h
    · next A s2 h2 =>
      split at h
      · cases h
      · next n s3 h3 =>
        split at h
        · cases h
        · next sch' v hl =>
          simp only [Except.ok.injEq, Prod.mk.injEq] at h
          obtain ⟨u, hu, h4⟩ := readLevels_notLonger hf _ _ _ _ _ hl t h.2
          cases hu
          have := readInt_length h1
          have := readInt_length h2
          have := readInt_length h3
          omega

theorem loadFile_total {env : Env K} (hf : Shrinks env.fmt) (pid : Int) (n : Nat) (db : Db K)
    (found : Bool) (s : Str) (h : s.length < n) : loadFile env pid n db found s ≠ none := by
  induction n generalizing db found s with
  | zero => omega
  | succ n ih =>
    simp only [loadFile]
    cases hr : Scheme.read env.fmt 0 s with
    | error e => simp
    | ok x =>
      obtain ⟨sch, o⟩ := x
      cases o with
      | none => simp
      | some t =>
        dsimp only
        cases Target.atom (Pdg.nucleusPid sch.Z sch.A) with
        | error e => simp
        | ok a =>
          have := read_length hf hr
          exact ih _ _ _ (by omega)

end

section
variable [Zero K] [LT K] [DecidableLT K]

/-- A model that is in one of the tables stays. -/
theorem step_models (db : Db K) (op : Op K) (k : Int) (a : Nat) :
    (db.optical.lookup k = some a → (step db op).optical.lookup k = some a) ∧
    (db.density.lookup k = some a → (step db op).density.lookup k = some a) ∧
    (db.strength.lookup k = some a → (step db op).strength.lookup k = some a) := by
  have get : ∀ (env : Env K) pid n (db db' : Db K) r, getScheme env pid n db = some (db', r) →
      db'.optical = db.optical ∧ db'.density = db.density ∧ db'.strength = db.strength := by
    have load : ∀ (env : Env K) pid n (db db' : Db K) b s r,
        loadFile env pid n db b s = some (db', r) →
        db'.optical = db.optical ∧ db'.density = db.density ∧ db'.strength = db.strength := by
      intro env pid n
      induction n with
      | zero => intro db db' b s r h; cases h
      | succ n ih =>
        intro db db' b s r h
        simp only [loadFile] at h
        split at h
        · cases h; exact ⟨rfl, rfl, rfl⟩
        · cases h; exact ⟨rfl, rfl, rfl⟩
        · split at h
          · cases h; exact ⟨rfl, rfl, rfl⟩
          · obtain ⟨a, b, c⟩ := ih _ _ _ _ _ h
            exact ⟨a, b, c⟩
    intro env pid n
    induction n with
    | zero => intro db db' r h; cases h
    | succ n ih =>
      intro db db' r h
      rw [getScheme] at h
      split at h
      · cases h; exact ⟨rfl, rfl, rfl⟩
      · split at h
        · cases h; exact ⟨rfl, rfl, rfl⟩
        · split at h
          · cases h; exact ⟨rfl, rfl, rfl⟩
          · next db1 hi =>
            have e1 : db1.optical = db.optical ∧ db1.density = db.density ∧
                db1.strength = db.strength := by
              split_ifs at hi
              · cases hi; exact ⟨rfl, rfl, rfl⟩
              · unfold loadIndex at hi
                split at hi
                · cases hi
                · cases hi; exact ⟨rfl, rfl, rfl⟩
            split at h
            · cases h; exact e1
            · next name hname =>
              have e2 : ∀ db2 r2, searchFile env pid name db1 = some (db2, r2) →
                  db2.optical = db.optical ∧ db2.density = db.density ∧ db2.strength = db.strength := by
                intro db2 r2 h2
                unfold searchFile at h2
                split at h2
                · cases h2; exact e1
                · obtain ⟨a, b, c⟩ := load _ _ _ _ _ _ _ _ h2
                  exact ⟨a.trans e1.1, b.trans e1.2.1, c.trans e1.2.2⟩
              split at h
              · cases h
              · next h2 => cases h; exact e2 _ _ h2
              · next h2 =>
                obtain ⟨a, b, c⟩ := ih _ _ _ h
                obtain ⟨a', b', c'⟩ := e2 _ _ h2
                exact ⟨a.trans a', b.trans b', c.trans c'⟩
              · next h2 =>
                obtain ⟨a', b', c'⟩ := e2 _ _ h2
                split at h
                · cases h; exact ⟨a', b', c'⟩
                · obtain ⟨a, b, c⟩ := ih _ _ _ h
                  exact ⟨a.trans a', b.trans b', c.trans c'⟩
  cases op with
  | get env q =>
    simp only [step]
    cases hg : getScheme env q 2 db with
    | none => exact ⟨id, id, id⟩
    | some r =>
      obtain ⟨h1, h2, h3⟩ := get env q 2 db r.1 r.2 hg
      dsimp only
      rw [h1, h2, h3]; exact ⟨id, id, id⟩
  | add q s => exact ⟨id, id, id⟩
  | emplace q s => cases s <;> exact ⟨id, id, id⟩
  | remove q => exact ⟨id, id, id⟩
  | clear => exact ⟨id, id, id⟩
  | optical q =>
    simp only [step, getOptical]
    cases db.optical.lookup q with
    | some x => exact ⟨id, id, id⟩
    | none => exact ⟨fun h => by dsimp only; rw [lookup_emplace, h], id, id⟩
  | density q =>
    simp only [step, getDensity]
    cases db.density.lookup q with
    | some x => exact ⟨id, id, id⟩
    | none => exact ⟨id, fun h => by dsimp only; rw [lookup_emplace, h], id⟩
  | strength q =>
    simp only [step, getStrength, getStrengthZA]
    cases db.strength.lookup (Pdg.nucleusPid (Pdg.getZ q) (Pdg.getA q)) with
    | some x => exact ⟨id, id, id⟩
    | none => exact ⟨id, id, fun h => by dsimp only; rw [lookup_emplace, h]⟩

theorem run_models (db : Db K) (ops : List (Op K)) (k : Int) (a : Nat) :
    (db.optical.lookup k = some a → (run db ops).optical.lookup k = some a) ∧
    (db.density.lookup k = some a → (run db ops).density.lookup k = some a) ∧
    (db.strength.lookup k = some a → (run db ops).strength.lookup k = some a) := by
  induction ops generalizing db with
  | nil => exact ⟨id, id, id⟩
  | cons o t ih =>
    obtain ⟨h1, h2, h3⟩ := step_models db o k a
    obtain ⟨g1, g2, g3⟩ := ih (step db o)
    exact ⟨fun h => g1 (h1 h), fun h => g2 (h2 h), fun h => g3 (h3 h)⟩

/-- A table of objects: numbers below `n`, no object twice. -/
def FreshTable (T : Int → Option Nat) (n : Nat) : Prop :=
  (∀ k a, T k = some a → a < n) ∧ ∀ k k' a, T k = some a → T k' = some a → k = k'

theorem FreshTable.sub {T T' : Int → Option Nat} {n : Nat} (h : FreshTable T n)
    (hs : ∀ k a, T' k = some a → T k = some a) : FreshTable T' n :=
  ⟨fun k a e => h.1 k a (hs k a e), fun k k' a e e' => h.2 k k' a (hs k a e) (hs k' a e')⟩

theorem FreshTable.add {T T' : Int → Option Nat} {n : Nat} (h : FreshTable T n) (j : Int)
    (hs : ∀ k a, T' k = some a → T k = some a ∨ (k = j ∧ a = n)) : FreshTable T' (n + 1) := by
  refine ⟨?_, ?_⟩
  · intro k a e
    rcases hs k a e with e1 | ⟨-, rfl⟩
    · exact Nat.lt_succ_of_lt (h.1 k a e1)
    · exact Nat.lt_succ_self _
  · intro k k' a e e'
    rcases hs k a e with e1 | ⟨rfl, rfl⟩ <;> rcases hs k' a e' with e2 | ⟨rfl, e2⟩
    · exact h.2 k k' a e1 e2
    · subst e2; exact absurd (h.1 k _ e1) (Nat.lt_irrefl _)
    · exact absurd (h.1 k' _ e2) (Nat.lt_irrefl _)
    · rfl

/-- The object stored for a nuclide. -/
def objectOf (db : Db K) (k : Int) : Option Nat := (db.schemes.lookup k).bind (·.map (·.1))

/-- All four tables. -/
structure Fresh (db : Db K) : Prop where
  schemes : FreshTable (objectOf db) db.next
  optical : FreshTable (fun k => db.optical.lookup k) db.next
  density : FreshTable (fun k => db.density.lookup k) db.next
  strength : FreshTable (fun k => db.strength.lookup k) db.next

theorem Fresh.shrink {db db' : Db K} (h : Fresh db)
    (hs : ∀ k p, db'.schemes.lookup k = some (some p) → db.schemes.lookup k = some (some p))
    (ho : db'.optical = db.optical) (hd : db'.density = db.density)
    (hg : db'.strength = db.strength) (hn : db'.next = db.next) : Fresh db' := by
  refine ⟨?_, by rw [ho, hn]; exact h.optical, by rw [hd, hn]; exact h.density,
    by rw [hg, hn]; exact h.strength⟩
  rw [hn]
  refine h.schemes.sub ?_
  intro k a e
  simp only [objectOf] at e ⊢
  cases hk : db'.schemes.lookup k with
  | none => rw [hk] at e; cases e
  | some o =>
    cases o with
    | none => rw [hk] at e; cases e
    | some p => rw [hk] at e; rw [hs k p hk]; exact e

theorem emplace_cases {α : Type} (m : List (Int × α)) (k j : Int) (v x : α)
    (h : (Structure.emplace m j v).lookup k = some x) : m.lookup k = some x ∨ (k = j ∧ x = v) := by
  rw [lookup_emplace] at h
  cases hk : m.lookup k with
  | some y => rw [hk] at h; exact Or.inl h
  | none =>
    rw [hk] at h
    dsimp only at h
    split_ifs at h with e
    cases h; exact Or.inr ⟨e, rfl⟩

theorem FreshTable.emplace {m : List (Int × Nat)} {n : Nat}
    (h : FreshTable (fun k => m.lookup k) n) (j : Int) :
    FreshTable (fun k => (Structure.emplace m j n).lookup k) (n + 1) :=
  h.add j (fun k a e => emplace_cases m k j n a e)

theorem FreshTable.mono {T : Int → Option Nat} {n : Nat} (h : FreshTable T n) :
    FreshTable T (n + 1) := ⟨fun k a e => Nat.lt_succ_of_lt (h.1 k a e), h.2⟩

theorem addScheme_fresh {db : Db K} (h : Fresh db) (pid : Int) (s : Scheme.Scheme K) :
    Fresh (addScheme db pid s) := by
  refine ⟨?_, h.optical.mono, h.density.mono, h.strength.mono⟩
  refine h.schemes.add pid ?_
  intro k a e
  simp only [objectOf] at e ⊢
  cases hk : (addScheme db pid s).schemes.lookup k with
  | none => rw [hk] at e; cases e
  | some o =>
    rcases emplace_cases _ _ _ _ _ hk with h1 | ⟨h1, h2⟩
    · rw [hk] at e; rw [h1]; exact Or.inl e
    · rw [hk, h2] at e; cases e; exact Or.inr ⟨h1, rfl⟩

theorem loadFile_fresh (env : Env K) (pid : Int) (n : Nat) (db db' : Db K) (b : Bool) (s : Str)
    (r : Res Bool) (hf : Fresh db) (h : loadFile env pid n db b s = some (db', r)) : Fresh db' := by
  induction n generalizing db b s with
  | zero => cases h
  | succ n ih =>
    simp only [loadFile] at h
    split at h
    · cases h; exact hf
    · cases h; exact hf
    · split at h
      · cases h; exact addScheme_fresh hf _ _
      · exact ih _ _ _ (addScheme_fresh hf _ _) h

theorem getScheme_fresh (env : Env K) (pid : Int) (n : Nat) (db db' : Db K)
    (r : Res (Option Nat)) (hf : Fresh db) (h : getScheme env pid n db = some (db', r)) :
    Fresh db' := by
  induction n generalizing db with
  | zero => cases h
  | succ n ih =>
    rw [getScheme] at h
    split at h
    · cases h; exact hf
    · split at h
      · cases h; exact hf
      · split at h
        · cases h; exact hf
        · next db1 hi =>
          have f1 : Fresh db1 := by
            split_ifs at hi
            · cases hi; exact hf
            · unfold loadIndex at hi
              split at hi
              · cases hi
              · cases hi; exact hf.shrink (fun _ _ h => h) rfl rfl rfl rfl
          split at h
          · cases h; exact f1
          · next name hname =>
            have f2 : ∀ db2 r2, searchFile env pid name db1 = some (db2, r2) → Fresh db2 := by
              intro db2 r2 h2
              unfold searchFile at h2
              split at h2
              · cases h2; exact f1
              · exact loadFile_fresh _ _ _ _ _ _ _ _ f1 h2
            split at h
            · cases h
            · next h2 => cases h; exact f2 _ _ h2
            · next h2 => exact ih _ (f2 _ _ h2) h
            · next h2 =>
              split at h
              · cases h; exact f2 _ _ h2
              · refine ih _ ?_ h
                refine (f2 _ _ h2).shrink ?_ rfl rfl rfl rfl
                intro k p e
                dsimp only at e
                rw [lookup_assign] at e
                split_ifs at e with hk
                · cases e
                · exact e

theorem step_fresh {db : Db K} (h : Fresh db) (op : Op K) : Fresh (step db op) := by
  have er : ∀ q, Fresh { db with schemes := erase db.schemes q } := by
    intro q
    refine h.shrink ?_ rfl rfl rfl rfl
    intro k p e
    dsimp only at e
    by_cases hk : k = q
    · subst hk; rw [lookup_erase_self] at e; cases e
    · rw [lookup_erase_ne _ hk] at e; exact e
  cases op with
  | get env q =>
    simp only [step]
    cases hg : getScheme env q 2 db with
    | none => exact h
    | some r => exact getScheme_fresh env q 2 db r.1 r.2 h hg
  | add q s => exact addScheme_fresh h q s
  | emplace q s =>
    cases s with
    | error e => exact er q
    | ok s => exact addScheme_fresh (er q) q s
  | remove q => exact er q
  | clear => exact h.shrink (by intro k p e; simp [step, clear] at e) rfl rfl rfl rfl
  | optical q =>
    simp only [step, getOptical]
    cases db.optical.lookup q with
    | some x => exact h
    | none => exact ⟨h.schemes.mono, h.optical.emplace q, h.density.mono, h.strength.mono⟩
  | density q =>
    simp only [step, getDensity]
    cases db.density.lookup q with
    | some x => exact h
    | none => exact ⟨h.schemes.mono, h.optical.mono, h.density.emplace q, h.strength.mono⟩
  | strength q =>
    simp only [step, getStrength, getStrengthZA]
    cases db.strength.lookup (Pdg.nucleusPid (Pdg.getZ q) (Pdg.getA q)) with
    | some x => exact h
    | none => exact ⟨h.schemes.mono, h.optical.mono, h.density.mono, h.strength.emplace _⟩

theorem run_fresh (ops : List (Op K)) : Fresh (run (init : Db K) ops) := by
  have : ∀ (db : Db K), Fresh db → Fresh (run db ops) := by
    induction ops with
    | nil => intro db h; exact h
    | cons o t ih => intro db h; exact ih _ (step_fresh h o)
  refine this init ⟨?_, ?_, ?_, ?_⟩ <;>
    exact ⟨by intro k a e; simp [objectOf, init] at e, by intro k k' a e; simp [objectOf, init] at e⟩

omit [Zero K] [LT K] [DecidableLT K] in
theorem getOptical_snd (db : Db K) (q : Int) :
    (getOptical db q).2 = match db.optical.lookup q with | some x => x | none => db.next := by
  rw [getOptical]; cases db.optical.lookup q <;> rfl

omit [Zero K] [LT K] [DecidableLT K] in
theorem getDensity_snd (db : Db K) (q : Int) :
    (getDensity db q).2 = match db.density.lookup q with | some x => x | none => db.next := by
  rw [getDensity]; cases db.density.lookup q <;> rfl

omit [Zero K] [LT K] [DecidableLT K] in
theorem getStrength_snd (db : Db K) (q : Int) :
    (getStrength db q).2 = match db.strength.lookup (Pdg.nucleusPid (Pdg.getZ q) (Pdg.getA q)) with
      | some x => x | none => db.next := by
  simp only [getStrength, getStrengthZA]
  cases db.strength.lookup (Pdg.nucleusPid (Pdg.getZ q) (Pdg.getA q)) <;> rfl

/-- Digits read as a number. -/
def digitFmt : DblFmt ℚ where
  print _ := []
  read s := if s.takeWhile isDigit = [] then none
    else some (Json.digitsVal (s.takeWhile isDigit), s.dropWhile isDigit)

/-- An index with two nuclides in one data file, and one whose file is missing. -/
def argonEnv : Env ℚ :=
  ⟨some "1000180400 ar.dat\n1000190400 ar.dat\n1000200400 ca.dat\n".toList,
   fun name => if name = "ar.dat".toList then
     some "18 40 2\n0 0 + 0\n1460 4 + 1\n1460 1 0\n19 40 1\n0 8 - 0\n".toList else none,
   none, digitFmt, true⟩

end

theorem isSpace_eq (c : Char) : Parity.isSpace c = isSpace c := by
  rw [Bool.eq_iff_iff]
  simp only [Parity.isSpace, isSpace, Bool.or_eq_true, decide_eq_true_eq]
  tauto

theorem readInt_blank {ws : Str} (h : ∀ c ∈ ws, isSpace c = true) (u : Str) :
    readInt (ws ++ u) = readInt u := by simp only [readInt, skipBlank_append h]

theorem isDigit_of_space {c : Char} (h : isSpace c = true) : isDigit c = false := by
  simp only [isSpace, Bool.or_eq_true, decide_eq_true_eq] at h
  rcases h with ((((rfl | rfl) | rfl) | rfl) | rfl) | rfl <;> decide

theorem readParity_blank {ws : Str} (h : ∀ c ∈ ws, isSpace c = true) (c : Char)
    (hc : isSpace c = false) (u : Str) :
    Parity.read (ws ++ c :: u) = match Parity.ofChar c with
      | .ok p => .ok (some p, u)
      | .error e => .error e := by
  have : (ws ++ c :: u).dropWhile Parity.isSpace = c :: u := by
    have := skipBlank_append h (c :: u)
    rw [skipBlank_cons hc] at this
    exact (congrArg (fun p => (ws ++ c :: u).dropWhile p) (funext isSpace_eq)).trans this
  simp only [Parity.read, this]
  cases Parity.ofChar c <;> rfl

/-- Text starting with the code, the spin, and a character for the parity. -/
theorem readJpi_line (l : JpiLine) (hv : l.Valid) (ws : Str) (hw : ∀ c ∈ ws, isSpace c = true)
    (ch : Char) (hch : isDigit ch = false) (hsp : isSpace ch = false)
    (rest : Str) (n : Nat) (m : List (Int × (Int × Parity))) :
    readJpi (n + 1) m (ws ++ (Json.intText l.pdg ++ l.gap1 ++ Json.intText l.twoJ ++ l.gap2 ++
      ch :: rest)) =
      match Parity.ofChar ch with
      | .ok p => readJpi n (assign m l.pdg (l.twoJ, p)) rest
      | .error e => (m, .error e) := by
  obtain ⟨g, gs, hg⟩ : ∃ g gs, l.gap1 = g :: gs := by
    cases h : l.gap1 with
    | nil => exact absurd h hv.gap1
    | cons g gs => exact ⟨g, gs, rfl⟩
  have e1 : readInt (ws ++ (Json.intText l.pdg ++ l.gap1 ++ Json.intText l.twoJ ++ l.gap2 ++
      ch :: rest)) = some (l.pdg, l.gap1 ++ (Json.intText l.twoJ ++ (l.gap2 ++ ch :: rest))) := by
    rw [readInt_blank hw, hg]
    simp only [List.append_assoc, List.cons_append]
    exact readInt_intText hv.pdg (isDigit_of_space (hv.blank1 g (by rw [hg]; simp))) _
  have e2 : readInt (l.gap1 ++ (Json.intText l.twoJ ++ (l.gap2 ++ ch :: rest))) =
      some (l.twoJ, l.gap2 ++ ch :: rest) := by
    rw [readInt_blank hv.blank1]
    cases h2 : l.gap2 with
    | nil => exact readInt_intText hv.twoJ hch _
    | cons c t =>
      exact readInt_intText hv.twoJ (isDigit_of_space (hv.blank2 c (by rw [h2]; simp))) _
  simp only [readJpi, e1, e2, readParity_blank hv.blank2 ch hsp]
  cases Parity.ofChar ch <;> rfl

theorem ofChar_toChar (p : Parity) : Parity.ofChar p.toChar = .ok p := by
  obtain ⟨b⟩ := p; cases b <;> rfl

theorem toChar_props (p : Parity) : isDigit p.toChar = false ∧ isSpace p.toChar = false := by
  obtain ⟨b⟩ := p; cases b <;> decide

/-- The table after reading the lines. -/
def fillTable (m : List (Int × (Int × Parity))) (lines : List JpiLine) :
    List (Int × (Int × Parity)) :=
  lines.foldl (fun m l => assign m l.pdg (l.twoJ, l.parity)) m

theorem readJpi_lines (lines : List JpiLine) (hv : ∀ l ∈ lines, l.Valid) (ws : Str)
    (hw : ∀ c ∈ ws, isSpace c = true) (rest : Str) (n : Nat) (m : List (Int × (Int × Parity))) :
    ∃ ws', (∀ c ∈ ws', isSpace c = true) ∧
    readJpi (lines.length + n) m (ws ++ (tableText lines ++ rest)) =
      readJpi n (fillTable m lines) (ws' ++ rest) := by
  induction lines generalizing ws m with
  | nil => exact ⟨ws, hw, by simp [tableText, fillTable]⟩
  | cons l t ih =>
    have hl := hv l (by simp)
    obtain ⟨ws', hw', h⟩ := ih (fun x hx => hv x (by simp [hx])) l.gap3 hl.blank3
      (assign m l.pdg (l.twoJ, l.parity))
    refine ⟨ws', hw', ?_⟩
    have := readJpi_line l hl ws hw l.parity.toChar (toChar_props _).1 (toChar_props _).2
      (l.gap3 ++ (tableText t ++ rest)) (t.length + n) m
    rw [ofChar_toChar] at this
    dsimp only at this
    rw [h] at this
    rw [show (l :: t).length + n = t.length + n + 1 by simp; omega]
    have e : tableText (l :: t) ++ rest = Json.intText l.pdg ++ l.gap1 ++ Json.intText l.twoJ ++
        l.gap2 ++ l.parity.toChar :: (l.gap3 ++ (tableText t ++ rest)) := by
      simp [tableText, JpiLine.text]
    rw [e, this]
    rfl

theorem lines_length (lines : List JpiLine) (rest : Str) :
    lines.length ≤ (tableText lines ++ rest).length := by
  induction lines with
  | nil => simp
  | cons l t ih =>
    have : tableText (l :: t) ++ rest = l.text ++ (tableText t ++ rest) := by simp [tableText]
    rw [this, List.length_append, List.length_cons]
    have : 1 ≤ l.text.length := by simp [JpiLine.text]; omega
    omega

theorem readInt_only_blank {ws : Str} (h : ∀ c ∈ ws, isSpace c = true) : readInt ws = none := by
  have := readInt_blank h []
  rw [List.append_nil] at this
  rw [this]; rfl

theorem readJpi_table (lines : List JpiLine) (hv : ∀ l ∈ lines, l.Valid)
    (m : List (Int × (Int × Parity))) :
    readJpi ((tableText lines).length + 1) m (tableText lines) = (fillTable m lines, .ok ()) := by
  have hl := lines_length lines []
  rw [List.append_nil] at hl
  obtain ⟨ws', hw', h⟩ := readJpi_lines lines hv [] (by simp) []
    ((tableText lines).length + 1 - lines.length) m
  rw [List.append_nil, List.nil_append, List.append_nil] at h
  rw [show lines.length + ((tableText lines).length + 1 - lines.length) =
    (tableText lines).length + 1 by omega] at h
  rw [h, show (tableText lines).length + 1 - lines.length =
    ((tableText lines).length - lines.length) + 1 by omega, readJpi, readInt_only_blank hw']

theorem lookup_fillTable (m : List (Int × (Int × Parity))) (lines : List JpiLine) (k : Int) :
    (fillTable m lines).lookup k = (lastLine lines k).or (m.lookup k) := by
  induction lines generalizing m with
  | nil => simp [fillTable, lastLine]
  | cons l t ih =>
    have := ih (assign m l.pdg (l.twoJ, l.parity))
    rw [lookup_assign] at this
    rw [fillTable, List.foldl_cons]
    rw [fillTable] at this
    rw [this]
    simp only [lastLine, List.reverse_cons, List.find?_append]
    cases List.find? (fun l => decide (l.pdg = k)) t.reverse with
    | some x => simp
    | none =>
      by_cases h : l.pdg = k
      · subst h; simp
      · have h' : k ≠ l.pdg := fun e => h e.symm
        simp [List.find?, h, h']

theorem fillFragments_spec (st : Static) (fs : List Int)
    (h : ∀ f ∈ fs, ∃ x, st.jpi.lookup f = some x) :
    (fillFragments st fs).2 = .ok () ∧ (fillFragments st fs).1.jpi = st.jpi ∧
      (fillFragments st fs).1.loaded = st.loaded ∧
      ∀ k, (fillFragments st fs).1.frags.lookup k = (st.frags.lookup k).or
        (if k ∈ fs then (st.jpi.lookup k).map (fun x => ⟨k, x.1, x.2⟩) else none) := by
  induction fs generalizing st with
  | nil => exact ⟨rfl, rfl, rfl, by intro k; simp [fillFragments]⟩
  | cons f t ih =>
    obtain ⟨⟨tj, p⟩, hx⟩ := h f (by simp)
    simp only [fillFragments, hx]
    obtain ⟨h1, h2, h3, h4⟩ := ih { st with frags := Structure.emplace st.frags f ⟨f, tj, p⟩ }
      (fun g hg => h g (by simp [hg]))
    refine ⟨h1, h2, h3, ?_⟩
    intro k
    rw [h4 k]
    dsimp only
    rw [lookup_emplace]
    cases hk : st.frags.lookup k with
    | some x => simp
    | none =>
      by_cases he : k = f
      · subst he; simp [hx]
      · simp [he]

/-- Six lines, one for each light particle, as in the data file. -/
def sixLines : List JpiLine :=
  [⟨2112, 1, ⟨true⟩, [' '], [' '], ['\n']⟩, ⟨2212, 1, ⟨true⟩, [' '], [' '], ['\n']⟩,
   ⟨1000010020, 2, ⟨true⟩, [' '], [' '], ['\n']⟩, ⟨1000010030, 1, ⟨true⟩, [' '], [], ['\n']⟩,
   ⟨1000020030, 1, ⟨true⟩, ['\t'], [' '], ['\n']⟩, ⟨1000020040, 0, ⟨true⟩, [' '], [' '], ['\n']⟩]

theorem sixLines_valid : ∀ l ∈ sixLines, l.Valid := by
  intro l hl
  fin_cases hl <;> exact ⟨by decide, by decide, by decide, by decide, by decide, by decide⟩

end Marley.Props
