import Verif.Lemmas.Event
import Mathlib.Algebra.Field.Basic
import Mathlib.Algebra.CharZero.Defs
import Mathlib.Data.List.Perm.Basic
import Mathlib.Algebra.BigOperators.Group.List.Basic
import Mathlib.Tactic.FieldSimp
import Mathlib.Tactic.Ring
import Mathlib.Tactic.Linarith

/-! Helper lemmas about the HEPEVT format. -/

set_option autoImplicit false

namespace Marley.Event
open Json (Str isDigit natText intText isSpace)

variable {K : Type} {f : DblFmt K}

theorem get_zero [Zero K] (hz : f.LawfulZero) {c : Char} (hc : isSpace c = true) (t : Str) :
    f.get ('0' :: '.' :: c :: t) = some (0, c :: t) := by
  have h := hz c t hc
  rw [DblFmt.get, skipBlank_cons (by decide)]
  exact h

/-- The integer fields of a line fit in an `int` and the unused fields are zero. -/
def HepRec.Fits [Zero K] (r : HepRec K) : Prop :=
  (intMin ≤ r.status ∧ r.status ≤ intMax) ∧ (intMin ≤ r.pdg ∧ r.pdg ≤ intMax) ∧
  (intMin ≤ r.jmo1 ∧ r.jmo1 ≤ intMax) ∧ (intMin ≤ r.jmo2 ∧ r.jmo2 ≤ intMax) ∧
  r.jda1 = 0 ∧ r.jda2 = 0 ∧ r.v1 = 0 ∧ r.v2 = 0 ∧ r.v3 = 0 ∧ r.v4 = 0

theorem readRec_space {c : Char} (hc : isSpace c = true) (t : Str) :
    readRec f (c :: t) = readRec f t := by
  simp only [readRec, readInt_space hc]

theorem readInt_zero (t : Str) : readInt ('0' :: ' ' :: t) = some (0, ' ' :: t) := by
  have := readInt_natText (n := 0) (by decide) spd t
  simpa [natText] using this

theorem some_bind' {α β : Type} (a : α) (g : α → Option β) : (some a >>= g) = g a := rfl

theorem readRec_print [Zero K] (hf : f.Lawful) (hz : f.LawfulZero) {r : HepRec K} (hr : r.Fits)
    (t : Str) : readRec f (printRec f r ++ t) = some (r, '\n' :: t) := by
  obtain ⟨h1, h2, h3, h4, h5, h6, h7, h8, h9, h10⟩ := hr
  have e1 : " 0 0 ".toList = [' ', '0', ' ', '0', ' '] := by decide
  have e2 : " 0. 0. 0. 0.\n".toList =
    [' ', '0', '.', ' ', '0', '.', ' ', '0', '.', ' ', '0', '.', '\n'] := by decide
  simp only [readRec, printRec, List.append_assoc, List.cons_append, e1, e2, List.nil_append]
  rw [readInt_intText h1 spd, some_bind']
  dsimp only
  rw [readInt_space sp, readInt_intText h2 spd, some_bind']
  dsimp only
  rw [readInt_space sp, readInt_intText h3 spd, some_bind']
  dsimp only
  rw [readInt_space sp, readInt_intText h4 spd, some_bind']
  dsimp only
  rw [readInt_space sp, readInt_zero, some_bind']
  dsimp only
  rw [readInt_space sp, readInt_zero, some_bind']
  dsimp only
  rw [get_space f sp, get_print hf _ sp, some_bind']
  dsimp only
  rw [get_space f sp, get_print hf _ sp, some_bind']
  dsimp only
  rw [get_space f sp, get_print hf _ sp, some_bind']
  dsimp only
  rw [get_space f sp, get_print hf _ sp, some_bind']
  dsimp only
  rw [get_space f sp, get_print hf _ sp, some_bind']
  dsimp only
  rw [get_space f sp, get_zero hz sp, some_bind']
  dsimp only
  rw [get_space f sp, get_zero hz sp, some_bind']
  dsimp only
  rw [get_space f sp, get_zero hz sp, some_bind']
  dsimp only
  rw [get_space f sp, get_zero hz nl, some_bind']
  dsimp only
  cases r
  simp only at *
  subst h5 h6 h7 h8 h9 h10
  simp

/-- Iterated `readRec` (used to talk about the lines of a record). -/
def readRecs (f : DblFmt K) : Nat → Str → Option (List (HepRec K) × Str)
  | 0, s => some ([], s)
  | n + 1, s =>
    match readRec f s with
    | none => none
    | some (r, s) =>
      match readRecs f n s with
      | none => none
      | some (rs, s) => some (r :: rs, s)

/-- The loop body applied to a list of lines. -/
def hepFold [Ring K] (st : HepState K) : List (HepRec K) → Res (HepState K)
  | [] => .ok st
  | r :: rs =>
    match hepStep st r with
    | .error e => .error e
    | .ok st => hepFold st rs

theorem hepLoop_ok [Ring K] (n : Nat) (st st' : HepState K) (s t : Str)
    (h : hepLoop f n st s = .ok (st', t)) :
    ∃ rs, readRecs f n s = some (rs, t) ∧ hepFold st rs = .ok st' := by
  induction n generalizing st s with
  | zero =>
    simp only [hepLoop, Except.ok.injEq, Prod.mk.injEq] at h
    exact ⟨[], by simp [readRecs, h.2], by simp [hepFold, h.1]⟩
  | succ n ih =>
    rw [hepLoop] at h
    split at h
    · cases h
    · next r s' e =>
      split at h
      · cases h
      · next st1 e1 =>
        obtain ⟨rs, h1, h2⟩ := ih _ _ h
        exact ⟨r :: rs, by simp [readRecs, e, h1], by simp [hepFold, e1, h2]⟩

theorem hepLoop_of [Ring K] (n : Nat) (st : HepState K) (s t : Str) (rs : List (HepRec K))
    (h : readRecs f n s = some (rs, t)) :
    hepLoop f n st s = (match hepFold st rs with
      | .error e => .error e
      | .ok st' => .ok (st', t)) := by
  induction n generalizing st s rs with
  | zero =>
    simp only [readRecs, Option.some.injEq, Prod.mk.injEq] at h
    obtain ⟨rfl, rfl⟩ := h
    simp [hepLoop, hepFold]
  | succ n ih =>
    rw [readRecs] at h
    split at h
    · cases h
    · next r s' e =>
      split at h
      · cases h
      · next rs' s'' e1 =>
        cases h
        simp only [hepLoop, e, hepFold]
        cases hepStep st r with
        | error x => simp
        | ok st1 => simp only; exact ih _ _ _ e1

theorem readRecs_print [Zero K] (hf : f.Lawful) (hz : f.LawfulZero) (rs : List (HepRec K))
    (hrs : ∀ r ∈ rs, r.Fits) (hne : rs ≠ []) (t : Str) :
    readRecs f rs.length (rs.flatMap (printRec f) ++ t) = some (rs, '\n' :: t) := by
  induction rs with
  | nil => exact absurd rfl hne
  | cons r rs ih =>
    simp only [List.flatMap_cons, List.length_cons, readRecs, List.append_assoc]
    rw [readRec_print hf hz (hrs r (by simp))]
    dsimp only
    by_cases h0 : rs = []
    · subst h0; simp [readRecs]
    · have h1 := ih (fun q hq => hrs q (by simp [hq])) h0
      obtain ⟨m, hm⟩ : ∃ m, rs.length = m + 1 := ⟨rs.length - 1, by
        have := List.length_pos_iff.2 h0; omega⟩
      rw [hm] at h1 ⊢
      rw [readRecs] at h1 ⊢
      rw [readRec_space nl]
      rw [h1]

/-! ### The state after the loop -/

/-- The particle stored for a line, with charge `q`. -/
def recParticle [Ring K] (r : HepRec K) (q : Int) : Particle K :=
  ⟨r.pdg, r.E * 1000, r.px * 1000, r.py * 1000, r.pz * 1000, r.M * 1000, q⟩

/-- `p` is the particle stored for the line `r`. -/
def Stored [Ring K] (r : HepRec K) (p : Particle K) : Prop :=
  ∃ q, Pdg.charge r.pdg = .ok q ∧ p = recParticle r q

/-- Invariant of the loop after the lines `rs`. -/
structure Inv [Ring K] (rs : List (HepRec K)) (st : HepState K) : Prop where
  ini : List.Forall₂ Stored (rs.filter (fun r => r.status = INITIAL_CODE)) st.ev.initial
  fin : List.Forall₂ Stored (rs.filter (fun r => r.status = FINAL_CODE)) st.ev.final
  nIni : st.nInitial = st.ev.initial.length
  nIons : st.nInitialIons = st.ev.initial.countP (fun p => Pdg.isIon p.pdg)
  nLep : st.nFinalLeptons = st.ev.final.countP (fun p => Pdg.isLepton p.pdg)
  nFinIons : st.nFinalIons = st.ev.final.countP (fun p => Pdg.isIon p.pdg)
  lep : st.nFinalLeptons ≠ 0 → ∃ p, st.ev.final[st.leptonIdx]? = some p ∧ Pdg.isLepton p.pdg = true
  aNonneg : 0 ≤ st.largestA
  aMax : ∀ p ∈ st.ev.final, Pdg.isIon p.pdg = true → Pdg.getA p.pdg ≤ st.largestA
  aPos : 0 < st.largestA → ∃ p, st.ev.final[st.ionIdx]? = some p ∧ Pdg.isIon p.pdg = true ∧
    Pdg.getA p.pdg = st.largestA
  aFirst : 0 < st.largestA → ∀ i < st.ionIdx, ∀ p, st.ev.final[i]? = some p →
    Pdg.isIon p.pdg = true → Pdg.getA p.pdg < st.largestA
  aZero : st.largestA = 0 → st.ionIdx = 0

theorem inv_init [Ring K] : Inv (K := K) [] hepInit := by
  constructor <;> simp [hepInit, cleared]

theorem isIon_not_lepton {p : Int} (h : Pdg.isIon p = true) : Pdg.isLepton p = false := by
  simp only [Pdg.isIon, Bool.and_eq_true, decide_eq_true_eq] at h
  simp only [Pdg.isLepton, Bool.and_eq_false_iff, decide_eq_false_iff_not]
  omega

theorem getElem?_append_old {α} {l : List α} {i : Nat} {a : α} (h : l[i]? = some a) (b : α) :
    (l ++ [b])[i]? = some a := by
  have : i < l.length := by
    rcases Nat.lt_or_ge i l.length with h' | h'
    · exact h'
    · rw [List.getElem?_eq_none h'] at h; cases h
  rw [List.getElem?_append_left this, h]

theorem getElem?_append_cases {α} {l : List α} {i : Nat} {a b : α}
    (h : (l ++ [b])[i]? = some a) : l[i]? = some a ∨ (i = l.length ∧ a = b) := by
  rcases Nat.lt_trichotomy i l.length with h' | h' | h'
  · rw [List.getElem?_append_left h'] at h; exact Or.inl h
  · subst h'; simp at h; exact Or.inr ⟨rfl, h.symm⟩
  · rw [List.getElem?_eq_none (by simp; omega)] at h; cases h

theorem mk6_ok {pdg : Int} {E px py pz m : K} {p : Particle K}
    (h : Particle.mk6 pdg E px py pz m = .ok p) :
    ∃ q, Pdg.charge pdg = .ok q ∧ p = ⟨pdg, E, px, py, pz, m, q⟩ := by
  rw [Particle.mk6] at h
  split at h
  · next q e => cases h; exact ⟨q, e, rfl⟩
  · cases h

theorem inv_step [Ring K] {rs : List (HepRec K)} {st st' : HepState K} {r : HepRec K}
    (hi : Inv rs st) (h : hepStep st r = .ok st') : Inv (rs ++ [r]) st' := by
  rw [hepStep] at h
  by_cases c1 : r.status = INFO_CODE
  · rw [if_pos c1, hepInfo] at h
    have n1 : ¬ r.status = INITIAL_CODE := by rw [c1]; decide
    have n2 : ¬ r.status = FINAL_CODE := by rw [c1]; decide
    split at h
    · cases h
    · cases h
      obtain ⟨a, b, c, d, e, f, g, i, j, k, l, m⟩ := hi
      exact ⟨by simpa [List.filter_append, n1] using a, by simpa [List.filter_append, n2] using b,
        c, d, e, f, g, i, j, k, l, m⟩
  rw [if_neg c1] at h
  by_cases c2 : r.status = INITIAL_CODE
  · rw [if_pos c2, hepInitial] at h
    have n2 : ¬ r.status = FINAL_CODE := by rw [c2]; decide
    split at h
    · cases h
    · next p hp =>
      cases h
      obtain ⟨q, hq, rfl⟩ := mk6_ok hp
      obtain ⟨a, b, c, d, e, f, g, i, j, k, l, m⟩ := hi
      refine ⟨?_, by simpa [List.filter_append, n2] using b, ?_, ?_, e, f, g, i, j, k, l, m⟩
      · simp only [List.filter_append]
        refine List.rel_append a ?_
        simp [c2]
        exact ⟨q, hq, rfl⟩
      · simp [c]
      · simp only [List.countP_append, List.countP_singleton, d]
        split <;> simp
  rw [if_neg c2] at h
  by_cases c3 : r.status = FINAL_CODE
  · rw [if_pos c3, hepFinal] at h
    split at h
    · cases h
    · next p hp =>
      obtain ⟨q, hq, rfl⟩ := mk6_ok hp
      obtain ⟨a, b, c, d, e, f, g, i, j, k, l, m⟩ := hi
      have hfin : List.Forall₂ Stored ((rs ++ [r]).filter (fun r => r.status = FINAL_CODE))
          (st.ev.final ++ [⟨r.pdg, r.E * 1000, r.px * 1000, r.py * 1000, r.pz * 1000,
            r.M * 1000, q⟩]) := by
        simp only [List.filter_append]
        refine List.rel_append b ?_
        simp [c3]
        exact ⟨q, hq, rfl⟩
      have hini : List.Forall₂ Stored ((rs ++ [r]).filter (fun r => r.status = INITIAL_CODE))
          st.ev.initial := by simpa [List.filter_append, c2] using a
      dsimp only at h
      by_cases hl : Pdg.isLepton r.pdg = true
      · have hn : Pdg.isIon r.pdg = false := by
          cases hh : Pdg.isIon r.pdg
          · rfl
          · rw [isIon_not_lepton hh] at hl; cases hl
        rw [if_pos hl, hepIon, if_neg (by simp [hn])] at h
        cases h
        refine ⟨hini, hfin, c, d, ?_, ?_, ?_, i, ?_, ?_, ?_, m⟩
        · simp [List.countP_append, hl, e]
        · simp [List.countP_append, hn, f]
        · intro _; exact ⟨_, List.getElem?_concat_length, hl⟩
        · intro p hp hp'
          simp only [List.mem_append, List.mem_singleton] at hp
          rcases hp with hp | hp
          · exact j p hp hp'
          · subst hp; simp only at hp'; rw [hn] at hp'; cases hp'
        · intro h0
          obtain ⟨p, h1, h2, h3⟩ := k h0
          exact ⟨p, getElem?_append_old h1 _, h2, h3⟩
        · intro h0 x hx p hp hp'
          rcases getElem?_append_cases hp with h' | ⟨-, h'⟩
          · exact l h0 x hx p h' hp'
          · subst h'; simp only at hp'; rw [hn] at hp'; cases hp'
      · simp only [Bool.not_eq_true] at hl
        have hlep : st.nFinalLeptons ≠ 0 → ∃ p, (st.ev.final ++ [(⟨r.pdg, r.E * 1000, r.px * 1000,
            r.py * 1000, r.pz * 1000, r.M * 1000, q⟩ : Particle K)])[st.leptonIdx]? = some p ∧
            Pdg.isLepton p.pdg = true := by
          intro h0
          obtain ⟨p, h1, h2⟩ := g h0
          exact ⟨p, getElem?_append_old h1 _, h2⟩
        by_cases hn : Pdg.isIon r.pdg = true
        · by_cases hA : Pdg.getA r.pdg > st.largestA
          · rw [if_neg (by simp [hl]), hepIon, if_pos hn, if_pos hA] at h
            cases h
            refine ⟨hini, hfin, c, d, ?_, ?_, hlep, ?_, ?_, ?_, ?_, ?_⟩
            · simp [List.countP_append, hl, e]
            · simp [List.countP_append, hn, f]
            · show (0:Int) ≤ Pdg.getA r.pdg; omega
            · intro p hp hp'
              simp only [List.mem_append, List.mem_singleton] at hp
              rcases hp with hp | hp
              · have := j p hp hp'; show Pdg.getA p.pdg ≤ Pdg.getA r.pdg; omega
              · subst hp; exact le_refl _
            · intro _; exact ⟨_, List.getElem?_concat_length, hn, rfl⟩
            · intro h0 x hx p hp hp'
              show Pdg.getA p.pdg < Pdg.getA r.pdg
              rcases getElem?_append_cases hp with h' | ⟨h', -⟩
              · have := j p (List.mem_of_getElem? h') hp'; omega
              · have hx' : x < st.ev.final.length := hx
                omega
            · intro h0; have h0' : Pdg.getA r.pdg = 0 := h0; omega
          · rw [if_neg (by simp [hl]), hepIon, if_pos hn, if_neg hA] at h
            cases h
            refine ⟨hini, hfin, c, d, ?_, ?_, hlep, i, ?_, ?_, ?_, m⟩
            · simp [List.countP_append, hl, e]
            · simp [List.countP_append, hn, f]
            · intro p hp hp'
              simp only [List.mem_append, List.mem_singleton] at hp
              rcases hp with hp | hp
              · exact j p hp hp'
              · subst hp; show Pdg.getA r.pdg ≤ st.largestA; omega
            · intro h0
              obtain ⟨p, h1, h2, h3⟩ := k h0
              exact ⟨p, getElem?_append_old h1 _, h2, h3⟩
            · intro h0 x hx p hp hp'
              rcases getElem?_append_cases hp with h' | ⟨h', -⟩
              · exact l h0 x hx p h' hp'
              · obtain ⟨p', h1, -⟩ := k h0
                have : st.ionIdx < st.ev.final.length := by
                  rcases Nat.lt_or_ge st.ionIdx st.ev.final.length with h'' | h''
                  · exact h''
                  · rw [List.getElem?_eq_none h''] at h1; cases h1
                have hx' : x < st.ionIdx := hx
                omega
        · simp only [Bool.not_eq_true] at hn
          rw [if_neg (by simp [hl]), hepIon, if_neg (by simp [hn])] at h
          cases h
          refine ⟨hini, hfin, c, d, ?_, ?_, hlep, i, ?_, ?_, ?_, m⟩
          · simp [List.countP_append, hl, e]
          · simp [List.countP_append, hn, f]
          · intro p hp hp'
            simp only [List.mem_append, List.mem_singleton] at hp
            rcases hp with hp | hp
            · exact j p hp hp'
            · subst hp; simp only at hp'; rw [hn] at hp'; cases hp'
          · intro h0
            obtain ⟨p, h1, h2, h3⟩ := k h0
            exact ⟨p, getElem?_append_old h1 _, h2, h3⟩
          · intro h0 x hx p hp hp'
            rcases getElem?_append_cases hp with h' | ⟨-, h'⟩
            · exact l h0 x hx p h' hp'
            · subst h'; simp only at hp'; rw [hn] at hp'; cases hp'
  · rw [if_neg c3] at h
    cases h
    obtain ⟨a, b, c, d, e, f, g, i, j, k, l, m⟩ := hi
    exact ⟨by simpa [List.filter_append, c2] using a, by simpa [List.filter_append, c3] using b,
      c, d, e, f, g, i, j, k, l, m⟩

theorem inv_fold [Ring K] (rs rs' : List (HepRec K)) (st st' : HepState K)
    (hi : Inv rs st) (h : hepFold st rs' = .ok st') : Inv (rs ++ rs') st' := by
  induction rs' generalizing rs st with
  | nil => simp only [hepFold, Except.ok.injEq] at h; subst h; simpa using hi
  | cons r rs' ih =>
    rw [hepFold] at h
    split at h
    · cases h
    · next st1 e =>
      have := ih (rs ++ [r]) st1 (inv_step hi e) h
      simpa using this

end Marley.Event
