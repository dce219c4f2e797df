import Verif.Lemmas.HepevtRoundTrip
import Verif.Props.EventAscii

/-!
# C08–C10: the HEPEVT format of events

Momenta are divided by 1000 on output and multiplied by 1000 on input; the
arithmetic is exact here (any field of characteristic zero).
-/

set_option autoImplicit false

namespace Marley.Props
open Marley Marley.Event Json

variable {K : Type}

/-! ## Specification vocabulary -/

/-- Sum of the electric charges of a list of particles. -/
def totalCharge (l : List (Particle K)) : Int := (l.map (·.charge)).sum

/-- A final-state particle that is neither an ion nor a lepton (nucleons and
photons). -/
def Other (pdg : Int) : Bool := !Pdg.isIon pdg && !Pdg.isLepton pdg

/-- Everything about a particle except its charge, which HEPEVT does not hold. -/
def core (p : Particle K) : Int × K × K × K × K × K := (p.pdg, p.E, p.px, p.py, p.pz, p.mass)

/-- The same data of a HEPEVT line, converted from GeV to MeV. -/
def lineCore [Ring K] (r : HepRec K) : Int × K × K × K × K × K :=
  (r.pdg, r.E * 1000, r.px * 1000, r.py * 1000, r.pz * 1000, r.M * 1000)

/-- The lines of the record at the beginning of `s`: two integers (event number
and number of lines), then the lines. -/
def RecordLines (f : DblFmt K) (s : Str) (lines : List (HepRec K)) : Prop :=
  ∃ num n s1 s2 t, readInt s = some (num, s1) ∧ readInt s1 = some (n, s2) ∧
    readRecs f n.toNat s2 = some (lines, t)

/-- The final-state lines (status code 1). -/
def finals (lines : List (HepRec K)) : List (HepRec K) := lines.filter (fun r => r.status = 1)
/-- The initial-state lines (status code 3). -/
def initials (lines : List (HepRec K)) : List (HepRec K) := lines.filter (fun r => r.status = 3)

/-- Some final ion is strictly heavier than the first final particle (if that one
is an ion): the heaviest ion does not come first. -/
def HeaviestNotFirst (l : List (HepRec K)) : Prop :=
  ∃ r ∈ l, Pdg.isIon r.pdg = true ∧ 0 < Pdg.getA r.pdg ∧
    ∀ r0, l.head? = some r0 → Pdg.isIon r0.pdg = true → Pdg.getA r0.pdg < Pdg.getA r.pdg

/-- The first final particle is an ion at least as heavy as all the others. -/
def HeaviestFirst (l : List (HepRec K)) : Prop :=
  ∃ r0, l.head? = some r0 ∧ Pdg.isIon r0.pdg = true ∧
    ∀ r ∈ l, Pdg.isIon r.pdg = true → Pdg.getA r.pdg ≤ Pdg.getA r0.pdg

/-! ## Analysis of a successful read -/

theorem forall₂_mem_right {α β} {R : α → β → Prop} {l : List α} {l' : List β}
    (h : List.Forall₂ R l l') : ∀ b ∈ l', ∃ a ∈ l, R a b := by
  induction h with
  | nil => simp
  | cons h _ ih =>
    intro b hb
    rcases List.mem_cons.1 hb with rfl | hb
    · exact ⟨_, by simp, h⟩
    · obtain ⟨a, ha, hr⟩ := ih b hb; exact ⟨a, by simp [ha], hr⟩

theorem forall₂_mem_left {α β} {R : α → β → Prop} {l : List α} {l' : List β}
    (h : List.Forall₂ R l l') : ∀ a ∈ l, ∃ b ∈ l', R a b := by
  induction h with
  | nil => simp
  | cons h _ ih =>
    intro b hb
    rcases List.mem_cons.1 hb with rfl | hb
    · exact ⟨_, by simp, h⟩
    · obtain ⟨a, ha, hr⟩ := ih b hb; exact ⟨a, by simp [ha], hr⟩

theorem stored_core [Ring K] {l : List (HepRec K)} {l' : List (Particle K)}
    (h : List.Forall₂ Stored l l') : l'.map core = l.map lineCore := by
  induction h with
  | nil => rfl
  | cons h _ ih =>
    obtain ⟨q, _, rfl⟩ := h
    simp [ih, core, lineCore, recParticle]

theorem map_core_set (l : List (Particle K)) (i : Nat) (p : Particle K) (q : Int)
    (h : l[i]? = some p) : (l.set i { p with charge := q }).map core = l.map core := by
  rw [List.map_set]
  apply List.ext_getElem?
  intro k
  by_cases hk : k = i
  · subst hk
    rw [List.getElem?_set_self (by simpa using lt_of_getElem? h), List.getElem?_map, h]
    rfl
  · rw [List.getElem?_set_ne (by omega)]

theorem readHepevt_ok [Ring K] {f : DblFmt K} {s : Str} {ev : Event K} {x : K} {t : Option Str}
    (h : readHepevt f s = .ok (true, ev, x, t)) :
    ∃ lines st, RecordLines f s lines ∧ hepFold hepInit lines = .ok st ∧
      Inv lines st ∧ hepFinish st = .ok ev := by
  rw [readHepevt] at h
  split at h
  · cases h
  next num s1 e1 =>
  split at h
  · cases h
  next n s2 e2 =>
  split at h
  · cases h
  next hn =>
  split at h
  · cases h
  next st s3 e3 =>
  split at h
  · cases h
  next ev' e4 =>
  cases h
  obtain ⟨rs, r1, r2⟩ := hepLoop_ok _ _ _ _ _ e3
  have hi := inv_fold [] rs hepInit st inv_init r2
  rw [List.nil_append] at hi
  exact ⟨rs, st, ⟨num, n, s1, s2, s3, e1, e2, r1⟩, r2, hi, e4⟩

/-- Everything the properties need to know about a successful read. -/
theorem finish_analysis [Ring K] {lines : List (HepRec K)} {st : HepState K} {ev : Event K}
    (hi : Inv lines st) (h : hepFinish st = .ok ev) :
    (∃ a b, ev.initial = [a, { b with charge := 0 }] ∧ [a, b].Perm st.ev.initial ∧
      Pdg.isIon a.pdg = false ∧ Pdg.isIon b.pdg = true) ∧
    ∃ x0 x1 rest, ev.final = x0 :: { x1 with charge := -x0.charge -
        (((x0 :: rest).filter (fun p => Pdg.isIon p.pdg)).map (·.charge)).sum } :: rest ∧
      (x0 :: x1 :: rest).Perm st.ev.final ∧
      (x0 :: x1 :: rest).countP (fun p => Pdg.isLepton p.pdg) = 1 ∧
      (HeaviestNotFirst (finals lines) → Pdg.isLepton x0.pdg = true ∧ Pdg.isIon x1.pdg = true ∧
        ∀ p ∈ rest, Pdg.isIon p.pdg = true → Pdg.getA p.pdg ≤ Pdg.getA x1.pdg) ∧
      (HeaviestFirst (finals lines) → Pdg.isLepton x1.pdg = true) := by
  obtain ⟨c1, c2, c3, c4, ini, fin, tgt, ej, res, e1, e2, e3, e4, e5, rfl⟩ := hepFinish_ok h
  obtain ⟨a, b, o1, o2, o3, o4⟩ := hepOrderInitial_spec (by rw [← hi.nIni, c1])
    (by rw [← hi.nIons, c2])
  rw [o1] at e1
  cases e1
  simp only [List.getElem?_cons_succ, List.getElem?_cons_zero, Option.some.injEq] at e3
  subst e3
  refine ⟨⟨a, b, rfl, o2, o3, o4⟩, ?_⟩
  obtain ⟨lep, hl1, hl2⟩ := hi.lep (by omega)
  -- the list after the swaps
  obtain ⟨x0, x1, rest, hfin⟩ : ∃ x0 x1 rest, fin = x0 :: x1 :: rest := by
    match fin, e4, e5 with
    | x0 :: x1 :: rest, _, _ => exact ⟨x0, x1, rest, rfl⟩
    | [_], _, h => simp at h
    | [], h, _ => simp at h
  subst hfin
  simp only [List.getElem?_cons_zero, Option.some.injEq] at e4
  simp only [List.getElem?_cons_succ, List.getElem?_cons_zero, Option.some.injEq] at e5
  subst e4 e5
  -- an ion is somewhere in the list
  obtain ⟨ion0, hion0, hion1⟩ : ∃ p ∈ st.ev.final, Pdg.isIon p.pdg = true := by
    have : 0 < st.ev.final.countP (fun p => Pdg.isIon p.pdg) := by rw [← hi.nFinIons]; omega
    simpa [List.countP_pos_iff] using this
  -- relation between the lines and the stored particles
  have hst : List.Forall₂ Stored (finals lines) st.ev.final := hi.fin
  have key : ∃ l', hepOrderFinal st.ev.final st.leptonIdx st.ionIdx = .ok l' ∧ l'.Perm st.ev.final ∧
      (HeaviestNotFirst (finals lines) → ∃ ion, l'[0]? = some lep ∧ l'[1]? = some ion ∧
        Pdg.isIon ion.pdg = true ∧
        ∀ p ∈ st.ev.final, Pdg.isIon p.pdg = true → Pdg.getA p.pdg ≤ Pdg.getA ion.pdg) ∧
      (HeaviestFirst (finals lines) → l'[1]? = some lep) := by
    have swap : ∀ ion, st.ev.final[st.ionIdx]? = some ion → Pdg.isLepton ion.pdg = false →
        ∃ l', hepOrderFinal st.ev.final st.leptonIdx st.ionIdx = .ok l' ∧ l'.Perm st.ev.final ∧
          (st.ionIdx ≠ 0 → l'[0]? = some lep ∧ l'[1]? = some ion) ∧
          (st.ionIdx = 0 → l'[1]? = some lep) := by
      intro ion h1 h2
      refine hepOrderFinal_spec hl1 h1 ?_
      intro he
      rw [he, h1] at hl1
      cases hl1
      rw [h2] at hl2; cases hl2
    by_cases hA : 0 < st.largestA
    · obtain ⟨ion, i1, i2, i3⟩ := hi.aPos hA
      obtain ⟨l', q1, q2, q3, q4⟩ := swap ion i1 (isIon_not_lepton i2)
      refine ⟨l', q1, q2, ?_, ?_⟩
      · rintro ⟨r, hr1, hr2, hr3, hr4⟩
        have hne : st.ionIdx ≠ 0 := by
          intro h0
          rw [h0] at i1
          obtain ⟨p, hp1, q, hq1, rfl⟩ := forall₂_mem_left hst r hr1
          have hle := hi.aMax _ hp1 hr2
          simp only [recParticle] at hle
          cases hf : finals lines with
          | nil => rw [hf] at hr1; simp at hr1
          | cons r0 rs =>
            rw [hf] at hst
            cases hst' : st.ev.final with
            | nil => rw [hst'] at i1; simp at i1
            | cons p0 ps =>
              rw [hst'] at hst i1
              simp only [List.getElem?_cons_zero, Option.some.injEq] at i1
              subst i1
              obtain ⟨q0, _, e0⟩ := (List.forall₂_cons.1 hst).1
              have hpdg : p0.pdg = r0.pdg := by rw [e0]; rfl
              have := hr4 r0 (by simp [hf]) (by rw [← hpdg]; exact i2)
              rw [← hpdg, i3] at this
              omega
        obtain ⟨g1, g2⟩ := q3 hne
        exact ⟨ion, g1, g2, i2, fun p hp hp' => by rw [i3]; exact hi.aMax p hp hp'⟩
      · rintro ⟨r0, hr1, hr2, hr3⟩
        apply q4
        by_contra h0
        cases hst' : st.ev.final with
        | nil => rw [hst'] at i1; simp at i1
        | cons p0 ps =>
          cases hf : finals lines with
          | nil => rw [hf] at hr1; simp at hr1
          | cons r0' rs =>
            rw [hf] at hr1
            simp only [List.head?_cons, Option.some.injEq] at hr1
            subst hr1
            have hst0 := hst
            rw [hf, hst'] at hst0
            obtain ⟨q0, _, e0⟩ := (List.forall₂_cons.1 hst0).1
            have hpdg : p0.pdg = r0'.pdg := by rw [e0]; rfl
            have hlt := hi.aFirst hA 0 (by omega) p0 (by simp [hst']) (by rw [hpdg]; exact hr2)
            obtain ⟨r, hr, q, _, he⟩ := forall₂_mem_right hst ion (List.mem_of_getElem? i1)
            have hpr : ion.pdg = r.pdg := by rw [he]; rfl
            have hle := hr3 r hr (by rw [← hpr]; exact i2)
            rw [← hpr, ← hpdg, i3] at hle
            omega
    · -- no ion with a positive mass number: index 0 is used
      have hA0 : st.largestA = 0 := by have := hi.aNonneg; omega
      have hidx := hi.aZero hA0
      obtain ⟨p0, hp0⟩ : ∃ p, st.ev.final[0]? = some p := by
        have := lt_of_getElem? hl1
        exact ⟨st.ev.final[0], by simp⟩
      by_cases hpl : Pdg.isLepton p0.pdg = true
      · -- then neither hypothesis on the record holds; exhibit the list
        refine ⟨x0 :: x1 :: rest, e2, ?_, ?_, ?_⟩
        · rw [hepOrderFinal] at e2
          split at e2
          · cases e2
          next l1 el1 =>
          have p1 : l1.Perm st.ev.final := by
            split at el1
            · obtain ⟨_, _, _, _, _, hp⟩ := iterSwap_ok el1; exact hp
            · cases el1; exact List.Perm.refl _
          split at e2
          · obtain ⟨_, _, _, _, _, hp⟩ := iterSwap_ok e2; exact hp.trans p1
          · cases e2; exact p1
        · rintro ⟨r, hr1, hr2, hr3, -⟩
          obtain ⟨p, hp1, q, hq1, rfl⟩ := forall₂_mem_left hst r hr1
          have hle := hi.aMax _ hp1 hr2
          simp only [recParticle] at hle
          omega
        · rintro ⟨r0, hr1, hr2, -⟩
          cases hf : finals lines with
          | nil => rw [hf] at hr1; simp at hr1
          | cons r0' rs =>
            rw [hf] at hr1
            simp only [List.head?_cons, Option.some.injEq] at hr1
            subst hr1
            cases hst' : st.ev.final with
            | nil => rw [hst'] at hp0; simp at hp0
            | cons p0' ps =>
              rw [hst'] at hp0
              simp only [List.getElem?_cons_zero, Option.some.injEq] at hp0
              subst hp0
              rw [hf, hst'] at hst
              obtain ⟨q0, _, e0⟩ := (List.forall₂_cons.1 hst).1
              have hpdg : p0'.pdg = r0'.pdg := by rw [e0]; rfl
              rw [hpdg, isIon_not_lepton hr2] at hpl
              cases hpl
      · obtain ⟨l', q1, q2, q3, q4⟩ := swap p0 (by rw [hidx]; exact hp0) (by simpa using hpl)
        refine ⟨l', q1, q2, ?_, fun _ => q4 hidx⟩
        rintro ⟨r, hr1, hr2, hr3, -⟩
        obtain ⟨p, hp1, q, hq1, rfl⟩ := forall₂_mem_left hst r hr1
        have hle := hi.aMax _ hp1 hr2
        simp only [recParticle] at hle
        omega
  obtain ⟨l', k1, k2, k3, k4⟩ := key
  rw [k1] at e2
  cases e2
  refine ⟨x0, x1, rest, ?_, k2, ?_, ?_, ?_⟩
  · simp [ionChargeSum, foldl_add_eq]
  · rw [k2.countP_eq, ← hi.nLep, c3]
  · intro hh
    obtain ⟨ion, g1, g2, g3, g4⟩ := k3 hh
    simp only [List.getElem?_cons_zero, List.getElem?_cons_succ, Option.some.injEq] at g1 g2
    subst g1 g2
    refine ⟨hl2, g3, fun p hp hp' => g4 p (k2.subset (by simp [hp])) hp'⟩
  · intro hh
    have := k4 hh
    simp only [List.getElem?_cons_zero, List.getElem?_cons_succ, Option.some.injEq] at this
    subst this
    exact hl2

/-- Sizes that fit in the integers used by the format. -/
def HepFits (num : Nat) (e : Event K) : Prop :=
  e.Fits ∧ (num : Int) ≤ intMax ∧ ((1 + e.initial.length + e.final.length : Nat) : Int) ≤ intMax

/-- Same record, same lines. -/
theorem recordLines_unique {f : DblFmt K} {s : Str} {l l' : List (HepRec K)}
    (h : RecordLines f s l) (h' : RecordLines f s l') : l = l' := by
  obtain ⟨_, _, _, _, _, a1, a2, a3⟩ := h
  obtain ⟨_, _, _, _, _, b1, b2, b3⟩ := h'
  rw [a1] at b1; cases b1
  rw [a2] at b2; cases b2
  rw [a3] at b3; cases b3
  rfl

theorem writtenRecs [Field K] (f : DblFmt K) (hf : f.Lawful) (hz : f.LawfulZero)
    (num : Nat) (xsec : K) (e : Event K) (hfit : HepFits num e) (rest : Str) :
    (hepRecs e xsec).length = 1 + e.initial.length + e.final.length ∧
    readRecs f (hepRecs e xsec).length
      ('\n' :: ((hepRecs e xsec).flatMap (printRec f) ++ rest)) =
      some (hepRecs e xsec, '\n' :: rest) := by
  obtain ⟨⟨ff1, ff2, ff3, ff4, ff5⟩, hnum, hcount⟩ := hfit
  -- the lines are read back
  have hlen : (hepRecs e xsec).length = 1 + e.initial.length + e.final.length := by
    simp [hepRecs]; omega
  have hrec : ∀ r ∈ hepRecs e xsec, r.Fits := by
    intro r hr
    simp only [hepRecs, List.mem_append, List.mem_map, List.mem_cons] at hr
    have hπ : intMin ≤ e.parity.toInt ∧ e.parity.toInt ≤ intMax := by
      rcases e.parity with ⟨b⟩; cases b <;> decide
    rcases hr with ⟨p, hp, rfl⟩ | rfl | ⟨p, hp, rfl⟩
    · have := (ff1 p hp).1
      simp [HepRec.Fits, hepRec, this, INITIAL_CODE, intMin, intMax] at this ⊢
      exact this
    · simp [HepRec.Fits, hepRec, INFO_CODE, ff3, hπ]
      simp [intMin, intMax]
    · have := (ff2 p hp).1
      simp [HepRec.Fits, hepRec, this, FINAL_CODE, intMin, intMax] at this ⊢
      exact this
  have hread := readRecs_print hf hz (hepRecs e xsec) hrec (by simp [hepRecs]) rest
  refine ⟨hlen, ?_⟩
  · obtain ⟨m, hm⟩ : ∃ m, (hepRecs e xsec).length = m + 1 := ⟨_, by rw [hlen, Nat.add_assoc,
      Nat.add_comm]⟩
    rw [hm] at hread ⊢
    rw [readRecs] at hread ⊢
    rw [readRec_space nl]
    exact hread

/-- Reading a written event: the lines come back, whatever they contain. -/
theorem readHepevt_written [Field K] (f : DblFmt K) (hf : f.Lawful) (hz : f.LawfulZero)
    (num : Nat) (xsec : K) (e : Event K) (hfit : HepFits num e) (rest : Str) :
    readHepevt f (writeHepevt f num xsec e ++ rest) =
      (match hepFold hepInit (hepRecs e xsec) with
       | .error x => .error x
       | .ok st =>
         match hepFinish st with
         | .error x => .error x
         | .ok ev => .ok (true, ev, st.xsec, some ('\n' :: rest))) := by
  obtain ⟨hlen, hread'⟩ := writtenRecs f hf hz num xsec e hfit rest
  obtain ⟨-, hnum, hcount⟩ := hfit
  rw [readHepevt, writeHepevt]
  simp only [List.append_assoc, List.cons_append]
  rw [readInt_natText hnum spd]
  dsimp only
  rw [readInt_space sp, readInt_natText hcount nld]
  dsimp only
  rw [if_neg (by omega), Int.toNat_natCast, ← hlen, hepLoop_of _ _ _ _ _ hread']
  cases hepFold hepInit (hepRecs e xsec) <;> rfl

/-- The lines of a written event. -/
theorem recordLines_written [Field K] (f : DblFmt K) (hf : f.Lawful) (hz : f.LawfulZero)
    (num : Nat) (xsec : K) (e : Event K) (hfit : HepFits num e) (rest : Str) :
    RecordLines f (writeHepevt f num xsec e ++ rest) (hepRecs e xsec) := by
  obtain ⟨hlen, hread'⟩ := writtenRecs f hf hz num xsec e hfit rest
  obtain ⟨-, hnum, hcount⟩ := hfit
  refine ⟨num, (1 + e.initial.length + e.final.length : Nat),
    ' ' :: (natText (1 + e.initial.length + e.final.length) ++ '\n' ::
      ((hepRecs e xsec).flatMap (printRec f) ++ rest)),
    '\n' :: ((hepRecs e xsec).flatMap (printRec f) ++ rest), '\n' :: rest, ?_, ?_, ?_⟩
  · rw [writeHepevt]
    simp only [List.append_assoc, List.cons_append]
    rw [readInt_natText hnum spd]
  · rw [readInt_space sp, readInt_natText hcount nld]
  · rw [Int.toNat_natCast, ← hlen]; exact hread'

/-- A record with the residue first, then the lepton. -/
def residueFirst : Event ℚ where
  initial := [⟨12, 20, 0, 0, 20, 0, 0⟩, ⟨1000180400, 37224, 0, 0, 0, 37224, 0⟩]
  final := [⟨1000190400, 37230, -3, -4, 13, 37226, 1⟩, ⟨11, 10, 3, 4, 7, 1/2, -1⟩,
    ⟨22, 4, 0, 0, 4, 0, 0⟩]
  Ex := 4
  twoJ := 2
  parity := ⟨true⟩

theorem residueFirst_fits : HepFits 0 residueFirst :=
  ⟨by simp [residueFirst, Event.Fits, Particle.Fits, intMin, intMax], by decide,
    by simp [residueFirst, intMax]⟩

/-! ## C09 -/

/-- **C09**, the part that holds for every record: up to charges, the final
particles of the event are a permutation of the final lines of the record. -/
theorem C09_permutation [Ring K] (f : DblFmt K) (s : Str) (ev : Event K) (x : K) (t : Option Str)
    (h : readHepevt f s = .ok (true, ev, x, t)) :
    ∃ lines, RecordLines f s lines ∧
      (ev.final.map core).Perm ((finals lines).map lineCore) ∧
      (ev.initial.map core).Perm ((initials lines).map lineCore) := by
  obtain ⟨lines, st, h1, h2, h3, h4⟩ := readHepevt_ok h
  obtain ⟨⟨a, b, i1, i2, -⟩, x0, x1, rest, f1, f2, -⟩ := finish_analysis h3 h4
  refine ⟨lines, h1, ?_, ?_⟩
  · have e : st.ev.final.map core = (finals lines).map lineCore := stored_core h3.fin
    rw [f1, ← e]
    exact f2.map core
  · have e : st.ev.initial.map core = (initials lines).map lineCore := stored_core h3.ini
    rw [i1, ← e]
    exact i2.map core

/-- **C09**, partial: if the heaviest ion is not the first final particle of the
record, then the first final particle of the event is the only final lepton and
the second is an ion with the largest mass number.  (The full claim has no such
condition; see `C09_heaviest_first_fails`.) -/
theorem C09_placement_partial [Ring K] (f : DblFmt K) (s : Str) (ev : Event K) (x : K)
    (t : Option Str) (h : readHepevt f s = .ok (true, ev, x, t)) :
    ∃ lines, RecordLines f s lines ∧
      (HeaviestNotFirst (finals lines) →
        ∃ ejectile residue others, ev.final = ejectile :: residue :: others ∧
          Pdg.isLepton ejectile.pdg = true ∧
          (∀ p ∈ residue :: others, Pdg.isLepton p.pdg = false) ∧
          Pdg.isIon residue.pdg = true ∧
          (∀ p ∈ others, Pdg.isIon p.pdg = true → Pdg.getA p.pdg ≤ Pdg.getA residue.pdg)) := by
  obtain ⟨lines, st, h1, h2, h3, h4⟩ := readHepevt_ok h
  obtain ⟨-, x0, x1, rest, f1, f2, f3, f4, -⟩ := finish_analysis h3 h4
  refine ⟨lines, h1, fun hh => ?_⟩
  obtain ⟨g1, g2, g3⟩ := f4 hh
  refine ⟨x0, _, rest, f1, g1, ?_, g2, g3⟩
  simp only [List.countP_cons, g1, if_true, Nat.add_eq_right, isIon_not_lepton g2] at f3
  have f3' : rest.countP (fun p => Pdg.isLepton p.pdg) = 0 := by simpa using f3
  intro p hp
  rcases List.mem_cons.1 hp with rfl | hp
  · exact isIon_not_lepton g2
  · have := List.countP_eq_zero.1 f3' p hp
    simpa using this

/-- **C09** is false in general: whenever the heaviest ion comes first among the
final particles of the record, a successful read leaves the *lepton* in the
place of the residue. -/
theorem C09_heaviest_first_fails [Ring K] (f : DblFmt K) (s : Str) (ev : Event K) (x : K)
    (t : Option Str) (h : readHepevt f s = .ok (true, ev, x, t)) :
    ∃ lines, RecordLines f s lines ∧
      (HeaviestFirst (finals lines) → ∃ p, ev.final[1]? = some p ∧ Pdg.isLepton p.pdg = true) := by
  obtain ⟨lines, st, h1, h2, h3, h4⟩ := readHepevt_ok h
  obtain ⟨-, x0, x1, rest, f1, f2, f3, -, f5⟩ := finish_analysis h3 h4
  refine ⟨lines, h1, fun hh => ?_⟩
  rw [f1]
  exact ⟨_, rfl, f5 hh⟩

/-- The text of the record `residueFirst` is read successfully (so the hypotheses
can be met), and the lepton ends up at the residue's place. -/
example : ∃ ev x, readHepevt ratFmt (writeHepevt ratFmt 0 1 residueFirst ++ []) =
      .ok (true, ev, x, some ['\n']) ∧ ev.final.map (·.pdg) = [1000190400, 11, 22] ∧
    HeaviestFirst (finals (hepRecs residueFirst 1)) := by
  rw [readHepevt_written ratFmt ratFmt_lawful ratFmt_zero 0 1 residueFirst residueFirst_fits]
  have e : ∃ st, hepFold hepInit (hepRecs residueFirst 1) = .ok st ∧
      ∃ ev, hepFinish st = .ok ev ∧ ev.final.map (·.pdg) = [1000190400, 11, 22] := by
    refine ⟨_, rfl, _, rfl, rfl⟩
  obtain ⟨st, e1, ev, e3, e4⟩ := e
  refine ⟨ev, st.xsec, by rw [e1]; simp only [e3], e4, _, rfl, by decide, ?_⟩
  decide

/-! ## C10 -/

/-- The table charge of a code, 0 for unknown codes. -/
def tableCharge (pdg : Int) : Int :=
  match Pdg.charge pdg with
  | .ok q => q
  | .error _ => 0

theorem sum_map_perm {α} {l l' : List α} (h : l.Perm l') (g : α → Int) :
    (l.map g).sum = (l'.map g).sum := (h.map g).sum_eq

/-- **C10**, the exact balance for every record in which the heaviest ion is not
first: the total final charge is the charge of the emitted particles that are
neither ions nor leptons (each emitted proton counts one), and the total initial
charge is that of the projectile. -/
theorem C10_charge_sums [Ring K] (f : DblFmt K) (s : Str) (ev : Event K) (x : K)
    (t : Option Str) (h : readHepevt f s = .ok (true, ev, x, t)) :
    ∃ lines, RecordLines f s lines ∧
      totalCharge ev.initial =
        (((initials lines).filter (fun r => !Pdg.isIon r.pdg)).map (fun r => tableCharge r.pdg)).sum ∧
      (HeaviestNotFirst (finals lines) → totalCharge ev.final =
        (((finals lines).filter (fun r => Other r.pdg)).map (fun r => tableCharge r.pdg)).sum) := by
  obtain ⟨lines, st, h1, h2, h3, h4⟩ := readHepevt_ok h
  obtain ⟨⟨a, b, i1, i2, i3, i4⟩, x0, x1, rest, f1, f2, f3, f4, -⟩ := finish_analysis h3 h4
  -- sums over lines are sums over stored particles
  have tr : ∀ (P : Int → Bool) (l : List (HepRec K)) (l' : List (Particle K)),
      List.Forall₂ Stored l l' → ((l.filter (fun r => P r.pdg)).map (fun r => tableCharge r.pdg)).sum =
        ((l'.filter (fun p => P p.pdg)).map (·.charge)).sum := by
    intro P l l' hl
    induction hl with
    | nil => rfl
    | @cons r p _ _ h _ ih =>
      obtain ⟨q, hq, rfl⟩ := h
      have hp : (recParticle r q).pdg = r.pdg := rfl
      have hc : (recParticle r q).charge = q := rfl
      have ht : tableCharge r.pdg = q := by simp [tableCharge, hq]
      cases hP : P r.pdg
      · simp only [List.filter_cons, hp, hP, Bool.false_eq_true, if_false, ih]
      · simp only [List.filter_cons, hp, hP, if_true, List.map_cons, List.sum_cons, ih, hc, ht]
  refine ⟨lines, h1, ?_, ?_⟩
  · have e := tr (fun p => !Pdg.isIon p) _ _ h3.ini
    change (((initials lines).filter (fun r => !Pdg.isIon r.pdg)).map (fun r => tableCharge r.pdg)).sum =
      _ at e
    rw [e, ← sum_map_perm (i2.filter (fun p => !Pdg.isIon p.pdg)), i1]
    simp [totalCharge, i3, i4]
  · intro hh
    have e := tr Other _ _ h3.fin
    change (((finals lines).filter (fun r => Other r.pdg)).map (fun r => tableCharge r.pdg)).sum =
      _ at e
    rw [e, ← sum_map_perm (f2.filter (fun p => Other p.pdg))]
    obtain ⟨g1, g2, g3⟩ := f4 hh
    have g1' : Pdg.isIon x0.pdg = false := by
      cases hx : Pdg.isIon x0.pdg
      · rfl
      · rw [isIon_not_lepton hx] at g1; cases g1
    simp only [List.countP_cons, g1, if_true, isIon_not_lepton g2] at f3
    have f3' : rest.countP (fun p => Pdg.isLepton p.pdg) = 0 := by simpa using f3
    have hl : ∀ p ∈ rest, Pdg.isLepton p.pdg = false := by
      intro p hp; simpa using List.countP_eq_zero.1 f3' p hp
    have e : rest.filter (fun p => Other p.pdg) = rest.filter (fun p => !Pdg.isIon p.pdg) :=
      List.filter_congr (fun p hp => by simp [Other, hl p hp])
    have o0 : Other x0.pdg = false := by simp [Other, g1]
    have o1 : Other x1.pdg = false := by simp [Other, g2]
    rw [f1]
    simp only [totalCharge, List.map_cons, List.sum_cons, List.filter_cons, o0, o1, g1',
      Bool.false_eq_true, if_false]
    rw [e, sum_filter_split rest (fun p => Pdg.isIon p.pdg)]
    omega

/-- **C10**, partial: with a neutral projectile and no charged emitted particle
other than ions and the lepton (that is, no emitted proton), and the heaviest
ion not first in the record, the total charge is restored. -/
theorem C10_total_charge_partial [Ring K] (f : DblFmt K) (s : Str) (ev : Event K) (x : K)
    (t : Option Str) (h : readHepevt f s = .ok (true, ev, x, t)) :
    ∃ lines, RecordLines f s lines ∧
      (HeaviestNotFirst (finals lines) →
       (∀ r ∈ initials lines, Pdg.isIon r.pdg = false → tableCharge r.pdg = 0) →
       (∀ r ∈ finals lines, Other r.pdg = true → tableCharge r.pdg = 0) →
        totalCharge ev.final = totalCharge ev.initial) := by
  obtain ⟨lines, h1, h2, h3⟩ := C10_charge_sums f s ev x t h
  refine ⟨lines, h1, fun a b c => ?_⟩
  rw [h2, h3 a, List.sum_eq_zero, List.sum_eq_zero]
  · intro q hq
    simp only [List.mem_map, List.mem_filter] at hq
    obtain ⟨r, ⟨hr1, hr2⟩, rfl⟩ := hq
    exact b r hr1 (by simpa using hr2)
  · intro q hq
    simp only [List.mem_map, List.mem_filter] at hq
    obtain ⟨r, ⟨hr1, hr2⟩, rfl⟩ := hq
    exact c r hr1 hr2

/-- **C10** is false in general: with a neutral projectile, emitted protons (and
otherwise only neutral nucleons and photons besides ions and the lepton) leave
the final state with a total charge that is too large by the number of
protons. -/
theorem C10_protons_fails [Ring K] (f : DblFmt K) (s : Str) (ev : Event K) (x : K)
    (t : Option Str) (h : readHepevt f s = .ok (true, ev, x, t)) :
    ∃ lines, RecordLines f s lines ∧
      (HeaviestNotFirst (finals lines) →
       (∀ r ∈ initials lines, Pdg.isIon r.pdg = false → tableCharge r.pdg = 0) →
       (∀ r ∈ finals lines, Other r.pdg = true → r.pdg = 2212 ∨ r.pdg = 2112 ∨ r.pdg = 22) →
        totalCharge ev.final =
          totalCharge ev.initial + (finals lines).countP (fun r => r.pdg = 2212)) := by
  obtain ⟨lines, h1, h2, h3⟩ := C10_charge_sums f s ev x t h
  refine ⟨lines, h1, fun a b c => ?_⟩
  rw [h2, h3 a]
  have z : (((initials lines).filter (fun r => !Pdg.isIon r.pdg)).map
      (fun r => tableCharge r.pdg)).sum = 0 := by
    apply List.sum_eq_zero
    intro q hq
    simp only [List.mem_map, List.mem_filter] at hq
    obtain ⟨r, ⟨hr1, hr2⟩, rfl⟩ := hq
    exact b r hr1 (by simpa using hr2)
  rw [z, zero_add]
  clear a h3
  revert c
  generalize finals lines = l
  intro c
  induction l with
  | nil => simp
  | cons r l ih =>
    have ih := ih (fun r hr => c r (by simp [hr]))
    by_cases ho : Other r.pdg = true
    · rcases c r (by simp) ho with e | e | e
      · have t0 : tableCharge (2212 : Int) = 1 := by decide
        have ho : Other 2212 = true := by decide
        simp only [List.filter_cons, ho, if_true, List.map_cons, List.sum_cons, ih, e, t0,
          List.countP_cons, decide_true]
        push_cast; omega
      · have t0 : tableCharge (2112 : Int) = 0 := by decide
        have ho : Other 2112 = true := by decide
        simp [List.filter_cons, ho, ih, e, t0, List.countP_cons]
      · have t0 : tableCharge (22 : Int) = 0 := by decide
        have ho : Other 22 = true := by decide
        simp [List.filter_cons, ho, ih, e, t0, List.countP_cons]
    · have hne : r.pdg ≠ 2212 := by
        intro e; rw [e] at ho; revert ho; decide
      simp [List.filter_cons, ho, ih, hne, List.countP_cons]

/-! ## C08 -/

/-- An event with the structure the generator gives it: a projectile and an ion,
one lepton, a residue, and emitted particles none of which is a lepton or an ion
heavier than the residue; charges of all but target and residue are those of the
particle table. -/
structure Generated (e : Event K) (a b ej res : Particle K) (prods : List (Particle K)) : Prop where
  ini : e.initial = [a, b]
  fin : e.final = ej :: res :: prods
  a_ion : Pdg.isIon a.pdg = false
  a_charge : Pdg.charge a.pdg = .ok a.charge
  b_ion : Pdg.isIon b.pdg = true
  ej_lep : Pdg.isLepton ej.pdg = true
  ej_charge : Pdg.charge ej.pdg = .ok ej.charge
  res_ion : Pdg.isIon res.pdg = true
  res_A : 0 < Pdg.getA res.pdg
  prods_lep : ∀ p ∈ prods, Pdg.isLepton p.pdg = false
  prods_A : ∀ p ∈ prods, Pdg.isIon p.pdg = true → Pdg.getA p.pdg ≤ Pdg.getA res.pdg
  prods_charge : ∀ p ∈ prods, Pdg.charge p.pdg = .ok p.charge

/-- **C08**, exact result of reading back a written event: everything is
restored, except that the target gets charge zero and the residue a charge
computed from the lepton and the emitted *ions*. -/
theorem C08_read_written [Field K] [CharZero K] (f : DblFmt K) (hf : f.Lawful) (hz : f.LawfulZero)
    (num : Nat) (xsec : K) (e : Event K) (hfit : HepFits num e) (a b ej res : Particle K)
    (prods : List (Particle K)) (g : Generated e a b ej res prods) (rest : Str) :
    readHepevt f (writeHepevt f num xsec e ++ rest) =
      .ok (true, { e with
        initial := [a, { b with charge := 0 }]
        final := ej ::
          { res with charge :=
              -ej.charge - totalCharge (prods.filter (fun p => Pdg.isIon p.pdg)) } :: prods },
        xsec, some ('\n' :: rest)) := by
  obtain ⟨qb, hb⟩ := bareOf_exists_ion g.b_ion
  obtain ⟨qr, hr⟩ := bareOf_exists_ion g.res_ion
  have h1 : List.Forall₂ BareOf e.initial [a, { b with charge := qb }] := by
    rw [g.ini]
    exact .cons ⟨a.charge, g.a_charge, rfl⟩ (.cons hb .nil)
  have h2 : List.Forall₂ BareOf e.final (ej :: { res with charge := qr } :: prods) := by
    rw [g.fin]
    exact .cons ⟨ej.charge, g.ej_charge, rfl⟩ (.cons hr (forall₂_bare_self g.prods_charge))
  obtain ⟨st, s1, s2, s3⟩ := fold_hepRecs e xsec h1 h2
  have hi := inv_fold [] _ _ _ inv_init s1
  rw [List.nil_append] at hi
  rw [readHepevt_written f hf hz num xsec e hfit rest, s1]
  dsimp only
  -- counters and indices
  have ev1 : st.ev.initial = [a, { b with charge := qb }] := by rw [s2]
  have ev2 : st.ev.final = ej :: { res with charge := qr } :: prods := by rw [s2]
  have ejion : Pdg.isIon ej.pdg = false := by
    cases h : Pdg.isIon ej.pdg
    · rfl
    · have := isIon_not_lepton h; rw [g.ej_lep] at this; cases this
  have plep : prods.countP (fun p => Pdg.isLepton p.pdg) = 0 :=
    List.countP_eq_zero.2 (fun p hp => by simp [g.prods_lep p hp])
  have n3 : st.nFinalLeptons = 1 := by
    rw [hi.nLep, ev2]
    simp [List.countP_cons, g.ej_lep, isIon_not_lepton g.res_ion, plep]
  have n4 : 1 ≤ st.nFinalIons := by
    rw [hi.nFinIons, ev2]
    simp [List.countP_cons, ejion, g.res_ion]
  have il : st.leptonIdx = 0 := by
    obtain ⟨p, hp1, hp2⟩ := hi.lep (by omega)
    rw [ev2] at hp1
    match hidx : st.leptonIdx, hp1 with
    | 0, _ => rfl
    | 1, hp1 =>
      simp only [List.getElem?_cons_succ, List.getElem?_cons_zero, Option.some.injEq] at hp1
      subst hp1
      simp only at hp2
      rw [isIon_not_lepton g.res_ion] at hp2; cases hp2
    | k + 2, hp1 =>
      simp only [List.getElem?_cons_succ] at hp1
      rw [g.prods_lep p (List.mem_of_getElem? hp1)] at hp2; cases hp2
  have hA1 : Pdg.getA res.pdg ≤ st.largestA :=
    hi.aMax { res with charge := qr } (by rw [ev2]; simp) g.res_ion
  have hA0 : 0 < st.largestA := by have := g.res_A; omega
  have ii : st.ionIdx = 1 := by
    obtain ⟨p, hp1, hp2, hp3⟩ := hi.aPos hA0
    rw [ev2] at hp1
    match hidx : st.ionIdx, hp1 with
    | 0, hp1 =>
      simp only [List.getElem?_cons_zero, Option.some.injEq] at hp1
      subst hp1
      rw [ejion] at hp2; cases hp2
    | 1, _ => rfl
    | k + 2, hp1 =>
      exfalso
      simp only [List.getElem?_cons_succ] at hp1
      have hle := g.prods_A p (List.mem_of_getElem? hp1) hp2
      have hlt := hi.aFirst hA0 1 (by omega) { res with charge := qr } (by rw [ev2]; rfl) g.res_ion
      simp only at hlt
      omega
  have o1 : hepOrderInitial st.ev.initial = .ok [a, { b with charge := qb }] := by
    rw [ev1]; simp [hepOrderInitial, g.b_ion]
  have o2 : hepOrderFinal st.ev.final st.leptonIdx st.ionIdx =
      .ok (ej :: { res with charge := qr } :: prods) := by
    rw [il, ii, ev2]; simp [hepOrderFinal]
  have fin := hepFinish_of (st := st) (by rw [hi.nIni, ev1]; rfl)
    (by rw [hi.nIons, ev1]; simp [List.countP_cons, g.a_ion, g.b_ion]) n3 n4 o1 o2
    (tgt := { b with charge := qb }) (ej := ej) (res := { res with charge := qr }) rfl rfl rfl
  rw [fin]
  simp [s2, s3, ionChargeSum, foldl_add_eq, ejion, totalCharge]

/-- **C08**, partial: an event whose target is neutral, and whose residue charge
balances the lepton and the emitted particles, is read back unchanged, provided
no emitted particle that is not an ion is charged (no emitted protons). -/
theorem C08_hepevt_roundtrip_partial [Field K] [CharZero K] (f : DblFmt K) (hf : f.Lawful)
    (hz : f.LawfulZero) (num : Nat) (xsec : K) (e : Event K) (hfit : HepFits num e)
    (a b ej res : Particle K) (prods : List (Particle K)) (g : Generated e a b ej res prods)
    (neutral : b.charge = 0) (balance : ej.charge + res.charge + totalCharge prods = 0)
    (noProtons : ∀ p ∈ prods, Pdg.isIon p.pdg = false → p.charge = 0) (rest : Str) :
    readHepevt f (writeHepevt f num xsec e ++ rest) = .ok (true, e, xsec, some ('\n' :: rest)) := by
  rw [C08_read_written f hf hz num xsec e hfit a b ej res prods g rest]
  have hs : totalCharge prods = totalCharge (prods.filter (fun p => Pdg.isIon p.pdg)) := by
    rw [totalCharge, sum_filter_split prods (fun p => Pdg.isIon p.pdg), List.sum_eq_zero
      (l := (prods.filter (fun p => !Pdg.isIon p.pdg)).map (·.charge)), add_zero, totalCharge]
    intro q hq
    simp only [List.mem_map, List.mem_filter] at hq
    obtain ⟨p, ⟨hp1, hp2⟩, rfl⟩ := hq
    exact noProtons p hp1 (by simpa using hp2)
  have e1 : ({ b with charge := 0 } : Particle K) = b := by cases b; simp_all
  have e2 : ({ res with charge :=
      -ej.charge - totalCharge (prods.filter (fun p => Pdg.isIon p.pdg)) } : Particle K) = res := by
    rw [← hs]
    have : -ej.charge - totalCharge prods = res.charge := by omega
    rw [this]
  rw [e1, e2, ← g.ini, ← g.fin]

theorem sampleEvent_generated : Generated sampleEvent ⟨12, 20, 0, 0, 20, 0, 0⟩
    ⟨1000180400, 37224, 0, 0, 0, 37224, 0⟩ ⟨11, 10, 3, 4, 7, 1/2, -1⟩
    ⟨1000190400, 37230, -3, -4, 13, 37226, 1⟩ [⟨22, 4, 0, 0, 4, 0, 0⟩] := by
  constructor <;> first | rfl | decide | simp [Pdg.isLepton, Pdg.isIon] | (simp; decide)

example (rest : Str) : readHepevt ratFmt (writeHepevt ratFmt 7 (3/2) sampleEvent ++ rest) =
    .ok (true, sampleEvent, 3/2, some ('\n' :: rest)) :=
  C08_hepevt_roundtrip_partial ratFmt ratFmt_lawful ratFmt_zero 7 (3/2) sampleEvent
    ⟨sampleEvent_fits, by decide, by simp [sampleEvent, intMax]⟩ _ _ _ _ _ sampleEvent_generated
    rfl (by decide) (by decide) rest

/-- νₑ + ⁴⁰Ar → e⁻ + ³⁹Ar + p, with balanced charges. -/
def protonEvent : Event ℚ where
  initial := [⟨12, 20, 0, 0, 20, 0, 0⟩, ⟨1000180400, 37224, 0, 0, 0, 37224, 0⟩]
  final := [⟨11, 10, 3, 4, 7, 1/2, -1⟩, ⟨1000180390, 36290, -3, -4, 13, 36284, 0⟩,
    ⟨2212, 940, 0, 0, 0, 938, 1⟩]
  Ex := 12
  twoJ := 2
  parity := ⟨true⟩

/-- **C08** is false in general: with an emitted proton and balanced charges the
event read back differs from the one written (the residue comes back with charge
+1 instead of 0). -/
theorem C08_proton_roundtrip_fails (num : Nat) (hnum : (num : Int) ≤ intMax) (xsec : ℚ)
    (f : DblFmt ℚ) (hf : f.Lawful) (hz : f.LawfulZero) (rest : Str) :
    ∃ e : Event ℚ, totalCharge e.initial = 0 ∧ totalCharge e.final = 0 ∧
      ∃ e', readHepevt f (writeHepevt f num xsec e ++ rest) =
        .ok (true, e', xsec, some ('\n' :: rest)) ∧ e' ≠ e ∧ totalCharge e'.final = 1 := by
  refine ⟨protonEvent, by decide, by decide, _, C08_read_written f hf hz num xsec protonEvent
    ⟨by simp [protonEvent, Event.Fits, Particle.Fits, intMin, intMax], hnum,
      by simp [protonEvent, intMax]⟩
    ⟨12, 20, 0, 0, 20, 0, 0⟩ ⟨1000180400, 37224, 0, 0, 0, 37224, 0⟩ ⟨11, 10, 3, 4, 7, 1/2, -1⟩
    ⟨1000180390, 36290, -3, -4, 13, 36284, 0⟩ [⟨2212, 940, 0, 0, 0, 938, 1⟩]
    ?_ rest, ?_, ?_⟩
  · constructor <;> first | rfl | decide | simp [Pdg.isLepton, Pdg.isIon] | (simp; decide)
  · simp [protonEvent, totalCharge, Pdg.isIon]
  · simp [totalCharge, Pdg.isIon]

example : ∃ e : Event ℚ, totalCharge e.initial = 0 ∧ totalCharge e.final = 0 ∧
      ∃ e', readHepevt ratFmt (writeHepevt ratFmt 0 1 e ++ []) =
        .ok (true, e', 1, some ['\n']) ∧ e' ≠ e ∧ totalCharge e'.final = 1 :=
  C08_proton_roundtrip_fails 0 (by decide) 1 ratFmt ratFmt_lawful ratFmt_zero []

/-- An addition to **C08**: an event without exactly one initial ion — in
particular every neutrino–electron scattering event, whose target is an
electron — can be written in HEPEVT format but is rejected when read back. -/
theorem C08_electron_target_rejected [Field K] [CharZero K] (f : DblFmt K) (hf : f.Lawful)
    (hz : f.LawfulZero) (num : Nat) (xsec : K) (e : Event K) (hfit : HepFits num e)
    (hions : e.initial.countP (fun p => Pdg.isIon p.pdg) ≠ 1)
    (hknown : ∀ p ∈ e.initial ++ e.final, ∃ q, Pdg.charge p.pdg = .ok q) (rest : Str) :
    readHepevt f (writeHepevt f num xsec e ++ rest) = .error .marleyError := by
  have ex : ∀ l : List (Particle K), (∀ p ∈ l, ∃ q, Pdg.charge p.pdg = .ok q) →
      ∃ l', List.Forall₂ BareOf l l' ∧
        l'.countP (fun p => Pdg.isIon p.pdg) = l.countP (fun p => Pdg.isIon p.pdg) := by
    intro l hl
    induction l with
    | nil => exact ⟨[], .nil, rfl⟩
    | cons p l ih =>
      obtain ⟨q, hq⟩ := hl p (by simp)
      obtain ⟨l', h1, h2⟩ := ih (fun p hp => hl p (by simp [hp]))
      exact ⟨{ p with charge := q } :: l', .cons ⟨q, hq, rfl⟩ h1, by simp [List.countP_cons, h2]⟩
  obtain ⟨ini', i1, i2⟩ := ex e.initial (fun p hp => hknown p (by simp [hp]))
  obtain ⟨fin', f1, -⟩ := ex e.final (fun p hp => hknown p (by simp [hp]))
  obtain ⟨st, s1, s2, s3⟩ := fold_hepRecs e xsec i1 f1
  have hi := inv_fold [] _ _ _ inv_init s1
  rw [List.nil_append] at hi
  rw [readHepevt_written f hf hz num xsec e hfit rest, s1]
  have n : st.nInitialIons ≠ 1 := by rw [hi.nIons, s2]; simpa [i2] using hions
  have : hepFinish st = .error .marleyError := by
    rw [hepFinish]
    by_cases h2 : st.nInitial ≠ 2
    · rw [if_pos h2]; rfl
    · rw [if_neg h2, if_pos n]; rfl
  simp [this]

/-- νₑ + e⁻ → νₑ + e⁻ -/
def electronEvent : Event ℚ where
  initial := [⟨12, 20, 0, 0, 20, 0, 0⟩, ⟨11, 1/2, 0, 0, 0, 1/2, -1⟩]
  final := [⟨12, 10, 3, 4, 7, 0, 0⟩, ⟨11, 10, -3, -4, 13, 1/2, -1⟩]
  Ex := 0
  twoJ := 1
  parity := ⟨true⟩

example (rest : Str) : readHepevt ratFmt (writeHepevt ratFmt 3 1 electronEvent ++ rest) =
    .error .marleyError :=
  C08_electron_target_rejected ratFmt ratFmt_lawful ratFmt_zero 3 1 electronEvent
    ⟨by simp [electronEvent, Event.Fits, Particle.Fits, intMin, intMax], by decide,
      by simp [electronEvent, intMax]⟩ (by decide)
    (by
      intro p hp
      simp only [electronEvent, List.cons_append, List.nil_append, List.mem_cons,
        List.not_mem_nil, or_false] at hp
      rcases hp with rfl | rfl | rfl | rfl <;> exact ⟨_, rfl⟩) rest

/-- The conditions of C09 and C10 are met by the lines of `protonEvent`, which is
read back successfully by `C08_proton_roundtrip_fails`. -/
example : HeaviestNotFirst (finals (hepRecs protonEvent 1)) ∧
    (∀ r ∈ initials (hepRecs protonEvent 1), Pdg.isIon r.pdg = false → tableCharge r.pdg = 0) ∧
    (∀ r ∈ finals (hepRecs protonEvent 1), Other r.pdg = true →
      r.pdg = 2212 ∨ r.pdg = 2112 ∨ r.pdg = 22) := by
  refine ⟨⟨hepRec ⟨1000180390, 36290, -3, -4, 13, 36284, 0⟩ FINAL_CODE 0 0, ?_, ?_, ?_, ?_⟩, ?_, ?_⟩
  · simp [finals, hepRecs, protonEvent, hepRec, FINAL_CODE, INITIAL_CODE, INFO_CODE]
  all_goals decide

example : HeaviestNotFirst (finals (hepRecs sampleEvent 1)) ∧
    (∀ r ∈ initials (hepRecs sampleEvent 1), Pdg.isIon r.pdg = false → tableCharge r.pdg = 0) ∧
    (∀ r ∈ finals (hepRecs sampleEvent 1), Other r.pdg = true → tableCharge r.pdg = 0) := by
  refine ⟨⟨hepRec ⟨1000190400, 37230, -3, -4, 13, 37226, 1⟩ FINAL_CODE 0 0, ?_, ?_, ?_, ?_⟩, ?_, ?_⟩
  · simp [finals, hepRecs, sampleEvent, hepRec, FINAL_CODE, INITIAL_CODE, INFO_CODE]
  all_goals decide

end Marley.Props
