import Verif.Spec.EventReader
import Verif.Lemmas.HepevtRoundTrip
import Mathlib.Tactic.SplitIfs
import Mathlib.Tactic.NormNum

/-! Helper lemmas about the event file reader. -/

set_option autoImplicit false

namespace Marley.Rdr
open Marley Marley.Json Marley.Out

variable {K : Type}

theorem ensure_done [Ring K] {F : TextFmt K} {ofLong : Int → K} {d : OnDisk} {s : Sys K}
    (h : s.reader.initialized = true) : ensure F ofLong d s = (s, .ok ()) := by
  simp [ensure, h]

theorem emptyEvent_eq [Zero K] : (emptyEvent : Event K) = blankEvent := rfl

theorem unitFactor_eq [DivisionRing K] : (unitFactor : K) = squareInverseMeV := by
  rw [unitFactor, squareInverseMeV, mul_assoc]
  norm_num

/-- The first use only makes the reader ready. -/
theorem ask_ensure [DivisionRing K] {F : TextFmt K} {ofLong : Int → K} {d : OnDisk} {s s1 : Sys K}
    (h : ensure F ofLong d s = (s1, .ok ())) (h1 : s1.reader.initialized = true) (o : Op)
    (ho : o ≠ .good) : ask F ofLong d s o = ask F ofLong d s1 o := by
  cases o with
  | next => simp only [ask, nextEvent, h, ensure_done h1]
  | flux n => simp only [ask, fluxXsec, h, ensure_done h1]
  | good => exact absurd rfl ho

/-- What a relation between readers and books must satisfy. -/
structure Sim [DivisionRing K] (F : TextFmt K) (ofLong : Int → K) (d : OnDisk) (lim : Bool)
    (R : Sys K → Book K → Prop) : Prop where
  ready : ∀ s b, R s b → s.reader.initialized = true
  shown : ∀ s b, R s b → s.reader.xsec = b.shown
  good : ∀ s b, R s b → Rdr.good s.reader = .ok (!b.ended)
  more : ∀ s b e x t, R s b → b.rest = (e, x) :: t → b.ended = false →
    ∃ s', nextEvent F ofLong d s = (s', .ok (true, e)) ∧ R s' { b with rest := t, shown := x }
  last : ∀ s b, R s b → b.rest = [] → (lim = true → b.ended = false) →
    ∃ s', nextEvent F ofLong d s = (s', .ok (false, emptyEvent)) ∧
      R s' { b with shown := b.atEnd, ended := true }

theorem Sim.answers [DivisionRing K] {F : TextFmt K} {ofLong : Int → K} {d : OnDisk} {lim : Bool}
    {R : Sys K → Book K → Prop} (h : Sim F ofLong d lim R) (ops : List Op) (s : Sys K) (b : Book K)
    (hR : R s b) (hend : b.ended = true → b.rest = [])
    (hl : lim = true → ops.count .next ≤ if b.ended then 0 else b.rest.length + 1) :
    Rdr.answers F ofLong d s ops = expected b ops := by
  induction ops generalizing s b with
  | nil => rfl
  | cons o l ih =>
    cases o with
    | next =>
      rcases hb : b.rest with _ | ⟨⟨e, x⟩, t⟩
      · have hlim : lim = true → b.ended = false := by
          intro hlm
          have := hl hlm
          by_contra hc
          rw [Bool.not_eq_false] at hc
          simp [hc] at this
        obtain ⟨s', h1, h2⟩ := h.last s b hR hb hlim
        have e1 : ask F ofLong d s .next = (s', .event false blankEvent) := by
          simp only [ask, h1, emptyEvent_eq]
        rw [hb] at h2
        rw [Rdr.answers, expected, hb, e1]
        refine congrArg _ (ih _ _ h2 (fun _ => rfl) ?_)
        intro hlm
        have := hl hlm
        rw [hlim hlm, hb, List.count_cons_self] at this
        simpa using this
      · have hend' : b.ended = false := by
          by_contra hc
          rw [Bool.not_eq_false] at hc
          rw [hend hc] at hb
          cases hb
        obtain ⟨s', h1, h2⟩ := h.more s b e x t hR hb hend'
        have e1 : ask F ofLong d s .next = (s', .event true e) := by
          simp only [ask, h1]
        rw [Rdr.answers, expected, hb, e1]
        refine congrArg _ (ih _ _ h2 (by simp [hend']) ?_)
        intro hlm
        have := hl hlm
        rw [hend', hb, List.count_cons_self] at this
        simp only [hend']
        simpa using this
    | flux n =>
      have e1 : ask F ofLong d s (.flux n) =
          (s, .xsec (if n then b.shown else b.shown * squareInverseMeV)) := by
        simp only [ask, fluxXsec, ensure_done (h.ready s b hR), h.shown s b hR, unitFactor_eq]
      rw [Rdr.answers, expected, e1]
      refine congrArg _ (ih _ _ hR hend ?_)
      intro hlm
      have := hl hlm
      rwa [List.count_cons_of_ne (by simp)] at this
    | good =>
      have e1 : ask F ofLong d s .good = (s, .good (!b.ended)) := by
        simp only [ask, h.good s b hR]
      rw [Rdr.answers, expected, e1]
      refine congrArg _ (ih _ _ hR hend ?_)
      intro hlm
      have := hl hlm
      rwa [List.count_cons_of_ne (by simp)] at this

theorem Sim.first [DivisionRing K] {F : TextFmt K} {ofLong : Int → K} {d : OnDisk} {lim : Bool}
    {R : Sys K → Book K → Prop} (h : Sim F ofLong d lim R) {s s1 : Sys K} {b : Book K}
    (he : ensure F ofLong d s = (s1, .ok ())) (hR : R s1 b) (hend : b.ended = false) (ops : List Op)
    (hh : ops.head? ≠ some .good) (hl : lim = true → ops.count .next ≤ b.rest.length + 1) :
    Rdr.answers F ofLong d s ops = expected b ops := by
  have h1 := h.answers ops s1 b hR (by simp [hend]) (by simpa [hend] using hl)
  rw [← h1]
  cases ops with
  | nil => rfl
  | cons o l =>
    have ho : o ≠ .good := fun h => hh (by simp [h])
    rw [Rdr.answers, Rdr.answers, ask_ensure he (h.ready _ _ hR) o ho]

/-! ## ASCII -/

/-- A reader in the middle of an ASCII file. -/
def AsciiAt (f : DblFmt K) (s : Sys K) (b : Book K) : Prop :=
  s.reader.initialized = true ∧ s.reader.format = some .ascii ∧ s.reader.xsec = b.shown ∧
  b.atEnd = b.shown ∧ (∀ p ∈ b.rest, p.2 = b.shown) ∧ (∀ p ∈ b.rest, AsciiOk p.1) ∧
  if b.ended then s.reader.stream = none
  else s.reader.stream = some ('\n' :: (b.rest.map Prod.fst).flatMap (Event.print f))

theorem read_newline [Zero K] (f : DblFmt K) :
    Event.read f ['\n'] = .ok (Event.cleared, none) := by
  simp [Event.read, readInt, splitSign2, skipBlank, isSpace]

theorem ascii_sim [DivisionRing K] {F : TextFmt K} (hf : F.dbl.Lawful) (ofLong : Int → K)
    (d : OnDisk) : Sim F ofLong d false (AsciiAt F.dbl) where
  ready := fun s b h => h.1
  shown := fun s b h => h.2.2.1
  good := by
    rintro s b ⟨-, h2, -, -, -, -, h7⟩
    by_cases he : b.ended = true
    · rw [if_pos he] at h7
      simp [Rdr.good, h2, h7, he]
    · rw [if_neg he] at h7
      simp [Rdr.good, h2, h7, he]
  more := by
    rintro s b e x t ⟨h1, h2, h3, h4, h5, h6, h7⟩ hb he
    rw [hb, he] at h7
    simp only [Bool.false_eq_true, if_false, List.map_cons, List.flatMap_cons] at h7
    obtain ⟨a1, a2, a3⟩ := h6 (e, x) (by rw [hb]; simp)
    have hread : Event.read F.dbl ('\n' :: (Event.print F.dbl e ++
        (t.map Prod.fst).flatMap (Event.print F.dbl))) = .ok (e, some ('\n' ::
          (t.map Prod.fst).flatMap (Event.print F.dbl))) := by
      rw [Event.read_space nl, Event.read_print hf e a1 a2 a3]
    generalize hu : ((t.map Prod.fst).flatMap (Event.print F.dbl)) = u at hread h7
    refine ⟨{ s with reader := { s.reader with stream := some ('\n' :: u) } }, ?_, ?_⟩
    · simp only [nextEvent, ensure_done h1, h2, nextAscii, h7, hread]
    · have hx : x = b.shown := h5 (e, x) (by rw [hb]; simp)
      refine ⟨h1, h2, ?_, ?_, ?_, ?_, ?_⟩
      · exact h3.trans hx.symm
      · exact h4.trans hx.symm
      · intro p hp
        exact (h5 p (by rw [hb]; simp [hp])).trans hx.symm
      · intro p hp
        exact h6 p (by rw [hb]; simp [hp])
      · simp [he, hu]
  last := by
    rintro s b ⟨h1, h2, h3, h4, h5, h6, h7⟩ hb -
    by_cases he : b.ended = true
    · rw [if_pos he] at h7
      refine ⟨s, ?_, h1, h2, ?_, rfl, ?_, ?_, ?_⟩
      · simp only [nextEvent, ensure_done h1, h2, nextAscii, h7]
      · exact h3.trans h4.symm
      · simp [hb]
      · simp [hb]
      · simpa using h7
    · rw [if_neg he, hb] at h7
      simp only [List.map_nil, List.flatMap_nil] at h7
      refine ⟨{ s with reader := { s.reader with stream := none } }, ?_, ?_⟩
      · simp only [nextEvent, ensure_done h1, h2, nextAscii, h7, read_newline]
      · exact ⟨h1, h2, h3.trans h4.symm, rfl, by simp [hb], by simp [hb], by simp⟩

theorem ascii_ensure [Ring K] {F : TextFmt K} (hf : F.dbl.Lawful) (ofLong : Int → K) (lg : Bool)
    (x : K) (e : Event K) (es : List (Event K)) (he : AsciiOk e) :
    ensure F ofLong ⟨true, some (asciiFile F.dbl x (e :: es))⟩ ⟨lg, fresh⟩ =
      (⟨false, ⟨some .ascii, true, some ('\n' :: (e :: es).flatMap (Event.print F.dbl)), none, 0, x,
        true⟩⟩, .ok ()) := by
  obtain ⟨a1, a2, a3⟩ := he
  have hget : F.dbl.get (asciiFile F.dbl x (e :: es)) =
      some (x, '\n' :: (e :: es).flatMap (Event.print F.dbl)) := by
    rw [asciiFile, get_print hf x nl]
  have hread : Event.read F.dbl ('\n' :: (e :: es).flatMap (Event.print F.dbl)) =
      .ok (e, some ('\n' :: es.flatMap (Event.print F.dbl))) := by
    rw [List.flatMap_cons, Event.read_space nl, Event.read_print hf e a1 a2 a3]
  have htry : tryAscii F.dbl (asciiFile F.dbl x (e :: es)) = .ok (some x) := by
    simp only [tryAscii, hget, hread]
  have hfirst : firstChar (asciiFile F.dbl x (e :: es)) ≠ some '{' := by
    obtain ⟨c, t, h1, h2⟩ := hf.head x
    have h3 := numStart_not_space h2
    rw [asciiFile, h1, firstChar, List.cons_append, skipBlank_cons h3]
    simp only [List.head?_cons, ne_eq, Option.some.injEq]
    rintro rfl
    revert h2; decide
  simp only [ensure, fresh, Bool.false_eq_true, if_false, deduce, htry, hfirst, and_false,
    recognised, initReader, hget, Bool.true_eq_false]

/-! ## HEPEVT -/

theorem readHepevt_space [Ring K] (f : DblFmt K) {c : Char} (hc : isSpace c = true) (t : Str) :
    Event.readHepevt f (c :: t) = Event.readHepevt f t := by
  simp only [Event.readHepevt, readInt_space hc]

/-- The event comes back from its HEPEVT record. -/
def HepOk [DivisionRing K] (f : DblFmt K) (e : Event K) : Prop :=
  ∀ x rest, Event.readHepevt f (Event.writeHepevt f 0 x e ++ rest) =
    .ok (true, e, x, some ('\n' :: rest))

/-- A reader in the middle of a HEPEVT file; `ws` is empty or a line break. -/
def HepevtAt [DivisionRing K] (f : DblFmt K) (s : Sys K) (b : Book K) : Prop :=
  s.reader.initialized = true ∧ s.reader.format = some .hepevt ∧ s.reader.xsec = b.shown ∧
  b.atEnd = 0 ∧ (∀ p ∈ b.rest, HepOk f p.1) ∧
  if b.ended then s.reader.stream = none
  else ∃ ws : Str, (∀ c ∈ ws, c = '\n') ∧ s.reader.stream = some (ws ++ hepevtFile f b.rest)

theorem readHepevt_ws [Ring K] (f : DblFmt K) (ws t : Str) (h : ∀ c ∈ ws, c = '\n') :
    Event.readHepevt f (ws ++ t) = Event.readHepevt f t := by
  induction ws with
  | nil => rfl
  | cons c ws ih =>
    rw [List.cons_append, readHepevt_space f (by rw [h c (by simp)]; decide),
      ih (fun c hc => h c (by simp [hc]))]

theorem readHepevt_nil [Ring K] (f : DblFmt K) :
    Event.readHepevt f [] = .ok (false, Event.cleared, 0, none) := by
  simp [Event.readHepevt, readInt, splitSign2]

theorem hepevt_sim [DivisionRing K] {F : TextFmt K} (ofLong : Int → K)
    (d : OnDisk) : Sim F ofLong d false (HepevtAt F.dbl) where
  ready := fun s b h => h.1
  shown := fun s b h => h.2.2.1
  good := by
    rintro s b ⟨-, h2, -, -, -, h7⟩
    by_cases he : b.ended = true
    · rw [if_pos he] at h7
      simp [Rdr.good, h2, h7, he]
    · rw [if_neg he] at h7
      obtain ⟨ws, -, h7⟩ := h7
      simp [Rdr.good, h2, h7, he]
  more := by
    rintro s b e x t ⟨h1, h2, h3, h4, h6, h7⟩ hb he
    rw [hb, he] at h7
    simp only [Bool.false_eq_true, if_false] at h7
    obtain ⟨ws, hws, h7⟩ := h7
    have a1 := h6 (e, x) (by rw [hb]; simp)
    have hread : Event.readHepevt F.dbl (ws ++ hepevtFile F.dbl ((e, x) :: t)) =
        .ok (true, e, x, some ('\n' :: hepevtFile F.dbl t)) := by
      rw [readHepevt_ws _ _ _ hws, hepevtFile, List.flatMap_cons]
      exact a1 x _
    generalize hu : hepevtFile F.dbl t = u at hread
    refine ⟨⟨s.logging, { s.reader with stream := some ('\n' :: u), xsec := x }⟩, ?_, h1, h2, rfl,
      h4, ?_, ?_⟩
    · simp only [nextEvent, ensure_done h1, h2, nextHepevt, h7, hread]
    · intro p hp
      exact h6 p (by rw [hb]; simp [hp])
    · simp only [he, Bool.false_eq_true, if_false]
      exact ⟨['\n'], by simp, by rw [hu]; rfl⟩
  last := by
    rintro s b ⟨h1, h2, h3, h4, h6, h7⟩ hb -
    by_cases he : b.ended = true
    · rw [if_pos he] at h7
      refine ⟨{ s with reader := { s.reader with xsec := 0 } }, ?_, h1, h2, h4.symm, h4, ?_, ?_⟩
      · simp only [nextEvent, ensure_done h1, h2, nextHepevt, h7]
      · simp [hb]
      · simpa using h7
    · rw [if_neg he, hb] at h7
      obtain ⟨ws, hws, h7⟩ := h7
      have hread : Event.readHepevt F.dbl (ws ++ hepevtFile F.dbl []) =
          .ok (false, Event.cleared, 0, none) := by
        rw [readHepevt_ws _ _ _ hws, hepevtFile, List.flatMap_nil, readHepevt_nil]
      refine ⟨{ s with reader := { s.reader with stream := none, xsec := 0 } }, ?_, h1, h2,
        h4.symm, h4, ?_, ?_⟩
      · simp only [nextEvent, ensure_done h1, h2, nextHepevt, h7, hread]
      · simp [hb]
      · simp

theorem natText_0 : natText 0 = ['0'] := by decide +kernel
theorem intText_0 : intText 0 = ['0'] := by decide +kernel
theorem intText_3 : intText 3 = ['3'] := by decide +kernel

/-- A HEPEVT record is not taken for an ASCII file: the parity would be the digit 0. -/
theorem hepevt_not_ascii [DivisionRing K] {f : DblFmt K} (hi : LawfulInt f) (x : K) (e : Event K)
    (hini : e.initial ≠ []) (hpdg : ∀ p ∈ e.initial, intMin ≤ p.pdg ∧ p.pdg ≤ intMax)
    (hlen : (1 + e.initial.length + e.final.length : Int) ≤ intMax) (rest : Str) :
    tryAscii f (Event.writeHepevt f 0 x e ++ rest) = .error .marleyError := by
  rcases hl : e.initial with _ | ⟨p, l⟩
  · exact absurd hl hini
  have hw : ∃ t, Event.writeHepevt f 0 x e ++ rest = '0' :: ' ' :: (natText
      (1 + e.initial.length + e.final.length) ++ '\n' :: '3' :: ' ' :: (intText p.pdg ++
        ' ' :: '0' :: ' ' :: '0' :: t)) := by
    rw [Event.writeHepevt, Event.hepRecs, hl]
    simp only [List.map_cons, List.cons_append, List.flatMap_cons, Event.printRec, Event.hepRec,
      Event.INITIAL_CODE, List.append_assoc, List.length_cons, natText_0, intText_0, intText_3]
    exact ⟨_, rfl⟩
  obtain ⟨t, hw⟩ := hw
  rw [hw]
  have h0 : ∃ y, f.get ('0' :: ' ' :: (natText (1 + e.initial.length + e.final.length) ++ '\n' ::
      '3' :: ' ' :: (intText p.pdg ++ ' ' :: '0' :: ' ' :: '0' :: t))) = some (y, ' ' :: (natText
      (1 + e.initial.length + e.final.length) ++ '\n' :: '3' :: ' ' :: (intText p.pdg ++
        ' ' :: '0' :: ' ' :: '0' :: t))) := by
    obtain ⟨y, hy⟩ := hi 0 ' ' (natText (1 + e.initial.length + e.final.length) ++ '\n' ::
      '3' :: ' ' :: (intText p.pdg ++ ' ' :: '0' :: ' ' :: '0' :: t)) sp
    refine ⟨y, ?_⟩
    rw [DblFmt.get, skipBlank_cons (by decide)]
    rw [intText_0] at hy
    exact hy
  obtain ⟨y, h0⟩ := h0
  have h1 : readInt (' ' :: (natText (1 + e.initial.length + e.final.length) ++ '\n' ::
      '3' :: ' ' :: (intText p.pdg ++ ' ' :: '0' :: ' ' :: '0' :: t))) =
      some (((1 + e.initial.length + e.final.length : Nat) : Int), '\n' :: '3' :: ' ' ::
        (intText p.pdg ++ ' ' :: '0' :: ' ' :: '0' :: t)) := by
    rw [readInt_space sp]
    exact readInt_natText (by push_cast; exact hlen) nld _
  have h2 : readInt ('\n' :: '3' :: ' ' :: (intText p.pdg ++ ' ' :: '0' :: ' ' :: '0' :: t)) =
      some (3, ' ' :: (intText p.pdg ++ ' ' :: '0' :: ' ' :: '0' :: t)) := by
    rw [readInt_space nl]
    have := readInt_intText (n := 3) (by decide) spd (intText p.pdg ++ ' ' :: '0' :: ' ' :: '0' :: t)
    rwa [intText_3] at this
  have h3 : ∃ z, f.get (' ' :: (intText p.pdg ++ ' ' :: '0' :: ' ' :: '0' :: t)) =
      some (z, ' ' :: '0' :: ' ' :: '0' :: t) := by
    obtain ⟨z, hz⟩ := hi p.pdg ' ' ('0' :: ' ' :: '0' :: t) sp
    refine ⟨z, ?_⟩
    rw [get_space f sp, DblFmt.get]
    obtain ⟨c, u, e1, e2⟩ : ∃ c u, intText p.pdg = c :: u ∧ isSpace c = false := by
      cases h : intText p.pdg with
      | nil =>
        rw [intText_eq] at h
        exact absurd (List.append_eq_nil_iff.1 h).2 (Json.natText_ne_nil _)
      | cons c u =>
        refine ⟨c, u, rfl, ?_⟩
        rcases intText_chars p.pdg c (by rw [h]; simp) with h | h
        · exact isDigit_not_space h
        · subst h; decide
    rw [e1] at hz ⊢
    rw [List.cons_append, skipBlank_cons e2]
    exact hz
  obtain ⟨z, h3⟩ := h3
  have h4 : readInt (' ' :: '0' :: ' ' :: '0' :: t) = some (0, ' ' :: '0' :: t) := by
    rw [readInt_space sp]
    exact Event.readInt_zero _
  have h5 : Parity.read (' ' :: '0' :: t) = .error .marleyError := by
    simp [Parity.read, Parity.isSpace, Parity.ofChar]
  simp only [tryAscii, h0, Event.read, h1, h2, h3, h4, h5]

theorem hepevt_ensure [DivisionRing K] {F : TextFmt K} (hi : LawfulInt F.dbl) (ofLong : Int → K)
    (lg : Bool) (x : K) (e : Event K) (l : List (Event K × K)) (hini : e.initial ≠ [])
    (hpdg : ∀ p ∈ e.initial, intMin ≤ p.pdg ∧ p.pdg ≤ intMax)
    (hlen : (1 + e.initial.length + e.final.length : Int) ≤ intMax) (he : HepOk F.dbl e) :
    ensure F ofLong ⟨true, some (hepevtFile F.dbl ((e, x) :: l))⟩ ⟨lg, fresh⟩ =
      (⟨false, ⟨some .hepevt, true, some (hepevtFile F.dbl ((e, x) :: l)), none, 0, x, true⟩⟩,
        .ok ()) := by
  have htry : tryAscii F.dbl (hepevtFile F.dbl ((e, x) :: l)) = .error .marleyError := by
    rw [hepevtFile, List.flatMap_cons]
    exact hepevt_not_ascii hi x e hini hpdg hlen _
  have hread : Event.readHepevt F.dbl (hepevtFile F.dbl ((e, x) :: l)) =
      .ok (true, e, x, some ('\n' :: hepevtFile F.dbl l)) := by
    rw [hepevtFile, List.flatMap_cons]
    exact he x _
  have hfirst : firstChar (hepevtFile F.dbl ((e, x) :: l)) ≠ some '{' := by
    have : ∃ t, hepevtFile F.dbl ((e, x) :: l) = '0' :: t := by
      rw [hepevtFile, List.flatMap_cons, Event.writeHepevt, natText_0]
      exact ⟨_, rfl⟩
    obtain ⟨t, ht⟩ := this
    rw [ht, firstChar, skipBlank_cons (by decide)]
    simp
  simp only [ensure, fresh, Bool.false_eq_true, if_false, deduce, htry, hfirst, and_false,
    recognised, initReader, tryHepevt, hread, Bool.true_eq_false]

/-! ## JSON -/

/-- A reader in the middle of a JSON file with the events `es`. -/
def JsonAt (ofLong : Int → K) (s : Sys K) (b : Book K) : Prop :=
  s.reader.initialized = true ∧ s.reader.format = some .json ∧ s.reader.xsec = b.shown ∧
  b.atEnd = b.shown ∧ (∀ p ∈ b.rest, p.2 = b.shown) ∧
  ∃ old l, s.reader.events = some (old ++ l) ∧
    l.map (Event.fromJson ofLong) = b.rest.map (fun p => .ok p.1) ∧
    (b.ended = true → l = []) ∧ s.reader.seen = old.length + if b.ended then 1 else 0

theorem json_sim [DivisionRing K] {F : TextFmt K} (ofLong : Int → K)
    (d : OnDisk) : Sim F ofLong d true (JsonAt ofLong) where
  ready := fun s b h => h.1
  shown := fun s b h => h.2.2.1
  good := by
    rintro s b ⟨-, h2, -, -, -, old, l, h6, -, h8, h9⟩
    by_cases he : b.ended = true
    · simp only [he, if_true] at h9
      simp [Rdr.good, h2, h6, he, h9, h8 he]
    · simp only [he] at h9
      have h10 : s.reader.seen ≠ (old ++ l).length + 1 := by simp [h9]; omega
      simp [Rdr.good, h2, h6, he, h10, -List.length_append]
  more := by
    rintro s b e x t ⟨h1, h2, h3, h4, h5, old, l, h6, h7, -, h9⟩ hb he
    rw [hb] at h7
    rw [he] at h9
    have hx : x = b.shown := h5 (e, x) (by rw [hb]; simp)
    cases l with
    | nil => simp at h7
    | cons v l =>
      simp only [List.map_cons, List.cons.injEq] at h7
      have h9' : s.reader.seen = old.length := by simpa using h9
      have hne : ¬ (s.reader.seen + 1 = (old ++ v :: l).length + 1) := by
        rw [h9']; simp
      have hget : (old ++ v :: l)[s.reader.seen + 1 - 1]? = some v := by
        rw [h9']; simp
      refine ⟨{ s with reader := { s.reader with seen := s.reader.seen + 1 } }, ?_, h1, h2,
        h3.trans hx.symm, h4.trans hx.symm, ?_, old ++ [v], l, ?_, h7.2, ?_, ?_⟩
      · simp only [nextEvent, ensure_done h1, h2, nextJson, h6, if_neg hne, hget, h7.1]
      · intro p hp
        exact (h5 p (by rw [hb]; simp [hp])).trans hx.symm
      · simp [h6]
      · simp [he]
      · simp [he, h9']
  last := by
    rintro s b ⟨h1, h2, h3, h4, h5, old, l, h6, h7, -, h9⟩ hb he
    have he := he rfl
    rw [hb] at h7
    rw [he] at h9
    have hl : l = [] := by simpa using h7
    subst hl
    have h9' : s.reader.seen = old.length := by simpa using h9
    have heq : s.reader.seen + 1 = (old ++ []).length + 1 := by rw [h9']; simp
    refine ⟨{ s with reader := { s.reader with seen := s.reader.seen + 1 } }, ?_, h1, h2,
      h3.trans h4.symm, rfl, ?_, old, [], h6, ?_, fun _ => rfl, ?_⟩
    · simp only [nextEvent, ensure_done h1, h2, nextJson, h6, if_pos heq]
    · simp [hb]
    · simp [hb]
    · simp [h9']

theorem json_ensure [Ring K] {F : TextFmt K} (ofLong : Int → K) (lg : Bool) (text : Str)
    (doc : JVal K) (rest : Str) (l : List (JVal K)) (hfirst : firstChar text = some '{')
    (hload : loadStream F.json text = .ok doc rest) (hev : eventArray doc = some l) :
    ensure F ofLong ⟨true, some text⟩ ⟨lg, fresh⟩ =
      (⟨false, ⟨some .json, true, some text, some l, 0, fluxOf ofLong doc, true⟩⟩, .ok ()) := by
  simp only [ensure, fresh, Bool.false_eq_true, if_false, deduce, hfirst, and_self, if_true,
    recognised, initReader, Option.getD_some, initJson, hload, hev, Bool.true_eq_false]

/-! ## A format that also reads integers -/

open Classical in
/-- Rational numbers written `num/den`, integers without denominator understood; used only
to show that the assumptions about formats can be satisfied. -/
noncomputable def ratIntFmt : DblFmt ℚ where
  print := ratText
  read s :=
    let tok := s.takeWhile (fun c => !isSpace c)
    if h : ∃ n, intText n = tok then some ((h.choose : ℚ), s.dropWhile (fun c => !isSpace c))
    else ratFmt.read s

theorem intText_head (n : Int) : ∃ c t, intText n = c :: t ∧ numStart c = true := by
  cases e : intText n with
  | nil =>
    rw [intText_eq] at e
    exact absurd (List.append_eq_nil_iff.1 e).2 (Json.natText_ne_nil _)
  | cons c t =>
    refine ⟨c, t, rfl, ?_⟩
    rcases intText_chars n c (by simp [e]) with h | h
    · simp [numStart, h]
    · subst h; decide

theorem ratIntFmt_lawful : ratIntFmt.Lawful where
  head := ratText_head
  read_print := by
    intro x c t hc
    have hs : ∀ d ∈ ratText x, (fun c => !isSpace c) d = true := by
      intro d hd; simp [ratText_chars x d hd]
    have hc' : (fun c => !isSpace c) c = false := by simp [hc]
    have h1 : (ratText x ++ c :: t).takeWhile (fun c => !isSpace c) = ratText x :=
      Json.takeWhile_append_stop hs hc' t
    simp only [ratIntFmt]
    rw [dif_neg]
    · exact ratFmt_lawful.read_print x c t hc
    · rw [h1]
      rintro ⟨n, hn⟩
      have : '/' ∈ intText n := by rw [hn]; simp [ratText]
      rcases intText_chars n _ this with h | h <;> revert h <;> decide
  read_nil := by
    simp only [ratIntFmt]
    rw [dif_neg]
    · exact ratFmt_lawful.read_nil
    · rintro ⟨n, hn⟩
      obtain ⟨c, t, e, -⟩ := intText_head n
      rw [e] at hn; simp at hn
  read_bad := by
    intro c t h
    simp only [ratIntFmt]
    rw [dif_neg]
    · exact ratFmt_lawful.read_bad c t h
    · rintro ⟨n, hn⟩
      obtain ⟨d, u, e, hd⟩ := intText_head n
      rw [e] at hn
      by_cases hc : isSpace c = true
      · simp [List.takeWhile_cons, hc] at hn
      · simp only [List.takeWhile_cons, hc] at hn
        simp at hn
        rw [hn.1, h] at hd; cases hd

theorem ratIntFmt_zero : ratIntFmt.LawfulZero := by
  intro c t hc
  have hc' : (fun c => !isSpace c) c = false := by simp [hc]
  have hs : ∀ d ∈ (['0', '.'] : Str), (fun c => !isSpace c) d = true := by decide
  have h1 := Json.takeWhile_append_stop hs hc' t
  simp only [ratIntFmt]
  rw [dif_neg]
  · exact ratFmt_zero c t hc
  · rw [h1]
    rintro ⟨n, hn⟩
    have : '.' ∈ intText n := by rw [hn]; simp
    rcases intText_chars n _ this with h | h <;> revert h <;> decide

theorem ratIntFmt_int : LawfulInt ratIntFmt := by
  intro n c t hc
  have hc' : (fun c => !isSpace c) c = false := by simp [hc]
  have hs : ∀ d ∈ intText n, (fun c => !isSpace c) d = true := by
    intro d hd
    rcases intText_chars n d hd with h | h
    · simp [isDigit_not_space h]
    · subst h; decide
  have h1 := Json.takeWhile_append_stop hs hc' t
  have h2 := Json.dropWhile_append_stop hs hc' t
  simp only [ratIntFmt]
  rw [dif_pos ⟨n, h1.symm⟩, h2]
  exact ⟨_, rfl⟩

end Marley.Rdr
