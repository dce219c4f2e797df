import Verif.Lemmas.EventReader
import Verif.Props.EventLoop
import Verif.Props.EventHepevt

/-!
# C65 and C66: reading event files

`ReadsAs text b` (see `Verif.Spec.EventReader`): whatever sequence of questions is put to
a new reader of a file with that text, the answers are those of the book `b`.
-/

set_option autoImplicit false

namespace Marley.Props
open Marley Marley.Json Marley.Out Marley.Rdr

variable {K γ : Type}

/-! ## C65: ASCII -/

/-- **C65**, ASCII: a file with a cross section and at least one event is read exactly: all
events in order, then the end, again and again; the cross section is the one written, at
all times; the reader can be used until it has reported the end.  Missing from the full
claim: files without events (`C65_empty_violated`). -/
theorem C65_ascii_partial [Field K] (F : TextFmt K) (hf : F.dbl.Lawful) (ofLong : Int → K) (x : K)
    (es : List (Event K)) (hne : es ≠ []) (he : ∀ e ∈ es, AsciiOk e) :
    ReadsAs F ofLong (asciiFile F.dbl x es) (constantBook x es) := by
  intro lg ops hh
  cases es with
  | nil => exact absurd rfl hne
  | cons e es =>
    refine (ascii_sim hf ofLong _).first (ascii_ensure hf ofLong lg x e es (he e (by simp))) ?_ rfl
      ops hh (by simp)
    refine ⟨rfl, rfl, rfl, rfl, ?_, ?_, ?_⟩
    · simp [constantBook]
    · simp only [constantBook, List.mem_map, forall_exists_index, and_imp]
      rintro p e h rfl
      exact he e h
    · simp [constantBook, Function.comp_def]

example (ofLong : Int → ℚ) : ReadsAs exText ofLong
    (asciiFile ratFmt (3 / 2) [sampleEvent, { sampleEvent with twoJ := 0 }])
    (constantBook (3 / 2) [sampleEvent, { sampleEvent with twoJ := 0 }]) := by
  refine C65_ascii_partial exText ratFmt_lawful ofLong (3 / 2) _ (by simp) ?_
  intro e he
  simp only [List.mem_cons, List.not_mem_nil, or_false] at he
  have h := sampleEvent_fits
  rcases he with rfl | rfl
  · exact ⟨h, by decide, by decide⟩
  · exact ⟨⟨h.1, h.2.1, by decide, h.2.2.2⟩, by decide, by decide⟩

/-! ## C65: HEPEVT -/

/-- Events that come back unchanged from HEPEVT (the conditions of C08). -/
def HepReads (e : Event K) : Prop :=
  HepFits 0 e ∧ ∃ a b ej res prods, Generated e a b ej res prods ∧ b.charge = 0 ∧
    ej.charge + res.charge + totalCharge prods = 0 ∧
    ∀ p ∈ prods, Pdg.isIon p.pdg = false → p.charge = 0

theorem hepReads_ok [Field K] [CharZero K] {f : DblFmt K} (hf : f.Lawful) (hz : f.LawfulZero)
    {e : Event K} (h : HepReads e) : HepOk f e := by
  obtain ⟨hfit, a, b, ej, res, prods, g, h1, h2, h3⟩ := h
  intro x rest
  exact C08_hepevt_roundtrip_partial f hf hz 0 x e hfit a b ej res prods g h1 h2 h3 rest

/-- **C65**, HEPEVT: a file with at least one event, every event with the cross section of
the run that wrote it, is read exactly: all events in order, then the end, again and again;
the cross section is the one written with the event just read (at the beginning: with the
first event).  Missing from the full claim: after the end the cross section is zero
(`C65_hepevt_xsec_violated`); files without events (`C65_empty_violated`); events that do
not survive HEPEVT (C08). -/
theorem C65_hepevt_partial [Field K] [CharZero K] (F : TextFmt K) (hf : F.dbl.Lawful)
    (hz : F.dbl.LawfulZero) (hi : LawfulInt F.dbl) (ofLong : Int → K) (e : Event K) (x : K)
    (l : List (Event K × K)) (he : ∀ p ∈ (e, x) :: l, HepReads p.1) :
    ReadsAs F ofLong (hepevtFile F.dbl ((e, x) :: l)) ⟨(e, x) :: l, x, 0, false⟩ := by
  intro lg ops hh
  have h1 := he (e, x) (by simp)
  obtain ⟨⟨hfit, -, hlen⟩, a, b, ej, res, prods, g, -⟩ := h1
  refine (hepevt_sim (F := F) ofLong _).first (hepevt_ensure hi ofLong lg x e l ?_ ?_ ?_
    (hepReads_ok hf hz (he (e, x) (by simp)))) ?_ rfl ops hh (by simp)
  · rw [g.ini]; simp
  · exact fun p hp => (hfit.1 p hp).1
  · exact_mod_cast hlen
  · refine ⟨rfl, rfl, rfl, rfl, fun p hp => hepReads_ok hf hz (he p hp), ?_⟩
    exact ⟨[], by simp, rfl⟩

/-- The formats of the examples, with integers understood. -/
noncomputable def exTextInt : TextFmt ℚ := ⟨codedFloats, ratIntFmt⟩

theorem sampleEvent_hepReads : HepReads sampleEvent :=
  ⟨⟨sampleEvent_fits, by decide, by simp [sampleEvent, intMax]⟩, _, _, _, _, _,
    sampleEvent_generated, by decide, by decide, by simp⟩

example (ofLong : Int → ℚ) : ReadsAs exTextInt ofLong
    (hepevtFile ratIntFmt [(sampleEvent, 3 / 2), (sampleEvent, 5 / 2)])
    ⟨[(sampleEvent, 3 / 2), (sampleEvent, 5 / 2)], 3 / 2, 0, false⟩ := by
  refine C65_hepevt_partial exTextInt ratIntFmt_lawful ratIntFmt_zero ratIntFmt_int ofLong _ _ _ ?_
  intro p hp
  simp only [List.mem_cons, List.not_mem_nil, or_false] at hp
  rcases hp with rfl | rfl <;> exact sampleEvent_hepReads

theorem expected_end [DivisionRing K] (b : Book K) (l : List Op) :
    expected b (List.replicate (b.rest.length + 1) .next ++ l) =
      b.rest.map (fun p => .event true p.1) ++ .event false blankEvent ::
        expected { b with rest := [], shown := b.atEnd, ended := true } l := by
  obtain ⟨rest, x, y, en⟩ := b
  induction rest generalizing x with
  | nil => rfl
  | cons p t ih =>
    have := ih p.2
    rw [List.length_cons, List.replicate_succ, List.cons_append, expected]
    simp only at this ⊢
    rw [this]
    rfl

/-- **C65** does not hold for HEPEVT files: after all events have been read, the reader
reports the cross section zero, whatever was written. -/
theorem C65_hepevt_xsec_violated [Field K] [CharZero K] (F : TextFmt K) (hf : F.dbl.Lawful)
    (hz : F.dbl.LawfulZero) (hi : LawfulInt F.dbl) (ofLong : Int → K) (e : Event K) (x : K)
    (l : List (Event K × K)) (he : ∀ p ∈ (e, x) :: l, HepReads p.1) (lg : Bool) :
    answers F ofLong ⟨true, some (hepevtFile F.dbl ((e, x) :: l))⟩ ⟨lg, fresh⟩
      (List.replicate (l.length + 2) .next ++ [.flux true]) =
    ((e, x) :: l).map (fun p => .event true p.1) ++ [.event false blankEvent, .xsec 0] := by
  rw [C65_hepevt_partial F hf hz hi ofLong e x l he lg _ (by simp [List.replicate_succ])]
  exact expected_end ⟨(e, x) :: l, x, 0, false⟩ [.flux true]

example (ofLong : Int → ℚ) : answers exTextInt ofLong
      ⟨true, some (hepevtFile ratIntFmt [(sampleEvent, 3 / 2)])⟩ ⟨true, fresh⟩
      [.next, .next, .flux true] =
    [.event true sampleEvent, .event false blankEvent, .xsec 0] :=
  C65_hepevt_xsec_violated exTextInt ratIntFmt_lawful ratIntFmt_zero ratIntFmt_int ofLong
    sampleEvent (3 / 2) [] (by
      intro p hp
      simp only [List.mem_cons, List.not_mem_nil, or_false] at hp
      rw [hp]; exact sampleEvent_hepReads) true

/-! ## C65: JSON -/

theorem json_start [Field K] {F : TextFmt K} {ofLong : Int → K} {text : Str} {es : List (Event K)}
    {n : Int} {y : K} (hc : Contains F.json ofLong text es n) (hy : FluxIs F.json text y)
    (lg : Bool) : ∃ s1, ensure F ofLong ⟨true, some text⟩ ⟨lg, fresh⟩ = (s1, .ok ()) ∧
      JsonAt ofLong s1 (constantBook y es) := by
  obtain ⟨events, gs, h1, -, h3, -⟩ := hc
  obtain ⟨h4, doc, gs', h5, h6, h7⟩ := hy
  rw [h1] at h5
  simp only [PR.ok.injEq, JVal.obj.injEq, and_true] at h5
  subst h5
  have h8 : gs = gs' := by
    have : ([("events".toList, JVal.arr events), ("gen_state".toList, .obj gs)] :
      List (Str × JVal K)).lookup "gen_state".toList = some (.obj gs) := rfl
    rw [this] at h6
    simpa using h6
  subst h8
  have hfirst : firstChar text = some '{' := by
    cases text with
    | nil => simp at h4
    | cons c t =>
      simp only [List.head?_cons, Option.some.injEq] at h4
      rw [h4, firstChar, skipBlank_cons (by decide), List.head?_cons]
  have hev : eventArray (.obj [("events".toList, .arr events), ("gen_state".toList, .obj gs)] :
      JVal K) = some events := rfl
  have hfl : fluxOf ofLong (.obj [("events".toList, .arr events), ("gen_state".toList, .obj gs)] :
      JVal K) = y := by
    have e1 : at? (.obj [("events".toList, .arr events), ("gen_state".toList, .obj gs)] : JVal K)
        "gen_state".toList = .ok (.obj gs) := rfl
    have e2 : at? (.obj gs) "flux_avg_xsec".toList = .ok (.float y) := by
      rw [at?]
      simp only [mapFind_eq_lookup, h7]
    rw [fluxOf, e1]
    simp only
    rw [e2]
    rfl
  refine ⟨_, json_ensure ofLong lg text _ [] events hfirst h1 hev, rfl, rfl, hfl, rfl, ?_, [], events,
    rfl, ?_, by simp [constantBook], rfl⟩
  · simp [constantBook]
  · simpa [constantBook, Function.comp_def] using h3

theorem json_reads [Field K] {F : TextFmt K} {ofLong : Int → K} {text : Str} {es : List (Event K)}
    {n : Int} {y : K} (hc : Contains F.json ofLong text es n) (hy : FluxIs F.json text y) :
    ReadsOnceAs F ofLong text (constantBook y es) := by
  intro lg ops hh hcount
  obtain ⟨s1, he, hR⟩ := json_start hc hy lg
  exact (json_sim (F := F) ofLong _).first he hR rfl ops hh (fun _ => hcount)

/-- **C65**, JSON: a document that holds the events `es` (C61) and the cross section `y` is
read exactly: all events in order, then the end; the cross section is the one recorded, at
all times; files without events are allowed.  Missing from the full claim: nothing may be
asked for after the end was reported once (`C65_json_again_violated`). -/
theorem C65_json_partial [Field K] (F : TextFmt K) (ofLong : Int → K) (text : Str)
    (es : List (Event K)) (n : Int) (y : K) (hc : Contains F.json ofLong text es n)
    (hy : FluxIs F.json text y) : ReadsOnceAs F ofLong text (constantBook y es) :=
  json_reads hc hy

theorem exSavedTwo_holds : Holds codedFloats (pushEvents exText (writeFlux exText (exFresh none) 1)
    [firstEvent, firstEvent]) ([firstEvent, firstEvent].map Event.toJson) := by
  have h1 := (opened_holds (ops := exText.json) (exFresh_opened none) rfl (exFresh_format none)
    (exFresh_mode none)).1
  have := holds_push (holds_flux h1 1).1 [firstEvent, firstEvent]
  rwa [List.nil_append] at this

/-- The closed file of two events, of the counter. -/
noncomputable def exTwo : Str := (closeFile counter exText (pushEvents exText (writeFlux exText
  (exFresh none) 1) [firstEvent, firstEvent]) (.obj []) (2 : Nat) 2).text

theorem exTwo_events : ∀ e ∈ [firstEvent, firstEvent], EventText codedFloats e := by
  intro e he
  simp only [List.mem_cons, List.not_mem_nil, or_false, or_self] at he
  rw [he]; exact firstEvent_ok

theorem exTwo_contains : Contains codedFloats (fun n => (n : ℚ)) exTwo [firstEvent, firstEvent] 2 :=
  holds_contains (G := counter) (F := exText) _ exSavedTwo_holds exTwo_events empty_config
    (codedFloats_ok _) (by decide)

theorem exTwo_flux : FluxIs codedFloats exTwo (3 / 2) :=
  holds_fluxIs (G := counter) (F := exText) (g := (2 : Nat)) exSavedTwo_holds exTwo_events
    empty_config (codedFloats_ok _) (by decide)

example : ReadsOnceAs exText (fun n => (n : ℚ)) exTwo (constantBook (3 / 2) [firstEvent, firstEvent]) :=
  C65_json_partial exText _ exTwo _ 2 _ exTwo_contains exTwo_flux

theorem json_again [Field K] {F : TextFmt K} {ofLong : Int → K} {d : OnDisk} {s : Sys K}
    {b : Book K} (hs : JsonAt ofLong s b) (hb : b.ended = false) :
    answers F ofLong d s (List.replicate (b.rest.length + 2) .next) =
      b.rest.map (fun p => .event true p.1) ++ [.event false blankEvent, .fail (.exc .ub)] := by
  have hsim := json_sim (F := F) ofLong d
  generalize hr : b.rest = rest
  induction rest generalizing s b with
  | nil =>
    obtain ⟨s', h1, h2⟩ := hsim.last s b hs hr (fun _ => hb)
    have h3 : (nextEvent F ofLong d s').2 = .error (.exc .ub) := by
      obtain ⟨h1, h2, -, -, -, old, l, h6, -, h8, h9⟩ := h2
      have hl := h8 rfl
      subst hl
      rw [if_pos rfl] at h9
      have hne : ¬ (s'.reader.seen + 1 = (old ++ []).length + 1) := by rw [h9]; simp
      have hget : (old ++ ([] : List (JVal K)))[s'.reader.seen + 1 - 1]? = none := by
        rw [h9]; simp
      simp only [nextEvent, ensure_done h1, h2, nextJson, h6, if_neg hne, hget]
    have e1 : ask F ofLong d s .next = (s', .event false blankEvent) := by simp only [ask, h1, emptyEvent_eq]
    have e2 : (ask F ofLong d s' .next).2 = .fail (.exc .ub) := by
      rcases hx : nextEvent F ofLong d s' with ⟨s'', x⟩
      rw [hx] at h3
      simp only at h3
      subst h3
      simp only [ask, hx]
    simp only [List.length_nil, List.replicate, answers, e1, e2, List.map_nil,
      List.nil_append]
  | cons p t ih =>
    obtain ⟨e, x⟩ := p
    obtain ⟨s', h1, h2⟩ := hsim.more s b e x t hs hr hb
    have e1 : ask F ofLong d s .next = (s', .event true e) := by simp only [ask, h1]
    rw [List.length_cons, List.replicate_succ, answers, e1]
    simp only [List.map_cons, List.cons_append]
    exact congrArg _ (ih h2 hb rfl)

/-- A second request after the end of any such JSON file is undefined: the iterator is
moved beyond the end of the array.  (ASCII and HEPEVT files report the end again.) -/
theorem C65_json_again_violated [Field K] (F : TextFmt K) (ofLong : Int → K) (text : Str)
    (es : List (Event K)) (n : Int) (y : K) (hc : Contains F.json ofLong text es n)
    (hy : FluxIs F.json text y) (lg : Bool) :
    answers F ofLong ⟨true, some text⟩ ⟨lg, fresh⟩ (List.replicate (es.length + 2) .next) =
      es.map (fun e => .event true e) ++ [.event false blankEvent, .fail (.exc .ub)] := by
  obtain ⟨s1, he, hR⟩ := json_start hc hy lg
  have h := json_again (F := F) (d := ⟨true, some text⟩) hR rfl
  have e : (constantBook y es).rest.length = es.length := by simp [constantBook]
  rw [e] at h
  rw [List.replicate_succ, answers] at h
  rw [List.replicate_succ, answers, ask_ensure he hR.1 .next (by simp), h]
  simp [constantBook]

example : answers exText (fun n => (n : ℚ)) ⟨true, some exTwo⟩ ⟨true, fresh⟩
    [.next, .next, .next, .next] = [.event true firstEvent, .event true firstEvent,
      .event false blankEvent, .fail (.exc .ub)] :=
  C65_json_again_violated exText _ exTwo _ 2 _ exTwo_contains exTwo_flux true

/-! ## C65: files without events -/

/-- **C65** does not hold for files without events: an ASCII file with only the cross
section and an empty HEPEVT file are rejected with an exception instead of reporting the
end.  For ASCII the text of a double must not look like the two integers that begin a
HEPEVT file. -/
theorem C65_empty_violated [Field K] (F : TextFmt K) (hf : F.dbl.Lawful) (ofLong : Int → K)
    (lg : Bool) :
    (∀ x, (∀ n t, readInt (F.dbl.print x ++ ['\n']) = some (n, t) → readInt t = none) →
      (nextEvent F ofLong ⟨true, some (asciiFile F.dbl x [])⟩ ⟨lg, fresh⟩).2 =
        .error (.exc .marleyError)) ∧
    (nextEvent F ofLong ⟨true, some (hepevtFile F.dbl [])⟩ ⟨lg, fresh⟩).2 =
      .error (.exc .marleyError) := by
  constructor
  · intro x hx
    have hget : F.dbl.get (asciiFile F.dbl x []) = some (x, ['\n']) := by
      rw [asciiFile, get_print hf x nl]; rfl
    have htry : tryAscii F.dbl (asciiFile F.dbl x []) = .ok none := by
      simp only [tryAscii, hget, read_newline]
    have hfirst : firstChar (asciiFile F.dbl x []) ≠ some '{' := by
      obtain ⟨c, t, h1, h2⟩ := hf.head x
      rw [asciiFile, h1, firstChar, List.cons_append, skipBlank_cons (numStart_not_space h2)]
      simp only [List.head?_cons, ne_eq, Option.some.injEq]
      rintro rfl
      revert h2; decide
    have hhep : Event.readHepevt F.dbl (asciiFile F.dbl x []) =
        .ok (false, Event.cleared, 0, none) := by
      rw [asciiFile, List.flatMap_nil, Event.readHepevt]
      rcases h1 : readInt (F.dbl.print x ++ ['\n']) with _ | ⟨n, t⟩
      · rfl
      · simp only [hx n t h1]
    simp only [nextEvent, ensure, fresh, deduce, htry, hfirst, and_false, if_false, tryHepevt, hhep,
      Bool.false_eq_true, Bool.true_eq_false]
  · have hget : F.dbl.get (hepevtFile F.dbl []) = none := hf.read_nil
    have htry : tryAscii F.dbl (hepevtFile F.dbl []) = .ok none := by
      simp only [tryAscii, hget]
    have hfirst : firstChar (hepevtFile F.dbl []) ≠ some '{' := by
      simp [hepevtFile, firstChar]
    have hhep : Event.readHepevt F.dbl (hepevtFile F.dbl []) =
        .ok (false, Event.cleared, 0, none) := by
      rw [hepevtFile, List.flatMap_nil, readHepevt_nil]
    simp only [nextEvent, ensure, fresh, deduce, htry, hfirst, and_false, if_false, tryHepevt, hhep,
      Bool.false_eq_true, Bool.true_eq_false]

example (lg : Bool) : (nextEvent exText (fun n => (n : ℚ)) ⟨true, some (asciiFile ratFmt (3 / 2) [])⟩
    ⟨lg, fresh⟩).2 = .error (.exc .marleyError) := by
  refine (C65_empty_violated exText ratFmt_lawful _ lg).1 (3 / 2) ?_
  have h : exText.dbl.print (3 / 2) ++ ['\n'] = ['3', '/', '2', '\n'] := by
    have : ratText (3 / 2) = ['3', '/', '2'] := by
      have h1 : ((3 / 2 : ℚ)).num = 3 := by decide +kernel
      have h2 : ((3 / 2 : ℚ)).den = 2 := by decide +kernel
      rw [ratText, h1, h2]
      decide +kernel
    show ratText (3 / 2) ++ ['\n'] = _
    rw [this]; rfl
  rw [h]
  intro n t hnt
  have : readInt ['3', '/', '2', '\n'] = some (3, ['/', '2', '\n']) := by decide
  rw [this] at hnt
  simp only [Option.some.injEq, Prod.mk.injEq] at hnt
  rw [← hnt.2]
  decide

/-! ## C65: the files of a run -/

/-- **C65**, the files of a run that ended without an exception: with the events `es` of the
run, every output file is read as claimed, whether it is new, appended to or resumed.
Missing from the full claim: as in `C65_ascii_partial`, `C65_hepevt_partial`,
`C65_json_partial` and `C64_run_partial`. -/
theorem C65_run_partial [Field K] [CharZero K] (G : GenOps K γ) (F : TextFmt K)
    (hf : F.dbl.Lawful) (hz : F.dbl.LawfulZero) (hi : LawfulInt F.dbl) (ofLong : Int → K)
    (hG : ∀ g e g', G.event g = some (.ok (e, g')) → EventText F.json e ∧ AsciiOk e)
    (hx : ∀ g, FloatOk F.json (G.xsec g)) (cfg : JVal K) (hc : Holdable (FloatOk F.json) cfg)
    (num : Int) (hnum : num ≤ longMax) (stop : Nat → Bool) (fs fs' : List (OutFile K))
    (ho : ∀ f ∈ fs, Opened f) (n : Int) (h : produce G F cfg num stop fs = some (fs', .ok n)) :
    ∃ g es g', Generates G g es g' ∧ ∀ f f', (f, f') ∈ fs.zip fs' →
      (f.format = .ascii → f.text = [] → es ≠ [] →
        ReadsAs F ofLong f'.text (constantBook (G.xsec g) es)) ∧
      (f.format = .ascii → ∀ x olds, f.text = asciiFile F.dbl x olds → (∀ e ∈ olds, AsciiOk e) →
        olds ++ es ≠ [] → ReadsAs F ofLong f'.text (constantBook x (olds ++ es))) ∧
      (f.format = .hepevt → ∀ olds, f.text = hepevtFile F.dbl olds →
        (∀ p ∈ olds, HepReads p.1) → (∀ e ∈ es, HepReads e) →
        ∀ e x l, olds ++ es.map (fun e => (e, G.xsec g)) = (e, x) :: l →
        ReadsAs F ofLong f'.text ⟨(e, x) :: l, x, 0, false⟩) ∧
      (f.format = .json → f.mode = .overwrite →
        ReadsOnceAs F ofLong f'.text (constantBook (G.xsec g') es)) ∧
      (f.format = .json → f.mode = .resume → ∀ olds old, Contains F.json ofLong f.text olds old →
        (∀ e ∈ olds, EventText F.json e) →
        ReadsOnceAs F ofLong f'.text (constantBook (G.xsec g') (olds ++ es))) := by
  obtain ⟨g, old, es, g', h1, h2, -⟩ := C64_run_partial G F ofLong (fun g e g' h => (hG g e g' h).1)
    hx cfg hc num hnum stop fs fs' ho n h
  have hes : ∀ e ∈ es, AsciiOk e := by
    clear h2
    induction h1 with
    | nil => simp
    | cons g g1 g' e es he _ ih =>
      intro x hx
      rcases List.mem_cons.1 hx with rfl | hx
      · exact (hG _ _ _ he).2
      · exact ih x hx
  refine ⟨g, es, g', h1, fun f f' hff => ?_⟩
  have hrec : Records F ofLong (G.xsec g) (G.xsec g') es n f f' := (List.forall₂_iff_zip.1 h2).2 hff
  refine ⟨fun ha ht hne => ?_, fun ha x olds ht holds hne => ?_,
    fun ha olds ht holds hnew e x l hl => ?_, fun hj hm => ?_, fun hj hm olds old hcont holds => ?_⟩
  · rw [hrec.ascii ha, ht]
    have : ([] : Str) ++ (if ([] : Str) = [] then F.dbl.print (G.xsec g) ++ ['\n'] else []) ++
        es.flatMap (Event.print F.dbl) = asciiFile F.dbl (G.xsec g) es := by
      simp [asciiFile]
    rw [this]
    exact C65_ascii_partial F hf ofLong _ es hne hes
  · have hne' : f.text ≠ [] := by
      rw [ht, asciiFile]; simp
    rw [hrec.ascii ha, if_neg hne', ht]
    have : asciiFile F.dbl x olds ++ [] ++ es.flatMap (Event.print F.dbl) =
        asciiFile F.dbl x (olds ++ es) := by
      simp [asciiFile]
    rw [this]
    refine C65_ascii_partial F hf ofLong x _ hne ?_
    intro e he
    rcases List.mem_append.1 he with he | he
    · exact holds e he
    · exact hes e he
  · rw [hrec.hepevt ha, ht]
    have : hepevtFile F.dbl olds ++ es.flatMap (Event.writeHepevt F.dbl 0 (G.xsec g)) =
        hepevtFile F.dbl ((e, x) :: l) := by
      rw [← hl]
      simp [hepevtFile, List.flatMap_map]
    rw [this]
    refine C65_hepevt_partial F hf hz hi ofLong e x l ?_
    rw [← hl]
    intro p hp
    rcases List.mem_append.1 hp with hp | hp
    · exact holds p hp
    · obtain ⟨e, he, rfl⟩ := List.mem_map.1 hp
      exact hnew e he
  · obtain ⟨a, b⟩ := hrec.fresh hj hm
    exact json_reads a b
  · obtain ⟨a, b⟩ := hrec.resumed hj hm olds old hcont holds
    exact json_reads a b

/-- A new ASCII file. -/
def exAscii : OutFile ℚ :=
  ⟨"events.ascii".toList, .ascii, .overwrite, none, false, 0, true, []⟩

/-- The hypotheses of `C65_run_partial` are met by the job that fills an ASCII and a JSON
file with the events of the counter, with or without an interruption. -/
example (stop : Nat → Bool) : ∃ fs' n,
    produce counter exTextInt (.obj []) 3 stop [exAscii, exFresh none] = some (fs', .ok n) ∧
    ∃ g es g', Generates counter g es g' ∧ ∀ f f', (f, f') ∈ [exAscii, exFresh none].zip fs' →
      (f.format = .ascii → f.text = [] → es ≠ [] →
        ReadsAs exTextInt (fun n => (n : ℚ)) f'.text (constantBook (counter.xsec g) es)) := by
  have hr : resumeAll counter exTextInt [exAscii, exFresh none] none =
      ([exAscii, exFresh none], .ok none) := by
    rw [resumeAll, if_neg (by decide), resumeAll, if_neg (by rw [exFresh_mode]; decide), resumeAll]
  obtain ⟨fs', n, h⟩ := produce_total (F := exTextInt) (cfg := .obj []) 3 stop hr
    (r := ((0 : Nat), 0)) rfl counter_total (by
      intro f hf
      simp only [List.mem_cons, List.not_mem_nil, or_false] at hf
      rcases hf with rfl | rfl
      · decide
      · rw [exFresh_format]; decide)
  obtain ⟨g, es, g', a1, a2⟩ := C65_run_partial counter exTextInt ratIntFmt_lawful ratIntFmt_zero
    ratIntFmt_int (fun n => (n : ℚ)) (by
      intro g e g' he
      have := counter_texts g e g' he
      refine ⟨this, this.1, ?_⟩
      simp only [counter, Option.some.injEq, Except.ok.injEq, Prod.mk.injEq] at he
      rw [← he.1]
      exact ⟨(by decide : 2 ≤ sampleEvent.initial.length),
        (by decide : 2 ≤ sampleEvent.final.length)⟩) (fun _ => codedFloats_ok _) (.obj []) empty_config 3 (by decide)
    stop _ fs' (by
      intro f hf
      simp only [List.mem_cons, List.not_mem_nil, or_false] at hf
      rcases hf with rfl | rfl
      · exact ⟨⟨"events.ascii".toList, "ascii".toList, "overwrite".toList, false, none⟩,
          ⟨none, true, []⟩, rfl, rfl⟩
      · exact ⟨_, _, exFresh_opened none, rfl⟩) n h
  exact ⟨fs', n, h, g, es, g', a1, fun f f' hff => (a2 f f' hff).1⟩

/-! ## C66: the logging flag -/

theorem deduce_logging [Ring K] (f : DblFmt K) (d : OnDisk) (s : Sys K) :
    ((deduce f d s).1.logging = s.logging ∧ ((deduce f d s).2 = .ok false ∨
      (deduce f d s).2 = .error (.exc .marleyError))) ∨
    ((deduce f d s).1.logging = false ∧ ((∃ fmt, (deduce f d s).1.reader.format = some fmt ∧
      fmt ≠ .root ∧ (deduce f d s).2 = .ok true) ∨
      ∃ e, e ≠ .marleyError ∧ (deduce f d s).2 = .error (.exc e))) := by
  have hhep : ∀ r t, ((tryHepevt f s.logging r t).1.logging = s.logging ∧
      ((tryHepevt f s.logging r t).2 = .ok false ∨
        (tryHepevt f s.logging r t).2 = .error (.exc .marleyError))) ∨
      ((tryHepevt f s.logging r t).1.logging = false ∧
        ((∃ fmt, (tryHepevt f s.logging r t).1.reader.format = some fmt ∧ fmt ≠ .root ∧
          (tryHepevt f s.logging r t).2 = .ok true) ∨
        ∃ e, e ≠ .marleyError ∧ (tryHepevt f s.logging r t).2 = .error (.exc e))) := by
    intro r t
    rw [tryHepevt]
    split
    · exact .inr ⟨rfl, .inl ⟨_, rfl, by decide, rfl⟩⟩
    · exact .inl ⟨rfl, .inl rfl⟩
    · exact .inl ⟨rfl, .inl rfl⟩
    · next e h _ => exact .inr ⟨rfl, .inr ⟨e, fun h' => h h', rfl⟩⟩
  rw [deduce]
  split
  · exact .inl ⟨rfl, .inr rfl⟩
  · split
    · exact .inl ⟨rfl, .inl rfl⟩
    · split
      · exact .inr ⟨rfl, .inl ⟨_, rfl, by decide, rfl⟩⟩
      · split
        · exact .inr ⟨rfl, .inl ⟨_, rfl, by decide, rfl⟩⟩
        · exact hhep _ _
        · exact hhep _ _
        · next e h _ => exact .inr ⟨rfl, .inr ⟨e, fun h' => h h', rfl⟩⟩

theorem initReader_logging [Zero K] (F : TextFmt K) (ofLong : Int → K) (s : Sys K)
    (hl : s.logging = false) (fmt : Format) (hf : s.reader.format = some fmt) (hr : fmt ≠ .root) :
    (initReader F ofLong s).1.logging = false ∧
      (initReader F ofLong s).2 ≠ .error (.exc .marleyError) := by
  rw [initReader, hf]
  cases fmt with
  | root => exact absurd rfl hr
  | hepevt => exact ⟨hl, by simp⟩
  | ascii =>
    dsimp only
    split
    · exact ⟨hl, by simp⟩
    · split
      · exact ⟨hl, by simp⟩
      · exact ⟨hl, by simp⟩
  | json =>
    dsimp only
    rw [initJson]
    split
    · exact ⟨rfl, by simp⟩
    · exact ⟨rfl, by simp⟩
    · split
      · exact ⟨rfl, by simp⟩
      · exact ⟨hl, by simp⟩

theorem ensure_logging [Ring K] (F : TextFmt K) (ofLong : Int → K) (d : OnDisk) (s : Sys K)
    (h : s.reader.initialized = false) :
    ((ensure F ofLong d s).1.logging = s.logging ∧
      (ensure F ofLong d s).2 = .error (.exc .marleyError)) ∨
    ((ensure F ofLong d s).1.logging = false ∧
      (ensure F ofLong d s).2 ≠ .error (.exc .marleyError)) := by
  have hd := deduce_logging F.dbl d s
  rw [ensure, if_neg (by rw [h]; decide)]
  rcases hx : deduce F.dbl d s with ⟨s1, o⟩
  rw [hx] at hd
  rcases hd with ⟨h1, rfl | rfl⟩ | ⟨h1, ⟨fmt, h2, h3, rfl⟩ | ⟨e, h2, rfl⟩⟩
  · exact .inl ⟨h1, rfl⟩
  · exact .inl ⟨h1, rfl⟩
  · have hi := initReader_logging F ofLong s1 h1 fmt h2 h3
    rcases hy : initReader F ofLong s1 with ⟨s2, e | _⟩
    · rw [hy] at hi
      exact .inr ⟨by simpa [hy] using hi.1, by simpa [hy] using hi.2⟩
    · rw [hy] at hi
      exact .inr ⟨by simpa [hy] using hi.1, by simp [hy]⟩
  · exact .inr ⟨h1, by simpa using h2⟩

theorem next_logging [Ring K] (F : TextFmt K) (ofLong : Int → K) (d : OnDisk) (s : Sys K) :
    (nextEvent F ofLong d s).1.logging = (ensure F ofLong d s).1.logging := by
  rw [nextEvent]
  rcases ensure F ofLong d s with ⟨s1, e | _⟩
  · rfl
  · dsimp only
    split
    · rfl
    · rw [nextAscii]; split
      · rfl
      · split <;> rfl
    · rw [nextHepevt]; split
      · rfl
      · split <;> rfl
    · rw [nextJson]; split
      · rfl
      · dsimp only
        split
        · rfl
        · split
          · rfl
          · split <;> rfl
    · rfl

theorem ask_logging [DivisionRing K] (F : TextFmt K) (ofLong : Int → K) (d : OnDisk) (s : Sys K)
    (o : Op) : (ask F ofLong d s o).1.logging =
      if o = .good then s.logging else (ensure F ofLong d s).1.logging := by
  cases o with
  | next =>
    rw [if_neg (by simp), ← next_logging]
    rcases hx : nextEvent F ofLong d s with ⟨s1, e | ⟨b, e⟩⟩ <;> simp only [ask, hx]
  | flux n =>
    rw [if_neg (by simp)]
    rcases hx : ensure F ofLong d s with ⟨s1, e | _⟩ <;> simp only [ask, fluxXsec, hx]
  | good =>
    rw [if_pos rfl]
    rcases hx : good s.reader with e | b <;> simp only [ask, hx]

theorem ensure_keeps [Ring K] (F : TextFmt K) (ofLong : Int → K) (d : OnDisk) (s : Sys K) :
    (ensure F ofLong d s).1.logging = s.logging ∨ (ensure F ofLong d s).1.logging = false := by
  rcases hi : s.reader.initialized with _ | _
  · rcases ensure_logging F ofLong d s hi with h | h
    · exact .inl h.1
    · exact .inr h.1
  · rw [ensure_done hi]; exact .inl rfl

/-- C66, the part that holds for every file, every reader and every sequence of
questions: the flag is either what it was or off.  So it is never switched on, and it is
the same afterwards as before whenever it was off before.

Missing: the flag is not put back if it was on (`C66_success_violated`,
`C66_parse_violated`). -/
theorem C66_off_partial [DivisionRing K] (F : TextFmt K) (ofLong : Int → K) (d : OnDisk)
    (s : Sys K) (ops : List Op) :
    (afterwards F ofLong d s ops).logging = s.logging ∨
      (afterwards F ofLong d s ops).logging = false := by
  induction ops generalizing s with
  | nil => exact .inl rfl
  | cons o l ih =>
    rw [afterwards, List.foldl_cons]
    have h1 : (ask F ofLong d s o).1.logging = s.logging ∨ (ask F ofLong d s o).1.logging = false := by
      rw [ask_logging]
      split
      · exact .inl rfl
      · exact ensure_keeps F ofLong d s
    rcases ih (ask F ofLong d s o).1 with h | h
    · rw [afterwards] at h
      rw [h]; exact h1
    · exact .inr h

/-- The two outcomes exist: a missing file leaves the flag on, a readable one turns it off. -/
example : (afterwards exTextInt (fun n => (n : ℚ)) ⟨false, none⟩ ⟨true, fresh⟩ [.next]).logging = true ∧
    (afterwards exText (fun n => (n : ℚ)) ⟨true, some exTwo⟩ ⟨true, fresh⟩ [.next]).logging = false := by
  refine ⟨rfl, ?_⟩
  rw [afterwards, List.foldl_cons, List.foldl_nil, ask_logging, if_neg (by simp)]
  obtain ⟨s1, h1, -⟩ := json_start (F := exText) exTwo_contains exTwo_flux true
  rcases ensure_logging exText (fun n => (n : ℚ)) ⟨true, some exTwo⟩ ⟨true, fresh⟩ rfl with h | h
  · rw [h1] at h; cases h.2
  · exact h.1

/-- C66, exactly: opening a file with a reader that has not been opened yet leaves the
flag as it was if and only if the flag was off or the opening ends with a `marley::Error`
(the file is not there or its format is not recognised).  Asking for an event opens the
file in the same way. -/
theorem C66_exact_partial [DivisionRing K] (F : TextFmt K) (ofLong : Int → K) (d : OnDisk)
    (s : Sys K) (h : s.reader.initialized = false) (natural : Bool) :
    ((fluxXsec F ofLong d natural s).1.logging = s.logging ↔
      s.logging = false ∨ (fluxXsec F ofLong d natural s).2 = .error (.exc .marleyError)) ∧
    (nextEvent F ofLong d s).1.logging = (fluxXsec F ofLong d natural s).1.logging := by
  have h0 : (fluxXsec F ofLong d natural s).1 = (ensure F ofLong d s).1 := by
    rcases hx : ensure F ofLong d s with ⟨s1, e | _⟩ <;> simp only [fluxXsec, hx]
  have h1 : (fluxXsec F ofLong d natural s).2 = .error (.exc .marleyError) ↔
      (ensure F ofLong d s).2 = .error (.exc .marleyError) := by
    rcases hx : ensure F ofLong d s with ⟨s1, e | _⟩ <;> simp [fluxXsec, hx]
  rw [next_logging, h0, h1]
  refine ⟨?_, rfl⟩
  rcases ensure_logging F ofLong d s h with ⟨h2, h3⟩ | ⟨h2, h3⟩
  · exact ⟨fun _ => .inr h3, fun _ => h2⟩
  · rw [h2]
    exact ⟨fun hh => .inl hh.symm, fun hh => hh.elim Eq.symm (fun hh => absurd hh h3)⟩

/-- Both sides of the equivalence are met: a file that cannot be opened is not
recognised, and the flag stays on. -/
example : (fluxXsec exTextInt (fun n => (n : ℚ)) ⟨true, none⟩ true ⟨true, fresh⟩).1.logging =
      true ∧
    (fluxXsec exTextInt (fun n => (n : ℚ)) ⟨true, none⟩ true ⟨true, fresh⟩).2 =
      .error (.exc .marleyError) := by
  have h : (fluxXsec exTextInt (fun n => (n : ℚ)) ⟨true, none⟩ true ⟨true, fresh⟩).2 =
      .error (.exc .marleyError) := rfl
  exact ⟨(C66_exact_partial exTextInt _ _ ⟨true, fresh⟩ rfl true).1.mpr (.inr h), h⟩

theorem ask_initialized [DivisionRing K] (F : TextFmt K) (ofLong : Int → K) (d : OnDisk) (s : Sys K)
    (o : Op) (h : s.reader.initialized = true) :
    (ask F ofLong d s o).1.reader.initialized = true := by
  cases o with
  | next =>
    have hn : (nextEvent F ofLong d s).1.reader.initialized = true := by
      rw [nextEvent, ensure_done h]
      dsimp only
      split
      · exact h
      · rw [nextAscii]; split
        · exact h
        · split <;> exact h
      · rw [nextHepevt]; split
        · exact h
        · split <;> exact h
      · rw [nextJson]; split
        · exact h
        · dsimp only
          split
          · exact h
          · split
            · exact h
            · split <;> exact h
      · exact h
    rcases hx : nextEvent F ofLong d s with ⟨s1, e | ⟨b, e⟩⟩ <;> rw [hx] at hn <;>
      simpa only [ask, hx] using hn
  | flux n => simp only [ask, fluxXsec, ensure_done h]; exact h
  | good => rcases hx : good s.reader with e | b <;> simp only [ask, hx] <;> exact h

/-- C66 once the reader is open: no question changes the flag any more. -/
theorem C66_open_partial [DivisionRing K] (F : TextFmt K) (ofLong : Int → K) (d : OnDisk)
    (s : Sys K) (h : s.reader.initialized = true) (ops : List Op) :
    (afterwards F ofLong d s ops).logging = s.logging := by
  induction ops generalizing s with
  | nil => rfl
  | cons o l ih =>
    have h1 : (ask F ofLong d s o).1.logging = s.logging := by
      rw [ask_logging, ensure_done h]; split <;> rfl
    have h2 : (ask F ofLong d s o).1.reader.initialized = true := by
      rw [ask_initialized _ _ _ _ _ h]
    rw [afterwards, List.foldl_cons, ← h1]
    exact ih _ h2

/-- **C66 fails** after every successful opening: if the reader answers the question for
the cross section, the flag is off, whatever it was before.  Every file the program writes
(C65) is an instance. -/
theorem C66_success_violated [DivisionRing K] (F : TextFmt K) (ofLong : Int → K) (d : OnDisk)
    (s : Sys K) (h : s.reader.initialized = false) (hon : s.logging = true) (natural : Bool) (x : K)
    (hx : (fluxXsec F ofLong d natural s).2 = .ok x) :
    (fluxXsec F ofLong d natural s).1.logging ≠ s.logging := by
  intro hc
  rcases (C66_exact_partial F ofLong d s h natural).1.mp hc with h1 | h1
  · rw [hon] at h1; cases h1
  · rw [hx] at h1; cases h1

example : (fluxXsec exText (fun n => (n : ℚ)) ⟨true, some exTwo⟩ true ⟨true, fresh⟩).1.logging ≠
    true := by
  obtain ⟨s1, h1, -⟩ := json_start (F := exText) exTwo_contains exTwo_flux true
  exact C66_success_violated exText _ ⟨true, some exTwo⟩ ⟨true, fresh⟩ rfl rfl true s1.reader.xsec
    (by simp only [fluxXsec, h1, if_true])

/-- **C66 fails** after an exception too: a file that begins with a brace and is not a
JSON document ends with a plain `std::exception`, and the flag is off. -/
theorem C66_parse_violated [DivisionRing K] (F : TextFmt K) (ofLong : Int → K) (text : Str)
    (hb : firstChar text = some '{') (e : Exc) (hp : loadStream F.json text = .exc e) (lg : Bool) :
    (nextEvent F ofLong ⟨true, some text⟩ ⟨lg, fresh⟩).2 = .error .plain ∧
    (nextEvent F ofLong ⟨true, some text⟩ ⟨lg, fresh⟩).1.logging = false := by
  have h : ensure F ofLong ⟨true, some text⟩ ⟨lg, fresh⟩ =
      (⟨false, { (fresh : Reader K) with format := some .json, opened := true, stream := some text }⟩,
        .error .plain) := by
    simp only [ensure, fresh, deduce, hb, and_self, if_true, recognised, initReader, initJson, hp,
      Option.getD_some, Bool.false_eq_true, Bool.true_eq_false, if_false]
  rw [next_logging, nextEvent, h]
  exact ⟨rfl, rfl⟩

example (lg : Bool) :
    (nextEvent exText (fun n => (n : ℚ)) ⟨true, some ['{', ']']⟩ ⟨lg, fresh⟩).1.logging = false :=
  (C66_parse_violated exText _ ['{', ']'] (by decide) .marleyError
    (by
      have h : List.dropWhile isKeyChar [']'] = [] := by decide
      simp [loadStream, skipWs, parseNext, parseObject, consumeWs, parseKey, isSpace, h]) lg).2

end Marley.Props
