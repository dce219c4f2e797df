import Verif.Lemmas.ReaderCut
import Verif.Props.EventReader
import Verif.Props.JsonTruncated

/-!
# C121: files of events that are cut off

A job that is stopped, or a disk that is full, leaves the beginning of a file.  `nexts n` asks a
new reader `n` times for the next event.  `CutAfter file es k text`: `text` is the beginning of
the file of `es` with exactly the first `k` events complete.  `f.LawfulCut` is what is assumed of
the C++ standard library about numbers that are cut off (`Verif.Lemmas.EventCut`).
-/

set_option autoImplicit false

namespace Marley.Props
open Marley Marley.Json Marley.Out Marley.Rdr

variable {K : Type}

theorem asciiFile_eq (f : DblFmt K) (x : K) :
    asciiFile f x = fun l => (f.print x ++ ['\n']) ++ l.flatMap (Event.print f) := by
  funext l; simp [asciiFile]

/-- C121, ASCII: wherever the file is cut off behind its first event, the complete events are
read, in order; then the end is reported or a `marley::Error` is thrown, unless nothing but the
newline and digits of the very last charge are missing: then there is one more event, which
differs from the one that was written at most in that charge; and then there is the end, however
often one asks.  Missing from the full claim: files cut off before the end of the first event. -/
theorem C121_ascii_partial [Field K] (F : TextFmt K) (hf : F.dbl.Lawful) (hc : F.dbl.LawfulCut)
    (ofLong : Int → K) (x : K) (es : List (Event K)) (hne : es ≠ []) (he : ∀ e ∈ es, AsciiOk e)
    (text : Str) (h : text <+: asciiFile F.dbl x es) (h1 : asciiFile F.dbl x (es.take 1) <+: text) :
    ∃ k a, 1 ≤ k ∧ CutAfter (asciiFile F.dbl x) es k text ∧
      (a = .event false blankEvent ∨ ∃ e, es[k]? = some e ∧ (a = .fail (.exc .marleyError) ∨
        ∃ l p j, e.final = l ++ [p] ∧ j < (natText p.charge.natAbs).length ∧
          text.length + j + 1 = (asciiFile F.dbl x (es.take (k + 1))).length ∧
          a = .event true { e with final := l ++ [{ p with charge := p.charge.tdiv (10 ^ j) }] })) ∧
      ∀ logging m, answers F ofLong ⟨true, some text⟩ ⟨logging, fresh⟩ (nexts (k + 1 + m)) =
        (es.take k).map (.event true) ++ a :: List.replicate m (.event false blankEvent) := by
  rw [asciiFile_eq] at *
  obtain ⟨k, hk, hcut⟩ := cut_exists (F.dbl.print x ++ ['\n']) (Event.print F.dbl) es h 1
    (List.length_pos_iff.2 hne) h1
  obtain ⟨t, ht, hrest⟩ := cut_rest hcut
  have hok : ∀ e ∈ es.take k, AsciiOk e := fun e h => he e (List.mem_of_mem_take h)
  have hlen : (es.take k).length = k := List.length_take_of_le hcut.le
  -- all answers follow from those of a reader that stands before the rest
  have hall : ∀ (a : Ans K), (∀ m s, AsciiReader s (some ('\n' :: t)) →
        answers F ofLong ⟨true, some text⟩ s (nexts (m + 1)) =
          a :: List.replicate m (.event false blankEvent)) → ∀ logging m,
      answers F ofLong ⟨true, some text⟩ ⟨logging, fresh⟩ (nexts (k + 1 + m)) =
        (es.take k).map (.event true) ++ a :: List.replicate m (.event false blankEvent) := by
    intro a ha logging m
    cases hl : es.take k with
    | nil => rw [hl] at hlen; simp at hlen; omega
    | cons e l =>
      have htext : text = F.dbl.print x ++ '\n' :: (Event.print F.dbl e ++
          (l.flatMap (Event.print F.dbl) ++ t)) := by
        rw [ht, hl]; simp
      obtain ⟨s, g1, g2⟩ := ascii_first hf ofLong logging x e (l.flatMap (Event.print F.dbl) ++ t)
        (hok e (by rw [hl]; simp))
      rw [← htext] at g2
      obtain ⟨s', g3, g4⟩ := ascii_events hf (ofLong := ofLong) (d := ⟨true, some text⟩) (e :: l)
        (by rw [← hl]; exact hok) t (m + 1) s (by rw [List.flatMap_cons, List.append_assoc]; exact g1)
      have hn : k + 1 + m = k + m + 1 := by omega
      have hn' : k + m + 1 = (e :: l).length + (m + 1) := by rw [← hl, hlen]; omega
      rw [hn, g2, hn', g4, ha m s' g3]
  rcases hrest with ⟨hd, rfl⟩ | ⟨e, l, hd, hget, h2, h3, h4⟩
  · refine ⟨k, .event false blankEvent, hk, hcut, Or.inl rfl, hall _ ?_⟩
    intro m s hs
    rw [ascii_stop hs (read_newline F.dbl) m, List.replicate_succ]
  · have hmem : e ∈ es := List.mem_of_getElem? hget
    obtain ⟨a1, a2, a3⟩ := he e hmem
    have hcase := Event.read_cutOff hf hc e a1 a2 a3 h2 h3
    rw [← Event.read_space nl] at hcase
    rcases hcase with ⟨e', r1, -, -⟩ | r1 | ⟨l', p, r1, r2, r3⟩
    · refine ⟨k, .event false blankEvent, hk, hcut, Or.inl rfl, hall _ ?_⟩
      intro m s hs
      rw [ascii_stop hs r1 m, List.replicate_succ]
    · refine ⟨k, .fail (.exc .marleyError), hk, hcut, Or.inr ⟨e, hget, Or.inl rfl⟩, hall _ ?_⟩
      intro m s hs
      rw [ascii_fail hs r1 m]
    · have hpre : text.length ≤ ((F.dbl.print x ++ ['\n']) ++ (es.take (k + 1)).flatMap
          (Event.print F.dbl)).length := by
        by_contra hlt
        omega
      refine ⟨k, .event true { e with final := l' ++ [p.short ((e.print F.dbl).length - t.length - 1)] },
        hk, hcut, Or.inr ⟨e, hget, Or.inr ⟨l', p, (e.print F.dbl).length - t.length - 1, r1, ?_, ?_,
          rfl⟩⟩, hall _ ?_⟩
      · omega
      · dsimp only at h4 ⊢
        omega
      · intro m s hs
        obtain ⟨s', g1, g2⟩ := ascii_step (ofLong := ofLong) (d := ⟨true, some text⟩) hs r3 m
        rw [g2]
        cases m with
        | zero => rfl
        | succ m =>
          have hnil : Event.read F.dbl [] = .ok (Event.cleared, none) := by
            simp [Event.read, readInt_nil]
          rw [ascii_stop g1 hnil m]

/-- C121, ASCII: with charges of one digit at the ends of the events (electrons, protons, alpha
particles, neutral particles, residues of the reactions at hand) no event is ever different from
one that was written: the complete events, perhaps the one that lacks nothing but its newline, and
then the end or a `marley::Error`. -/
theorem C121_one_digit_partial [Field K] (F : TextFmt K) (hf : F.dbl.Lawful) (hc : F.dbl.LawfulCut)
    (ofLong : Int → K) (x : K) (es : List (Event K)) (hne : es ≠ [])
    (he : ∀ e ∈ es, AsciiOk e ∧ OneDigit e)
    (text : Str) (h : text <+: asciiFile F.dbl x es) (h1 : asciiFile F.dbl x (es.take 1) <+: text) :
    ∃ k a, 1 ≤ k ∧ CutAfter (asciiFile F.dbl x) es k text ∧
      (a = .event false blankEvent ∨ ∃ e, es[k]? = some e ∧ (a = .fail (.exc .marleyError) ∨
        text.length + 1 = (asciiFile F.dbl x (es.take (k + 1))).length ∧ a = .event true e)) ∧
      ∀ logging m, answers F ofLong ⟨true, some text⟩ ⟨logging, fresh⟩ (nexts (k + 1 + m)) =
        (es.take k).map (.event true) ++ a :: List.replicate m (.event false blankEvent) := by
  obtain ⟨k, a, hk, hcut, ha, hall⟩ := C121_ascii_partial F hf hc ofLong x es hne
    (fun e h => (he e h).1) text h h1
  refine ⟨k, a, hk, hcut, ?_, hall⟩
  rcases ha with ha | ⟨e, hget, ha | ⟨l, p, j, r1, r2, r3, ha⟩⟩
  · exact Or.inl ha
  · exact Or.inr ⟨e, hget, Or.inl ha⟩
  · have hd := (he e (List.mem_of_getElem? hget)).2 p (by rw [r1]; simp)
    have hone : (natText p.charge.natAbs).length = 1 := by
      rw [natText, if_pos (by omega)]; rfl
    obtain rfl : j = 0 := by omega
    refine Or.inr ⟨e, hget, Or.inr ⟨r3, ?_⟩⟩
    rw [ha]
    have : ({ p with charge := p.charge.tdiv (10 ^ 0) } : Particle K) = p := by
      cases p; simp
    rw [this, ← r1]

/-- The file of two events. -/
theorem cutSample (x : ℚ) : asciiFile ratFmt x [sampleEvent, sampleEvent] =
    asciiFile ratFmt x [sampleEvent] ++ Event.print ratFmt sampleEvent := by
  simp [asciiFile]

theorem ratFmt_readCut {u : Str} (hs : ∀ c ∈ u, isSpace c = false) :
    ratFmt.read u = none ∨ ∃ y, ratFmt.read u = some (y, []) := by
  have h2 : u.dropWhile (fun c => !isSpace c) = [] := dropWhile_all (by simpa using hs)
  simp only [ratFmt, h2]
  split_ifs
  · exact Or.inr ⟨_, rfl⟩
  · exact Or.inr ⟨_, rfl⟩
  · exact Or.inl rfl

theorem ratFmt_cut : ratFmt.LawfulCut := fun x _ hu =>
  ratFmt_readCut (fun c hc => ratText_chars x c (hu.subset hc))

theorem sampleEvent_asciiOk : AsciiOk sampleEvent :=
  ⟨sampleEvent_fits, by simp [sampleEvent], by simp [sampleEvent]⟩

theorem sampleEvent_oneDigit : OneDigit sampleEvent := by
  intro p hp
  simp [sampleEvent] at hp
  subst hp
  simp

/-- A file of two events that is cut off anywhere in the second. -/
example (ofLong : Int → ℚ) (n : Nat) : ∃ k a, 1 ≤ k ∧
    CutAfter (asciiFile ratFmt 1) [sampleEvent, sampleEvent] k
      (asciiFile ratFmt 1 [sampleEvent] ++ (Event.print ratFmt sampleEvent).take n) ∧
    (a = .event false blankEvent ∨ ∃ e, [sampleEvent, sampleEvent][k]? = some e ∧
      (a = .fail (.exc .marleyError) ∨
        (asciiFile ratFmt 1 [sampleEvent] ++ (Event.print ratFmt sampleEvent).take n).length + 1 =
          (asciiFile ratFmt 1 ([sampleEvent, sampleEvent].take (k + 1))).length ∧
        a = .event true e)) ∧
    ∀ logging m, answers exText ofLong
        ⟨true, some (asciiFile ratFmt 1 [sampleEvent] ++ (Event.print ratFmt sampleEvent).take n)⟩
        ⟨logging, fresh⟩ (nexts (k + 1 + m)) =
      ([sampleEvent, sampleEvent].take k).map (.event true) ++
        a :: List.replicate m (.event false blankEvent) :=
  C121_one_digit_partial exText ratFmt_lawful ratFmt_cut ofLong 1 [sampleEvent, sampleEvent] (by simp)
    (by
      intro e he
      simp only [List.mem_cons, List.not_mem_nil, or_false, or_self] at he
      rw [he]; exact ⟨sampleEvent_asciiOk, sampleEvent_oneDigit⟩)
    _ (by
      change _ <+: asciiFile ratFmt 1 [sampleEvent, sampleEvent]
      rw [cutSample, List.prefix_append_right_inj]; exact List.take_prefix _ _)
    (by simp [exText])

/-- C121: a file that lacks its last newline is read like the whole file. -/
theorem C121_newline [Field K] (F : TextFmt K) (hf : F.dbl.Lawful) (ofLong : Int → K) (x : K)
    (es : List (Event K)) (hne : es ≠ []) (he : ∀ e ∈ es, AsciiOk e) (e : Event K) (hok : AsciiOk e)
    (logging : Bool) (m : Nat) :
    answers F ofLong ⟨true, some (asciiFile F.dbl x (es ++ [e])).dropLast⟩ ⟨logging, fresh⟩
      (nexts (es.length + 1 + m)) =
      (es ++ [e]).map (.event true) ++ List.replicate m (.event false blankEvent) := by
  obtain ⟨a1, a2, a3⟩ := hok
  have hprint : Event.print F.dbl e ≠ [] := by
    rw [Event.print, Event.printHeader]
    simp
  have htext : (asciiFile F.dbl x (es ++ [e])).dropLast = F.dbl.print x ++ '\n' ::
      (es.flatMap (Event.print F.dbl) ++ (Event.print F.dbl e).dropLast) := by
    have : asciiFile F.dbl x (es ++ [e]) = (F.dbl.print x ++ '\n' ::
        es.flatMap (Event.print F.dbl)) ++ Event.print F.dbl e := by simp [asciiFile]
    rw [this, List.dropLast_append_of_ne_nil hprint]
    simp
  rw [htext]
  cases es with
  | nil => exact absurd rfl hne
  | cons e0 es =>
    obtain ⟨s, g1, g2⟩ := ascii_first hf ofLong logging x e0 (es.flatMap (Event.print F.dbl) ++
      (Event.print F.dbl e).dropLast) (he e0 (by simp))
    rw [List.flatMap_cons, List.append_assoc]
    obtain ⟨s', g3, g4⟩ := ascii_events hf (ofLong := ofLong) (d := ⟨true, some (F.dbl.print x ++
      '\n' :: (Event.print F.dbl e0 ++ (es.flatMap (Event.print F.dbl) ++
        (Event.print F.dbl e).dropLast)))⟩) (e0 :: es) he (Event.print F.dbl e).dropLast (m + 1) s
        (by rw [List.flatMap_cons, List.append_assoc]; exact g1)
    have hn : (e0 :: es).length + 1 + m = (e0 :: es).length + m + 1 := by omega
    have hn' : (e0 :: es).length + m + 1 = (e0 :: es).length + (m + 1) := by omega
    have hread := Event.read_end hf e a1 a2 a3
    rw [← Event.read_space nl] at hread
    obtain ⟨s2, g5, g6⟩ := ascii_step (F := F) (ofLong := ofLong) (d := ⟨true, some (F.dbl.print x ++
      '\n' :: (Event.print F.dbl e0 ++ (es.flatMap (Event.print F.dbl) ++
        (Event.print F.dbl e).dropLast)))⟩) g3 hread m
    rw [hn, g2, hn', g4, g6]
    have hend : answers F ofLong ⟨true, some (F.dbl.print x ++ '\n' :: (Event.print F.dbl e0 ++
        (es.flatMap (Event.print F.dbl) ++ (Event.print F.dbl e).dropLast)))⟩ s2 (nexts m) =
        List.replicate m (.event false blankEvent) := by
      cases m with
      | zero => rfl
      | succ m =>
        have hnil : Event.read F.dbl [] = .ok (Event.cleared, none) := by
          simp [Event.read, readInt_nil]
        exact ascii_stop g5 hnil m
    rw [hend]
    simp

example (ofLong : Int → ℚ) (m : Nat) : answers exText ofLong
    ⟨true, some (asciiFile ratFmt 1 ([sampleEvent] ++ [sampleEvent])).dropLast⟩ ⟨false, fresh⟩
      (nexts (1 + 1 + m)) =
      [.event true sampleEvent, .event true sampleEvent] ++
        List.replicate m (.event false blankEvent) :=
  C121_newline exText ratFmt_lawful ofLong 1 [sampleEvent] (by simp)
    (by intro e he; simp only [List.mem_cons, List.not_mem_nil, or_false] at he
        rw [he]; exact sampleEvent_asciiOk) sampleEvent sampleEvent_asciiOk false m

/-- C121 does not hold for all ASCII files: if the last charge has two or more digits, the file
without its last two characters is read without any complaint, with a last event that nobody
wrote. -/
theorem C121_charge_violated [Field K] (F : TextFmt K) (hf : F.dbl.Lawful) (ofLong : Int → K) (x : K)
    (es : List (Event K)) (hne : es ≠ []) (he : ∀ e ∈ es, AsciiOk e) (e : Event K) (hok : AsciiOk e)
    (l : List (Particle K)) (p : Particle K) (hp : e.final = l ++ [p]) (h10 : 10 ≤ p.charge.natAbs)
    (logging : Bool) (m : Nat) :
    ∃ e', e' ≠ e ∧
    answers F ofLong ⟨true, some (asciiFile F.dbl x (es ++ [e])).dropLast.dropLast⟩ ⟨logging, fresh⟩
      (nexts (es.length + 1 + m)) =
      (es ++ [e']).map (.event true) ++ List.replicate m (.event false blankEvent) := by
  obtain ⟨⟨b1, b2, b3, b4, b5⟩, a2, a3⟩ := hok
  have hok' : AsciiOk ({ e with final := l ++ [p.short 1] } : Event K) := by
    refine ⟨⟨b1, ?_, b3, b4, ?_⟩, a2, ?_⟩
    · intro q hq
      rcases List.mem_append.1 hq with hq | hq
      · exact b2 q (by rw [hp]; simp [hq])
      · obtain rfl : q = p.short 1 := by simpa using hq
        have := b2 p (by rw [hp]; simp)
        exact ⟨this.1, tdiv_fits this.2 1⟩
    · have : (l ++ [p.short 1]).length = e.final.length := by rw [hp]; simp
      change ((l ++ [p.short 1]).length : Int) ≤ intMax
      rw [this]; exact b5
    · have : (l ++ [p.short 1]).length = e.final.length := by rw [hp]; simp
      change 2 ≤ (l ++ [p.short 1]).length
      rw [this]; exact a3
  refine ⟨{ e with final := l ++ [p.short 1] }, ?_, ?_⟩
  · intro heq
    have h1 : (l ++ [p.short 1]) = e.final := congrArg Event.final heq
    rw [hp] at h1
    have h2 : [p.short 1] = [p] := List.append_cancel_left h1
    have h3 : p.charge.tdiv (10 ^ 1) = p.charge := congrArg Particle.charge (List.cons.inj h2).1
    rw [pow_one] at h3
    generalize p.charge = c at h3 h10
    have h4 := congrArg Int.natAbs h3
    rw [Int.natAbs_tdiv] at h4
    have : (10 : Int).natAbs = 10 := rfl
    rw [this] at h4
    change c.natAbs / 10 = c.natAbs at h4
    omega
  · have hne1 : ∀ e : Event K, (Event.print F.dbl e).length ≥ 2 := by
      intro e
      rw [Event.print, Event.printHeader]
      simp only [List.length_append, List.length_cons]
      omega
    have hd1 : (Event.print F.dbl e).dropLast ≠ [] := by
      intro h0
      have := congrArg List.length h0
      have h2 := hne1 e
      rw [List.length_dropLast, List.length_nil] at this
      omega
    have hd0 : ∀ e : Event K, Event.print F.dbl e ≠ [] := by
      intro e h0
      have := hne1 e
      rw [h0] at this
      simp at this
    have hsplit : ∀ e : Event K, asciiFile F.dbl x (es ++ [e]) = (F.dbl.print x ++ '\n' ::
        es.flatMap (Event.print F.dbl)) ++ Event.print F.dbl e := by
      intro e; simp [asciiFile]
    have htext : (asciiFile F.dbl x (es ++ [e])).dropLast.dropLast =
        (asciiFile F.dbl x (es ++ [{ e with final := l ++ [p.short 1] }])).dropLast := by
      rw [hsplit, hsplit, List.dropLast_append_of_ne_nil (hd0 _),
        List.dropLast_append_of_ne_nil hd1, List.dropLast_append_of_ne_nil (hd0 _),
        Event.print_short e l p hp h10]
    rw [htext]
    exact C121_newline F hf ofLong x es hne he _ hok' logging m

/-- An event that ends with a bare argon nucleus. -/
def argonEvent : Event ℚ :=
  { sampleEvent with final := sampleEvent.final ++ [⟨1000180400, 37224, 0, 0, 0, 37224, 18⟩] }

theorem argonEvent_asciiOk : AsciiOk argonEvent :=
  ⟨by simp [argonEvent, sampleEvent, Event.Fits, Particle.Fits, intMin, intMax],
    by simp [argonEvent, sampleEvent], by simp [argonEvent, sampleEvent]⟩

example (ofLong : Int → ℚ) : ∃ e', e' ≠ argonEvent ∧
    answers exText ofLong
      ⟨true, some (asciiFile ratFmt 1 ([sampleEvent] ++ [argonEvent])).dropLast.dropLast⟩
      ⟨false, fresh⟩ (nexts (1 + 1 + 1)) =
      ([sampleEvent] ++ [e']).map (.event true) ++ List.replicate 1 (.event false blankEvent) :=
  C121_charge_violated exText ratFmt_lawful ofLong 1 [sampleEvent] (by simp)
    (by intro e he; simp only [List.mem_cons, List.not_mem_nil, or_false] at he
        rw [he]; exact sampleEvent_asciiOk) argonEvent argonEvent_asciiOk _ _ rfl (by decide) false 1

/-! ## HEPEVT -/

theorem hepRecs_fits [Field K] (num : Nat) (xsec : K) (e : Event K) (hfit : HepFits num e) :
    ∀ r ∈ Event.hepRecs e xsec, r.Fits := by
  obtain ⟨⟨ff1, ff2, ff3, ff4, ff5⟩, hnum, hcount⟩ := hfit
  intro r hr
  simp only [Event.hepRecs, List.mem_append, List.mem_map, List.mem_cons] at hr
  have hπ : intMin ≤ e.parity.toInt ∧ e.parity.toInt ≤ intMax := by
    rcases e.parity with ⟨b⟩; cases b <;> decide
  rcases hr with ⟨p, hp, rfl⟩ | rfl | ⟨p, hp, rfl⟩
  · have := (ff1 p hp).1
    simp [Event.HepRec.Fits, Event.hepRec, this, Event.INITIAL_CODE, intMin, intMax] at this ⊢
    exact this
  · simp [Event.HepRec.Fits, Event.hepRec, Event.INFO_CODE, ff3, hπ]
    simp [intMin, intMax]
  · have := (ff2 p hp).1
    simp [Event.HepRec.Fits, Event.hepRec, Event.FINAL_CODE, intMin, intMax] at this ⊢
    exact this

/-- C121, HEPEVT: wherever the file is cut off behind its first event, the complete events are
read, in order; then the end is reported or an exception is thrown, unless nothing but the newline
and the last decimal point are missing: then the last event is read as well.  No event is ever
different from one that was written.  Missing from the full claim: files cut off before the end of
the first event; events that do not survive HEPEVT (C08). -/
theorem C121_hepevt_partial [Field K] [CharZero K] (F : TextFmt K) (hf : F.dbl.Lawful)
    (hz : F.dbl.LawfulZero) (hi : LawfulInt F.dbl) (hc : F.dbl.LawfulCut) (hcz : F.dbl.LawfulCutZero)
    (ofLong : Int → K) (es : List (Event K × K)) (hne : es ≠ []) (he : ∀ p ∈ es, HepReads p.1)
    (text : Str) (h : text <+: hepevtFile F.dbl es) (h1 : hepevtFile F.dbl (es.take 1) <+: text) :
    ∃ k a, 1 ≤ k ∧ CutAfter (hepevtFile F.dbl) es k text ∧
      (a = .event false blankEvent ∨ ∃ p, es[k]? = some p ∧ ((∃ x, a = .fail x) ∨
        (hepevtFile F.dbl (es.take (k + 1))).length ≤ text.length + 2 ∧ a = .event true p.1)) ∧
      ∀ logging m, answers F ofLong ⟨true, some text⟩ ⟨logging, fresh⟩ (nexts (k + 1 + m)) =
        (es.take k).map (fun p => .event true p.1) ++
          a :: List.replicate m (.event false blankEvent) := by
  have hfile : hepevtFile F.dbl = fun l : List (Event K × K) =>
      [] ++ l.flatMap (fun p => Event.writeHepevt F.dbl 0 p.2 p.1) := by
    funext l; rfl
  have hcut' := hfile ▸ cut_exists [] (fun p : Event K × K => Event.writeHepevt F.dbl 0 p.2 p.1) es
    (text := text) h 1 (List.length_pos_iff.2 hne) h1
  obtain ⟨k, hk, hcut⟩ := hcut'
  obtain ⟨t, ht, hrest⟩ := cut_rest (head := [])
    (line := fun p : Event K × K => Event.writeHepevt F.dbl 0 p.2 p.1) (hfile ▸ hcut)
  have hok : ∀ p ∈ es.take k, HepReads p.1 := fun e h => he e (List.mem_of_mem_take h)
  have hlen : (es.take k).length = k := List.length_take_of_le hcut.le
  have hall : ∀ (a : Ans K), (∀ m s ws, (∀ c ∈ ws, c = '\n') → HepReader s (some (ws ++ t)) →
        answers F ofLong ⟨true, some text⟩ s (nexts (m + 1)) =
          a :: List.replicate m (.event false blankEvent)) → ∀ logging m,
      answers F ofLong ⟨true, some text⟩ ⟨logging, fresh⟩ (nexts (k + 1 + m)) =
        (es.take k).map (fun p => .event true p.1) ++
          a :: List.replicate m (.event false blankEvent) := by
    intro a ha logging m
    cases hl : es.take k with
    | nil => rw [hl] at hlen; simp at hlen; omega
    | cons p l =>
      have htext : text = Event.writeHepevt F.dbl 0 p.2 p.1 ++ (hepevtFile F.dbl l ++ t) := by
        rw [ht, hl, hepevtFile]; simp
      have hp := hok p (by rw [hl]; simp)
      have hpok := hepReads_ok hf hz hp
      obtain ⟨⟨hfit, -, hlen'⟩, a', b, ej, res, prods, g, -⟩ := hp
      obtain ⟨s, g1, g2⟩ := hep_first hi ofLong logging p.2 p.1 (hepevtFile F.dbl l ++ t)
        (by rw [g.ini]; simp) (fun p hp => (hfit.1 p hp).1) (by exact_mod_cast hlen') hpok
      rw [← htext] at g1 g2
      obtain ⟨s', ws, g3, g4, g5⟩ := hep_events (ofLong := ofLong) (d := ⟨true, some text⟩) (p :: l)
        (by rw [← hl]; exact fun q hq => hepReads_ok hf hz (hok q hq)) t (m + 1) s [] (by simp)
        (by rw [List.nil_append, hepevtFile, List.flatMap_cons, List.append_assoc]
            rw [htext] at g1; exact g1)
      have hn : k + 1 + m = k + m + 1 := by omega
      have hn' : k + m + 1 = (p :: l).length + (m + 1) := by rw [← hl, hlen]; omega
      rw [hn, g2, hn', g5, ha m s' ws g3 g4]
  rcases hrest with ⟨hd, rfl⟩ | ⟨p, l, hd, hget, h2, h3, h4⟩
  · refine ⟨k, .event false blankEvent, hk, hcut, Or.inl rfl, hall _ ?_⟩
    intro m s ws hws hs
    have hr := readHepevt_nil F.dbl
    rw [← readHepevt_ws _ ws _ hws] at hr
    rw [hep_stop hs hr m, List.replicate_succ]
  · have hmem : p ∈ es := List.mem_of_getElem? hget
    have hp := he p hmem
    have hpok := hepReads_ok hf hz hp
    have hlenr : (Event.hepRecs p.1 p.2).length = 1 + p.1.initial.length + p.1.final.length := by
      simp [Event.hepRecs]; omega
    have hw : Event.writeHepevt F.dbl 0 p.2 p.1 = natText 0 ++ ' ' ::
        (natText (Event.hepRecs p.1 p.2).length ++ '\n' ::
          (Event.hepRecs p.1 p.2).flatMap (Event.printRec F.dbl)) := by
      rw [Event.writeHepevt, hlenr]
    rw [hw] at h2 h3
    have hcase := Event.readHepevt_cutOff hf hz hc hcz 0 (by decide) (Event.hepRecs p.1 p.2)
      (by rw [hlenr]; exact hp.1.2.2) (hepRecs_fits 0 p.2 p.1 hp.1) (by simp [Event.hepRecs]) h2 h3
    rw [← hw] at hcase h3
    rcases hcase with r1 | ⟨x, r1⟩ | ⟨r1, r2⟩
    · refine ⟨k, .event false blankEvent, hk, hcut, Or.inl rfl, hall _ ?_⟩
      intro m s ws hws hs
      rw [← readHepevt_ws _ ws _ hws] at r1
      rw [hep_stop hs r1 m, List.replicate_succ]
    · refine ⟨k, .fail (.exc x), hk, hcut, Or.inr ⟨p, hget, Or.inl ⟨_, rfl⟩⟩, hall _ ?_⟩
      intro m s ws hws hs
      rw [← readHepevt_ws _ ws _ hws] at r1
      rw [hep_fail hs r1 m]
    · refine ⟨k, .event true p.1, hk, hcut, Or.inr ⟨p, hget, Or.inr ⟨?_, rfl⟩⟩, hall _ ?_⟩
      · have e : (hepevtFile F.dbl (es.take (k + 1))).length =
            ([] ++ (es.take (k + 1)).flatMap (fun p : Event K × K => Event.writeHepevt F.dbl 0 p.2 p.1)).length := rfl
        rw [e]
        omega
      · intro m s ws hws hs
        have hfull := hpok p.2 []
        rw [List.append_nil] at hfull
        have hr := r2 _ _ _ _ hfull
        rw [← readHepevt_ws _ ws _ hws] at hr
        obtain ⟨s', g1, g2⟩ := hep_step (ofLong := ofLong) (d := ⟨true, some text⟩) hs hr m
        rw [g2]
        cases m with
        | zero => rfl
        | succ m => rw [hep_stop g1 (readHepevt_nil F.dbl) m]

/-! ## JSON -/

theorem ratIntFmt_readCut {u : Str} (hs : ∀ c ∈ u, isSpace c = false) :
    ratIntFmt.read u = none ∨ ∃ y, ratIntFmt.read u = some (y, []) := by
  have h2 : u.dropWhile (fun c => !isSpace c) = [] := dropWhile_all (by simpa using hs)
  simp only [ratIntFmt, h2]
  split_ifs
  · exact Or.inr ⟨_, rfl⟩
  · exact ratFmt_readCut hs

theorem ratIntFmt_cut : ratIntFmt.LawfulCut := fun x _ hu =>
  ratIntFmt_readCut (fun c hc => ratText_chars x c (hu.subset hc))

theorem ratIntFmt_cutZero : ratIntFmt.LawfulCutZero := fun _ hu =>
  ratIntFmt_readCut (fun c hc => by
    have := hu.subset hc
    simp only [List.mem_cons, List.not_mem_nil, or_false] at this
    rcases this with rfl | rfl <;> decide)

/-- A file of two events that is cut off anywhere in the second. -/
example (ofLong : Int → ℚ) (n : Nat) : ∃ k a, 1 ≤ k ∧
    CutAfter (hepevtFile ratIntFmt) [(sampleEvent, 3 / 2), (sampleEvent, 5 / 2)] k
      (hepevtFile ratIntFmt [(sampleEvent, 3 / 2)] ++
        (Event.writeHepevt ratIntFmt 0 (5 / 2) sampleEvent).take n) ∧
    (a = .event false blankEvent ∨
      ∃ p, [(sampleEvent, (3 / 2 : ℚ)), (sampleEvent, 5 / 2)][k]? = some p ∧ ((∃ x, a = .fail x) ∨
        (hepevtFile ratIntFmt ([(sampleEvent, 3 / 2), (sampleEvent, 5 / 2)].take (k + 1))).length ≤
          (hepevtFile ratIntFmt [(sampleEvent, 3 / 2)] ++
            (Event.writeHepevt ratIntFmt 0 (5 / 2) sampleEvent).take n).length + 2 ∧
        a = .event true p.1)) ∧
    ∀ logging m, answers exTextInt ofLong ⟨true, some (hepevtFile ratIntFmt [(sampleEvent, 3 / 2)] ++
        (Event.writeHepevt ratIntFmt 0 (5 / 2) sampleEvent).take n)⟩
        ⟨logging, fresh⟩ (nexts (k + 1 + m)) =
      ([(sampleEvent, (3 / 2 : ℚ)), (sampleEvent, 5 / 2)].take k).map (fun p => .event true p.1) ++
        a :: List.replicate m (.event false blankEvent) := by
  have hsplit : hepevtFile ratIntFmt [(sampleEvent, 3 / 2), (sampleEvent, 5 / 2)] =
      hepevtFile ratIntFmt [(sampleEvent, 3 / 2)] ++
        Event.writeHepevt ratIntFmt 0 (5 / 2) sampleEvent := by
    simp [hepevtFile]
  refine C121_hepevt_partial exTextInt ratIntFmt_lawful ratIntFmt_zero ratIntFmt_int ratIntFmt_cut
    ratIntFmt_cutZero ofLong [(sampleEvent, 3 / 2), (sampleEvent, 5 / 2)] (by simp) ?_ _ ?_ ?_
  · intro p hp
    simp only [List.mem_cons, List.not_mem_nil, or_false] at hp
    rcases hp with rfl | rfl <;> exact sampleEvent_hepReads
  · change _ <+: hepevtFile ratIntFmt _
    rw [hsplit, List.prefix_append_right_inj]
    exact List.take_prefix _ _
  · exact List.prefix_append _ _

/-- C121, JSON: of a file of events that is cut off anywhere no event can be read at all: the first
question that is asked ends with an exception.  `s` is the whole file, with the events `es`. -/
theorem C121_json [Field K] (F : TextFmt K) (ofLong : Int → K) (s : Str) (es : List (Event K)) (n : Int)
    (y : K) (hc : Contains F.json ofLong s es n) (hy : FluxIs F.json s y) (text more : Str)
    (hcut : s = text ++ more) (hm : more ≠ []) (hne : text ≠ [])
    (logging : Bool) (o : Op) (ho : o ≠ .good) (ops : List Op) :
    ∃ as, answers F ofLong ⟨true, some text⟩ ⟨logging, fresh⟩ (o :: ops) = .fail .plain :: as := by
  obtain ⟨events, gs, h, -, -, -⟩ := hc
  obtain ⟨hs, -⟩ := hy
  have hm : ([] : Str).length < more.length := List.length_pos_iff.2 hm
  have hl := C119_truncated F.json s _ [] h text more hcut hm
  have hexc : loadStream F.json text = .exc .marleyError := by
    unfold load at hl
    split at hl
    · cases hl
    · next e he => cases hl; exact he
    · cases hl
  have hfirst : firstChar text = some '{' := by
    cases text with
    | nil => exact absurd rfl hne
    | cons c t =>
      rw [hcut, List.cons_append, List.head?_cons, Option.some.injEq] at hs
      rw [hs, firstChar, skipBlank_cons (by decide), List.head?_cons]
  have hens : ∃ s1, ensure F ofLong ⟨true, some text⟩ ⟨logging, fresh⟩ = (s1, .error .plain) := by
    simp only [ensure, fresh, Bool.false_eq_true, if_false, deduce, hfirst, and_self, if_true,
      recognised, initReader, Option.getD_some, initJson, hexc, Bool.true_eq_false]
    exact ⟨_, rfl⟩
  obtain ⟨s1, hens⟩ := hens
  rw [answers]
  cases o with
  | next => exact ⟨_, by simp only [ask, nextEvent, hens]; rfl⟩
  | flux n => exact ⟨_, by simp only [ask, fluxXsec, hens]; rfl⟩
  | good => exact absurd rfl ho

example (text more : Str) (hcut : exTwo = text ++ more) (hm : more ≠ []) (hne : text ≠ []) :
    ∃ as, answers exText (fun n => (n : ℚ)) ⟨true, some text⟩ ⟨true, fresh⟩ [.next, .next] =
      .fail .plain :: as :=
  C121_json exText _ exTwo _ 2 _ exTwo_contains exTwo_flux text more hcut hm hne true .next
    (by simp) [.next]

end Marley.Props
