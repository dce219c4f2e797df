import Verif.Spec.EventsCut
import Verif.Lemmas.EventReader
import Verif.Lemmas.HepevtCut

/-! Helper lemmas about the reading of files that are cut off. -/

set_option autoImplicit false

namespace Marley.Rdr
open Marley Marley.Json Marley.Out

variable {K : Type}

/-- Every beginning that has the file of no events has a number of complete events. -/
theorem cut_exists {α : Type} (head : Str) (line : α → Str) (es : List α) {text : Str}
    (h : text <+: head ++ es.flatMap line) (j : Nat) (hj : j ≤ es.length)
    (h0 : head ++ (es.take j).flatMap line <+: text) :
    ∃ k, j ≤ k ∧ CutAfter (fun l => head ++ l.flatMap line) es k text := by
  classical
  let P : Nat → Prop := fun k => head ++ (es.take k).flatMap line <+: text
  refine ⟨Nat.findGreatest P es.length, Nat.le_findGreatest hj h0, h, Nat.findGreatest_le _,
    Nat.findGreatest_spec (P := P) hj h0, ?_⟩
  intro hlt hp
  exact Nat.findGreatest_is_greatest (P := P) (n := es.length) (Nat.lt_succ_self _) hlt hp

/-- The rest after the complete events. -/
theorem cut_rest {α : Type} {head : Str} {line : α → Str} {es : List α} {k : Nat} {text : Str}
    (h : CutAfter (fun l => head ++ l.flatMap line) es k text) :
    ∃ t, text = head ++ ((es.take k).flatMap line ++ t) ∧
      ((es.drop k = [] ∧ t = []) ∨ ∃ e l, es.drop k = e :: l ∧ es[k]? = some e ∧ t <+: line e ∧
        t.length < (line e).length ∧
        (head ++ (es.take (k + 1)).flatMap line).length - text.length = (line e).length - t.length) := by
  obtain ⟨h1, h2, h3, h4⟩ := h
  obtain ⟨t, rfl⟩ := h3
  refine ⟨t, by simp [List.append_assoc], ?_⟩
  have hsplit : es.flatMap line = (es.take k).flatMap line ++ (es.drop k).flatMap line := by
    rw [← List.flatMap_append, List.take_append_drop]
  rw [hsplit, ← List.append_assoc, List.prefix_append_right_inj] at h1
  cases hd : es.drop k with
  | nil =>
    rw [hd] at h1
    exact Or.inl ⟨rfl, List.prefix_nil.1 h1⟩
  | cons e l =>
    right
    have hk : k < es.length := by
      by_contra hc
      rw [List.drop_eq_nil_of_le (by omega)] at hd
      cases hd
    have he : es[k]? = some e := by
      have := List.getElem?_drop (xs := es) (i := k) (j := 0)
      rw [hd] at this
      simpa using this.symm
    have htake : es.take (k + 1) = es.take k ++ [e] := by
      rw [List.take_add_one, he]; rfl
    have h4 := h4 hk
    rw [htake, List.flatMap_append, ← List.append_assoc, List.prefix_append_right_inj] at h4
    simp only [List.flatMap_cons, List.flatMap_nil, List.append_nil] at h4
    rw [hd, List.flatMap_cons] at h1
    refine ⟨e, l, rfl, he, ?_⟩
    rcases prefix_cases h1 with g | ⟨t', rfl, g⟩
    · have hlt : t.length < (line e).length := by
        by_contra hc
        exact h4 (by rw [g.eq_of_length_le (by omega)])
      refine ⟨g, hlt, ?_⟩
      rw [htake]
      simp only [List.flatMap_append, List.flatMap_cons, List.flatMap_nil, List.append_nil,
        List.length_append]
      omega
    · exact absurd (List.prefix_append _ _) h4

theorem nexts_succ (n : Nat) : nexts (n + 1) = .next :: nexts n := rfl

/-! ### ASCII -/

/-- A reader of an ASCII file with the given stream. -/
structure AsciiReader (s : Sys K) (stream : Option Str) : Prop where
  init : s.reader.initialized = true
  format : s.reader.format = some .ascii
  stream : s.reader.stream = stream

theorem ascii_ended [DivisionRing K] {F : TextFmt K} {ofLong : Int → K} {d : OnDisk} (m : Nat) :
    ∀ s, AsciiReader (K := K) s none →
      answers F ofLong d s (nexts m) = List.replicate m (.event false blankEvent) := by
  induction m with
  | zero => intro s _; rfl
  | succ m ih =>
    intro s h
    have e1 : ask F ofLong d s .next = (s, .event false blankEvent) := by
      simp only [ask, nextEvent, ensure_done h.init, h.format, nextAscii, h.stream, emptyEvent_eq]
    rw [nexts_succ, answers, e1, List.replicate_succ]
    exact congrArg _ (ih s h)

theorem ascii_stop [DivisionRing K] {F : TextFmt K} {ofLong : Int → K} {d : OnDisk} {s : Sys K}
    {t : Str} (h : AsciiReader (K := K) s (some t)) {e : Event K}
    (hr : Event.read F.dbl t = .ok (e, none)) (m : Nat) :
    answers F ofLong d s (nexts (m + 1)) = List.replicate (m + 1) (.event false blankEvent) := by
  have e1 : ask F ofLong d s .next =
      ({ s with reader := { s.reader with stream := none } }, .event false blankEvent) := by
    simp only [ask, nextEvent, ensure_done h.init, h.format, nextAscii, h.stream, hr, emptyEvent_eq]
  rw [nexts_succ, answers, e1, List.replicate_succ]
  exact congrArg _ (ascii_ended m _ ⟨h.init, h.format, rfl⟩)

theorem ascii_fail [DivisionRing K] {F : TextFmt K} {ofLong : Int → K} {d : OnDisk} {s : Sys K}
    {t : Str} (h : AsciiReader (K := K) s (some t)) {x : Exc} (hr : Event.read F.dbl t = .error x)
    (m : Nat) : answers F ofLong d s (nexts (m + 1)) =
      .fail (.exc x) :: List.replicate m (.event false blankEvent) := by
  have e1 : ask F ofLong d s .next =
      ({ s with reader := { s.reader with stream := none } }, .fail (.exc x)) := by
    simp only [ask, nextEvent, ensure_done h.init, h.format, nextAscii, h.stream, hr]
  rw [nexts_succ, answers, e1]
  exact congrArg _ (ascii_ended m _ ⟨h.init, h.format, rfl⟩)

theorem ascii_step [DivisionRing K] {F : TextFmt K} {ofLong : Int → K} {d : OnDisk} {s : Sys K}
    {t u : Str} (h : AsciiReader (K := K) s (some t)) {e : Event K}
    (hr : Event.read F.dbl t = .ok (e, some u)) (m : Nat) :
    ∃ s', AsciiReader s' (some u) ∧ answers F ofLong d s (nexts (m + 1)) =
      .event true e :: answers F ofLong d s' (nexts m) := by
  have e1 : ask F ofLong d s .next =
      ({ s with reader := { s.reader with stream := some u } }, .event true e) := by
    simp only [ask, nextEvent, ensure_done h.init, h.format, nextAscii, h.stream, hr]
  exact ⟨{ s with reader := { s.reader with stream := some u } }, ⟨h.init, h.format, rfl⟩,
    by rw [nexts_succ, answers, e1]⟩

theorem ascii_events [DivisionRing K] {F : TextFmt K} (hf : F.dbl.Lawful) {ofLong : Int → K}
    {d : OnDisk} (es : List (Event K)) (he : ∀ e ∈ es, AsciiOk e) (t : Str) (m : Nat) :
    ∀ s, AsciiReader s (some ('\n' :: (es.flatMap (Event.print F.dbl) ++ t))) →
      ∃ s', AsciiReader s' (some ('\n' :: t)) ∧ answers F ofLong d s (nexts (es.length + m)) =
        es.map (.event true) ++ answers F ofLong d s' (nexts m) := by
  induction es with
  | nil => intro s h; exact ⟨s, h, by simp⟩
  | cons e es ih =>
    intro s h
    obtain ⟨a1, a2, a3⟩ := he e (by simp)
    rw [List.flatMap_cons, List.append_assoc] at h
    have hr : Event.read F.dbl ('\n' :: (Event.print F.dbl e ++ (es.flatMap (Event.print F.dbl) ++ t))) =
        .ok (e, some ('\n' :: (es.flatMap (Event.print F.dbl) ++ t))) := by
      rw [Event.read_space nl, Event.read_print hf e a1 a2 a3]
    obtain ⟨s1, g1, g2⟩ := ascii_step (ofLong := ofLong) (d := d) h hr (es.length + m)
    obtain ⟨s2, g3, g4⟩ := ih (fun e he' => he e (by simp [he'])) s1 g1
    refine ⟨s2, g3, ?_⟩
    have : (e :: es).length + m = es.length + m + 1 := by simp only [List.length_cons]; omega
    rw [this, g2, g4]
    rfl

/-- The first question to a reader of an ASCII file with a complete first event. -/
theorem ascii_first [DivisionRing K] {F : TextFmt K} (hf : F.dbl.Lawful) (ofLong : Int → K) (lg : Bool)
    (x : K) (e : Event K) (u : Str) (he : AsciiOk e) :
    ∃ s, AsciiReader s (some ('\n' :: (Event.print F.dbl e ++ u))) ∧ ∀ m,
      answers F ofLong ⟨true, some (F.dbl.print x ++ '\n' :: (Event.print F.dbl e ++ u))⟩ ⟨lg, fresh⟩
        (nexts (m + 1)) =
      answers F ofLong ⟨true, some (F.dbl.print x ++ '\n' :: (Event.print F.dbl e ++ u))⟩ s
        (nexts (m + 1)) := by
  obtain ⟨a1, a2, a3⟩ := he
  have hget : F.dbl.get (F.dbl.print x ++ '\n' :: (Event.print F.dbl e ++ u)) =
      some (x, '\n' :: (Event.print F.dbl e ++ u)) := get_print hf x nl _
  have hread : Event.read F.dbl ('\n' :: (Event.print F.dbl e ++ u)) = .ok (e, some ('\n' :: u)) := by
    rw [Event.read_space nl, Event.read_print hf e a1 a2 a3]
  have htry : tryAscii F.dbl (F.dbl.print x ++ '\n' :: (Event.print F.dbl e ++ u)) = .ok (some x) := by
    simp only [tryAscii, hget, hread]
  have hfirst : firstChar (F.dbl.print x ++ '\n' :: (Event.print F.dbl e ++ u)) ≠ some '{' := by
    obtain ⟨c, t, h1, h2⟩ := hf.head x
    have h3 := numStart_not_space h2
    rw [h1, firstChar, List.cons_append, skipBlank_cons h3]
    simp only [List.head?_cons, ne_eq, Option.some.injEq]
    rintro rfl
    revert h2; decide
  have hens : ensure F ofLong ⟨true, some (F.dbl.print x ++ '\n' :: (Event.print F.dbl e ++ u))⟩
      ⟨lg, fresh⟩ = (⟨false, ⟨some .ascii, true, some ('\n' :: (Event.print F.dbl e ++ u)), none, 0, x,
        true⟩⟩, .ok ()) := by
    simp only [ensure, fresh, Bool.false_eq_true, if_false, deduce, htry, hfirst, and_false,
      recognised, initReader, hget, Bool.true_eq_false]
  refine ⟨⟨false, ⟨some .ascii, true, some ('\n' :: (Event.print F.dbl e ++ u)), none, 0, x, true⟩⟩,
    ⟨rfl, rfl, rfl⟩, ?_⟩
  · intro m
    rw [nexts_succ, answers, answers, ask_ensure hens rfl _ (by simp)]

/-! ### HEPEVT -/

/-- A reader of a HEPEVT file with the given stream. -/
structure HepReader (s : Sys K) (stream : Option Str) : Prop where
  init : s.reader.initialized = true
  format : s.reader.format = some .hepevt
  stream : s.reader.stream = stream

theorem hep_ended [DivisionRing K] {F : TextFmt K} {ofLong : Int → K} {d : OnDisk} (m : Nat) :
    ∀ s, HepReader (K := K) s none →
      answers F ofLong d s (nexts m) = List.replicate m (.event false blankEvent) := by
  induction m with
  | zero => intro s _; rfl
  | succ m ih =>
    intro s h
    have e1 : ask F ofLong d s .next =
        ({ s with reader := { s.reader with xsec := 0 } }, .event false blankEvent) := by
      simp only [ask, nextEvent, ensure_done h.init, h.format, nextHepevt, h.stream, emptyEvent_eq]
    rw [nexts_succ, answers, e1, List.replicate_succ]
    exact congrArg _ (ih _ ⟨h.init, h.format, h.stream⟩)

theorem hep_stop [DivisionRing K] {F : TextFmt K} {ofLong : Int → K} {d : OnDisk} {s : Sys K}
    {t : Str} (h : HepReader (K := K) s (some t)) {e : Event K} {x : K}
    (hr : Event.readHepevt F.dbl t = .ok (false, e, x, none)) (m : Nat) :
    answers F ofLong d s (nexts (m + 1)) = List.replicate (m + 1) (.event false blankEvent) := by
  have e1 : ask F ofLong d s .next =
      ({ s with reader := { s.reader with stream := none, xsec := x } }, .event false blankEvent) := by
    simp only [ask, nextEvent, ensure_done h.init, h.format, nextHepevt, h.stream, hr, emptyEvent_eq]
  rw [nexts_succ, answers, e1, List.replicate_succ]
  exact congrArg _ (hep_ended m _ ⟨h.init, h.format, rfl⟩)

theorem hep_fail [DivisionRing K] {F : TextFmt K} {ofLong : Int → K} {d : OnDisk} {s : Sys K}
    {t : Str} (h : HepReader (K := K) s (some t)) {x : Exc}
    (hr : Event.readHepevt F.dbl t = .error x) (m : Nat) : answers F ofLong d s (nexts (m + 1)) =
      .fail (.exc x) :: List.replicate m (.event false blankEvent) := by
  have e1 : ask F ofLong d s .next =
      ({ s with reader := { s.reader with stream := none } }, .fail (.exc x)) := by
    simp only [ask, nextEvent, ensure_done h.init, h.format, nextHepevt, h.stream, hr]
  rw [nexts_succ, answers, e1]
  exact congrArg _ (hep_ended m _ ⟨h.init, h.format, rfl⟩)

theorem hep_step [DivisionRing K] {F : TextFmt K} {ofLong : Int → K} {d : OnDisk} {s : Sys K}
    {t u : Str} (h : HepReader (K := K) s (some t)) {e : Event K} {x : K}
    (hr : Event.readHepevt F.dbl t = .ok (true, e, x, some u)) (m : Nat) :
    ∃ s', HepReader s' (some u) ∧ answers F ofLong d s (nexts (m + 1)) =
      .event true e :: answers F ofLong d s' (nexts m) := by
  have e1 : ask F ofLong d s .next =
      ({ s with reader := { s.reader with stream := some u, xsec := x } }, .event true e) := by
    simp only [ask, nextEvent, ensure_done h.init, h.format, nextHepevt, h.stream, hr]
  exact ⟨{ s with reader := { s.reader with stream := some u, xsec := x } }, ⟨h.init, h.format, rfl⟩,
    by rw [nexts_succ, answers, e1]⟩

theorem hep_events [DivisionRing K] {F : TextFmt K} {ofLong : Int → K}
    {d : OnDisk} (es : List (Event K × K)) (he : ∀ p ∈ es, HepOk F.dbl p.1) (t : Str) (m : Nat) :
    ∀ s ws, (∀ c ∈ ws, c = '\n') → HepReader s (some (ws ++ (hepevtFile F.dbl es ++ t))) →
      ∃ s' ws', (∀ c ∈ ws', c = '\n') ∧ HepReader s' (some (ws' ++ t)) ∧
        answers F ofLong d s (nexts (es.length + m)) =
        es.map (fun p => .event true p.1) ++ answers F ofLong d s' (nexts m) := by
  induction es with
  | nil => intro s ws hws h; exact ⟨s, ws, hws, h, by simp⟩
  | cons p es ih =>
    intro s ws hws h
    have a1 := he p (by simp)
    have hr : Event.readHepevt F.dbl (ws ++ (hepevtFile F.dbl (p :: es) ++ t)) =
        .ok (true, p.1, p.2, some ('\n' :: (hepevtFile F.dbl es ++ t))) := by
      rw [readHepevt_ws _ _ _ hws, hepevtFile, List.flatMap_cons, List.append_assoc]
      exact a1 p.2 _
    obtain ⟨s1, g1, g2⟩ := hep_step (ofLong := ofLong) (d := d) h hr (es.length + m)
    obtain ⟨s2, ws2, g3, g4, g5⟩ := ih (fun e he' => he e (by simp [he'])) s1 ['\n'] (by simp) g1
    refine ⟨s2, ws2, g3, g4, ?_⟩
    have : (p :: es).length + m = es.length + m + 1 := by simp only [List.length_cons]; omega
    rw [this, g2, g5]
    rfl

/-- The first question to a reader of a HEPEVT file with a complete first event. -/
theorem hep_first [DivisionRing K] {F : TextFmt K} (hi : LawfulInt F.dbl) (ofLong : Int → K)
    (lg : Bool) (x : K) (e : Event K) (u : Str) (hini : e.initial ≠ [])
    (hpdg : ∀ p ∈ e.initial, intMin ≤ p.pdg ∧ p.pdg ≤ intMax)
    (hlen : (1 + e.initial.length + e.final.length : Int) ≤ intMax) (he : HepOk F.dbl e) :
    ∃ s, HepReader s (some (Event.writeHepevt F.dbl 0 x e ++ u)) ∧ ∀ m,
      answers F ofLong ⟨true, some (Event.writeHepevt F.dbl 0 x e ++ u)⟩ ⟨lg, fresh⟩ (nexts (m + 1)) =
      answers F ofLong ⟨true, some (Event.writeHepevt F.dbl 0 x e ++ u)⟩ s (nexts (m + 1)) := by
  have htry := hepevt_not_ascii hi x e hini hpdg hlen u
  have hread := he x u
  have hfirst : firstChar (Event.writeHepevt F.dbl 0 x e ++ u) ≠ some '{' := by
    have : ∃ t, Event.writeHepevt F.dbl 0 x e ++ u = '0' :: t := by
      rw [Event.writeHepevt, natText_0]
      exact ⟨_, rfl⟩
    obtain ⟨t, ht⟩ := this
    rw [ht, firstChar, skipBlank_cons (by decide)]
    simp
  have hens : ensure F ofLong ⟨true, some (Event.writeHepevt F.dbl 0 x e ++ u)⟩ ⟨lg, fresh⟩ =
      (⟨false, ⟨some .hepevt, true, some (Event.writeHepevt F.dbl 0 x e ++ u), none, 0, x, true⟩⟩,
        .ok ()) := by
    simp only [ensure, fresh, Bool.false_eq_true, if_false, deduce, htry, hfirst, and_false,
      recognised, initReader, tryHepevt, hread, Bool.true_eq_false]
  refine ⟨⟨false, ⟨some .hepevt, true, some (Event.writeHepevt F.dbl 0 x e ++ u), none, 0, x, true⟩⟩,
    ⟨rfl, rfl, rfl⟩, ?_⟩
  · intro m
    rw [nexts_succ, answers, answers, ask_ensure hens rfl _ (by simp)]

end Marley.Rdr
