import Mathlib.Data.Rat.Encodable
import Verif.Lemmas.OutputRun
import Verif.Props.EventJson
import Verif.Props.Json

/-!
# C61-C64: output files and the program that fills them

The specification vocabulary (`Contains`, `Agreed`, `Opened`, `Records`, `Generates`) is
in `Verif/Spec/OutputFile.lean`.
-/

set_option autoImplicit false

namespace Marley.Props
open Marley Marley.Json Marley.Out

variable {K γ : Type}

/-! ## A concrete case, used only in examples -/

/-- A concrete conversion between rational numbers and JSON text: the text is the place
of the number in an enumeration of the rational numbers, followed by `.0`. -/
def codedFloats : FloatOps ℚ where
  print x := natText (Encodable.encode x) ++ ['.', '0']
  stodPow v _ := .ok ((Encodable.decode (digitsVal (v.takeWhile isDigit))).getD 0)
  longPow n _ := n

theorem codedFloats_ok (x : ℚ) : FloatOk codedFloats x := by
  obtain ⟨c, t, h1, h2⟩ := natText_head_ne (Encodable.encode x)
  have hd := natText_digits (Encodable.encode x)
  constructor
  · refine ⟨c, t ++ ['.', '0'], by simp [codedFloats, h1], .inl ?_⟩
    exact hd c (by simp [h1])
  · intro d rest hend
    obtain ⟨hn1, hn2, hn3, hn4⟩ := isNumEnd_facts hend
    have hm : ∀ c ∈ codedFloats.print x, isNumChar c = true := by
      intro c hc
      simp only [codedFloats, List.mem_append, List.mem_cons, List.not_mem_nil, or_false] at hc
      rcases hc with hc | rfl | rfl
      · have := hd c hc
        simp [isNumChar, this]
      · decide
      · decide
    unfold parseNumber
    rw [takeWhile_append_stop hm hn1, dropWhile_append_stop hm hn1]
    simp only [hn2, hn3, or_self, if_false, hend, if_true]
    have hdot : (codedFloats.print x).contains '.' = true := by
      simp [codedFloats, List.contains_eq_mem]
    unfold finishNumber
    rw [hdot]
    simp only [if_true]
    have : (codedFloats.print x).takeWhile isDigit = natText (Encodable.encode x) := by
      simp only [codedFloats]
      exact takeWhile_append_stop (c := '.') (t := ['0']) hd (by decide)
    simp [codedFloats] at this ⊢
    simp [this, digitsVal_natText]

/-- The text formats of the example. -/
noncomputable def exText : TextFmt ℚ := ⟨codedFloats, ratFmt⟩

/-- A generator that counts its events. -/
def counter : GenOps ℚ Nat where
  create _ := .ok 0
  setState _ s := s.length
  state g := List.replicate g 'x'
  seed _ := 7
  xsec _ := 3 / 2
  event g := some (.ok ({ sampleEvent with twoJ := 2 * (g % 2) }, g + 1))

theorem counter_event (g : Nat) : EventText exText.json { sampleEvent with twoJ := 2 * (g % 2) } := by
  refine ⟨?_, codedFloats_ok _, fun p _ => ⟨codedFloats_ok _, codedFloats_ok _, codedFloats_ok _,
    codedFloats_ok _, codedFloats_ok _⟩⟩
  obtain ⟨a, b, c, d⟩ := sampleEvent_fits
  refine ⟨a, b, ?_, d⟩
  have := Nat.mod_lt g (show 0 < 2 by decide)
  simp only [intMin, intMax]
  omega

theorem counter_texts : ∀ g e g', counter.event g = some (.ok (e, g')) → EventText exText.json e := by
  intro g e g' h
  simp only [counter, Option.some.injEq, Except.ok.injEq, Prod.mk.injEq] at h
  obtain ⟨rfl, -⟩ := h
  exact counter_event g

/-! ## C63: opening -/

theorem promptYesNo_iff (input : List Str) : promptYesNo input = true ↔ SaysYes input := by
  induction input with
  | nil => simp [promptYesNo, SaysYes]
  | cons l t ih =>
    rw [promptYesNo]
    by_cases h1 : l = ['y'] ∨ l = ['Y']
    · rw [if_pos h1]
      exact ⟨fun _ => ⟨[], l, t, rfl, by simp, h1⟩, fun _ => rfl⟩
    · rw [if_neg h1]
      by_cases h2 : l = ['n'] ∨ l = ['N']
      · rw [if_pos h2]
        refine ⟨by simp, ?_⟩
        rintro ⟨a, x, b, h, ha, hx⟩
        cases a with
        | nil =>
          simp only [List.nil_append, List.cons.injEq] at h
          exact absurd (h.1 ▸ hx) h1
        | cons y a =>
          simp only [List.cons_append, List.cons.injEq] at h
          exact absurd (show Answer y from h.1 ▸ .inr (.inr h2)) (ha y (by simp))
      · rw [if_neg h2, ih]
        constructor
        · rintro ⟨a, x, b, rfl, ha, hx⟩
          refine ⟨l :: a, x, b, rfl, ?_, hx⟩
          intro y hy
          rcases List.mem_cons.1 hy with rfl | hy
          · simp only [Answer]; tauto
          · exact ha y hy
        · rintro ⟨a, x, b, h, ha, hx⟩
          cases a with
          | nil =>
            simp only [List.nil_append, List.cons.injEq] at h
            exact absurd (h.1 ▸ hx) h1
          | cons y a =>
            simp only [List.cons_append, List.cons.injEq] at h
            exact ⟨a, x, b, h.2, fun z hz => ha z (by simp [hz]), hx⟩

example : SaysYes ["what?".toList, ['Y'], ['n']] ∧ ¬ SaysYes ["yes".toList, ['n'], ['y']] := by
  rw [← promptYesNo_iff, ← promptYesNo_iff]
  decide

/-- The documented names of the formats. -/
def formatNames : List (String × Format) :=
  [("root", .root), ("hepevt", .hepevt), ("json", .json), ("ascii", .ascii)]

theorem formatOf_iff (s : Str) (fmt : Format) :
    formatOf s = .ok fmt ↔ ∃ p ∈ formatNames, s = p.1.toList ∧ fmt = p.2 := by
  unfold formatOf formatNames
  split_ifs with h1 h2 h3 h4
  · subst h1
    simp only [Except.ok.injEq, List.mem_cons, List.not_mem_nil, or_false]
    constructor
    · rintro rfl; exact ⟨_, .inl rfl, rfl, rfl⟩
    · rintro ⟨p, rfl | rfl | rfl | rfl, a, rfl⟩ <;> first | rfl | exact absurd a (by decide)
  · subst h2
    simp only [Except.ok.injEq, List.mem_cons, List.not_mem_nil, or_false]
    constructor
    · rintro rfl; exact ⟨_, .inr (.inl rfl), rfl, rfl⟩
    · rintro ⟨p, rfl | rfl | rfl | rfl, a, rfl⟩ <;> first | rfl | exact absurd a (by decide)
  · subst h3
    simp only [Except.ok.injEq, List.mem_cons, List.not_mem_nil, or_false]
    constructor
    · rintro rfl; exact ⟨_, .inr (.inr (.inl rfl)), rfl, rfl⟩
    · rintro ⟨p, rfl | rfl | rfl | rfl, a, rfl⟩ <;> first | rfl | exact absurd a (by decide)
  · subst h4
    simp only [Except.ok.injEq, List.mem_cons, List.not_mem_nil, or_false]
    constructor
    · rintro rfl; exact ⟨_, .inr (.inr (.inr rfl)), rfl, rfl⟩
    · rintro ⟨p, rfl | rfl | rfl | rfl, a, rfl⟩ <;> first | rfl | exact absurd a (by decide)
  · simp only [List.mem_cons, List.not_mem_nil, or_false, reduceCtorEq, false_iff]
    rintro ⟨p, rfl | rfl | rfl | rfl, a, rfl⟩ <;> contradiction

/-- The combinations of names that are accepted: `overwrite` with every format, `append`
with the formats that are plain lists of events, `resume` with those that hold the
state of the generator. -/
def AcceptedMode (fmt : Format) (s : Str) (mode : Mode) : Prop :=
  (s = "overwrite".toList ∧ mode = .overwrite) ∨
  (s = "append".toList ∧ mode = .append ∧ (fmt = .hepevt ∨ fmt = .ascii)) ∨
  (s = "resume".toList ∧ mode = .resume ∧ (fmt = .root ∨ fmt = .json))

theorem modeOf_iff (fmt : Format) (s : Str) (mode : Mode) :
    modeOf fmt s = .ok mode ↔ AcceptedMode fmt s mode := by
  have n1 : "overwrite".toList ≠ "append".toList := by decide
  have n2 : "overwrite".toList ≠ "resume".toList := by decide
  have n3 : "append".toList ≠ "resume".toList := by decide
  unfold modeOf AcceptedMode
  generalize "overwrite".toList = a at *
  generalize "append".toList = b at *
  generalize "resume".toList = c at *
  by_cases h1 : s = a
  · subst h1
    simp [n1, n2, eq_comm]
  · by_cases h2 : s = b
    · subst h2
      by_cases hf : fmt = .hepevt ∨ fmt = .ascii <;> simp [h1, n3, hf, eq_comm]
    · by_cases h3 : s = c
      · subst h3
        by_cases hf : fmt = .root ∨ fmt = .json <;> simp [h1, h2, hf, eq_comm]
      · simp [h1, h2, h3]

/-- Every rejected name is a `marley::Error`. -/
theorem names_error (fmt : Format) (s : Str) (x : Exc) :
    (formatOf s = .error x → x = .marleyError) ∧ (modeOf fmt s = .error x → x = .marleyError) := by
  constructor
  · unfold formatOf; split_ifs <;> simp [eq_comm]
  · unfold modeOf; split_ifs <;> simp [eq_comm]

/-- **C63**, the names: whatever the state of the disk, the constructor accepts only the
documented names of formats and modes in the documented combinations; everything else
throws `marley::Error` and leaves the disk as it is. -/
theorem C63_names [Zero K] (r : Request) (d : Disk) :
    (∀ f : OutFile K, (openFile r d).2 = .ok f →
      ∃ p ∈ formatNames, r.format = p.1.toList ∧ f.format = p.2 ∧
        ∃ mode, AcceptedMode p.2 r.mode mode) ∧
    ((¬ ∃ p ∈ formatNames, r.format = p.1.toList ∧ ∃ mode, AcceptedMode p.2 r.mode mode) →
      openFile (K := K) r d = (d.existing, .error .marleyError)) := by
  constructor
  · intro f h
    unfold openFile at h
    rcases hf : formatOf r.format with x | fmt
    · simp [hf] at h
    · simp only [hf] at h
      rcases hm : modeOf fmt r.mode with x | asked
      · simp [hm] at h
      · simp only [hm] at h
        obtain ⟨p, hp, h1, rfl⟩ := (formatOf_iff _ _).1 hf
        refine ⟨p, hp, h1, ?_, asked, (modeOf_iff _ _ _).1 hm⟩
        split_ifs at h <;> simp only [Except.ok.injEq, reduceCtorEq] at h <;> subst h <;>
          simp only [OutFile.put] <;> split_ifs <;> rfl
  · intro h
    unfold openFile
    rcases hf : formatOf r.format with x | fmt
    · simp only
      rw [(names_error .root r.format x).1 hf]
    · simp only
      rcases hm : modeOf fmt r.mode with x | asked
      · simp only
        rw [(names_error fmt r.mode x).2 hm]
      · obtain ⟨p, hp, h1, rfl⟩ := (formatOf_iff _ _).1 hf
        exact absurd ⟨p, hp, h1, asked, (modeOf_iff _ _ _).1 hm⟩ h

/-- The request and the disk of the examples. -/
def jsonRequest (mode : String) (indent : Option Nat) : Request :=
  ⟨"events.json".toList, "json".toList, mode.toList, false, indent⟩

example : ¬ ∃ p ∈ formatNames, (jsonRequest "append" none).format = p.1.toList ∧
    ∃ mode, AcceptedMode p.2 (jsonRequest "append" none).mode mode := by
  rintro ⟨p, hp, h1, mode, hm⟩
  have e := (formatOf_iff _ p.2).2 ⟨p, hp, h1, rfl⟩
  have e' : formatOf (jsonRequest "append" none).format = .ok .json := rfl
  rw [e', Except.ok.injEq] at e
  rw [← e, ← modeOf_iff] at hm
  have e2 : modeOf .json (jsonRequest "append" none).mode = .error .marleyError := rfl
  rw [e2] at hm
  cases hm

/-- The mode a file ends up with. -/
def FinalMode (r : Request) (d : Disk) (fmt : Format) (asked mode : Mode) : Prop :=
  (mode = asked ∧ (asked = .overwrite → Agreed r d)) ∨
  (asked = .overwrite ∧ ¬ Agreed r d ∧ mode = if fmt = .json then .resume else .append)

/-- **C63**, acceptance: the accepted names open a file in every case, except for a ROOT
file to be resumed and for a file to be resumed that does not exist, which throw
`marley::Error` and leave the disk as it is.  The file is used in the mode asked for;
only when the user does not agree to lose an existing file is it continued instead. -/
theorem C63_modes [Zero K] (r : Request) (d : Disk) (fmt : Format) (asked : Mode)
    (hf : ∃ p ∈ formatNames, r.format = p.1.toList ∧ p.2 = fmt) (hm : AcceptedMode fmt r.mode asked) :
    ((asked = .resume ∧ (fmt = .root ∨ d.existing = none)) ∧
      openFile (K := K) r d = (d.existing, .error .marleyError)) ∨
    (¬ (asked = .resume ∧ (fmt = .root ∨ d.existing = none)) ∧
      ∃ f : OutFile K, (openFile r d).2 = .ok f ∧ f.format = fmt ∧ FinalMode r d fmt asked f.mode) := by
  obtain ⟨p, hp, h1, rfl⟩ := hf
  have e1 := (formatOf_iff r.format p.2).2 ⟨p, hp, h1, rfl⟩
  have e2 := (modeOf_iff p.2 r.mode asked).2 hm
  unfold openFile
  simp only [e1, e2]
  have hag : Agreed r d ↔ ¬ (d.existing.isSome ∧ r.force = false ∧ promptYesNo d.input = false) := by
    unfold Agreed
    rw [← promptYesNo_iff]
    cases d.existing <;> cases r.force <;> cases promptYesNo d.input <;> simp
  have hres : asked = .resume → p.2 = .root ∨ p.2 = .json := by
    rintro rfl
    rcases hm with ⟨-, h⟩ | ⟨-, h, -⟩ | ⟨-, -, h⟩
    · cases h
    · cases h
    · exact h
  have hform : ∀ (f : OutFile K) (c : Prop) [Decidable c] (s : Str),
      (if c then f.put s else f).format = f.format ∧ (if c then f.put s else f).mode = f.mode := by
    intro f c _ s
    simp only [OutFile.put]
    split_ifs <;> exact ⟨rfl, rfl⟩
  generalize hmode : (if asked = .overwrite ∧ d.existing.isSome ∧ r.force = false ∧
    promptYesNo d.input = false then (if p.2 = .json then Mode.resume else .append) else asked) = mode
  by_cases hd : asked = .overwrite ∧ ¬ Agreed r d
  · obtain ⟨rfl, hn⟩ := hd
    have hn' := hn
    rw [hag, not_not] at hn'
    rw [if_pos ⟨rfl, hn'⟩] at hmode
    refine .inr ⟨by simp, ?_⟩
    have hsome : d.existing ≠ none := by
      intro h; rw [h] at hn'; simp at hn'
    rw [if_neg (by
      rintro ⟨h1, h2⟩
      rw [if_neg h2] at hmode
      exact absurd (hmode.trans h1) (by simp)), if_neg (by simp [hsome])]
    exact ⟨_, rfl, (hform _ _ _).1, .inr ⟨rfl, hn, (hform _ _ _).2.trans hmode.symm⟩⟩
  · have hag' : asked = .overwrite → Agreed r d := by
      intro h; by_contra hc; exact hd ⟨h, hc⟩
    rw [if_neg (by
      rintro ⟨h1, h2⟩
      exact (hag.1 (hag' h1)) h2)] at hmode
    subst hmode
    by_cases hr : asked = .resume
    · subst hr
      rcases hres rfl with h | h
      · left
        rw [if_pos ⟨rfl, by rw [h]; simp⟩]
        exact ⟨⟨rfl, .inl h⟩, rfl⟩
      · rw [if_neg (by simp [h])]
        by_cases he : d.existing = none
        · left
          rw [if_pos ⟨rfl, he⟩]
          exact ⟨⟨rfl, .inr he⟩, rfl⟩
        · right
          rw [if_neg (by simp [he])]
          exact ⟨by simp [h, he], _, rfl, (hform _ _ _).1, .inl ⟨(hform _ _ _).2, by simp⟩⟩
    · right
      rw [if_neg (by simp [hr]), if_neg (by simp [hr])]
      exact ⟨by simp [hr], _, rfl, (hform _ _ _).1, .inl ⟨(hform _ _ _).2, hag'⟩⟩

example : (∃ p ∈ formatNames, (jsonRequest "resume" none).format = p.1.toList ∧ p.2 = .json) ∧
    AcceptedMode .json (jsonRequest "resume" none).mode .resume :=
  ⟨⟨("json", .json), by simp [formatNames], rfl, rfl⟩, .inr (.inr ⟨rfl, rfl, .inr rfl⟩)⟩

/-- **C63**, nothing is lost: an existing file is changed by opening it only if it was to
be overwritten and the user agreed; in every other case, also when opening fails, its
content is exactly what it was. -/
theorem C63_kept [Zero K] (r : Request) (d : Disk) (text : Str) (he : d.existing = some text) :
    (openFile (K := K) r d).1 = some text ∨
      (r.mode = "overwrite".toList ∧ Agreed r d ∧ d.writable = true ∧
        ∃ f : OutFile K, (openFile r d).2 = .ok f ∧ f.mode = .overwrite) := by
  unfold openFile
  rcases hf : formatOf r.format with x | fmt
  · exact .inl he
  simp only
  rcases hm : modeOf fmt r.mode with x | asked
  · exact .inl he
  simp only
  have hag : ∀ {b : Bool}, promptYesNo d.input = b → (Agreed r d ↔ (r.force = true ∨ b = true)) := by
    rintro b rfl
    unfold Agreed
    rw [← promptYesNo_iff, he]
    simp
  generalize hmode : (if asked = .overwrite ∧ d.existing.isSome ∧ r.force = false ∧
    promptYesNo d.input = false then (if fmt = .json then Mode.resume else .append) else asked) = mode
  by_cases h1 : mode = .resume ∧ fmt ≠ .json
  · rw [if_pos h1]; exact .inl he
  · rw [if_neg h1]
    by_cases h2 : mode = .resume ∧ d.existing = none
    · rw [if_pos h2]; exact .inl he
    · rw [if_neg h2]
      by_cases hw : d.writable = true
      · by_cases ho : mode = .overwrite
        · right
          have ha : asked = .overwrite ∧ Agreed r d := by
            rw [hag rfl]
            rw [ho] at hmode
            split_ifs at hmode with hc hc'
            refine ⟨hmode, ?_⟩
            rw [he] at hc
            simp only [hmode, true_and, Option.isSome_some] at hc
            cases hfo : r.force <;> cases hp : promptYesNo d.input <;> simp [hfo, hp] at hc ⊢
          refine ⟨?_, ha.2, hw, _, rfl, ?_⟩
          · rcases (modeOf_iff fmt r.mode asked).1 hm with ⟨h, -⟩ | ⟨-, h, -⟩ | ⟨-, h, -⟩
            · exact h
            · exact absurd (ha.1.symm.trans h) (by simp)
            · exact absurd (ha.1.symm.trans h) (by simp)
          · simp only [OutFile.put]; split_ifs <;> exact ho
        · left
          simp [hw, ho, he]
      · left
        simp only [hw, he]
        rfl

example : ∃ r d text, d.existing = some text ∧
    (openFile (K := ℚ) r d).1 = some text ∧ ∃ f : OutFile ℚ, (openFile r d).2 = .ok f ∧
      f.mode = .resume :=
  ⟨jsonRequest "overwrite" none, ⟨some "{}".toList, true, [['n']]⟩, "{}".toList, rfl, rfl, _, rfl, rfl⟩

end Marley.Props
