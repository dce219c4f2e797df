import Verif.Lemmas.Reports
import Verif.Props.HauserFeshbach
import Verif.Props.Talys
import Verif.Lemmas.Reaction

/-!
# C111 and C112: reports, tables and names for the reader
-/

set_option autoImplicit false

namespace Marley.Props
open Marley Marley.Reports
open Marley.Json (Str natText intText isDigit)
open Marley.Scheme (Gamma Level Scheme levelAt)

variable {K : Type}

/-! ## C111 decay schemes -/

/-- C111: the report on a decay scheme can be written exactly if every gamma leads to a level
of the scheme; a reader finds in it all levels with their energies, and all gammas with energy,
energy of the final level and relative intensity, in order, and nothing else. -/
theorem C111_report {p : K → Str} (hp : ∀ x, PlainText (p x)) (s : Scheme K) :
    (AllLead s → ∃ text, report p s = .ok text ∧ Tells p Utils.spinParityString s (readReport text)) ∧
    (¬ AllLead s → report p s = .error .ub) := by
  unfold report
  refine ⟨fun h => ?_, fun h => ?_⟩
  · obtain ⟨a, ha⟩ := (reportLevels_iff (p := p) s.levels).2 h
    obtain ⟨facts, h1, h2⟩ := read_levels hp ha
    refine ⟨a, ha, ?_⟩
    unfold readReport
    rw [show (readReportLines (cut '\n' a)).2.2 = facts from congrArg Prod.snd h2]
    exact h1
  · rcases reportLevels_ub (p := p) (s := s) s.levels with h1 | h1
    · exact absurd ((reportLevels_iff s.levels).1 h1) h
    · exact h1

/-- Numbers written as integers, for examples. -/
def exPrint (q : ℚ) : Str := intText q.num ++ '/' :: natText q.den

theorem exPrint_plain (q : ℚ) : PlainText (exPrint q) := by
  have no : ∀ c : Char, isDigit c = false → c ≠ '-' → c ≠ '/' → c ∉ exPrint q := by
    intro c h1 h2 h3 hc
    unfold exPrint at hc
    rw [List.mem_append, List.mem_cons] at hc
    rcases hc with hc | hc | hc
    · rcases intText_chars _ _ hc with h | h
      · rw [h1] at h; cases h
      · exact h2 h
    · exact h3 hc
    · rw [Json.natText_digits _ _ hc] at h1; cases h1
  refine ⟨by simp [exPrint], ?_, ?_, ?_, ?_, ?_, ?_⟩ <;> exact no _ (by decide) (by decide) (by decide)

theorem exPrint_inj {a b : ℚ} (h : exPrint a = exPrint b) : a = b := by
  unfold exPrint at h
  have sl : ∀ n : Int, '/' ∉ intText n := fun n hc => by
    rcases intText_chars n _ hc with h | h <;> revert h <;> decide
  have h1 := congrArg (cut '/') h
  rw [cut_word_sep (sl _), cut_word_sep (sl _)] at h1
  injection h1 with h1 h2
  have dg : ∀ n : Nat, '/' ∉ natText n := fun n hc => by
    have := Json.natText_digits n _ hc
    revert this; decide
  rw [cut_end (dg _), cut_end (dg _)] at h2
  injection h2 with h2 _
  exact Rat.ext (intText_inj h1) (natText_inj h2)

/-- A ground state and a level of spin 3/2 with a gamma to it. -/
def exReport : Scheme ℚ :=
  ⟨19, 40, [(0, ⟨0, 8, ⟨false⟩, []⟩), (1, ⟨1 / 2, 3, ⟨true⟩, [⟨1 / 2, 100, some 0⟩]⟩)], 2⟩

theorem exReport_lead : AllLead exReport := by
  unfold AllLead exReport
  simp

example : ∃ text, report exPrint exReport = .ok text ∧ readReport text =
    [⟨exPrint 0, chars%"4-", []⟩, ⟨exPrint (1 / 2), chars%"1/2+", [(exPrint (1 / 2), exPrint 0, exPrint 100)]⟩] := by
  refine ⟨_, rfl, ?_⟩
  decide +kernel

example : ¬ AllLead (⟨1, 2, [(0, ⟨0, 2, ⟨true⟩, [⟨1, 1, none⟩]⟩)], 1⟩ : Scheme ℚ) := by
  unfold AllLead; simp

/-- C111, the part that holds for spins: the spins and parities in the report are written in the
usual way if they are integers. -/
theorem C111_report_spins_partial {p : K → Str} (hp : ∀ x, PlainText (p x)) (s : Scheme K)
    (h : AllLead s) (hs : ∀ l ∈ s.levels, 0 ≤ l.2.twoJ ∧ l.2.twoJ % 2 = 0) :
    ∃ text, report p s = .ok text ∧ Tells p rightSpin s (readReport text) := by
  obtain ⟨text, h1, h2⟩ := (C111_report hp s).1 h
  refine ⟨text, h1, ?_⟩
  unfold Tells at h2 ⊢
  have key : ∀ (ls : List (Nat × Level K)) (fs : List LevelFacts),
      (∀ l ∈ ls, 0 ≤ l.2.twoJ ∧ l.2.twoJ % 2 = 0) →
      List.Forall₂ (fun (l : Nat × Level K) t => t.energy = p l.2.energy ∧
        t.spin = Utils.spinParityString l.2.twoJ l.2.parity ∧
        List.Forall₂ (fun g u => ∃ m ∈ s.levels, g.dest = some m.1 ∧
          u = (p g.energy, p m.2.energy, p g.ri)) l.2.gammas t.gammas) ls fs →
      List.Forall₂ (fun (l : Nat × Level K) t => t.energy = p l.2.energy ∧
        t.spin = rightSpin l.2.twoJ l.2.parity ∧
        List.Forall₂ (fun g u => ∃ m ∈ s.levels, g.dest = some m.1 ∧
          u = (p g.energy, p m.2.energy, p g.ri)) l.2.gammas t.gammas) ls fs := by
    intro ls fs hl hf
    induction hf with
    | nil => exact .nil
    | @cons l t ls fs a _ ih =>
      refine .cons ⟨a.1, ?_, a.2.2⟩ (ih (fun x hx => hl x (by simp [hx])))
      obtain ⟨e1, e2⟩ := hl l (by simp)
      rw [a.2.1, rightSpin]
      obtain ⟨n, hn⟩ := Int.eq_ofNat_of_zero_le e1
      rw [hn]
      exact C27_integer_spin_partial n l.2.parity.isPositive (by omega)
  exact key _ _ hs h2

example : ∀ l ∈ [((0 : Nat), (⟨0, 8, ⟨false⟩, []⟩ : Level ℚ))], 0 ≤ l.2.twoJ ∧ l.2.twoJ % 2 = 0 := by simp

/-- C111 fails for spins: wherever a level has a half-integer spin, report and table show something
else than its spin and parity. -/
theorem C111_spins_violated {p : K → Str} (s : Scheme K) (facts : List LevelFacts)
    (h : Tells p Utils.spinParityString s facts)
    (hs : ∃ l ∈ s.levels, 0 ≤ l.2.twoJ ∧ l.2.twoJ % 2 = 1) : ¬ Tells p rightSpin s facts := by
  intro h'
  obtain ⟨l, l1, l2, l3⟩ := hs
  unfold Tells at h h'
  have key : ∀ (ls : List (Nat × Level K)) (fs : List LevelFacts) (P Q : Nat × Level K → LevelFacts → Prop),
      List.Forall₂ P ls fs → List.Forall₂ Q ls fs → l ∈ ls → ∃ t, P l t ∧ Q l t := by
    intro ls fs P Q h1
    induction h1 with
    | nil => intro _ h; simp at h
    | cons a _ ih =>
      intro h2 hm
      cases h2 with
      | cons b h2 =>
        rcases List.mem_cons.1 hm with rfl | hm
        · exact ⟨_, a, b⟩
        · exact ih h2 hm
  obtain ⟨t, t1, t2⟩ := key _ _ _ _ h h' l1
  have e : Utils.spinParityString l.2.twoJ l.2.parity = rightSpin l.2.twoJ l.2.parity := by
    rw [← t1.2.1, t2.2.1]
  obtain ⟨n, hn⟩ := Int.eq_ofNat_of_zero_le l2
  rw [rightSpin, hn] at e
  exact C27_every_half_integer_spin_wrong n l.2.parity.isPositive (by omega) e

example : ∃ l ∈ exReport.levels, 0 ≤ l.2.twoJ ∧ l.2.twoJ % 2 = 1 := by simp [exReport]

/-- C111: the LaTeX table.  If the nuclide has a symbol and a mass number up to 999 and every gamma
leads to a level, a document is written whose captions name the nuclide and in which all braces
match; its rows have five cells each and are separated by row breaks, and a reader finds in them
all levels and gammas of the scheme, in order, and nothing else. -/
theorem C111_table {p : K → Str} (hp : ∀ x, PlainText (p x)) {s : Scheme K} {sym : Str}
    (hZ : Utils.elementSymbol s.Z = .ok sym) (hA : 1 ≤ s.A ∧ s.A ≤ 999) (h : AllLead s) :
    ∃ rows, latexTable p s = .ok (document (intText s.A) sym rows) ∧
      depth 0 (document (intText s.A) sym rows) = some 0 ∧
      WellFormedRows (linesOf rows) ∧ (readRows (linesOf rows)).1 = [] ∧
      Tells p Utils.spinParityString s (readRows (linesOf rows)).2 := by
  obtain ⟨rows, hr⟩ := (latexLevels_iff (p := p) s.levels).1.2 h
  obtain ⟨lines, facts, h1, h2, h3, _, h5⟩ := levels_rows hp hr
  have hl : linesOf rows = lines := by
    unfold linesOf
    have := h2 []
    rw [List.append_nil] at this
    rw [this]
    simp [cut]
  have hz := symbols_name _ (symbol_mem hZ)
  have h0 : 0 ≤ s.Z := hz.2.1
  obtain ⟨id, hid⟩ : ∃ id, Utils.nucId s.Z s.A = .ok id := by
    unfold Utils.nucId
    rw [if_neg (by omega), hZ]
    exact ⟨_, rfl⟩
  obtain ⟨sym', e1, -, -, -, e2⟩ := latexCaption_eq hid
  rw [hZ] at e1
  injection e1 with e1
  subst e1
  have hb := latexLevels_noBrace hp hr
  have hsym := symbol_trim _ (symbol_mem hZ)
  refine ⟨rows, ?_, depth_document (intText_noBrace _) ⟨hsym.2.1, hsym.2.2.1⟩ (depth_none hb.1 hb.2 0), ?_, ?_, ?_⟩
  · unfold latexTable document
    rw [hid]
    dsimp only
    rw [hr]
    dsimp only
    rw [e2]
  · rw [hl]; exact rowsOk_wellFormed h3
  · rw [hl, h5]
  · rw [hl, h5]; exact h1

example : Utils.elementSymbol exReport.Z = .ok ['K'] ∧ 1 ≤ exReport.A ∧ exReport.A ≤ 999 ∧
    AllLead exReport := ⟨by decide +kernel, by decide, by decide, exReport_lead⟩

/-- C111: what happens if no table can be written: a mass number out of range is an error, an
element without symbol too, and a gamma without final level undefined behaviour. -/
theorem C111_table_errors {p : K → Str} (s : Scheme K) :
    (s.Z < 0 ∨ s.A < 1 ∨ 999 < s.A → latexTable p s = .error .marleyError) ∧
    (0 ≤ s.Z → 1 ≤ s.A → s.A ≤ 999 → Utils.elementSymbol s.Z = .error .outOfRange →
      latexTable p s = .error .outOfRange) ∧
    (∀ sym, Utils.elementSymbol s.Z = .ok sym → 1 ≤ s.A → s.A ≤ 999 → ¬ AllLead s →
      latexTable p s = .error .ub) := by
  refine ⟨fun h => ?_, fun h0 h1 h2 h3 => ?_, fun sym hZ h1 h2 h3 => ?_⟩
  · unfold latexTable Utils.nucId
    rw [if_pos h]
  · unfold latexTable Utils.nucId
    rw [if_neg (by omega), h3]
  · have hz := symbols_name _ (symbol_mem hZ)
    have h0 : 0 ≤ s.Z := hz.2.1
    unfold latexTable Utils.nucId
    rw [if_neg (by omega), hZ]
    dsimp only
    obtain ⟨i1, i2⟩ := latexLevels_iff (p := p) (s := s) s.levels
    rcases i2 with i2 | i2
    · exact absurd (i1.1 i2) h3
    · rw [i2]

example : Utils.elementSymbol 113 = .error .outOfRange ∧ Utils.elementSymbol 18 = .ok ['A', 'r'] := by
  decide +kernel

/-- C111 fails for the units of the table: the columns are headed `keV`, but the energies of the
levels, which are in MeV (as the report says), are written unconverted. -/
theorem C111_units_violated [Field K] [LinearOrder K] [IsStrictOrderedRing K] {p : K → Str}
    (hp : ∀ x, PlainText (p x)) (hinj : Function.Injective p) {s : Scheme K} {sym : Str}
    (hZ : Utils.elementSymbol s.Z = .ok sym) (hA : 1 ≤ s.A ∧ s.A ≤ 999) (h : AllLead s) :
    chars%"Level Energy (keV)" <:+: latexTable2 ∧
    ∃ rows, latexTable p s = .ok (document (intText s.A) sym rows) ∧
      List.Forall₂ (fun (l : Nat × Level K) t => t.energy = p l.2.energy ∧
        (l.2.energy ≠ 0 → t.energy ≠ p (1000 * l.2.energy))) s.levels (readRows (linesOf rows)).2 := by
  refine ⟨?_, ?_⟩
  · refine ⟨latexTable2.take 29, latexTable2.drop 47, ?_⟩
    decide +kernel
  · obtain ⟨rows, h1, -, -, -, h2⟩ := C111_table hp hZ hA h
    refine ⟨rows, h1, ?_⟩
    unfold Tells at h2
    refine h2.imp (fun l t ht => ⟨ht.1, fun h0 e => ?_⟩)
    rw [ht.1] at e
    have := hinj e
    apply h0
    linarith

example : Function.Injective exPrint := fun _ _ => exPrint_inj

/-! ## C111 targets -/

/-- C111: the text of a target has one line per nuclide, in order, from which a reader gets its
mass number, the symbol of the element (`??` if it has none) and its fraction. -/
theorem C111_target {p : K → Str} (hp : ∀ x, PlainText (p x)) {m : List (Int × K)} (hm : m ≠ [])
    (h : ∀ e ∈ m, ∃ a, Target.atom e.1 = .ok a) :
    List.Forall₂ (fun (e : Int × K) (u : Str × Str × Str) => u.1 = intText (Pdg.getA e.1) ∧
      (∀ sym, Utils.elementSymbol (Pdg.getZ e.1) = .ok sym → u.2.1 = sym) ∧
      ((∀ sym, Utils.elementSymbol (Pdg.getZ e.1) ≠ .ok sym) → u.2.1 = ['?', '?']) ∧ u.2.2 = p e.2) m
      (readTarget (targetText p m)) := by
  have hA : ∀ e ∈ m, 0 < Pdg.getA e.1 := by
    intro e he
    obtain ⟨a, ha⟩ := h e he
    unfold Target.atom at ha
    split_ifs at ha with h0
    omega
  rw [target_read hp hm hA]
  have key : ∀ m : List (Int × K), List.Forall₂ (fun (e : Int × K) (u : Str × Str × Str) => u.1 = intText (Pdg.getA e.1) ∧
      (∀ sym, Utils.elementSymbol (Pdg.getZ e.1) = .ok sym → u.2.1 = sym) ∧
      ((∀ sym, Utils.elementSymbol (Pdg.getZ e.1) ≠ .ok sym) → u.2.1 = ['?', '?']) ∧ u.2.2 = p e.2) m
      (m.map (fun e => (intText (Pdg.getA e.1), shownSymbol e.1, p e.2))) := by
    intro m
    induction m with
    | nil => exact .nil
    | cons e t ih =>
      refine .cons ⟨rfl, fun sym hs => ?_, fun hs => ?_, rfl⟩ ih
      · show shownSymbol e.1 = sym
        unfold Utils.elementSymbol at hs
        unfold shownSymbol
        cases e : Utils.elementSymbols.lookup (Pdg.getZ e.1) with
        | none => rw [e] at hs; cases hs
        | some y => rw [e] at hs; injection hs
      · show shownSymbol e.1 = ['?', '?']
        unfold Utils.elementSymbol at hs
        unfold shownSymbol
        cases e : Utils.elementSymbols.lookup (Pdg.getZ e.1) with
        | none => rfl
        | some y => rw [e] at hs; exact absurd rfl (hs y)
  exact key m

example : ∀ e ∈ [((1000180360 : Int), (1 / 4 : ℚ)), (1000180400, 3 / 4)], ∃ a, Target.atom e.1 = .ok a := by
  intro e he
  simp only [List.mem_cons, List.not_mem_nil, or_false] at he
  rcases he with rfl | rfl <;> exact ⟨_, rfl⟩

example : targetText exPrint [((1000060120 : Int), (1 / 4 : ℚ)), (1000180400, 3 / 4)] =
    chars%" 12C  = 1/4\n 40Ar = 3/4" := by decide +kernel

/-- C111: if all nuclides are of elements with symbols, the text determines the target. -/
theorem C111_target_distinct {p : K → Str} (hp : ∀ x, PlainText (p x)) (hinj : Function.Injective p)
    {m m' : List (Int × K)} (hm : m ≠ []) (hm' : m' ≠ []) (h : ∀ e ∈ m, Nuclide e.1)
    (h' : ∀ e ∈ m', Nuclide e.1) (ht : targetText p m = targetText p m') : m = m' := by
  have hA : ∀ m : List (Int × K), (∀ e ∈ m, Nuclide e.1) → ∀ e ∈ m, 0 < Pdg.getA e.1 := by
    intro m h e he
    obtain ⟨Z, A, sym, h1, h2, h3, h4⟩ := h e he
    rw [h4, (nuclide_codes h1 ⟨h2, h3⟩).1]
    omega
  have e := congrArg readTarget ht
  rw [target_read hp hm (hA m h), target_read hp hm' (hA m' h')] at e
  clear ht hm hm' hA
  induction m generalizing m' with
  | nil =>
    cases m' with
    | nil => rfl
    | cons a t => simp at e
  | cons a t ih =>
    cases m' with
    | nil => simp at e
    | cons b t' =>
      simp only [List.map_cons, List.cons.injEq, Prod.mk.injEq] at e
      have ht := ih (fun x hx => h x (by simp [hx])) (fun x hx => h' x (by simp [hx])) e.2
      obtain ⟨Z, A, sym, h1, h2, h3, h4⟩ := h a (by simp)
      obtain ⟨Z', A', sym', h1', h2', h3', h4'⟩ := h' b (by simp)
      have c1 := nuclide_codes h1 ⟨h2, h3⟩
      have c2 := nuclide_codes h1' ⟨h2', h3'⟩
      have eA := intText_inj e.1.1
      have eS := e.1.2.1
      rw [h4, h4', shown_symbol h1 ⟨h2, h3⟩, shown_symbol h1' ⟨h2', h3'⟩] at eS
      rw [h4, h4', c1.1, c2.1] at eA
      have eZ : Z = Z' := symbols_inj _ (symbol_mem h1) _ (symbol_mem h1') (by rw [eS])
      have e1 : a.1 = b.1 := by rw [h4, h4', eA, eZ]
      rw [ht, Prod.ext e1 (hinj e.1.2.2)]

example : Nuclide 1000180400 ∧ Nuclide 2112 := by
  exact ⟨⟨18, 40, ['A', 'r'], by decide +kernel, by decide, by decide, by decide⟩,
    ⟨0, 1, ['N', 'n'], by decide +kernel, by decide, by decide, by decide⟩⟩

/-- C111 fails for targets of elements without symbol: two different targets, both accepted, have
the same text. -/
theorem C111_target_violated (p : ℚ → Str) :
    ∃ m m' : List (Int × ℚ), Target.single false 1001132900 = .ok m ∧ Target.single false 1001152900 = .ok m' ∧
      m ≠ m' ∧ targetText p m = targetText p m' := by
  refine ⟨[(1001132900, 1)], [(1001152900, 1)], by decide +kernel, by decide +kernel, by decide, ?_⟩
  have a : Utils.elementSymbols.lookup (Pdg.getZ 1001132900) = none := by decide +kernel
  have b : Utils.elementSymbols.lookup (Pdg.getZ 1001152900) = none := by decide +kernel
  have c : Pdg.getA 1001132900 = Pdg.getA 1001152900 := by decide
  simp only [targetText, targetLine, a, b, c]

/-! ## C111 decays -/

/-- C111: the text on the decay of a compound nucleus shows code, energy, spin in decimal notation
and parity, the total width and the lifetime hbar/width (infinite for width zero), and then one line
per channel, from which a reader gets what is emitted, the energy of the final level and the width.
The condition is met by all fragments the generator knows. -/
theorem C111_decay {p : Val → Str} (hp : ∀ x, PlainText (p x)) (pdg : Int) (Ex : ℝ) (twoJ : Nat) (P : Parity)
    (total : ℝ) {xs : List Decay.Exit} (h : ∀ x ∈ xs, (emittedName x.kind).isSome = true) :
    ∃ text l0 l1 l2 lines, decayText p pdg Ex twoJ P total xs = .ok text ∧
      cut '\n' text = l0 :: l1 :: l2 :: (lines ++ [[]]) ∧
      (∃ a b c d e f g i j k, cut ' ' l0 = [a, b, intText pdg, c, d, e, p (.num Ex) ++ [','], f, g,
        decimalSpin twoJ ++ [','], i, j, k, [if P.isPositive then '+' else '-']]) ∧
      cut ' ' l1 = [chars%"Total", chars%"width", chars%"=", p (.num total), chars%"MeV"] ∧
      cut ' ' l2 = [chars%"Mean", chars%"lifetime", chars%"=",
        p (if total = 0 then .inf false else .num (6.58211951e-22 / total)), chars%"s"] ∧
      List.Forall₂ (fun (x : Decay.Exit) line => readChannel line =
        ((emittedName x.kind).getD [], (finalLevel x.kind).map (fun e => p (.num e)), p (.num x.width))) xs lines := by
  obtain ⟨a, lines, h1, h2, h3⟩ := channels_read hp h
  have hspin : decaySpin twoJ = decimalSpin twoJ := by
    have e1 : (twoJ : Int).tdiv 2 = ((twoJ / 2 : Nat) : Int) := rfl
    have e2 : (twoJ : Int).tmod 2 = ((twoJ % 2 : Nat) : Int) := rfl
    have e3 : intText ((twoJ / 2 : Nat) : Int) = natText (twoJ / 2) := rfl
    unfold decaySpin decimalSpin
    rw [e1, e2, e3]
    rcases Nat.mod_two_eq_zero_or_one twoJ with h | h <;> simp [h]
  have hlife : Val.div (.num hbar) (.num total) =
      if total = 0 then .inf false else .num (6.58211951e-22 / total) := by
    unfold Val.div hbar
    dsimp only
    by_cases h0 : total = 0
    · rw [if_pos h0, if_pos h0, if_neg (by norm_num)]
      congr 1
      simp only [decide_eq_false_iff_not, not_lt]
      norm_num
    · rw [if_neg h0, if_neg h0]
  have hpar : P.toChar = if P.isPositive then '+' else '-' := by
    unfold Parity.toChar
    cases P.isPositive <;> rfl
  have hparc : P.toChar ≠ '\n' ∧ P.toChar ≠ ' ' := by
    rw [hpar]; cases P.isPositive <;> decide
  have nospace : ∀ c : Char, isDigit c = false → c ≠ '-' → c ∉ intText pdg := by
    intro c h1 h2 hc
    rcases intText_chars _ _ hc with h | h
    · rw [h1] at h; cases h
    · exact h2 h
  have spinc : ∀ c : Char, isDigit c = false → c ≠ '.' → c ∉ decimalSpin twoJ := by
    intro c h1 h2 hc
    unfold decimalSpin at hc
    rw [List.mem_append] at hc
    rcases hc with hc | hc
    · rw [Json.natText_digits _ _ hc] at h1; cases h1
    · split_ifs at hc
      · simp at hc
      · simp only [List.mem_cons, List.not_mem_nil, or_false] at hc
        rcases hc with rfl | rfl
        · exact h2 rfl
        · revert h1; decide
  set life := p (if total = 0 then .inf false else .num (6.58211951e-22 / total)) with hl
  have hlp : PlainText life := hp _
  refine ⟨_, chars%"Compound nucleus " ++ (intText pdg ++ (chars%" with Ex = " ++ (p (.num Ex) ++
      (chars%", spin = " ++ (decimalSpin twoJ ++ (chars%", and parity = " ++ [P.toChar])))))),
    chars%"Total width = " ++ (p (.num total) ++ chars%" MeV"),
    chars%"Mean lifetime = " ++ (life ++ chars%" s"), lines,
    by unfold decayText; rw [h1], ?_, ?_, ?_, ?_, h3⟩
  · rw [hspin, hlife, ← hl]
    have e : ∀ (A B C D L : Str) (z : Char), chars%"Compound nucleus " ++ (A ++ (chars%" with Ex = " ++ (B ++
      (chars%", spin = " ++ (C ++ (chars%", and parity = " ++ (z ::
        (chars%"\nTotal width = " ++ (D ++ (chars%" MeV\nMean lifetime = " ++
          (L ++ (chars%" s\n" ++ a)))))))))))) =
      (chars%"Compound nucleus " ++ (A ++ (chars%" with Ex = " ++ (B ++
        (chars%", spin = " ++ (C ++ (chars%", and parity = " ++ [z]))))))) ++ '\n' ::
      ((chars%"Total width = " ++ (D ++ chars%" MeV")) ++ '\n' ::
        ((chars%"Mean lifetime = " ++ (L ++ chars%" s")) ++ '\n' :: a)) := by
      intro A B C D L z
      simp
    have ha := h2 []
    rw [List.append_nil] at ha
    rw [e, cut_word_sep, cut_word_sep, cut_word_sep, ha]
    · rfl
    · simp [hlp.2.2.1]
    · simp [(hp (.num total)).2.2.1]
    · simp only [List.mem_append, not_or]
      exact ⟨by decide, nospace _ (by decide) (by decide), by decide, (hp _).2.2.1, by decide,
        spinc _ (by decide) (by decide), by decide, by simpa using hparc.1.symm⟩
  · refine ⟨chars%"Compound", chars%"nucleus", chars%"with", chars%"Ex", chars%"=", chars%"spin", chars%"=",
      chars%"and", chars%"parity", chars%"=", ?_⟩
    rw [← hpar]
    simp [cut, cut_word (nospace ' ' (by decide) (by decide)), cut_word (hp (.num Ex)).2.1,
      cut_word (spinc ' ' (by decide) (by decide)), hparc.2]
  · simp [cut, cut_word (hp (.num total)).2.1]
  · simp [cut, cut_word hlp.2.1]

example : ∀ f ∈ Structure.fragmentCodes, ∀ l E, (emittedName (.fragLevel f l)).isSome = true ∧
    (emittedName (.fragCont f E)).isSome = true ∧ (emittedName (.gamLevel l)).isSome = true := by
  intro f hf l E
  simp only [Structure.fragmentCodes, List.mem_cons, List.not_mem_nil, or_false] at hf
  rcases hf with rfl | rfl | rfl | rfl | rfl | rfl <;> exact ⟨rfl, rfl, rfl⟩

/-- C111: for every compound nucleus the generator builds with its own fragments the text is
written. -/
theorem C111_decay_built {p : Val → Str} (hp : ∀ x, PlainText (p x)) {D : Decay.Data}
    (hD : ∀ f ∈ D.frags, f.pid ∈ Structure.fragmentCodes) {nucleus : Particle ℝ} {Ex : ℝ} {twoJ : Int}
    {P : Parity} {s : Decay.Channels} (h : Decay.build D nucleus Ex twoJ P = .ok s) :
    ∃ text, decayText p nucleus.pdg Ex twoJ P s.1 s.2 = .ok text := by
  have hname : ∀ f ∈ Structure.fragmentCodes, ∀ l E, (emittedName (.fragLevel f l)).isSome = true ∧
      (emittedName (.fragCont f E)).isSome = true := by
    intro f hf l E
    simp only [Structure.fragmentCodes, List.mem_cons, List.not_mem_nil, or_false] at hf
    rcases hf with rfl | rfl | rfl | rfl | rfl | rfl <;> exact ⟨rfl, rfl⟩
  have hto : ∀ (ds : Option (Scheme ℝ)) (max : ℝ) (lev : Level ℝ → Decay.Kind) (cont : ℝ → Decay.Kind),
      (∀ l, (emittedName (lev l)).isSome = true) → (∀ E, (emittedName (cont E)).isSome = true) →
      ∀ k ∈ Decay.kindsTo ds max lev cont, (emittedName k).isSome = true := by
    intro ds max lev cont hl hc k hk
    unfold Decay.kindsTo at hk
    rw [List.mem_append] at hk
    rcases hk with hk | hk
    · obtain ⟨l, _, rfl⟩ := List.mem_map.1 hk
      exact hl _
    · split_ifs at hk
      · rw [List.mem_singleton] at hk
        rw [hk]; exact hc _
      · simp at hk
  have hall : ∀ x ∈ s.2, (emittedName x.kind).isSome = true := by
    intro x hx
    obtain ⟨ds, -, ap, -⟩ := Decay.channels_kinds (build_ok h)
    have hk : x.kind ∈ s.2.map (·.kind) := List.mem_map.2 ⟨x, hx, rfl⟩
    rw [ap.kinds] at hk
    simp only [List.map_nil, List.nil_append, List.mem_append, List.mem_flatMap] at hk
    rcases hk with ⟨f, hf, hk⟩ | hk
    · unfold Decay.fragKinds at hk
      split at hk
      · split_ifs at hk
        · simp at hk
        · exact hto _ _ _ _ (fun l => (hname _ (hD f hf) l 0).1)
            (fun E => (hname _ (hD f hf) ⟨0, 0, ⟨true⟩, []⟩ E).2) _ hk
      · simp at hk
    · exact hto _ _ _ _ (fun l => rfl) (fun E => rfl) _ hk
  obtain ⟨a, lines, h1, -, -⟩ := channels_read hp hall
  exact ⟨_, by unfold decayText; rw [h1]⟩

/-- C111: a channel emitting a particle without symbol makes printing fail. -/
theorem C111_decay_unknown {p : Val → Str} (pdg : Int) (Ex : ℝ) (twoJ : Int) (P : Parity)
    (total : ℝ) {xs : List Decay.Exit} (h : ∃ x ∈ xs, symbolAt x.kind.emitted = none) :
    decayText p pdg Ex twoJ P total xs = .error .outOfRange := by
  have key : channelLines p xs = .error .outOfRange := by
    induction xs with
    | nil => obtain ⟨x, hx, _⟩ := h; simp at hx
    | cons y t ih =>
      rw [channelLines]
      cases e : symbolAt y.kind.emitted with
      | none =>
        unfold channelLine
        rw [e]
      | some sym =>
        have : ∃ x ∈ t, symbolAt x.kind.emitted = none := by
          obtain ⟨x, hx, h0⟩ := h
          rcases List.mem_cons.1 hx with rfl | hx
          · rw [e] at h0; cases h0
          · exact ⟨x, hx, h0⟩
        rw [ih this]
        unfold channelLine
        rw [e]
  unfold decayText
  rw [key]

example : symbolAt (Decay.Kind.fragCont 1000030060 0).emitted = none := by decide

example : ∃ D : Decay.Data, (∀ f ∈ D.frags, f.pid ∈ Structure.fragmentCodes) ∧ D.frags ≠ [] ∧
    ∃ s, Decay.build D pairNucleus 10 2 ⟨false⟩ = .ok s := by
  refine ⟨pairData 1, ?_, ?_, ?_⟩
  · intro f hf
    simp only [pairData, List.mem_singleton] at hf
    subst hf
    decide
  · simp [pairData]
  · obtain ⟨s, h, _⟩ := pair_build 1
    exact ⟨s, h⟩

/-! ## C112 names of particles and descriptions of reactions -/

/-- The names of particles: leptons with their charge, neutral antiparticles with a prefix,
nucleons and light nuclei. -/
def particleNames : List (Int × Str) :=
  [(11, chars%"e⁻"), (-11, chars%"e⁺"), (12, chars%"νe"), (-12, chars%"anti-νe"),
   (13, chars%"μ⁻"), (-13, chars%"μ⁺"), (14, chars%"νμ"), (-14, chars%"anti-νμ"),
   (15, chars%"τ⁻"), (-15, chars%"τ⁺"), (16, chars%"ντ"), (-16, chars%"anti-ντ"),
   (22, chars%"γ"), (-22, chars%"anti-γ"), (2112, chars%"n"), (-2112, chars%"anti-n"),
   (2212, chars%"p⁺"), (-2212, chars%"p⁻"), (1000010020, chars%"d⁺"), (1000010030, chars%"t⁺"),
   (1000020030, chars%"h⁺"), (1000020040, chars%"α⁺")]

/-- C112: a particle has the name in the list, and asking for the name of any other code throws
`std::out_of_range`. -/
theorem C112_symbol (pid : Int) :
    (∀ name, particleSymbol pid = .ok name ↔ (pid, name) ∈ particleNames) ∧
    ((∀ name, (pid, name) ∉ particleNames) → particleSymbol pid = .error .outOfRange) := by
  have listed : ∀ q ∈ particleNames, particleSymbol q.1 = .ok q.2 := by decide +kernel
  have once : ∀ q ∈ particleNames, ∀ r ∈ particleNames, q.1 = r.1 → q.2 = r.2 := by decide +kernel
  have dom : ∀ e, particleSymbol pid = .error e → e = .outOfRange := by
    intro e h
    unfold particleSymbol Pdg.charge at h
    split at h
    · rename_i e' he
      split_ifs at he <;> (split at he <;> [(injection he with he; injection h with h; rw [← h, ← he]); cases he])
    · split at h
      · injection h with h; exact h.symm
      · split_ifs at h
  have cover : ∀ name, particleSymbol pid = .ok name → ∃ r ∈ particleNames, r.1 = pid := by
    intro name h
    unfold particleSymbol at h
    cases e : Pdg.charge pid with
    | error x => rw [e] at h; cases h
    | ok q =>
      rw [e] at h
      dsimp only at h
      cases e2 : particleSymbols.lookup pid.natAbs with
      | none => rw [e2] at h; cases h
      | some y =>
        have m2 := mem_of_lookup e2
        simp only [particleSymbols, List.mem_cons, Prod.mk.injEq, List.not_mem_nil, or_false] at m2
        by_cases hp : pid < 0
        · unfold Pdg.charge at e
          rw [if_neg (by omega)] at e
          cases e3 : Pdg.electricCharges.lookup pid.natAbs with
          | none => rw [e3] at e; cases e
          | some z =>
            have m3 := mem_of_lookup e3
            simp only [Pdg.electricCharges, List.mem_cons, Prod.mk.injEq, List.not_mem_nil, or_false] at m3
            have : pid = -11 ∨ pid = -12 ∨ pid = -13 ∨ pid = -14 ∨ pid = -15 ∨ pid = -16 ∨ pid = -22 ∨
                pid = -2112 ∨ pid = -2212 := by omega
            rcases this with h | h | h | h | h | h | h | h | h <;> rw [h] <;> decide
        · have : pid = 11 ∨ pid = 12 ∨ pid = 13 ∨ pid = 14 ∨ pid = 15 ∨ pid = 16 ∨ pid = 22 ∨
              pid = 2112 ∨ pid = 2212 ∨ pid = 1000010020 ∨ pid = 1000010030 ∨ pid = 1000020030 ∨
              pid = 1000020040 := by omega
          rcases this with h | h | h | h | h | h | h | h | h | h | h | h | h <;> rw [h] <;> decide
  refine ⟨fun name => ⟨fun h => ?_, fun h => listed _ h⟩, fun h => ?_⟩
  · obtain ⟨r, r1, r2⟩ := cover name h
    have h2 := listed r r1
    rw [r2, h] at h2
    injection h2 with h2
    rw [h2, ← r2]
    exact r1
  · cases e : particleSymbol pid with
    | error x => rw [dom x e]
    | ok name =>
      obtain ⟨r, r1, r2⟩ := cover name e
      exact absurd (r2 ▸ r1 : (pid, r.2) ∈ particleNames) (h r.2)

/-- C112: different particles have different names. -/
theorem C112_symbol_distinct {a b : Int} {name : Str} (ha : particleSymbol a = .ok name)
    (hb : particleSymbol b = .ok name) : a = b := by
  have once : ∀ q ∈ particleNames, ∀ r ∈ particleNames, q.2 = r.2 → q.1 = r.1 := by decide +kernel
  exact once _ ((C112_symbol a).1 name |>.1 ha) _ ((C112_symbol b).1 name |>.1 hb) rfl

example : particleSymbol (-14) = .ok chars%"anti-νμ" ∧ particleSymbol 1000180400 = .error .outOfRange := by
  decide +kernel

theorem name_words {a : Int} {name : Str} (h : particleSymbol a = .ok name) : ' ' ∉ name ∧ name ≠ [] := by
  have all : ∀ q ∈ particleNames, ' ' ∉ q.2 ∧ q.2 ≠ [] := by decide +kernel
  exact all _ ((C112_symbol a).1 name |>.1 h)

/-- The words of a description. -/
theorem describe_words [Zero K] [LT K] [DecidableLT K] {r : Nuclear K} {text : Str}
    (h : describeNuclear r = .ok text) :
    ∃ a b c d, particleSymbol r.pdgA = .ok a ∧ Utils.elementSymbol r.Zi = .ok b ∧
      particleSymbol r.pdgC = .ok c ∧ Utils.elementSymbol r.Zf = .ok d ∧
      cut ' ' text = [a, ['+'], intText r.Ai ++ b, chars%"-->", c, ['+']] ++
        if r.levels.any (fun e => decide (0 < e)) then [intText r.Af ++ (d ++ ['*'])]
        else [intText r.Af ++ d, chars%"(g.s.)"] := by
  unfold describeNuclear at h
  cases ha : particleSymbol r.pdgA with
  | error x => rw [ha] at h; cases h
  | ok a =>
    rw [ha] at h
    dsimp only at h
    cases hb : Utils.elementSymbol r.Zi with
    | error x => rw [hb] at h; cases h
    | ok b =>
      rw [hb] at h
      dsimp only at h
      cases hc : particleSymbol r.pdgC with
      | error x => rw [hc] at h; cases h
      | ok c =>
        rw [hc] at h
        dsimp only at h
        cases hd : Utils.elementSymbol r.Zf with
        | error x => rw [hd] at h; cases h
        | ok d =>
          rw [hd] at h
          dsimp only at h
          injection h with h
          refine ⟨a, b, c, d, rfl, rfl, rfl, rfl, ?_⟩
          have ea := (name_words ha).1
          have ec := (name_words hc).1
          have eb : ' ' ∉ b := (symbol_trim _ (symbol_mem hb)).2.2.2.2.1
          have ed : ' ' ∉ d := (symbol_trim _ (symbol_mem hd)).2.2.2.2.1
          have ei : ∀ n : Int, ' ' ∉ intText n := by
            intro n hc
            rcases intText_chars n _ hc with h | h <;> revert h <;> decide
          rw [← h]
          by_cases hl : r.levels.any (fun e => decide (0 < e)) = true
          · rw [if_pos hl, if_pos hl]
            simp [cut, cut_word ea, cut_word ec, cut_word eb, cut_word ed, cut_word (ei _)]
          · rw [if_neg hl, if_neg hl]
            simp [cut, cut_word ea, cut_word ec, cut_word eb, cut_word ed, cut_word (ei _)]

/-- C112: a reaction on nuclei can be described exactly if projectile and ejectile have names and
both elements symbols; otherwise `std::out_of_range` is thrown. -/
theorem C112_describe [Zero K] [LT K] [DecidableLT K] (r : Nuclear K) :
    ((∃ text, describeNuclear r = .ok text) ↔ (∃ a, particleSymbol r.pdgA = .ok a) ∧
      (∃ b, Utils.elementSymbol r.Zi = .ok b) ∧ (∃ c, particleSymbol r.pdgC = .ok c) ∧
      (∃ d, Utils.elementSymbol r.Zf = .ok d)) ∧
    ((¬ ∃ text, describeNuclear r = .ok text) → describeNuclear r = .error .outOfRange) := by
  have ps : ∀ a, (∃ n, particleSymbol a = .ok n) ∨ particleSymbol a = .error .outOfRange := by
    intro a
    by_cases h : ∃ n, particleSymbol a = .ok n
    · exact .inl h
    · refine .inr ((C112_symbol a).2 (fun n hn => h ⟨n, ((C112_symbol a).1 n).2 hn⟩))
  have es : ∀ Z, (∃ n, Utils.elementSymbol Z = .ok n) ∨ Utils.elementSymbol Z = .error .outOfRange := by
    intro Z
    unfold Utils.elementSymbol
    cases Utils.elementSymbols.lookup Z with
    | none => exact .inr rfl
    | some s => exact .inl ⟨s, rfl⟩
  unfold describeNuclear
  rcases ps r.pdgA with ⟨a, ha⟩ | ha <;> rcases es r.Zi with ⟨b, hb⟩ | hb <;>
    rcases ps r.pdgC with ⟨c, hc⟩ | hc <;> rcases es r.Zf with ⟨d, hd⟩ | hd <;>
    simp [ha, hb, hc, hd]

/-- Digits before letters: number and symbol of a nuclide can be told apart. -/
theorem nuclide_text {m n : Int} {b b' x x' : Str} (hb : ∀ c ∈ b, isDigit c = false) (hb0 : b ≠ [])
    (hb' : ∀ c ∈ b', isDigit c = false) (hb0' : b' ≠ [])
    (h : intText m ++ (b ++ x) = intText n ++ (b' ++ x')) (hm : '-' ∉ b) (hn : '-' ∉ b') :
    m = n ∧ b ++ x = b' ++ x' := by
  have key : ∀ (n : Int) (b x : Str), (∀ c ∈ b, isDigit c = false) → b ≠ [] → '-' ∉ b →
      (intText n ++ (b ++ x)).takeWhile (fun c => isDigit c || c == '-') = intText n := by
    intro n b x h1 h2 h3
    rw [List.takeWhile_append_of_pos]
    · cases b with
      | nil => exact absurd rfl h2
      | cons c t =>
        rw [List.cons_append, List.takeWhile_cons_of_neg, List.append_nil]
        have e1 := h1 c (by simp)
        have e2 : c ≠ '-' := fun e => h3 (by simp [e])
        simp [e1, e2]
    · intro c hc
      rcases intText_chars n c hc with h | h <;> simp [h]
  have e := congrArg (fun t : Str => t.takeWhile (fun c => isDigit c || c == '-')) h
  rw [key m b x hb hb0 hm, key n b' x' hb' hb0' hn] at e
  refine ⟨intText_inj e, ?_⟩
  rw [e] at h
  exact List.append_cancel_left h

theorem symbol_facts {Z : Int} {b : Str} (h : Utils.elementSymbol Z = .ok b) :
    (∀ c ∈ b, isDigit c = false) ∧ b ≠ [] ∧ '-' ∉ b ∧ '*' ∉ b := by
  have all : ∀ p ∈ Utils.elementSymbols, (∀ c ∈ p.2, isDigit c = false) ∧ p.2 ≠ [] ∧ '-' ∉ p.2 ∧ '*' ∉ p.2 := by
    decide +kernel
  exact all _ (symbol_mem h)

theorem symbol_inj {Z Z' : Int} {b : Str} (h : Utils.elementSymbol Z = .ok b)
    (h' : Utils.elementSymbol Z' = .ok b) : Z = Z' :=
  symbols_inj _ (symbol_mem h) _ (symbol_mem h') rfl

/-- C112: the description of a reaction on nuclei determines projectile and ejectile, initial and
final nuclide, and whether an excited state can be reached. -/
theorem C112_describe_distinct [Zero K] [LT K] [DecidableLT K] {r r' : Nuclear K} {text : Str}
    (h : describeNuclear r = .ok text) (h' : describeNuclear r' = .ok text) :
    r.pdgA = r'.pdgA ∧ r.Zi = r'.Zi ∧ r.Ai = r'.Ai ∧ r.pdgC = r'.pdgC ∧ r.Zf = r'.Zf ∧ r.Af = r'.Af ∧
      ((∃ e ∈ r.levels, 0 < e) ↔ ∃ e ∈ r'.levels, 0 < e) := by
  obtain ⟨a, b, c, d, ha, hb, hc, hd, hw⟩ := describe_words h
  obtain ⟨a', b', c', d', ha', hb', hc', hd', hw'⟩ := describe_words h'
  rw [hw] at hw'
  obtain ⟨f1, f2, f3, f4⟩ := symbol_facts hb
  obtain ⟨f1', f2', f3', f4'⟩ := symbol_facts hb'
  obtain ⟨g1, g2, g3, g4⟩ := symbol_facts hd
  obtain ⟨g1', g2', g3', g4'⟩ := symbol_facts hd'
  have any : ∀ r : Nuclear K, (r.levels.any (fun e => decide (0 < e)) = true) ↔ ∃ e ∈ r.levels, 0 < e := by
    intro r; simp
  simp only [List.cons_append, List.nil_append, List.cons.injEq, true_and] at hw'
  obtain ⟨e1, e2, e3, e4⟩ := hw'
  subst e1
  subst e3
  have eb := nuclide_text (x := []) (x' := []) f1 f2 f1' f2' (by simpa using e2) f3 f3'
  rw [List.append_nil, List.append_nil] at eb
  obtain ⟨eb1, eb2⟩ := eb
  subst eb2
  rw [← any r, ← any r']
  have fin : r.Af = r'.Af ∧ d = d' ∧
      ((r.levels.any (fun e => decide (0 < e)) = true) ↔ (r'.levels.any (fun e => decide (0 < e)) = true)) := by
    by_cases l1 : r.levels.any (fun e => decide (0 < e)) = true <;>
      by_cases l2 : r'.levels.any (fun e => decide (0 < e)) = true
    · rw [if_pos l1, if_pos l2] at e4
      injection e4 with e4 _
      obtain ⟨i1, i2⟩ := nuclide_text g1 g2 g1' g2' e4 g3 g3'
      exact ⟨i1, List.append_cancel_right i2, by simp [l1, l2]⟩
    · rw [if_pos l1, if_neg l2] at e4
      have := congrArg List.length e4
      simp at this
    · rw [if_neg l1, if_pos l2] at e4
      have := congrArg List.length e4
      simp at this
    · rw [if_neg l1, if_neg l2] at e4
      injection e4 with e4 _
      obtain ⟨i1, i2⟩ := nuclide_text (x := []) (x' := []) g1 g2 g1' g2' (by simpa using e4) g3 g3'
      exact ⟨i1, by simpa using i2, by simp [l1, l2]⟩
  obtain ⟨k1, k2, k3⟩ := fin
  subst k2
  exact ⟨C112_symbol_distinct ha ha', symbol_inj hb hb', eb1, C112_symbol_distinct hc hc',
    symbol_inj hd hd', k1, k3⟩

/-- Electron neutrino on argon-40 to an excited state of potassium-40. -/
def exNuclear : Nuclear ℚ := ⟨12, 40, 18, 11, 40, 19, [0, 4]⟩

example : describeNuclear exNuclear = .ok chars%"νe + 40Ar --> e⁻ + 40K*" := by decide +kernel

example : describeNuclear { exNuclear with levels := [0] } = .ok chars%"νe + 40Ar --> e⁻ + 40K (g.s.)" := by
  decide +kernel

/-- C112: the description ends with an asterisk if an excited state can be reached, and with
`(g.s.)` otherwise. -/
theorem C112_describe_excited [Zero K] [LT K] [DecidableLT K] {r : Nuclear K} {text : Str}
    (h : describeNuclear r = .ok text) :
    ((∃ e ∈ r.levels, 0 < e) → text.getLast? = some '*') ∧
    ((¬ ∃ e ∈ r.levels, 0 < e) → chars%" (g.s.)" <:+ text) := by
  have any : (r.levels.any (fun e => decide (0 < e)) = true) ↔ ∃ e ∈ r.levels, 0 < e := by simp
  rw [← any]
  unfold describeNuclear at h
  split at h
  · cases h
  split at h
  · cases h
  split at h
  · cases h
  split at h
  · cases h
  injection h with h
  refine ⟨fun hl => ?_, fun hl => ?_⟩
  · rw [if_pos hl] at h
    rw [← h]
    simp only [← List.append_assoc]
    exact List.getLast?_concat
  · rw [if_neg hl] at h
    rw [← h]
    simp only [← List.append_assoc]
    exact List.suffix_append _ _

/-- C112: reactions on electrons are described by their neutrinos, and never like a reaction on a
nucleus. -/
theorem C112_describe_electron [Zero K] [LT K] [DecidableLT K] {a c : Int} {text : Str}
    (h : describeElectron a c = .ok text) :
    (∀ a' c', describeElectron a' c' = .ok text → a' = a ∧ c' = c) ∧
    ∀ r : Nuclear K, describeNuclear r ≠ .ok text := by
  have he : particleSymbol 11 = .ok chars%"e⁻" := by decide +kernel
  have words : ∀ {a c : Int}, describeElectron a c = .ok text → ∃ x y, particleSymbol a = .ok x ∧
      particleSymbol c = .ok y ∧
      cut ' ' text = [x, ['+'], chars%"e⁻", chars%"-->", y, ['+'], chars%"e⁻"] := by
    intro a c h
    unfold describeElectron at h
    cases hx : particleSymbol a with
    | error e => rw [hx] at h; cases h
    | ok x =>
      rw [hx, he] at h
      dsimp only at h
      cases hy : particleSymbol c with
      | error e => rw [hy] at h; cases h
      | ok y =>
        rw [hy] at h
        dsimp only at h
        injection h with h
        refine ⟨x, y, rfl, rfl, ?_⟩
        rw [← h]
        simp [cut, cut_word (name_words hx).1, cut_word (name_words hy).1]
  obtain ⟨x, y, h1, h2, h3⟩ := words h
  refine ⟨fun a' c' h' => ?_, fun r hr => ?_⟩
  · obtain ⟨x', y', h1', h2', h3'⟩ := words h'
    rw [h3] at h3'
    simp only [List.cons.injEq, true_and, and_true] at h3'
    obtain ⟨rfl, rfl⟩ := h3'
    exact ⟨C112_symbol_distinct h1' h1, C112_symbol_distinct h2' h2⟩
  · obtain ⟨a', b, c', d, -, hb, -, -, hw⟩ := describe_words hr
    rw [h3] at hw
    simp only [List.cons_append, List.nil_append, List.cons.injEq, true_and] at hw
    have e := hw.2.1
    have : ∀ n : Int, ∃ c t, intText n = c :: t ∧ (isDigit c = true ∨ c = '-') := by
      intro n
      have := intText_chars n
      cases hn : intText n with
      | nil => exact absurd hn (by
          cases n with
          | ofNat n => exact Json.natText_ne_nil n
          | negSucc n => simp [intText])
      | cons c t =>
        rw [hn] at this
        exact ⟨c, t, rfl, this c (by simp)⟩
    obtain ⟨z, t, hz, hz'⟩ := this r.Ai
    rw [hz, List.cons_append] at e
    injection e with e _
    subst e
    rcases hz' with hz' | hz' <;> revert hz' <;> decide

example : describeElectron (-12) (-12) = .ok chars%"anti-νe + e⁻ --> anti-νe + e⁻" := by decide +kernel

/-- C112: every reaction on nuclei that the loader builds for a neutrino, with an outgoing lepton
or neutrino, can be described. -/
theorem C112_describe_built {t : Mass.Table} {pr : Reaction.Proc} {pa pb pc pd q : Int}
    {ms : List Reaction.MatEl} {r : Reaction.Nuclear}
    (h : Reaction.makeNuclear t pr pa pb pc pd q ms = .ok r) (ha : 11 ≤ pa.natAbs ∧ pa.natAbs ≤ 16)
    (hc : 11 ≤ pc.natAbs ∧ pc.natAbs ≤ 16) :
    ∃ text, describeNuclear (⟨r.pdgA, r.Ai, r.Zi, r.pdgC, r.Af, r.Zf,
      r.elements.map Reaction.MatEl.levelEnergy⟩ : Nuclear ℝ) = .ok text := by
  have lep : ∀ a : Int, 11 ≤ a.natAbs ∧ a.natAbs ≤ 16 → ∃ n, particleSymbol a = .ok n := by
    intro a ha
    have : a = 11 ∨ a = 12 ∨ a = 13 ∨ a = 14 ∨ a = 15 ∨ a = 16 ∨ a = -11 ∨ a = -12 ∨ a = -13 ∨ a = -14 ∨
      a = -15 ∨ a = -16 := by omega
    rcases this with h | h | h | h | h | h | h | h | h | h | h | h <;> rw [h] <;> exact ⟨_, rfl⟩
  rw [(C112_describe _).1]
  unfold Reaction.makeNuclear at h
  dsimp only at h
  split at h
  · cases h
  split at h
  · cases h
  split at h
  · cases h
  split at h
  · cases h
  split at h
  · cases h
  rename_i x hx
  split at h
  · cases h
  rename_i y hy
  injection h with h
  subst h
  exact ⟨lep _ ha, ⟨x, hx⟩, lep _ hc, ⟨y, hy⟩⟩

example (ms : List Reaction.MatEl) :
    ∃ r, Reaction.makeNuclear demoTable .neutrinoCC 12 1000180400 11 1000190400 1 ms = .ok r := by
  obtain ⟨r, h, -⟩ := demo_make (p := .neutrinoCC) (a := 12) (b := 1000180400) (cc := 11)
    (d := 1000190400) (q := 1) ms (x := ['A', 'r']) (y := ['K']) (by decide) (by decide) (by decide)
    (by decide) (by decide +kernel) (by decide +kernel)
  exact ⟨r, h⟩

end Marley.Props
