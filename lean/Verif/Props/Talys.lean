import Verif.Lemmas.Talys
import Mathlib.Data.Rat.Floor
import Mathlib.Algebra.Order.Archimedean.Real.Basic

/-!
# C96: decay schemes in TALYS format; C97: the nuclides of a file
-/

set_option autoImplicit false

namespace Marley.Props
open Marley Marley.Talys Marley.Scheme
open Marley.Json (Str natText intText isDigit isSpace digitsVal)

variable {K : Type}

/-! ## A format and a file for the examples -/

/-- Decimal numbers without sign and exponent. -/
def decFmt (K : Type) [Field K] : DblFmt K where
  print _ := []
  read s :=
    match s.dropWhile isDigit with
    | '.' :: t => some ((digitsVal (s.takeWhile isDigit) : K) +
        (digitsVal (t.takeWhile isDigit) : K) / 10 ^ (t.takeWhile isDigit).length, t.dropWhile isDigit)
    | r => if s.takeWhile isDigit = [] then none else some ((digitsVal (s.takeWhile isDigit) : K), r)

theorem space_not_digit {c : Char} (h : isSpace c = true) : isDigit c = false := by
  cases e : isDigit c with
  | false => rfl
  | true => rw [isDigit_not_space e] at h; cases h

theorem decFmt_nat [Field K] (n : Nat) : DblText (decFmt K) (natText n) (n : K) := by
  constructor
  · obtain ⟨d, v, e, hd⟩ := Json.natText_head_ne n
    exact ⟨d, v, e, isDigit_not_space hd⟩
  · intro c rest hc
    have hd := space_not_digit hc
    have hdot : c ≠ '.' := by rintro rfl; revert hc; decide
    simp only [decFmt]
    rw [Json.dropWhile_append_stop (Json.natText_digits n) hd,
      Json.takeWhile_append_stop (Json.natText_digits n) hd]
    split
    · rename_i e; injection e with e _; exact absurd e hdot
    · rw [if_neg (Json.natText_ne_nil n), Json.digitsVal_natText]

theorem decFmt_dec [Field K] (m n : Nat) : DblText (decFmt K) (natText m ++ '.' :: natText n)
    ((m : K) + (n : K) / 10 ^ (natText n).length) := by
  constructor
  · obtain ⟨d, v, e, hd⟩ := Json.natText_head_ne m
    exact ⟨d, v ++ '.' :: natText n, by rw [e]; rfl, isDigit_not_space hd⟩
  · intro c rest hc
    have hd := space_not_digit hc
    have hdot : isDigit '.' = false := by decide
    simp only [decFmt]
    rw [List.append_assoc, List.cons_append, Json.dropWhile_append_stop (Json.natText_digits m) hdot,
      Json.takeWhile_append_stop (Json.natText_digits m) hdot]
    simp only [Json.dropWhile_append_stop (Json.natText_digits n) hd,
      Json.takeWhile_append_stop (Json.natText_digits n) hd, Json.digitsVal_natText]

/-- A line for a level. -/
def exLevel (i E twoJ : Nat) (p : Parity) (n : Nat) : Str :=
  natText i ++ ' ' :: (natText E ++ ' ' :: ((natText (twoJ / 2) ++ '.' :: natText (twoJ % 2 * 5)) ++
    ' ' :: (intText p.toInt ++ ' ' :: natText n)))

/-- A line for a gamma. -/
def exGamma (j r : Nat) : Str := natText j ++ ' ' :: (natText r ++ ' ' :: [])

theorem digits_no_newline (n : Nat) : '\n' ∉ natText n := fun h => by
  have := Json.natText_digits n _ h
  revert this; decide

theorem exLevel_record [Field K] [CharZero K] (i E twoJ : Nat) (p : Parity) (gs : List (TGamma K)) :
    LevelRecord (decFmt K) i ⟨(E : K), twoJ, p, gs⟩ (exLevel i E twoJ p gs.length) := by
  have gap : IsGap [] := fun c h => by cases h
  refine ⟨?_, [], [], [], [], [], _, _, [], gap, gap, gap, gap, gap, .inl rfl, decFmt_nat E,
    ?_, by rw [List.append_nil]; rfl⟩
  · have hp : '\n' ∉ intText p.toInt := by obtain ⟨b⟩ := p; cases b <;> decide +kernel
    simp [exLevel, digits_no_newline, hp]
  · have := decFmt_dec (K := K) (twoJ / 2) (twoJ % 2 * 5)
    have hl : (natText (twoJ % 2 * 5)).length = 1 := by
      rcases Nat.mod_two_eq_zero_or_one twoJ with h | h <;> rw [h] <;> decide +kernel
    rw [hl] at this
    have hv : ((twoJ / 2 : Nat) : K) + ((twoJ % 2 * 5 : Nat) : K) / 10 ^ 1 = ((twoJ : Int) : K) / 2 := by
      have e : ((twoJ : Int) : K) = 2 * ((twoJ / 2 : Nat) : K) + ((twoJ % 2 : Nat) : K) := by
        have := congrArg (Nat.cast (R := K)) (Nat.div_add_mod twoJ 2)
        push_cast at this
        rw [Int.cast_natCast]
        exact this.symm
      rw [e]
      push_cast
      ring
    rw [hv] at this
    exact this

theorem exGamma_record [Field K] (j r : Nat) : GammaRecord (decFmt K) ⟨j, (r : K)⟩ (exGamma j r) := by
  have gap : IsGap [] := fun c h => by cases h
  refine ⟨?_, [], [], _, [], gap, gap, decFmt_nat r, rfl⟩
  simp [exGamma, digits_no_newline]

/-- The first line of the data for potassium 40, with a one-digit number of levels. -/
def exHeader (n : Nat) : Str :=
  [' ', ' '] ++ (natText 19 ++ ' ' :: ([' '] ++ (natText 40 ++ ' ' :: ([' ', ' ', ' '] ++ (natText 9 ++
    ' ' :: ([' ', ' ', ' '] ++ (natText n ++ []))))))) ++ (List.replicate 57 ' ' ++ [' ', '4', '0', 'K', ' '])

theorem exHeader_header : ∀ n < 10, Header 19 40 n (exHeader n) := by
  intro n hn
  have gap : ∀ b : Str, (∀ c ∈ b, c = ' ') → IsGap b := fun b h => h
  refine ⟨_, _, _, _, _, _, 9, gap _ ?_, gap _ ?_, gap _ ?_, gap _ ?_, gap _ ?_, by decide,
    ⟨['K'], by decide +kernel, ?_⟩, ?_, rfl⟩
  · decide
  · decide
  · decide
  · decide
  · decide
  · decide +kernel
  · revert n; decide +kernel

/-! ## C96 -/

section
variable [Field K] [LinearOrder K] [IsStrictOrderedRing K] [FloorRing K]

/-- Everything C96 asks of the file: the lines before the data are not taken for their first
line, and the data list levels in order of their energies. -/
structure GoodFile (f : DblFmt K) (Z A : Nat) (pre : List Str) (header : Str) (Ls : List (TLevel K))
    (lines : List Str) : Prop where
  mass : 1 ≤ A ∧ A ≤ 999
  before : ∀ l ∈ pre, '\n' ∉ l ∧ ¬ LooksLike Z A l
  header : ∃ n : Nat, Header Z A n header ∧ Ls.length = n + 1
  records : Records f 0 Ls lines
  increasing : Ls.Pairwise (fun a b => a.energy < b.energy)
  number : (Ls.length : Int) ≤ intMax
  fits : ∀ l ∈ Ls, Fits l

theorem parse_good {f : DblFmt K} {Z A next : Nat} {pre : List Str} {header : Str} {Ls : List (TLevel K)}
    {lines : List Str} (h : GoodFile f Z A pre header Ls lines) (post : Str) :
    ((∀ k l, Ls[k]? = some l → GoodGammas k l) →
      parse f Z A next (some (fileText (pre ++ header :: lines) ++ post)) =
        .ok ⟨Z, A, stored Ls next Ls, next + Ls.length⟩) ∧
    (¬ (∀ k l, Ls[k]? = some l → GoodGammas k l) →
      parse f Z A next (some (fileText (pre ++ header :: lines) ++ post)) = .error .outOfRange) := by
  obtain ⟨n, hh, hn⟩ := h.header
  have hlook := header_looks hh
  have hname : ∃ name, IsName Z A name := by
    obtain ⟨_, name, _, _, h, _⟩ := hlook
    exact ⟨name, h⟩
  obtain ⟨name, hname⟩ := hname
  have hid := (talysId_iff h.mass name).2 hname
  have hnl : ∀ l ∈ pre ++ header :: lines, '\n' ∉ l := by
    intro l hl
    rcases List.mem_append.1 hl with hl | hl
    · exact (h.before l hl).1
    · rcases List.mem_cons.1 hl with rfl | hl
      · exact looks_line hlook
      · exact records_lines h.records l hl
  have hfind : findLine name (pieces (fileText (pre ++ header :: lines) ++ post)) =
      some (header, lines ++ pieces post) := by
    rw [pieces_file hnl, List.append_assoc, List.cons_append]
    refine findLine_first hname (fun l hl => (h.before l hl).2) hlook ?_
    simp [pieces_ne]
  have hex := excitedLevels_header h.mass.2 (by have := h.number; omega) hh
  have hloop := levelLoop_records (next := next) (Z := Z) (A := A) h.increasing h.number h.fits
    (pieces post) Ls [] lines header rfl h.records
  have htn : ((n : Int) + 1).toNat = Ls.length := by omega
  have hp : parse f Z A next (some (fileText (pre ++ header :: lines) ++ post)) =
      match levelLoop f Ls.length (Scheme.empty Z A next) (lines ++ pieces post) header with
      | .error e => .error e
      | .ok (s, _, _) => .ok s := by
    simp only [parse, hid, hfind, hex, htn]
    rfl
  rw [hp]
  have he : (Scheme.empty Z A next : Scheme K) = ⟨Z, A, stored Ls next [], next + ([] : List (TLevel K)).length⟩ := rfl
  rw [he]
  refine ⟨fun hg => ?_, fun hg => ?_⟩
  · obtain ⟨line', e⟩ := hloop.1 (fun k l _ hl => hg k l hl)
    rw [e]
  · rw [hloop.2 (fun hall => hg (fun k l hl => hall k l (Nat.zero_le _) hl))]

/-- C96: the scheme read from the file has exactly the levels listed for the nuclide, in the
same order, each with those of its gammas whose branching ratio is positive; the gammas lead
to the levels whose numbers are given, and their energies are the differences of the energies
of the levels.  What else the file contains does not matter. -/
theorem C96_reads_partial {f : DblFmt K} {Z A : Nat} (next : Nat) {pre : List Str} {header : Str}
    {Ls : List (TLevel K)} {lines : List Str} (h : GoodFile f Z A pre header Ls lines)
    (hg : ∀ k l, Ls[k]? = some l → GoodGammas k l) (post : Str) :
    parse f Z A next (some (fileText (pre ++ header :: lines) ++ post)) =
      .ok ⟨Z, A, stored Ls next Ls, next + Ls.length⟩ := (parse_good h post).1 hg

/-- C96: a gamma with a positive branching ratio to a level that is listed later, or not at all,
is an error. -/
theorem C96_upward {f : DblFmt K} {Z A : Nat} (next : Nat) {pre : List Str} {header : Str}
    {Ls : List (TLevel K)} {lines : List Str} (h : GoodFile f Z A pre header Ls lines)
    {k : Nat} {l : TLevel K} {g : TGamma K} (hl : Ls[k]? = some l) (hg : g ∈ l.gammas) (hr : 0 < g.ratio)
    (hk : k < g.final) (post : Str) :
    parse f Z A next (some (fileText (pre ++ header :: lines) ++ post)) = .error .outOfRange :=
  (parse_good h post).2 (fun hall => absurd (hall k l hl g hg hr) (by omega))

/-- C96: if no gamma leads to its own level, every gamma of the scheme that is read leads to a
level of the scheme with less energy and carries the difference. -/
theorem C96_downward {f : DblFmt K} {Z A : Nat} (next : Nat) {pre : List Str} {header : Str}
    {Ls : List (TLevel K)} {lines : List Str} (h : GoodFile f Z A pre header Ls lines)
    (hg : ∀ k (l : TLevel K), Ls[k]? = some l → ∀ g ∈ l.gammas, 0 < g.ratio → g.final < k) (post : Str) :
    ∃ s, parse f Z A next (some (fileText (pre ++ header :: lines) ++ post)) = .ok s ∧
      Sorted s ∧ Addressed s ∧
      ∀ l ∈ s.levels, ∀ g ∈ l.2.gammas, 0 < g.ri ∧ ∃ m ∈ s.levels, g.dest = some m.1 ∧
        m.2.energy < l.2.energy ∧ g.energy = l.2.energy - m.2.energy := by
  refine ⟨_, (parse_good h post).1 (fun k l hl g hgm hr => (hg k l hl g hgm hr).le),
    stored_sorted h.increasing, stored_addressed Ls next Ls Z A, ?_⟩
  intro x hx g hgm
  obtain ⟨k, l, hk, hl, rfl⟩ := stored_mem hx
  simp only [levelOf', List.mem_map, List.mem_filter, decide_eq_true_eq] at hgm
  obtain ⟨tg, ⟨htg, hr⟩, rfl⟩ := hgm
  have hlt := hg k l hl tg htg hr
  have hj : tg.final < Ls.length := by omega
  have hget : Ls[tg.final]? = some Ls[tg.final] := List.getElem?_eq_getElem hj
  refine ⟨hr, (next + tg.final, levelOf' Ls next Ls[tg.final]), ?_, rfl, ?_, ?_⟩
  · refine List.mem_of_getElem? (i := tg.final) ?_
    rw [stored_get, hget, Option.map_some]
  · have hk' : Ls[k] = l := by
      rw [List.getElem?_eq_getElem hk] at hl; exact Option.some.inj hl
    rw [← hk']
    exact List.pairwise_iff_getElem.1 h.increasing _ _ hj hk hlt
  · simp [levelOf', energyAt, hget]

omit [IsStrictOrderedRing K] in
/-- C96: a nuclide whose data are not in the file, or a file that cannot be read, is a
`marley::Error`. -/
theorem C96_absent {f : DblFmt K} {Z A : Nat} (next : Nat) (hA : 1 ≤ A ∧ A ≤ 999)
    (hZ : ∃ sym, Utils.elementSymbol Z = .ok sym) :
    parse f Z A next none = .error .marleyError ∧
    ∀ text : Str, (∀ l ∈ pieces text, ¬ LooksLike Z A l) →
      parse f Z A next (some text) = .error .marleyError := by
  obtain ⟨sym, hsym⟩ := hZ
  have hid := (talysId_iff hA _).2 ⟨sym, hsym, rfl⟩
  constructor
  · simp only [parse, hid]
  · intro text ht
    simp only [parse, hid, findLine_none ⟨sym, hsym, rfl⟩ ht]

omit [IsStrictOrderedRing K] in
/-- C96: numbers that are not those of a nuclide are refused, whatever the file contains. -/
theorem C96_not_a_nuclide (f : DblFmt K) {Z A : Int} (next : Nat) (text : Option Str) :
    (Z < 0 ∨ A < 1 ∨ 999 < A → parse f Z A next text = .error .marleyError) ∧
    (0 ≤ Z → 1 ≤ A → A ≤ 999 → Utils.elementSymbol Z = .error .outOfRange →
      parse f Z A next text = .error .outOfRange) := by
  constructor
  · intro h
    simp only [parse, talysId, Utils.nucId]
    rw [if_pos h]
  · intro h1 h2 h3 h4
    simp only [parse, talysId, Utils.nucId]
    rw [if_neg (by omega), h4]

end

/-! ### Example -/

/-- Two levels with a gamma between them, and a gamma with ratio zero. -/
def exLevels (K : Type) [Field K] : List (TLevel K) :=
  [⟨((0 : Nat) : K), (8 : Nat), ⟨false⟩, []⟩,
   ⟨((3 : Nat) : K), (6 : Nat), ⟨false⟩, [⟨0, ((1 : Nat) : K)⟩, ⟨5, ((0 : Nat) : K)⟩]⟩]

def exLines : List Str :=
  [exLevel 0 0 8 ⟨false⟩ 0, exLevel 1 3 6 ⟨false⟩ 2, exGamma 0 1, exGamma 5 0]

theorem exLines_records (K : Type) [Field K] [CharZero K] : Records (decFmt K) 0 (exLevels K) exLines :=
  ⟨_, [], _, rfl, exLevel_record 0 0 8 ⟨false⟩ [], .nil,
    ⟨_, [_, _], [], rfl, exLevel_record 1 3 6 ⟨false⟩ _,
      .cons (exGamma_record 0 1) (.cons (exGamma_record 5 0) .nil), rfl⟩⟩

theorem exFile_good : GoodFile (decFmt ℚ) 19 40 [['x']] (exHeader 1) (exLevels ℚ) exLines where
  mass := by decide
  before := by
    intro l hl
    rw [List.mem_singleton.1 hl]
    refine ⟨by decide, ?_⟩
    rintro ⟨fields, name, h1, -, -, h2⟩
    have := congrArg List.length h2
    simp at this
    omega
  header := ⟨1, exHeader_header 1 (by decide), rfl⟩
  records := exLines_records ℚ
  increasing := by simp [exLevels]
  number := by decide
  fits := by
    intro l hl
    simp only [exLevels, List.mem_cons, List.not_mem_nil, or_false] at hl
    rcases hl with rfl | rfl <;> refine ⟨by decide, by decide, by decide, ?_⟩
    · intro g hg; cases hg
    · intro g hg
      simp only [List.mem_cons, List.not_mem_nil, or_false] at hg
      rcases hg with rfl | rfl <;> decide

/-- The hypotheses of `C96_reads_partial` and `C96_downward` are met. -/
example (post : Str) : ∃ s, parse (decFmt ℚ) 19 40 7
    (some (fileText ([['x']] ++ exHeader 1 :: exLines) ++ post)) = .ok s ∧ s.levels.length = 2 := by
  refine ⟨_, C96_reads_partial 7 exFile_good ?_ post, rfl⟩
  intro k l hl g hg hr
  match k with
  | 0 => simp [exLevels] at hl; subst hl; cases hg
  | 1 =>
    simp [exLevels] at hl; subst hl
    simp only [List.mem_cons, List.not_mem_nil, or_false] at hg
    rcases hg with rfl | rfl
    · decide
    · simp at hr
  | k + 2 => simp [exLevels] at hl

/-- The hypotheses of `C96_upward` can be met: a gamma to a level that is not listed. -/
example : ∃ (Ls : List (TLevel ℚ)) (lines : List Str) (l : TLevel ℚ) (g : TGamma ℚ),
    GoodFile (decFmt ℚ) 19 40 [] (exHeader 0) Ls lines ∧ Ls[0]? = some l ∧ g ∈ l.gammas ∧ 0 < g.ratio ∧
      0 < g.final := by
  refine ⟨[⟨((0 : Nat) : ℚ), (8 : Nat), ⟨true⟩, [⟨2, ((1 : Nat) : ℚ)⟩]⟩],
    [exLevel 0 0 8 ⟨true⟩ 1, exGamma 2 1], _, _, ⟨by decide, by simp,
      ⟨0, exHeader_header 0 (by decide), rfl⟩,
      ⟨_, [_], [], rfl, exLevel_record 0 0 8 ⟨true⟩ _, .cons (exGamma_record 2 1) .nil, rfl⟩,
      by simp, by decide, ?_⟩, rfl, List.mem_singleton.2 rfl, by norm_num, by decide⟩
  intro l hl
  rw [List.mem_singleton.1 hl]
  refine ⟨by decide, by decide, by decide, ?_⟩
  intro g hg
  rw [List.mem_singleton.1 hg]
  decide

/-- The hypotheses of `C96_absent` are met by a file with the data of another nuclide. -/
example : parse (decFmt ℚ) 18 40 0 (some (fileText (exHeader 1 :: exLines))) = .error .marleyError := by
  refine (C96_absent 0 (by decide) ⟨['A', 'r'], by decide +kernel⟩).2 _ ?_
  intro l hl h
  have hname : IsName 18 40 [' ', '4', '0', 'A', 'r'] := ⟨['A', 'r'], by decide +kernel, by decide +kernel⟩
  rw [← isNuclideLine_iff hname] at h
  revert l
  decide +kernel

example : Utils.elementSymbol 113 = .error .outOfRange := by decide +kernel

/-! ### What goes wrong -/

/-- What can be seen of a scheme: the energies of the levels, and of the gammas the energies and
the positions of the final levels. -/
def glance (r : Res (Scheme ℚ)) : Res (List (ℚ × List (ℚ × Option Nat))) :=
  match r with
  | .error e => .error e
  | .ok s => .ok (s.levels.map (fun l => (l.2.energy, l.2.gammas.map (fun g => (g.energy, g.dest)))))

/-- Four levels, which are not in order of their energies. -/
def disorder : List (TLevel ℚ) :=
  [⟨((0 : Nat) : ℚ), (0 : Nat), ⟨true⟩, []⟩, ⟨((2 : Nat) : ℚ), (2 : Nat), ⟨true⟩, []⟩,
   ⟨((1 : Nat) : ℚ), (4 : Nat), ⟨true⟩, []⟩, ⟨((4 : Nat) : ℚ), (6 : Nat), ⟨true⟩, [⟨1, ((1 : Nat) : ℚ)⟩]⟩]

def disorderLines : List Str :=
  [exLevel 0 0 0 ⟨true⟩ 0, exLevel 1 2 2 ⟨true⟩ 0, exLevel 2 1 4 ⟨true⟩ 0, exLevel 3 4 6 ⟨true⟩ 1,
   exGamma 1 1]

/-- C96 fails for levels that are not listed in the order of their energies: the numbers of the
final levels are taken for positions in the sorted scheme.  Here the gamma from the level at 4 to
level 1, at 2, is read as one of energy 3 to the level at 1, without an error. -/
theorem C96_order_violated :
    Records (decFmt ℚ) 0 disorder disorderLines ∧ Header 19 40 3 (exHeader 3) ∧
    (∃ l g, disorder[3]? = some l ∧ l.energy = 4 ∧ l.gammas = [g] ∧ g.final = 1 ∧ energyAt disorder 1 = 2) ∧
    glance (parse (decFmt ℚ) 19 40 10 (some (fileText (exHeader 3 :: disorderLines)))) =
      .ok [(0, []), (1, []), (2, []), (4, [(3, some 12)])] ∧
    (∃ s l, parse (decFmt ℚ) 19 40 10 (some (fileText (exHeader 3 :: disorderLines))) = .ok s ∧
      levelAt s 12 = some l ∧ l.energy = 1) := by
  refine ⟨⟨_, [], _, rfl, exLevel_record 0 0 0 ⟨true⟩ [], .nil,
    ⟨_, [], _, rfl, exLevel_record 1 2 2 ⟨true⟩ [], .nil,
    ⟨_, [], _, rfl, exLevel_record 2 1 4 ⟨true⟩ [], .nil,
    ⟨_, [_], _, rfl, exLevel_record 3 4 6 ⟨true⟩ _, .cons (exGamma_record 1 1) .nil, rfl⟩⟩⟩⟩,
    exHeader_header 3 (by decide), ⟨_, _, rfl, by norm_num, rfl, rfl, by simp [energyAt, disorder]⟩, ?_, ?_⟩
  · decide +kernel
  · have : (match parse (decFmt ℚ) 19 40 10 (some (fileText (exHeader 3 :: disorderLines))) with
        | .error _ => none
        | .ok s => (levelAt s 12).map Level.energy) = some 1 := by decide +kernel
    split at this
    · cases this
    · rename_i s hs
      obtain ⟨l, h1, h2⟩ := Option.map_eq_some_iff.1 this
      exact ⟨s, l, hs, h1, h2⟩

/-- C96 fails for a file that ends too early: after the last line, if it is not ended, that line is
read again, so that the scheme has levels the file does not list. -/
theorem C96_truncated_violated : ∃ text missing : Str,
    text ++ missing = fileText [exHeader 2, exLevel 0 0 0 ⟨true⟩ 0, exLevel 1 2 2 ⟨true⟩ 0,
      exLevel 2 3 4 ⟨true⟩ 0] ∧ missing ≠ [] ∧
    glance (parse (decFmt ℚ) 19 40 10 (some text)) = .ok [(0, []), (2, []), (2, [])] := by
  refine ⟨exHeader 2 ++ '\n' :: exLevel 0 0 0 ⟨true⟩ 0 ++ '\n' :: exLevel 1 2 2 ⟨true⟩ 0,
    '\n' :: exLevel 2 3 4 ⟨true⟩ 0 ++ ['\n'], ?_, by simp, by decide +kernel⟩
  simp [fileText]

/-- C96 fails for a file that ends too early after a whole line: variables without values are
used. -/
theorem C96_missing_violated : ∃ text missing : Str,
    text ++ missing = fileText [exHeader 2, exLevel 0 0 0 ⟨true⟩ 0, exLevel 1 2 2 ⟨true⟩ 0,
      exLevel 2 3 4 ⟨true⟩ 0] ∧ missing ≠ [] ∧
    parse (decFmt ℚ) 19 40 10 (some text) = .error .ub := by
  refine ⟨fileText [exHeader 2, exLevel 0 0 0 ⟨true⟩ 0, exLevel 1 2 2 ⟨true⟩ 0],
    fileText [exLevel 2 3 4 ⟨true⟩ 0], by simp [fileText], by simp [fileText], ?_⟩
  have : glance (parse (decFmt ℚ) 19 40 10
      (some (fileText [exHeader 2, exLevel 0 0 0 ⟨true⟩ 0, exLevel 1 2 2 ⟨true⟩ 0]))) = .error .ub := by
    decide +kernel
  unfold glance at this
  split at this
  · rename_i e h; rw [h]; injection this with this; rw [this]
  · cases this

/-- C96 fails for a gamma from a level to itself: it is accepted, with energy zero. -/
theorem C96_self_violated :
    glance (parse (decFmt ℚ) 19 40 10 (some (fileText [exHeader 1, exLevel 0 0 0 ⟨true⟩ 0,
      exLevel 1 2 2 ⟨true⟩ 1, exGamma 1 1]))) = .ok [(0, []), (2, [(0, some 11)])] := by
  decide +kernel

/-! ## C97 -/

/-- The line could be taken for the first one of the data for some nuclide: 18 digits or blanks,
56 blanks, four digits or blanks, and two characters. -/
def LooksAny (line : Str) : Prop :=
  ∃ fields mass sym, fields.length = 18 ∧ (∀ c ∈ fields, isDigit c = true ∨ c = ' ') ∧
    mass.length = 4 ∧ (∀ c ∈ mass, isDigit c = true ∨ c = ' ') ∧ sym.length = 2 ∧
    (∀ c ∈ sym, c ≠ '\n' ∧ c ≠ '\r') ∧ line = fields ++ (List.replicate 56 ' ' ++ (mass ++ sym))

/-- A line of the file: the first one of the data for a nuclide, or a line that could not be
taken for one. -/
def LineOf (line : Str) : Option (Nat × Nat) → Prop
  | some (Z, A) => 1 ≤ A ∧ A ≤ 999 ∧ ∃ n, Header Z A n line
  | none => '\n' ∉ line ∧ ¬ LooksAny line

theorem isAny_iff (line : Str) : isAnyNuclideLine line = true ↔ LooksAny line := by
  unfold isAnyNuclideLine LooksAny
  simp only [Bool.and_eq_true, beq_iff_eq, List.all_eq_true, Bool.or_eq_true, bne_iff_ne, ne_eq]
  constructor
  · rintro ⟨⟨⟨⟨h1, h2⟩, h3⟩, h4⟩, h5⟩
    refine ⟨line.take 18, (line.drop 74).take 4, line.drop 78, by simp [h1], h2, by simp [h1], h4,
      by simp [h1], h5, ?_⟩
    rw [← h3]
    have e1 : line.drop 78 = (line.drop 74).drop 4 := by rw [List.drop_drop]
    have e2 : line.drop 74 = (line.drop 18).drop 56 := by rw [List.drop_drop]
    rw [e1, List.take_append_drop, e2, List.take_append_drop, List.take_append_drop]
  · rintro ⟨fields, mass, sym, h1, h2, h3, h4, h5, h6, rfl⟩
    have e74 : (fields ++ (List.replicate 56 ' ' ++ (mass ++ sym))).drop 74 = mass ++ sym := by
      rw [← List.append_assoc]
      exact List.drop_left' (by simp [h1])
    have e78 : (fields ++ (List.replicate 56 ' ' ++ (mass ++ sym))).drop 78 = sym := by
      rw [← List.append_assoc, ← List.append_assoc]
      exact List.drop_left' (by simp [h1, h3])
    rw [e74, e78, List.take_left' h1, List.drop_left' h1, List.take_left' (by simp), List.take_left' h3]
    exact ⟨⟨⟨⟨by simp [h1, h3, h5], h2⟩, rfl⟩, h4⟩, h6⟩

theorem looks_any {Z A : Nat} (hA : A ≤ 999) {line : Str} (h : LooksLike Z A line) : LooksAny line := by
  obtain ⟨fields, name, h1, h2, ⟨sym, h3, rfl⟩, rfl⟩ := h
  have hm := massText A (by omega)
  have hs := symbols_name _ (symbol_mem h3)
  have hl : sym.length ≤ 2 := hs.2.2.2.2.1
  refine ⟨fields, ' ' :: (List.replicate (3 - (natText A).length) ' ' ++ natText A),
    sym ++ List.replicate (2 - sym.length) ' ', h1, h2, by simp; omega, ?_, by simp; omega, ?_, ?_⟩
  · intro c hc
    simp only [List.mem_cons, List.mem_append, List.mem_replicate] at hc
    rcases hc with h | ⟨-, h⟩ | h
    · exact .inr h
    · exact .inr h
    · exact nat_chars A c h
  · intro c hc
    simp only [List.mem_append, List.mem_replicate] at hc
    rcases hc with h | ⟨-, rfl⟩
    · exact hs.2.2.2.2.2 c h
    · decide
  · have : List.replicate 57 ' ' = List.replicate 56 ' ' ++ [' '] := rfl
    rw [this]
    simp

section
variable [Field K] [LinearOrder K] [IsStrictOrderedRing K] [FloorRing K]

theorem truncInt_nat {n : Nat} (h : (n : Int) ≤ intMax) : truncInt (n : K) = some (n : Int) := by
  unfold truncInt
  rw [if_pos (Nat.cast_nonneg n), Int.floor_natCast]
  exact if_pos (nat_fits h)

theorem nuclideOf_header {f : DblFmt K} (hf : ∀ n : Nat, DblText f (natText n) (n : K)) {Z A n : Nat}
    (hA : A ≤ 999) {line : Str} (h : Header Z A n line) (z a : Option K) :
    nuclideOf f line z a = .ok (Pdg.nucleusPid Z A, some (Z : K), some (A : K)) := by
  obtain ⟨b0, b1, b2, b3, b4, name, total, g0, g1, g2, g3, g4, ht, hN, -, rfl⟩ := h
  have hA' : (A : Int) ≤ intMax := by unfold intMax; omega
  unfold nuclideOf
  simp only [List.append_assoc, List.cons_append, exDbl_gap g0, exDbl_text (hf Z),
    exDbl_space (show isSpace ' ' = true by decide), exDbl_gap g1, exDbl_text (hf A),
    truncInt_nat (K := K) (name_fits hN), truncInt_nat (K := K) hA']

/-- C97: the codes that are found are those of the nuclides whose data are in the file, in the
order of the file. -/
theorem C97_found {f : DblFmt K} (hf : ∀ n : Nat, DblText f (natText n) (n : K)) {lines : List Str}
    {what : List (Option (Nat × Nat))} (h : List.Forall₂ LineOf lines what) :
    findAllNuclides f (some (fileText lines)) =
      .ok ((what.filterMap id).map (fun n => Pdg.nucleusPid n.1 n.2)) := by
  have hnl : ∀ l ∈ lines, '\n' ∉ l := by
    induction h with
    | nil => simp
    | @cons l w ls ws hl _ ih =>
      intro x hx
      rcases List.mem_cons.1 hx with rfl | hx
      · match w, hl with
        | some (Z, A), hl => exact looks_line (header_looks hl.2.2.choose_spec)
        | none, hl => exact hl.1
      · exact ih x hx
  have hp : pieces (fileText lines) = lines ++ [[]] := by
    have := pieces_file hnl []
    rw [List.append_nil] at this
    rw [this]; rfl
  simp only [findAllNuclides, hp]
  clear hp hnl
  suffices ∀ z a, nuclideLoop f (lines ++ [[]]) z a =
      .ok ((what.filterMap id).map (fun n => Pdg.nucleusPid n.1 n.2)) from this none none
  induction h with
  | nil => intro z a; simp [nuclideLoop]
  | @cons l w ls ws hl _ ih =>
    intro z a
    rw [List.cons_append, nuclideLoop, if_neg (by simp)]
    match w, hl with
    | some (Z, A), hl =>
      obtain ⟨h1, h2, n, hh⟩ := hl
      rw [if_pos ((isAny_iff l).2 (looks_any h2 (header_looks hh))), nuclideOf_header hf h2 hh]
      simp [ih]
    | none, hl =>
      rw [if_neg (fun hc => hl.2 ((isAny_iff l).1 hc))]
      simp [ih]

omit [IsStrictOrderedRing K] in
/-- C97: a file that cannot be read is a `marley::Error`. -/
theorem C97_unreadable (f : DblFmt K) : findAllNuclides f none = .error .marleyError := rfl

/-- The data for a nuclide. -/
structure DataSet (K : Type) where
  Z : Nat
  A : Nat
  header : Str
  levels : List (TLevel K)
  lines : List Str

/-- A file with these data. -/
def dataText (ds : List (DataSet K)) : Str := fileText (ds.flatMap (fun d => d.header :: d.lines))

/-- Data as they should be. -/
structure DataSet.Good (f : DblFmt K) (d : DataSet K) : Prop where
  file : GoodFile f d.Z d.A [] d.header d.levels d.lines
  gammas : ∀ k l, d.levels[k]? = some l → GoodGammas k l
  plain : ∀ l ∈ d.lines, ¬ LooksAny l

theorem symbols_inj : ∀ p ∈ Utils.elementSymbols, ∀ q ∈ Utils.elementSymbols,
    p.2 ++ List.replicate (2 - p.2.length) ' ' = q.2 ++ List.replicate (2 - q.2.length) ' ' → p.1 = q.1 := by
  decide +kernel

theorem mass_inj {A A' : Nat} (h : List.replicate (3 - (natText A).length) ' ' ++ natText A =
    List.replicate (3 - (natText A').length) ' ' ++ natText A') : A = A' := by
  have key : ∀ n k, (List.replicate k ' ' ++ natText n).dropWhile (fun c => c == ' ') = natText n := by
    intro n k
    induction k with
    | zero =>
      obtain ⟨d, v, e, hd⟩ := Json.natText_head_ne n
      have hne : (d == ' ') = false := by
        cases hc : d == ' ' with
        | false => rfl
        | true => rw [beq_iff_eq.1 hc] at hd; revert hd; decide
      rw [List.replicate_zero, List.nil_append, e, List.dropWhile_cons_of_neg (by simp [hne])]
    | succ k ih => rw [List.replicate_succ, List.cons_append, List.dropWhile_cons_of_pos (by decide), ih]
  have := congrArg (List.dropWhile (fun c => c == ' ')) h
  rw [key, key] at this
  exact natText_inj this

theorem name_inj {Z A Z' A' : Nat} (hA : A ≤ 999) (hA' : A' ≤ 999) {name : Str} (h : IsName Z A name)
    (h' : IsName Z' A' name) : Z = Z' ∧ A = A' := by
  obtain ⟨sym, h1, rfl⟩ := h
  obtain ⟨sym', h1', e⟩ := h'
  have hm := (massText A (by omega)).2
  have hm' := (massText A' (by omega)).2
  have := List.append_inj e (by simp; omega)
  have hs := symbols_inj _ (symbol_mem h1) _ (symbol_mem h1') this.2
  exact ⟨by simpa using hs, mass_inj this.1⟩

theorem looks_unique {Z A Z' A' : Nat} (hA : A ≤ 999) (hA' : A' ≤ 999) {line : Str} (h : LooksLike Z A line)
    (h' : LooksLike Z' A' line) : Z = Z' ∧ A = A' := by
  obtain ⟨fields, name, h1, -, h2, rfl⟩ := h
  obtain ⟨fields', name', h1', -, h2', e⟩ := h'
  have := (List.append_inj e (by rw [h1, h1'])).2
  have := List.append_cancel_left this
  subst this
  exact name_inj hA hA' h2 h2'

/-- C97: for a file with data for different nuclides, the codes that are found are those of the
nuclides, and the decay scheme of each can be read from the file and has exactly the levels
listed for that nuclide. -/
theorem C97_file {f : DblFmt K} (hf : ∀ n : Nat, DblText f (natText n) (n : K)) {ds : List (DataSet K)}
    (hd : ∀ d ∈ ds, d.Good f) (hne : ds.Pairwise (fun d e => ¬ (d.Z = e.Z ∧ d.A = e.A))) :
    findAllNuclides f (some (dataText ds)) = .ok (ds.map (fun d => Pdg.nucleusPid d.Z d.A)) ∧
    ∀ d ∈ ds, ∀ next, parse f d.Z d.A next (some (dataText ds)) =
      .ok ⟨d.Z, d.A, stored d.levels next d.levels, next + d.levels.length⟩ := by
  constructor
  · have hlines : ∀ ds : List (DataSet K), (∀ d ∈ ds, d.Good f) →
        ∃ what : List (Option (Nat × Nat)), List.Forall₂ LineOf (ds.flatMap (fun d => d.header :: d.lines)) what ∧
          what.filterMap id = ds.map (fun d => (d.Z, d.A)) := by
      intro ds
      induction ds with
      | nil => intro _; exact ⟨[], .nil, rfl⟩
      | cons d ds ih =>
        intro hd
        obtain ⟨what, h1, h2⟩ := ih (fun x hx => hd x (by simp [hx]))
        have hg := hd d (by simp)
        obtain ⟨n, hh, -⟩ := hg.file.header
        have hnl := records_lines hg.file.records
        have hpl := hg.plain
        refine ⟨some (d.Z, d.A) :: (d.lines.map (fun _ => none) ++ what), ?_, ?_⟩
        · rw [List.flatMap_cons, List.cons_append]
          refine .cons ⟨hg.file.mass.1, hg.file.mass.2, n, hh⟩ (List.rel_append ?_ h1)
          rw [List.forall₂_map_right_iff, List.forall₂_same]
          exact fun x hx => ⟨hnl x hx, hpl x hx⟩
        · have e : ∀ l : List Str, (l.map (fun _ => (none : Option (Nat × Nat)))).filterMap id = [] := by
            intro l; induction l with
            | nil => rfl
            | cons _ _ ih => simpa using ih
          have e' := List.filterMap_append (l := d.lines.map (fun _ => (none : Option (Nat × Nat)))) (l' := what)
            (f := id)
          rw [e, h2] at e'
          simpa using e'
    obtain ⟨what, h1, h2⟩ := hlines ds hd
    unfold dataText
    rw [C97_found hf h1, h2, List.map_map]
    rfl
  · intro d hdm next
    obtain ⟨as, bs, rfl⟩ := List.append_of_mem hdm
    have hg := hd d (by simp)
    have e : dataText (as ++ d :: bs) = fileText (as.flatMap (fun d => d.header :: d.lines) ++ d.header :: d.lines) ++
        dataText bs := by
      simp [dataText, fileText]
    rw [e]
    refine C96_reads_partial next ⟨hg.file.mass, ?_, hg.file.header, hg.file.records, hg.file.increasing,
      hg.file.number, hg.file.fits⟩ hg.gammas (dataText bs)
    intro l hl
    obtain ⟨x, hx, hl⟩ := List.mem_flatMap.1 hl
    have hgx := hd x (by simp [hx])
    rcases List.mem_cons.1 hl with rfl | hl
    · obtain ⟨n, hh, -⟩ := hgx.file.header
      have hlook := header_looks hh
      refine ⟨looks_line hlook, fun hc => ?_⟩
      exact (List.pairwise_append.1 hne).2.2 x hx d (by simp)
        (looks_unique hgx.file.mass.2 hg.file.mass.2 hlook hc)
    · exact ⟨records_lines hgx.file.records l hl, fun hc => hgx.plain l hl (looks_any hg.file.mass.2 hc)⟩

end

/-! ### Example -/

theorem decFmt_naturals : ∀ n : Nat, DblText (decFmt ℚ) (natText n) (n : ℚ) := fun n => decFmt_nat n

/-- The first line of the data for argon 39. -/
def exHeaderAr : Str :=
  [' ', ' '] ++ (natText 18 ++ ' ' :: ([' '] ++ (natText 39 ++ ' ' :: ([' ', ' ', ' '] ++ (natText 9 ++
    ' ' :: ([' ', ' ', ' '] ++ (natText 0 ++ []))))))) ++ (List.replicate 57 ' ' ++ [' ', '3', '9', 'A', 'r'])

/-- A file with the data of two nuclides meets the hypotheses of `C97_file`. -/
example : ∃ ds : List (DataSet ℚ), (∀ d ∈ ds, d.Good (decFmt ℚ)) ∧
    ds.Pairwise (fun d e => ¬ (d.Z = e.Z ∧ d.A = e.A)) ∧
    findAllNuclides (decFmt ℚ) (some (dataText ds)) = .ok [1000190400, 1000180390] := by
  have hshort : ∀ l : Str, l.length < 80 → ¬ LooksAny l := by
    rintro l hl ⟨fields, mass, sym, h1, -, h2, -, h3, -, rfl⟩
    simp [h1, h2, h3] at hl
  have h40 : DataSet.Good (decFmt ℚ) ⟨19, 40, exHeader 1, exLevels ℚ, exLines⟩ := by
    refine ⟨⟨exFile_good.mass, by simp, exFile_good.header, exFile_good.records, exFile_good.increasing,
      exFile_good.number, exFile_good.fits⟩, ?_, ?_⟩
    · intro k l hl g hg hr
      match k with
      | 0 => simp [exLevels] at hl; subst hl; cases hg
      | 1 =>
        simp [exLevels] at hl; subst hl
        simp only [List.mem_cons, List.not_mem_nil, or_false] at hg
        rcases hg with rfl | rfl
        · decide
        · simp at hr
      | k + 2 => simp [exLevels] at hl
    · intro l hl
      exact hshort l ((by decide +kernel : ∀ l ∈ exLines, l.length < 80) l hl)
  have h39 : DataSet.Good (decFmt ℚ) ⟨18, 39, exHeaderAr, [⟨((0 : Nat) : ℚ), (7 : Nat), ⟨false⟩, []⟩],
      [exLevel 0 0 7 ⟨false⟩ 0]⟩ := by
    refine ⟨⟨by decide, by simp, ⟨0, ?_, rfl⟩,
      ⟨_, [], [], rfl, exLevel_record 0 0 7 ⟨false⟩ [], .nil, rfl⟩, by simp, by decide, ?_⟩, ?_, ?_⟩
    · have gap : ∀ b : Str, (∀ c ∈ b, c = ' ') → IsGap b := fun b h => h
      refine ⟨_, _, _, _, _, _, 9, gap _ ?_, gap _ ?_, gap _ ?_, gap _ ?_, gap _ ?_, by decide,
        ⟨['A', 'r'], by decide +kernel, ?_⟩, ?_, rfl⟩
      · decide
      · decide
      · decide
      · decide
      · decide
      · decide +kernel
      · decide +kernel
    · intro l hl
      rw [List.mem_singleton.1 hl]
      exact ⟨by decide, by decide, by decide, by simp⟩
    · intro k l hl g hg hr
      match k with
      | 0 => simp at hl; subst hl; cases hg
      | k + 1 => simp at hl
    · intro l hl
      exact hshort l ((by decide +kernel : ∀ l ∈ [exLevel 0 0 7 ⟨false⟩ 0], l.length < 80) l hl)
  refine ⟨[⟨19, 40, exHeader 1, exLevels ℚ, exLines⟩,
    ⟨18, 39, exHeaderAr, [⟨((0 : Nat) : ℚ), (7 : Nat), ⟨false⟩, []⟩], [exLevel 0 0 7 ⟨false⟩ 0]⟩], ?_,
    by simp, ?_⟩
  · intro d hd
    simp only [List.mem_cons, List.not_mem_nil, or_false] at hd
    rcases hd with rfl | rfl
    · exact h40
    · exact h39
  · refine (C97_file decFmt_naturals ?_ (by simp)).1.trans (by simp [Pdg.nucleusPid])
    intro d hd
    simp only [List.mem_cons, List.not_mem_nil, or_false] at hd
    rcases hd with rfl | rfl
    · exact h40
    · exact h39

end Marley.Props
