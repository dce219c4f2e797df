import Verif.Spec.Reaction
import Verif.Lemmas.DecayScheme
import Verif.Props.DecayScheme
import Mathlib.Tactic.SplitIfs
import Mathlib.Tactic.Tauto

set_option autoImplicit false

/-! Lemmas for the properties of Reaction. -/

namespace Marley.Props
open Marley Marley.Reaction
open Marley.Json (Str isSpace isDigit intText)
open Marley.Scheme (Level closestLevel levelAt exDbl exInt)

theorem code_roundtrip {Z A : Int} (h1 : 0 ≤ Z) (h2 : Z < 1000) (h3 : 0 ≤ A) (h4 : A < 1000) :
    Pdg.getZ (Pdg.nucleusPid Z A) = Z ∧ Pdg.getA (Pdg.nucleusPid Z A) = A := by
  simp only [Pdg.nucleusPid, Pdg.getZ, Pdg.getA, Pdg.PROTON, Pdg.NEUTRON]
  constructor
  · split_ifs <;> first
      | omega
      | (rw [Int.tmod_eq_emod_of_nonneg (by omega), Int.tdiv_eq_ediv_of_nonneg (by omega)]; omega)
  · split_ifs <;> first
      | omega
      | (rw [Int.tmod_eq_emod_of_nonneg (by omega), Int.tdiv_eq_ediv_of_nonneg (by omega)]; omega)

theorem code_range (pid : Int) : 0 ≤ Pdg.getZ pid ∧ Pdg.getZ pid < 1000 ∧
    0 ≤ Pdg.getA pid ∧ Pdg.getA pid < 1000 := by
  simp only [Pdg.getZ, Pdg.getA, Pdg.PROTON, Pdg.NEUTRON]
  by_cases h : pid > 1000000000
  · have e1 : (pid.tmod 10000000).tdiv 10000 = pid % 10000000 / 10000 := by
      rw [Int.tmod_eq_emod_of_nonneg (by omega), Int.tdiv_eq_ediv_of_nonneg (by omega)]
    have e2 : (pid.tmod 10000).tdiv 10 = pid % 10000 / 10 := by
      rw [Int.tmod_eq_emod_of_nonneg (by omega), Int.tdiv_eq_ediv_of_nonneg (by omega)]
    rw [e1, e2]
    split_ifs <;> omega
  · split_ifs <;> omega

theorem residue_ok {p : Proc} {b d q : Int} (h : residue p b = .ok (d, q)) :
    Pdg.getA d = Pdg.getA b ∧ Pdg.getZ d = Pdg.getZ b + protonChange p ∧ q = protonChange p ∧
    (p = .nc ∨ p = .neutrinoCC ∨ p = .antiNeutrinoCC) := by
  obtain ⟨r1, r2, r3, r4⟩ := code_range b
  cases p with
  | nc => simp only [residue, Except.ok.injEq, Prod.mk.injEq] at h; simp [← h.1, ← h.2, protonChange]
  | neutrinoCC =>
    simp only [residue] at h
    split_ifs at h with c
    simp only [Except.ok.injEq, Prod.mk.injEq] at h
    obtain ⟨a1, a2⟩ := code_roundtrip (Z := Pdg.getZ b + 1) (A := Pdg.getA b) (by omega) (by omega) r3 r4
    rw [← h.1, ← h.2, a1, a2]; simp [protonChange]
  | antiNeutrinoCC =>
    simp only [residue] at h
    split_ifs at h with c
    simp only [Except.ok.injEq, Prod.mk.injEq] at h
    obtain ⟨a1, a2⟩ := code_roundtrip (Z := Pdg.getZ b - 1) (A := Pdg.getA b) (by omega) (by omega) r3 r4
    rw [← h.1, ← h.2, a1, a2]; simp [protonChange]; omega
  | nuElectronElastic => simp [residue] at h
  | other => simp [residue] at h

/-- What `makeNuclear` stores. -/
theorem makeNuclear_fields {t : Mass.Table} {p : Proc} {a b c d q : Int} {ms : List MatEl}
    {r : Nuclear} (h : makeNuclear t p a b c d q ms = .ok r) :
    r.proc = p ∧ r.pdgA = a ∧ r.pdgB = b ∧ r.pdgC = c ∧ r.pdgD = d ∧ r.qD = q ∧ r.elements = ms := by
  simp only [makeNuclear] at h
  repeat' split at h
  all_goals first
    | (cases h; done)
    | (simp only [Except.ok.injEq] at h; subst h; simp)

theorem nuclearReactions_ok {t : Mass.Table} {p : Proc} {b d q : Int} {ms : List MatEl} :
    ∀ {l : List Int} {rs : List Reaction}, nuclearReactions t p b d q ms l = .ok rs →
    ∃ ns : List Nuclear, rs = ns.map .nuclear ∧ ns.map (·.pdgA) = l ∧
      ∀ r ∈ ns, r.proc = p ∧ r.pdgB = b ∧ ejectile r.pdgA p = .ok r.pdgC ∧ r.pdgD = d ∧ r.qD = q ∧
        r.elements = ms := by
  intro l
  induction l with
  | nil => intro rs h; simp only [nuclearReactions, Except.ok.injEq] at h; exact ⟨[], by simp [← h]⟩
  | cons a l ih =>
    intro rs h
    simp only [nuclearReactions] at h
    cases hc : ejectile a p with
    | error e => rw [hc] at h; cases h
    | ok c =>
      rw [hc] at h; dsimp only at h
      cases hm : makeNuclear t p a b c d q ms with
      | error e => rw [hm] at h; cases h
      | ok r =>
        rw [hm] at h; dsimp only at h
        cases hr : nuclearReactions t p b d q ms l with
        | error e => rw [hr] at h; cases h
        | ok rs' =>
          rw [hr] at h
          simp only [Except.ok.injEq] at h
          obtain ⟨ns, e1, e2, e3⟩ := ih hr
          obtain ⟨f1, f2, f3, f4, f5, f6, f7⟩ := makeNuclear_fields hm
          refine ⟨r :: ns, by simp [← h, e1], by simp [f2, e2], ?_⟩
          intro x hx
          rcases List.mem_cons.1 hx with rfl | hx
          · exact ⟨f1, f3, by rw [f2, f4, hc], f5, f6, f7⟩
          · exact e3 x hx

theorem electronReactions_ok {t : Mass.Table} {atom : Int} : ∀ {l : List Int} {rs : List Reaction},
    electronReactions t atom l = .ok rs → ∀ r ∈ rs, ∃ e, r = .electron e := by
  intro l
  induction l with
  | nil => intro rs h r hr; simp only [electronReactions, Except.ok.injEq] at h; simp [← h] at hr
  | cons a l ih =>
    intro rs h r hr
    simp only [electronReactions] at h
    cases hm : makeElectron t a atom with
    | error e => rw [hm] at h; cases h
    | ok e =>
      rw [hm] at h; dsimp only at h
      cases hr' : electronReactions t atom l with
      | error e => rw [hr'] at h; cases h
      | ok rs' =>
        rw [hr'] at h
        simp only [Except.ok.injEq] at h
        rw [← h] at hr
        rcases List.mem_cons.1 hr with rfl | hr
        · exact ⟨e, rfl⟩
        · exact ih hr' r hr

theorem atomReactions_ok {t : Mass.Table} : ∀ {l : List Int} {rs : List Reaction},
    atomReactions t l = .ok rs → ∀ r ∈ rs, ∃ e, r = .electron e := by
  intro l
  induction l with
  | nil => intro rs h r hr; simp only [atomReactions, Except.ok.injEq] at h; simp [← h] at hr
  | cons a l ih =>
    intro rs h r hr
    simp only [atomReactions, projectiles] at h
    cases hm : electronReactions t a [12, 14, 16, -12, -14, -16] with
    | error e => rw [hm] at h; cases h
    | ok e =>
      rw [hm] at h; dsimp only at h
      cases hr' : atomReactions t l with
      | error e => rw [hr'] at h; cases h
      | ok rs' =>
        rw [hr'] at h
        simp only [Except.ok.injEq] at h
        rw [← h] at hr
        rcases List.mem_append.1 hr with hr | hr
        · exact electronReactions_ok hm r hr
        · exact ih hr' r hr

theorem electronLines_ok {t : Mass.Table} : ∀ {n : Nat} {line : Str} {f : FileIn}
    {rs : List Reaction}, electronLines t n line f = .ok rs → ∀ r ∈ rs, ∃ e, r = .electron e := by
  intro n
  induction n with
  | zero => intro line f rs h r hr; simp only [electronLines, Except.ok.injEq] at h; simp [← h] at hr
  | succ n ih =>
    intro line f rs h r hr
    simp only [electronLines] at h
    cases hm : atomReactions t (readInts (line.length + 1) line) with
    | error e => rw [hm] at h; cases h
    | ok e =>
      rw [hm] at h; dsimp only at h
      split_ifs at h with hl
      · simp only [Except.ok.injEq] at h
        rw [← h] at hr
        exact atomReactions_ok hm r hr
      · cases hr' : electronLines t n (getNextLine f).1 (getNextLine f).2 with
        | error e => rw [hr'] at h; cases h
        | ok rs' =>
          rw [hr'] at h
          simp only [Except.ok.injEq] at h
          rw [← h] at hr
          rcases List.mem_append.1 hr with hr | hr
          · exact atomReactions_ok hm r hr
          · exact ih hr' r hr

/-- What the loader does for a file it accepts and that has a nuclear reaction. -/
theorem load_nuclear {c : Ctx} {file : Option Str} {rs : List Reaction} {r : Nuclear}
    (h : load c file = .ok rs) (hr : Reaction.nuclear r ∈ rs) :
    ∃ text p b d q ms ms' l, file = some text ∧ residue p b = .ok (d, q) ∧
      readElements c.fmt (text.length + 2) none (getNextLine ⟨text, true⟩).2 = .ok ms ∧
      setLevelPtrs c b d ms = .ok ms' ∧ projectiles p = .ok l ∧
      nuclearReactions c.table p b d q ms' l = .ok rs := by
  cases file with
  | none => simp [load] at h
  | some text =>
    simp only [load] at h
    cases h1 : (exInt (some (getNextLine ⟨text, true⟩).1) none).2 with
    | none => rw [h1] at h; cases h
    | some n =>
      rw [h1] at h; dsimp only at h
      split_ifs at h with hp
      · obtain ⟨e, he⟩ := electronLines_ok h _ hr
        cases he
      · cases h2 : readElements c.fmt (text.length + 2) none (getNextLine ⟨text, true⟩).2 with
        | error e => rw [h2] at h; cases h
        | ok ms =>
          rw [h2] at h; dsimp only at h
          cases h3 : (exInt (exInt (some (getNextLine ⟨text, true⟩).1) none).1 none).2 with
          | none => rw [h3] at h; cases h
          | some b =>
            rw [h3] at h; dsimp only at h
            cases h4 : residue (Proc.ofInt n) b with
            | error e => rw [h4] at h; cases h
            | ok dq =>
              obtain ⟨d, q⟩ := dq
              rw [h4] at h; dsimp only at h
              cases h5 : setLevelPtrs c b d ms with
              | error e => rw [h5] at h; cases h
              | ok ms' =>
                rw [h5] at h; dsimp only at h
                cases h6 : projectiles (Proc.ofInt n) with
                | error e => rw [h6] at h; cases h
                | ok l =>
                  rw [h6] at h
                  exact ⟨text, _, b, d, q, ms, ms', l, rfl, h4, h2, h5, h6, h⟩

theorem getLine_newline {l : Str} (h : ∀ c ∈ l, c ≠ '\n') (t : Str) :
    getLine (l ++ '\n' :: t) = (l, ⟨t, true⟩) := by
  have h1 : ∀ c ∈ l, decide (c ≠ '\n') = true := fun c hc => by simpa using h c hc
  have h2 : decide ('\n' ≠ '\n') = false := by decide
  rw [getLine, if_pos (by simp), Json.takeWhile_append_stop h1 h2, Json.dropWhile_append_stop h1 h2]
  rfl

theorem getLine_last {l : Str} (h : ∀ c ∈ l, c ≠ '\n') : getLine l = (l, ⟨[], false⟩) := by
  rw [getLine, if_neg (fun hm => h _ hm rfl)]

theorem getLine_shorter (s : Str) :
    (getLine s).2.good = true → (getLine s).2.rest.length < s.length := by
  simp only [getLine]
  split_ifs with h
  · intro _
    have : s.dropWhile (· ≠ '\n') ≠ [] := by
      clear * - h
      induction s with
      | nil => simp at h
      | cons c t ih =>
        by_cases hc : c = '\n'
        · simp [hc]
        · have : '\n' ∈ t := by
            rcases List.mem_cons.1 h with h | h
            · exact absurd h.symm hc
            · exact h
          simpa [List.dropWhile_cons, hc] using ih this
    have hl : (s.dropWhile (· ≠ '\n')).length ≤ s.length := (List.dropWhile_sublist _).length_le
    have := List.length_pos_of_ne_nil this
    simp only [List.length_drop]; omega
  · simp

theorem nextLine_bad (n : Nat) (s : Str) : nextLine n ⟨s, false⟩ = ([], ⟨s, false⟩) := by
  cases n <;> simp [nextLine]

theorem nextLine_fuel : ∀ (n m : Nat) (s : Str) (g : Bool), s.length + 2 ≤ n → s.length + 2 ≤ m →
    nextLine n ⟨s, g⟩ = nextLine m ⟨s, g⟩ := by
  intro n
  induction n with
  | zero => intro m s g h; omega
  | succ n ih =>
    intro m s g h1 h2
    obtain ⟨m, rfl⟩ : ∃ k, m = k + 1 := ⟨m - 1, by omega⟩
    cases g with
    | false => rw [nextLine_bad, nextLine_bad]
    | true =>
      simp only [nextLine, if_true]
      split_ifs with hc
      · cases hg : (getLine s).2.good with
        | false =>
          have e : (getLine s).2 = ⟨(getLine s).2.rest, false⟩ := by rw [← hg]
          rw [e, nextLine_bad, nextLine_bad]
        | true =>
          have := getLine_shorter s hg
          exact ih m (getLine s).2.rest (getLine s).2.good (by omega) (by omega)
      · rfl

theorem getNextLine_comment {t : Str} (h : ∀ c ∈ t, c ≠ '\n' ∧ c ≠ '\r') (u : Str) :
    getNextLine ⟨'#' :: t ++ '\n' :: u, true⟩ = getNextLine ⟨u, true⟩ := by
  have hl : ∀ c ∈ '#' :: t, c ≠ '\n' := by
    intro c hc
    rcases List.mem_cons.1 hc with rfl | hc
    · decide
    · exact (h c hc).1
  have hcm : isComment ('#' :: t) = true := by
    simp only [isComment, decide_true, Bool.true_and, List.all_eq_true, Bool.and_eq_true,
      decide_eq_true_eq]
    exact h
  rw [getNextLine, nextLine, if_pos rfl]
  simp only [getLine_newline hl, hcm, if_true]
  exact nextLine_fuel _ _ _ _ (by simp; omega) (le_refl _)

theorem getNextLine_line {l : Str} (h : ∀ c ∈ l, c ≠ '\n') (hc : isComment l = false) (u : Str) :
    getNextLine ⟨l ++ '\n' :: u, true⟩ = (l, ⟨u, true⟩) := by
  rw [getNextLine, nextLine, if_pos rfl]
  simp [getLine_newline h, hc]

theorem getNextLine_last {l : Str} (h : ∀ c ∈ l, c ≠ '\n') :
    (getNextLine ⟨l, true⟩).2.good = false := by
  rw [getNextLine, nextLine, if_pos rfl]
  simp only [getLine_last h]
  split_ifs
  · rw [nextLine_bad]
  · rfl

theorem getNextLine_comments {cs : List Str}
    (h : ∀ t ∈ cs, ∀ c ∈ t, c ≠ '\n' ∧ c ≠ '\r') (u : Str) :
    getNextLine ⟨linesText (cs.map .comment) ++ u, true⟩ = getNextLine ⟨u, true⟩ := by
  induction cs with
  | nil => rfl
  | cons t cs ih =>
    have e : linesText ((t :: cs).map .comment) ++ u =
        '#' :: t ++ '\n' :: (linesText (cs.map .comment) ++ u) := by
      simp [linesText, FileLine.text]
    rw [e, getNextLine_comment (h t (by simp)), ih (fun x hx => h x (by simp [hx]))]

theorem exDbl_blanks {f : DblFmt ℝ} {ws : Str} (h : Blanks ws) (t : Str) (old : Option ℝ) :
    exDbl f (some (ws ++ t)) old = exDbl f (some t) old := by
  induction ws with
  | nil => rfl
  | cons c ws ih =>
    rw [List.cons_append, Scheme.exDbl_space (h c (by simp)).1, ih (fun x hx => h x (by simp [hx]))]

theorem exInt_blanks {ws : Str} (h : Blanks ws) (t : Str) (old : Option Int) :
    exInt (some (ws ++ t)) old = exInt (some t) old := by
  induction ws with
  | nil => rfl
  | cons c ws ih =>
    rw [List.cons_append, Scheme.exInt_space (h c (by simp)).1, ih (fun x hx => h x (by simp [hx]))]

theorem takeWhile_all {p : Char → Bool} : ∀ {s : Str}, (∀ c ∈ s, p c = true) → s.takeWhile p = s := by
  intro s
  induction s with
  | nil => intro _; rfl
  | cons c t ih =>
    intro h
    rw [List.takeWhile_cons, if_pos (h c (by simp)), ih (fun x hx => h x (by simp [hx]))]

theorem readInt_intText_end {n : Int} (h : intMin ≤ n ∧ n ≤ intMax) :
    ∃ t, readInt (intText n) = some (n, t) := by
  have key : ∀ (m : Nat), (Json.natText m).takeWhile isDigit = Json.natText m := fun m =>
    takeWhile_all (Json.natText_digits m)
  cases n with
  | ofNat n =>
    obtain ⟨d, u, e, hd⟩ := Json.natText_head_ne n
    have hsk : skipBlank (Json.natText n) = Json.natText n := by
      rw [e]; exact skipBlank_cons (isDigit_not_space hd) _
    have hsp : splitSign2 (Json.natText n) = (false, Json.natText n) := by
      rw [e]; simp [splitSign2, Json.isDigit_ne_dash hd, digit_ne_plus hd]
    refine ⟨(Json.natText n).dropWhile isDigit, ?_⟩
    simp only [readInt, intText, hsk, hsp, key, Json.natText_ne_nil, Json.digitsVal_natText, if_false]
    exact if_pos h
  | negSucc n =>
    have hsk : skipBlank ('-' :: Json.natText (n+1)) = '-' :: Json.natText (n+1) :=
      skipBlank_cons (by decide) _
    have hsp : splitSign2 ('-' :: Json.natText (n+1)) = (true, Json.natText (n+1)) := by
      simp [splitSign2]
    refine ⟨(Json.natText (n+1)).dropWhile isDigit, ?_⟩
    simp only [readInt, intText, hsk, hsp, key, Json.natText_ne_nil, Json.digitsVal_natText,
      if_false, if_true]
    exact if_pos h

theorem exInt_value {n : Int} (h : intMin ≤ n ∧ n ≤ intMax) {t : Str}
    (ht : ∀ c ∈ t.head?, isDigit c = false) (old : Option Int) :
    (exInt (some (intText n ++ t)) old).2 = some n := by
  cases t with
  | nil =>
    obtain ⟨u, hu⟩ := readInt_intText_end h
    simp [exInt, hu]
  | cons c t => rw [Scheme.exInt_text h (ht c (by simp))]

theorem intText_no_newline (n : Int) : ∀ c ∈ intText n, c ≠ '\n' := by
  intro c hc
  cases n with
  | ofNat n =>
    have := Json.natText_digits n c hc
    rintro rfl; revert this; decide
  | negSucc n =>
    rcases List.mem_cons.1 hc with rfl | hc
    · decide
    · have := Json.natText_digits _ c hc
      rintro rfl; revert this; decide

theorem not_comment_of_head {c : Char} {t : Str} (h : c ≠ '#') : isComment (c :: t) = false := by
  simp [isComment, h]

theorem exDbl_numeral {f : DblFmt ℝ} {w : Str} {x : ℝ} (hw : Numeral f w x) {c : Char}
    (hc : isSpace c = true) (t : Str) (old : Option ℝ) :
    exDbl f (some (w ++ c :: t)) old = (some (c :: t), some x) := by
  obtain ⟨⟨d, u, e, hd⟩, -, hr⟩ := hw
  have hsk : skipBlank (w ++ c :: t) = w ++ c :: t := by
    rw [e, List.cons_append]; exact skipBlank_cons (numStart_not_space hd) _
  simp only [exDbl, DblFmt.get, hsk, hr c t hc]

theorem data_not_comment {f : DblFmt ℝ} {w : Str} {x : ℝ} (hw : Numeral f w x) {lead : Str}
    (h : Blanks lead) (t : Str) : isComment (lead ++ (w ++ t)) = false := by
  cases lead with
  | nil =>
    obtain ⟨⟨d, u, e, hd⟩, -, -⟩ := hw
    rw [e]
    exact not_comment_of_head (by rintro rfl; revert hd; decide)
  | cons c l =>
    exact not_comment_of_head (by
      have := (h c (by simp)).1
      rintro rfl; revert this; decide)

/-- What the loader makes of the listed matrix elements. -/
noncomputable def checked : Option ℝ → List Entry → Res (List MatEl)
  | _, [] => .ok []
  | old, e :: l =>
    if ∃ o ∈ old, o ≥ e.energy then .error .marleyError
    else match checked (some e.energy) l with
      | .error x => .error x
      | .ok ms => .ok (⟨e.energy, e.strength, e.type, none⟩ :: ms)

theorem readElements_lines {f : DblFmt ℝ} {last : Str}
    (hlast : ∀ c ∈ last, c ≠ '\n') : ∀ (ls : List FileLine), (∀ l ∈ ls, l.Ok f) →
    ∀ (n : Nat) (old : Option ℝ), ls.length < n →
    readElements f n old ⟨linesText ls ++ last, true⟩ = checked old (listed ls) := by
  intro ls
  induction ls with
  | nil =>
    intro _ n old hn
    obtain ⟨n, rfl⟩ : ∃ k, n = k + 1 := ⟨n - 1, by simp at hn; omega⟩
    simp [readElements, linesText, getNextLine_last hlast, listed, checked]
  | cons l ls ih =>
    intro hok n old hn
    obtain ⟨n, rfl⟩ : ∃ k, n = k + 1 := ⟨n - 1, by simp at hn; omega⟩
    have ih' := ih (fun x hx => hok x (by simp [hx]))
    have hl := hok l (by simp)
    cases l with
    | comment t =>
      have e : linesText (.comment t :: ls) ++ last =
          '#' :: t ++ '\n' :: (linesText ls ++ last) := by simp [linesText, FileLine.text]
      have := ih' (n + 1) old (by simp at hn; omega)
      rw [listed, ← this, e]
      simp only [readElements, getNextLine_comment hl]
    | data lead we g1 ws g2 tail en =>
      obtain ⟨b0, b1, n1, b2, n2, ht, hd, p1, p2, i1, i2⟩ := hl
      have hnl : ∀ c ∈ (FileLine.data lead we g1 ws g2 tail en).text, c ≠ '\n' := by
        intro c hc
        simp only [FileLine.text, List.mem_append] at hc
        rcases hc with h | h | h | h | h | h | h
        · exact (b0 c h).2
        · exact p1.2.1 c h
        · exact (b1 c h).2
        · exact p2.2.1 c h
        · exact (b2 c h).2
        · exact intText_no_newline _ c h
        · exact ht c h
      have e : linesText (.data lead we g1 ws g2 tail en :: ls) ++ last =
          (FileLine.data lead we g1 ws g2 tail en).text ++ '\n' :: (linesText ls ++ last) := by
        simp [linesText]
      have hg := getNextLine_line hnl (data_not_comment p1 b0 _) (linesText ls ++ last)
      obtain ⟨c1, g1', rfl⟩ := List.exists_cons_of_ne_nil n1
      obtain ⟨c2, g2', rfl⟩ := List.exists_cons_of_ne_nil n2
      have x1 : exDbl f (some ((FileLine.data lead we (c1 :: g1') ws (c2 :: g2') tail en).text)) none =
          (some (c1 :: (g1' ++ (ws ++ (c2 :: g2' ++ (intText en.type ++ tail))))),
            some en.energy) := by
        rw [FileLine.text, exDbl_blanks b0]
        exact exDbl_numeral p1 (b1 c1 (by simp)).1 _ _
      have x2 : exDbl f (some (c1 :: (g1' ++ (ws ++
          (c2 :: g2' ++ (intText en.type ++ tail)))))) none =
          (some (c2 :: (g2' ++ (intText en.type ++ tail))), some en.strength) := by
        rw [← List.cons_append, exDbl_blanks b1]
        exact exDbl_numeral p2 (b2 c2 (by simp)).1 _ _
      have x3 : (exInt (some (c2 :: (g2' ++ (intText en.type ++ tail)))) none).2 = some en.type := by
        rw [← List.cons_append, exInt_blanks b2]
        exact exInt_value ⟨i1, i2⟩ hd _
      rw [e]
      simp only [readElements, hg, if_true, x1, x2, x3, listed, checked]
      split_ifs with ho
      · rfl
      · rw [ih' n (some en.energy) (by simp at hn; omega)]
        cases checked (some en.energy) (listed ls) <;> rfl

theorem checked_ok : ∀ {l : List Entry} {old : Option ℝ} {ms : List MatEl}, checked old l = .ok ms →
    ms.map entryOf = l ∧ (∀ m ∈ ms, m.level = none) := by
  intro l
  induction l with
  | nil => intro old ms h; simp only [checked, Except.ok.injEq] at h; simp [← h]
  | cons e l ih =>
    intro old ms h
    simp only [checked] at h
    split_ifs at h with ho
    cases hc : checked (some e.energy) l with
    | error x => rw [hc] at h; cases h
    | ok ms' =>
      rw [hc] at h
      simp only [Except.ok.injEq] at h
      obtain ⟨a, b⟩ := ih hc
      subst h
      refine ⟨by simp [entryOf, a], ?_⟩
      intro m hm
      rcases List.mem_cons.1 hm with rfl | hm
      · rfl
      · exact b m hm

theorem checked_iff : ∀ (l : List Entry) (old : Option ℝ),
    (∃ ms, checked old l = .ok ms) ∧ (old.toList ++ l.map (·.energy)).Pairwise (· < ·) ∨
    checked old l = .error .marleyError ∧ ¬ (old.toList ++ l.map (·.energy)).Pairwise (· < ·) := by
  intro l
  induction l with
  | nil => intro old; left; cases old <;> simp [checked]
  | cons e l ih =>
    intro old
    simp only [checked]
    split_ifs with ho
    · right
      obtain ⟨o, h1, h2⟩ := ho
      simp only [Option.mem_def] at h1; subst h1
      refine ⟨rfl, fun hp => ?_⟩
      simp only [Option.toList_some, List.map_cons, List.cons_append, List.nil_append,
        List.pairwise_cons] at hp
      exact absurd (hp.1 e.energy (by simp)) (not_lt.2 h2)
    · have step : (old.toList ++ (e :: l).map (·.energy)).Pairwise (· < ·) ↔
          ((some e.energy).toList ++ l.map (·.energy)).Pairwise (· < ·) := by
        cases old with
        | none => simp
        | some o =>
          have hlt : o < e.energy := by
            by_contra hc; exact ho ⟨o, rfl, not_lt.1 hc⟩
          simp only [Option.toList_some, List.map_cons, List.cons_append, List.nil_append,
            List.pairwise_cons]
          constructor
          · exact fun h => h.2
          · intro h
            refine ⟨?_, h⟩
            intro x hx
            rcases List.mem_cons.1 hx with rfl | hx
            · exact hlt
            · exact hlt.trans (h.1 x hx)
      rcases ih (some e.energy) with ⟨⟨ms, hm⟩, hp⟩ | ⟨hm, hp⟩
      · left
        rw [hm]
        exact ⟨⟨_, rfl⟩, step.2 hp⟩
      · right
        rw [hm]
        exact ⟨rfl, fun h => hp (step.1 h)⟩

/-- Strict order of whatever the loop reads. -/
theorem readElements_increasing {f : DblFmt ℝ} : ∀ (n : Nat) (old : Option ℝ) (g : FileIn)
    (ms : List MatEl), readElements f n old g = .ok ms →
    (old.toList ++ ms.map (·.energy)).Pairwise (· < ·) ∧ ∀ m ∈ ms, m.level = none := by
  intro n
  induction n with
  | zero =>
    intro old g ms h
    simp only [readElements, Except.ok.injEq] at h; subst h
    cases old <;> simp
  | succ n ih =>
    intro old g ms h
    simp only [readElements] at h
    split_ifs at h with hg
    · split at h
      · cases h
      · rename_i en he
        split_ifs at h with ho
        split at h
        · rename_i s t hs ht
          cases hr : readElements f n (some en) (getNextLine g).2 with
          | error x => rw [hr] at h; cases h
          | ok ms' =>
            rw [hr] at h
            simp only [Except.ok.injEq] at h
            obtain ⟨a, b⟩ := ih _ _ _ hr
            subst h
            refine ⟨?_, ?_⟩
            · cases old with
              | none => simpa using a
              | some o =>
                have hlt : o < en := by
                  by_contra hc; exact ho ⟨o, rfl, not_lt.1 hc⟩
                simp only [Option.toList_some, List.map_cons, List.cons_append, List.nil_append,
                  List.pairwise_cons] at a ⊢
                refine ⟨?_, a⟩
                intro x hx
                rcases List.mem_cons.1 hx with rfl | hx
                · exact hlt
                · exact hlt.trans (a.1 x hx)
            · intro m hm
              rcases List.mem_cons.1 hm with rfl | hm
              · rfl
              · exact b m hm
        · cases h
    · simp only [Except.ok.injEq] at h; subst h
      cases old <;> simp

theorem closest_unique {s : Scheme.Scheme ℝ} (hs : Scheme.Sorted s) {E : ℝ} {a : Nat} {l : Level ℝ}
    (hc : closestLevel s E = .ok (some a)) (hl : levelAt s a = some l) (ha : Scheme.Addressed s) :
    ClosestIn s E a l := by
  have hn : s.levels ≠ [] := by
    intro h; simp [closestLevel, h] at hc
  obtain ⟨a', l', e1, e2, e3⟩ := C23_closest hs hn E
  rw [hc] at e1
  simp only [Except.ok.injEq, Option.some.injEq] at e1
  subst e1
  rw [Scheme.levelAt_of_mem ha e2] at hl
  simp only [Option.some.injEq] at hl
  subst hl
  exact ⟨e2, fun m hm => (e3 m hm).1⟩

theorem setLoop_ok {warn : Bool} {B D : Int} {s : Scheme.Scheme ℝ} {thr : ℝ} {J : Int} {P : Parity}
    (hs : Scheme.Sorted s) (ha : Scheme.Addressed s) :
    ∀ (ms done ms' : List MatEl), setLoop warn B D s thr J P done ms = .ok ms' →
    done.Pairwise NoShared →
    ∃ new, ms' = done ++ new ∧ List.Forall₂ (Matched s thr) ms new ∧ ms'.Pairwise NoShared := by
  intro ms
  induction ms with
  | nil =>
    intro done ms' h hd
    simp only [setLoop, Except.ok.injEq] at h
    exact ⟨[], by simp [h], .nil, by rw [← h]; exact hd⟩
  | cons m rest ih =>
    intro done ms' h hd
    simp only [setLoop] at h
    split_ifs at h with ht
    · obtain ⟨new, e1, e2, e3⟩ := ih _ _ h (by
        rw [List.pairwise_append]
        refine ⟨hd, by simp, ?_⟩
        intro x _ y hy
        simp only [List.mem_singleton] at hy; subst hy
        intro a _; simp)
      refine ⟨{ m with level := none } :: new, by simp [e1], .cons ⟨rfl, fun _ => rfl, ?_⟩ e2, e3⟩
      intro hle; exact absurd ht (not_lt.2 hle)
    · cases hc : closestLevel s m.energy with
      | error e => rw [hc] at h; cases h
      | ok o =>
        cases o with
        | none => rw [hc] at h; cases h
        | some a =>
          rw [hc] at h; dsimp only at h
          cases hl : levelAt s a with
          | none => rw [hl] at h; cases h
          | some l =>
            rw [hl] at h; dsimp only at h
            split at h
            · cases h
            · split_ifs at h with hdup
              have hfree : ∀ x ∈ done, x.level.map (·.1) ≠ some a := by
                intro x hx e
                apply hdup
                rw [List.any_eq_true]
                exact ⟨x, by simp [hx], by simp [e]⟩
              obtain ⟨new, e1, e2, e3⟩ := ih _ _ h (by
                rw [List.pairwise_append]
                refine ⟨hd, by simp, ?_⟩
                intro x hx y hy
                simp only [List.mem_singleton] at hy; subst hy
                intro b hb hb'
                simp only [Option.map_some, Option.mem_def, Option.some.injEq] at hb'
                subst hb'
                exact hfree x hx hb)
              refine ⟨{ m with level := some (a, l) } :: new, by simp [e1],
                .cons ⟨rfl, fun hlt => absurd hlt ht, fun _ => ⟨a, l, rfl, ?_⟩⟩ e2, e3⟩
              exact closest_unique hs hc hl ha

theorem setLoop_decides {warn : Bool} {B D : Int} {s : Scheme.Scheme ℝ} {thr : ℝ} {J : Int}
    {P : Parity} (hs : Scheme.Sorted s) (ha : Scheme.Addressed s) (hn : s.levels ≠ [])
    (hw : rulesWarning warn B D = .ok ()) :
    ∀ (ms done : List MatEl), (∀ m ∈ ms, m.level = none) →
    let good := (ms.filter (fun m => decide (m.energy ≤ thr))).Pairwise
        (fun x y => closestLevel s x.energy ≠ closestLevel s y.energy) ∧
      ∀ x ∈ done, ∀ a, x.level.map (·.1) = some a → ∀ y ∈ ms, y.energy ≤ thr →
        closestLevel s y.energy ≠ .ok (some a)
    (∃ ms', setLoop warn B D s thr J P done ms = .ok ms') ∧ good ∨
      setLoop warn B D s thr J P done ms = .error .marleyError ∧ ¬ good := by
  intro ms
  induction ms with
  | nil => intro done _; left; simp [setLoop]
  | cons m rest ih =>
    intro done hlev
    have hrest : ∀ x ∈ rest, x.level = none := fun x hx => hlev x (by simp [hx])
    intro good
    by_cases ht : m.energy > thr
    · have hs' : setLoop warn B D s thr J P done (m :: rest) =
          setLoop warn B D s thr J P (done ++ [{ m with level := none }]) rest := by
        simp only [setLoop, if_pos ht]
      have hiff : good ↔ ((rest.filter (fun m => decide (m.energy ≤ thr))).Pairwise
          (fun x y => closestLevel s x.energy ≠ closestLevel s y.energy) ∧
          ∀ x ∈ done ++ [{ m with level := none }], ∀ a, x.level.map (·.1) = some a →
            ∀ y ∈ rest, y.energy ≤ thr → closestLevel s y.energy ≠ .ok (some a)) := by
        have hf : (m :: rest).filter (fun m => decide (m.energy ≤ thr)) =
            rest.filter (fun m => decide (m.energy ≤ thr)) :=
          List.filter_cons_of_neg (by simpa using ht)
        simp only [good, hf]
        refine and_congr_right fun _ => ⟨fun h x hx a hxa y hy hyt => ?_, fun h x hx a hxa y hy hyt => ?_⟩
        · rcases List.mem_append.1 hx with hx | hx
          · exact h x hx a hxa y (by simp [hy]) hyt
          · simp only [List.mem_singleton] at hx; subst hx; simp at hxa
        · rcases List.mem_cons.1 hy with rfl | hy
          · exact absurd hyt (not_le.2 ht)
          · exact h x (by simp [hx]) a hxa y hy hyt
      rw [hs', hiff]
      exact ih _ hrest
    · obtain ⟨a, l, hc, hmem, -⟩ := C23_closest hs hn m.energy
      have hl := Scheme.levelAt_of_mem ha hmem
      have hwarn : (if rulesOk m.type J P l.twoJ l.parity then .ok ()
          else rulesWarning warn B D : Res Unit) = .ok () := by split_ifs <;> first | rfl | exact hw
      have hf : (m :: rest).filter (fun m => decide (m.energy ≤ thr)) =
          m :: rest.filter (fun m => decide (m.energy ≤ thr)) :=
        List.filter_cons_of_pos (by simpa using ht)
      by_cases hdup : (done ++ m :: rest).any (fun x => x.level.map (·.1) == some a) = true
      · right
        refine ⟨by simp only [setLoop, if_neg ht, hc, hl, hwarn, hdup, if_true], ?_⟩
        rintro ⟨-, h⟩
        rw [List.any_eq_true] at hdup
        obtain ⟨x, hx, hxa⟩ := hdup
        simp only [beq_iff_eq] at hxa
        rcases List.mem_append.1 hx with hx | hx
        · exact h x hx a hxa m (by simp) (not_lt.1 ht) hc
        · rw [hlev x hx] at hxa; simp at hxa
      · have hs' : setLoop warn B D s thr J P done (m :: rest) =
            setLoop warn B D s thr J P (done ++ [{ m with level := some (a, l) }]) rest := by
          simp only [setLoop, if_neg ht, hc, hl, hwarn, hdup]
          rfl
        have hiff : good ↔ ((rest.filter (fun m => decide (m.energy ≤ thr))).Pairwise
            (fun x y => closestLevel s x.energy ≠ closestLevel s y.energy) ∧
            ∀ x ∈ done ++ [{ m with level := some (a, l) }], ∀ b, x.level.map (·.1) = some b →
              ∀ y ∈ rest, y.energy ≤ thr → closestLevel s y.energy ≠ .ok (some b)) := by
          simp only [good, hf, List.pairwise_cons]
          constructor
          · rintro ⟨⟨h1, h2⟩, h3⟩
            refine ⟨h2, fun x hx b hxb y hy hyt => ?_⟩
            rcases List.mem_append.1 hx with hx | hx
            · exact h3 x hx b hxb y (by simp [hy]) hyt
            · simp only [List.mem_singleton] at hx; subst hx
              simp only [Option.map_some, Option.some.injEq] at hxb; subst hxb
              rw [← hc]
              exact fun e => h1 y (List.mem_filter.2 ⟨hy, by simpa using hyt⟩) e.symm
          · rintro ⟨h2, h3⟩
            refine ⟨⟨fun y hy => ?_, h2⟩, fun x hx b hxb y hy hyt => ?_⟩
            · obtain ⟨hy1, hy2⟩ := List.mem_filter.1 hy
              rw [hc]
              exact fun e => h3 { m with level := some (a, l) } (by simp) a (by simp) y hy1
                (by simpa using hy2) e.symm
            · rcases List.mem_cons.1 hy with rfl | hy
              · rw [hc]
                intro e
                simp only [Except.ok.injEq, Option.some.injEq] at e; subst e
                apply hdup
                rw [List.any_eq_true]
                exact ⟨x, by simp [hx], by simp [hxb]⟩
              · exact h3 x (by simp [hx]) b hxb y hy hyt
        rw [hs', hiff]
        exact ih _ hrest

theorem setLoop_entries {warn : Bool} {B D : Int} {s : Scheme.Scheme ℝ} {thr : ℝ} {J : Int}
    {P : Parity} : ∀ (ms done ms' : List MatEl), setLoop warn B D s thr J P done ms = .ok ms' →
    ms'.map entryOf = done.map entryOf ++ ms.map entryOf := by
  intro ms
  induction ms with
  | nil => intro done ms' h; simp only [setLoop, Except.ok.injEq] at h; simp [h]
  | cons m rest ih =>
    intro done ms' h
    simp only [setLoop] at h
    split_ifs at h with ht
    · rw [ih _ _ h]; simp [entryOf]
    · repeat' split at h
      all_goals first
        | (cases h; done)
        | (rw [ih _ _ h]; simp [entryOf])

theorem setLevelPtrs_entries {c : Ctx} {B D : Int} {ms ms' : List MatEl}
    (h : setLevelPtrs c B D ms = .ok ms') : ms'.map entryOf = ms.map entryOf := by
  simp only [setLevelPtrs] at h
  repeat' split at h
  all_goals first
    | (cases h; done)
    | (simp only [Except.ok.injEq] at h; rw [h]; done)
    | (simpa using setLoop_entries _ _ _ h)

/-- What the loader does after the matrix elements were read. -/
noncomputable def finish (c : Ctx) (p : Proc) (b : Int) (ms : List MatEl) : Res (List Reaction) :=
  match residue p b with
  | .error e => .error e
  | .ok (d, q) =>
    match setLevelPtrs c b d ms with
    | .error e => .error e
    | .ok ms =>
      match projectiles p with
      | .error e => .error e
      | .ok l => nuclearReactions c.table p b d q ms l

theorem linesText_length : ∀ ls : List FileLine, ls.length ≤ (linesText ls).length := by
  intro ls
  induction ls with
  | nil => simp
  | cons l ls ih => simp only [linesText, List.length_append, List.length_cons]; omega

theorem load_file {c : Ctx} {cs : List Str} (hcs : ∀ t ∈ cs, ∀ x ∈ t, x ≠ '\n' ∧ x ≠ '\r')
    {code b : Int} (hcode : intMin ≤ code ∧ code ≤ intMax) (hb : intMin ≤ b ∧ b ≤ intMax)
    (hne : Proc.ofInt code ≠ .nuElectronElastic) {ls : List FileLine} (hls : ∀ l ∈ ls, l.Ok c.fmt)
    {last : Str} (hlast : ∀ x ∈ last, x ≠ '\n') :
    load c (some (nuclearFile cs code b ls ++ last)) =
      match checked none (listed ls) with
      | .error e => .error e
      | .ok ms => finish c (Proc.ofInt code) b ms := by
  have hnl : ∀ x ∈ intText code ++ ' ' :: intText b, x ≠ '\n' := by
    intro x hx
    rcases List.mem_append.1 hx with hx | hx
    · exact intText_no_newline _ x hx
    · rcases List.mem_cons.1 hx with rfl | hx
      · decide
      · exact intText_no_newline _ x hx
  have hcm : isComment (intText code ++ ' ' :: intText b) = false := by
    cases hi : intText code with
    | nil => rfl
    | cons x t =>
      refine not_comment_of_head ?_
      rintro rfl
      cases code with
      | ofNat n =>
        have := Json.natText_digits n '#' (by
          have : intText (Int.ofNat n) = Json.natText n := rfl
          rw [← this, hi]; simp)
        revert this; decide
      | negSucc n => simp [intText] at hi
  have e : nuclearFile cs code b ls ++ last = linesText (cs.map .comment) ++
      ((intText code ++ ' ' :: intText b) ++ '\n' :: (linesText ls ++ last)) := by
    simp [nuclearFile]
  have hg : getNextLine ⟨nuclearFile cs code b ls ++ last, true⟩ =
      (intText code ++ ' ' :: intText b, ⟨linesText ls ++ last, true⟩) := by
    rw [e, getNextLine_comments hcs, getNextLine_line hnl hcm]
  have hx1 : exInt (some (intText code ++ ' ' :: intText b)) none =
      (some (' ' :: intText b), some code) := Scheme.exInt_text hcode (by decide) _ _
  have hx2 : (exInt (some (' ' :: intText b)) none).2 = some b := by
    rw [Scheme.exInt_space (by decide)]
    simpa using exInt_value (t := []) hb (by simp) none
  have hlen : ls.length < (nuclearFile cs code b ls ++ last).length + 2 := by
    have := linesText_length ls
    simp only [nuclearFile, List.length_append, List.length_cons]; omega
  have hr := readElements_lines (f := c.fmt) hlast ls hls _ none hlen
  simp only [load, hg, hx1, if_neg hne, hr]
  cases checked none (listed ls) with
  | error x => rfl
  | ok ms => simp only [hx2]; rfl

/-- Reads digits only. -/
noncomputable def demoFmt : DblFmt ℝ where
  print _ := ['0']
  read s := if s.takeWhile isDigit = [] then none
    else some ((Json.digitsVal (s.takeWhile isDigit) : ℝ), s.dropWhile isDigit)

/-- Every particle weighs 5 MeV; atoms weigh the same. -/
noncomputable def demoTable : Mass.Table :=
  ⟨fun _ => some (5 / Mass.microAmu), fun _ => some 1⟩

noncomputable def demoLevels : Scheme.Scheme ℝ :=
  ⟨19, 40, [(0, ⟨0, 8, ⟨false⟩, []⟩), (1, ⟨2, 0, ⟨true⟩, []⟩)], 2⟩

noncomputable def demoCtx : Ctx :=
  ⟨fun d => if d = 1000190400 then .ok (some demoLevels) else .ok none, demoTable, [2112],
    fun _ => .ok (0, ⟨true⟩), demoFmt, true⟩

noncomputable def demoLine (c : Char) (x : ℝ) : FileLine :=
  .data [' '] [c] [' '] ['1'] [' '] [] ⟨x, 1, 0⟩

theorem demo_numeral {c : Char} (h : isDigit c = true) :
    Numeral demoFmt [c] (Json.digitsVal [c] : ℝ) := by
  refine ⟨⟨c, [], rfl, by simp [numStart, h]⟩, ?_, ?_⟩
  · intro d hd
    simp only [List.mem_singleton] at hd; subst hd
    rintro rfl; revert h; decide
  · intro d t hd
    have hd' : isDigit d = false := by
      by_contra hx
      have := isDigit_not_space (by simpa using hx : isDigit d = true)
      rw [this] at hd; cases hd
    have h1 : ([c] ++ d :: t).takeWhile isDigit = [c] :=
      Json.takeWhile_append_stop (by simpa using h) hd' t
    have h2 : ([c] ++ d :: t).dropWhile isDigit = d :: t :=
      Json.dropWhile_append_stop (by simpa using h) hd' t
    simp only [demoFmt, h1, h2]
    simp

theorem demoLine_ok {c : Char} (h : isDigit c = true) :
    (demoLine c (Json.digitsVal [c] : ℝ)).Ok demoFmt := by
  have hb : Blanks [' '] := by
    intro d hd; simp only [List.mem_singleton] at hd; subst hd; decide
  have h1 : (1 : ℝ) = (Json.digitsVal ['1'] : ℝ) := by
    have : Json.digitsVal ['1'] = 1 := by decide
    rw [this]; simp
  refine ⟨hb, hb, by simp, hb, by simp, by simp, by simp, demo_numeral h, ?_,
    (by decide : intMin ≤ 0), (by decide : (0 : Int) ≤ intMax)⟩
  show Numeral demoFmt ['1'] 1
  rw [h1]; exact demo_numeral (by decide)

/-- Lines for levels at 0, 2 and 9 MeV. -/
noncomputable def demoLines : List FileLine :=
  [.comment [' ', 'x'], demoLine '0' (Json.digitsVal ['0'] : ℝ),
    demoLine '2' (Json.digitsVal ['2'] : ℝ), demoLine '9' (Json.digitsVal ['9'] : ℝ)]

theorem demoLines_ok : ∀ l ∈ demoLines, l.Ok demoFmt := by
  intro l hl
  simp only [demoLines, List.mem_cons, List.not_mem_nil, or_false] at hl
  rcases hl with rfl | rfl | rfl | rfl
  · intro c hc
    simp only [List.mem_cons, List.not_mem_nil, or_false] at hc
    rcases hc with rfl | rfl <;> decide
  all_goals exact demoLine_ok (by decide)

theorem demo_listed : listed demoLines = [⟨0, 1, 0⟩, ⟨2, 1, 0⟩, ⟨9, 1, 0⟩] := by
  have h0 : Json.digitsVal ['0'] = 0 := by decide
  have h2 : Json.digitsVal ['2'] = 2 := by decide
  have h9 : Json.digitsVal ['9'] = 9 := by decide
  simp [demoLines, listed, demoLine, h0, h2, h9]

theorem five_lt_dblMax : (5 : ℝ) < Mass.dblMax := by
  have h1 : (2 : ℝ) ^ (-52 : ℤ) ≤ 1 := zpow_le_one_of_nonpos₀ (by norm_num) (by norm_num)
  have h2 : (8 : ℝ) ≤ 2 ^ 1023 := by
    have : (2 : ℝ) ^ 3 ≤ 2 ^ 1023 := pow_le_pow_right₀ (by norm_num) (by norm_num)
    calc (8 : ℝ) = 2 ^ 3 := by norm_num
      _ ≤ 2 ^ 1023 := this
  unfold Mass.dblMax
  generalize (2 : ℝ) ^ (-52 : ℤ) = x at *
  generalize (2 : ℝ) ^ 1023 = y at *
  nlinarith

theorem demo_threshold : Mass.unboundThresholdPid demoTable [2112] 1000190400 = .ok 5 := by
  have hz : Pdg.getZ 2112 = 0 := by decide
  have hmu : Mass.microAmu ≠ 0 := by unfold Mass.microAmu; norm_num
  have hsep : Mass.separationEnergy demoTable (Pdg.getZ 1000190400) (Pdg.getA 1000190400) 2112 true =
      .ok (some 5) := by
    simp only [Mass.separationEnergy, Mass.at', demoTable, Mass.lookup, hz]
    simp
    field_simp
  simp only [Mass.unboundThresholdPid, Mass.unboundThreshold, Mass.thresholdLoop, hsep]
  rw [if_pos five_lt_dblMax]

theorem demo_sorted : demoLevels.levels.Pairwise (fun a b => a.2.energy ≤ b.2.energy) := by
  simp [demoLevels]

theorem demo_addressed : Scheme.Addressed demoLevels := by
  constructor <;> simp [demoLevels]

theorem demo_warning : rulesWarning true 1000180400 1000190400 = .ok () := by
  decide +kernel

theorem demo_closest0 : closestLevel demoLevels 0 = .ok (some 0) := by
  obtain ⟨a, l, h1, h2, h3⟩ := C23_closest demo_sorted (by simp [demoLevels]) 0
  simp only [demoLevels, List.mem_cons, List.not_mem_nil, or_false, Prod.mk.injEq] at h2
  rcases h2 with ⟨rfl, rfl⟩ | ⟨rfl, rfl⟩
  · exact h1
  · have := (h3 (0, ⟨0, 8, ⟨false⟩, []⟩) (by simp [demoLevels])).1
    norm_num at this

theorem demo_closest2 : closestLevel demoLevels 2 = .ok (some 1) := by
  obtain ⟨a, l, h1, h2, h3⟩ := C23_closest demo_sorted (by simp [demoLevels]) 2
  simp only [demoLevels, List.mem_cons, List.not_mem_nil, or_false, Prod.mk.injEq] at h2
  rcases h2 with ⟨rfl, rfl⟩ | ⟨rfl, rfl⟩
  · have := (h3 (1, ⟨2, 0, ⟨true⟩, []⟩) (by simp [demoLevels])).1
    norm_num at this
  · exact h1

/-- The three matrix elements of the demonstration. -/
noncomputable def demoElements : List MatEl := [⟨0, 1, 0, none⟩, ⟨2, 1, 0, none⟩, ⟨9, 1, 0, none⟩]

theorem demo_distinct : (demoElements.filter (fun m => decide (m.energy ≤ 5))).Pairwise
    (fun x y => closestLevel demoLevels x.energy ≠ closestLevel demoLevels y.energy) := by
  have : demoElements.filter (fun m => decide (m.energy ≤ 5)) =
      [⟨0, 1, 0, none⟩, ⟨2, 1, 0, none⟩] := by
    simp only [demoElements, List.filter]
    norm_num
  rw [this]
  simp [demo_closest0, demo_closest2]

/-- Every constructor call succeeds with the demonstration masses if both elements
have symbols. -/
theorem demo_make {p : Proc} {a b cc d q : Int} (ms : List MatEl) {x y : Str}
    (ha : a ≠ -2147483648) (hc : cc ≠ -2147483648) (hb : b > 1000000000) (hd : d ≠ -2147483648)
    (hx : Utils.elementSymbol ((b.tmod 10000000).tdiv 10000) = .ok x)
    (hy : Utils.elementSymbol ((d.tmod 10000000).tdiv 10000) = .ok y) :
    ∃ r, makeNuclear demoTable p a b cc d q ms = .ok r ∧ r.Ai = (b.tmod 10000).tdiv 10 ∧
      r.Af = (d.tmod 10000).tdiv 10 ∧ r.pdgA = a := by
  by_cases hd' : d > 1000000000
  · simp [makeNuclear, Mass.particleMass, demoTable, Mass.atomicMassPid, Mass.lookupPid, Mass.toMeV,
      Mass.ELECTRON, ha, hc, hb, hd', hx, hy]
  · simp [makeNuclear, Mass.particleMass, demoTable, Mass.atomicMassPid, Mass.lookupPid, Mass.toMeV,
      ha, hc, hb, hd, hd', hx, hy, Except.map]

theorem symbol18 : Utils.elementSymbol (((1000180400 : Int).tmod 10000000).tdiv 10000) =
    .ok ['A', 'r'] := by decide +kernel
theorem symbol19 : Utils.elementSymbol (((1000190400 : Int).tmod 10000000).tdiv 10000) =
    .ok ['K'] := by decide +kernel

end Marley.Props
