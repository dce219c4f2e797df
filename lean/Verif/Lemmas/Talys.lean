import Verif.Spec.Talys
import Verif.Lemmas.DecayScheme
import Verif.Props.DecayScheme
import Verif.Props.Utils
import Mathlib.Algebra.Order.Floor.Ring
import Mathlib.Tactic.FieldSimp

/-! Lemmas for C96 and C97. -/

set_option autoImplicit false

namespace Marley.Props
open Marley Marley.Talys Marley.Scheme
open Marley.Json (Str natText intText isDigit isSpace)

variable {K : Type}

/-! ## Lemmas: text -/

theorem pieces_ne (s : Str) : pieces s ≠ [] := by
  cases s with
  | nil => simp [pieces]
  | cons c s =>
    unfold pieces
    split_ifs
    · simp
    · split <;> simp

theorem pieces_line {l : Str} (h : '\n' ∉ l) (s : Str) : pieces (l ++ '\n' :: s) = l :: pieces s := by
  induction l with
  | nil => simp [pieces]
  | cons c l ih =>
    have hc : c ≠ '\n' := fun e => h (by simp [e])
    have := ih (fun hm => h (by simp [hm]))
    rw [List.cons_append, pieces, if_neg hc, this]

theorem pieces_file {lines : List Str} (h : ∀ l ∈ lines, '\n' ∉ l) (s : Str) :
    pieces (fileText lines ++ s) = lines ++ pieces s := by
  induction lines with
  | nil => rfl
  | cons l t ih =>
    have e : fileText (l :: t) ++ s = l ++ '\n' :: (fileText t ++ s) := by simp [fileText]
    rw [e, pieces_line (h l (by simp)), ih (fun x hx => h x (by simp [hx])), List.cons_append]

theorem exInt_gap {b : Str} (h : IsGap b) (t : Str) (old : Option Int) :
    exInt (some (b ++ t)) old = exInt (some t) old := by
  induction b with
  | nil => rfl
  | cons c b ih =>
    rw [List.cons_append, exInt_space (by rw [h c (by simp)]; decide)]
    exact ih (fun x hx => h x (by simp [hx]))

theorem exDbl_gap [Zero K] {f : DblFmt K} {b : Str} (h : IsGap b) (t : Str) (old : Option K) :
    exDbl f (some (b ++ t)) old = exDbl f (some t) old := by
  induction b with
  | nil => rfl
  | cons c b ih =>
    rw [List.cons_append, exDbl_space (by rw [h c (by simp)]; decide)]
    exact ih (fun x hx => h x (by simp [hx]))

theorem exDbl_text [Zero K] {f : DblFmt K} {t : Str} {x : K} (h : DblText f t x) (rest : Str)
    (old : Option K) : exDbl f (some (t ++ ' ' :: rest)) old = (some (' ' :: rest), some x) := by
  obtain ⟨⟨c, u, e, hc⟩, h⟩ := h
  have : f.get (t ++ ' ' :: rest) = some (x, ' ' :: rest) := by
    unfold DblFmt.get
    rw [← h ' ' rest (by decide), e, List.cons_append, skipBlank_cons hc]
  simp only [exDbl, this]

theorem readInt_end {n : Int} (h : intMin ≤ n ∧ n ≤ intMax) : readInt (intText n) = some (n, []) := by
  have key := readInt_intText h (c := ' ') (by decide) []
  have hne : intText n ≠ [] := by
    cases n with
    | ofNat n => exact Json.natText_ne_nil n
    | negSucc n => simp [intText]
  have hsk : ∀ u, skipBlank (intText n ++ u) = intText n ++ u := by
    intro u
    cases e : intText n with
    | nil => exact absurd e hne
    | cons c t =>
      rw [List.cons_append]
      refine skipBlank_cons ?_ _
      rcases intText_chars n c (by rw [e]; simp) with hc | hc
      · exact isDigit_not_space hc
      · subst hc; decide
  have hsp : ∃ b d, (∀ c ∈ d, isDigit c = true) ∧ ∀ u, splitSign2 (intText n ++ u) = (b, d ++ u) := by
    cases n with
    | ofNat n =>
      refine ⟨false, natText n, Json.natText_digits n, fun u => ?_⟩
      obtain ⟨d, v, e, hd⟩ := Json.natText_head_ne n
      simp only [intText]
      rw [e, List.cons_append]
      simp [splitSign2, Json.isDigit_ne_dash hd, digit_ne_plus hd]
    | negSucc n =>
      exact ⟨true, natText (n + 1), Json.natText_digits _, fun u => by simp [intText, splitSign2]⟩
  obtain ⟨b, d, hd, hsp⟩ := hsp
  have h1 := hsk []
  have h2 := hsp []
  rw [List.append_nil] at h1 h2
  rw [List.append_nil] at h2
  simp only [readInt, hsk, hsp] at key
  rw [Json.takeWhile_append_stop hd (by decide)] at key
  simp only [readInt, h1, h2]
  have h3 : d.takeWhile isDigit = d := Json.takeWhile_all hd
  have h4 : d.dropWhile isDigit = [] := by
    have := List.takeWhile_append_dropWhile (p := isDigit) (l := d)
    rw [h3] at this
    simpa using this
  rw [h3, h4]
  split_ifs at key ⊢ <;> simp_all

theorem exInt_ends {n : Int} (h : intMin ≤ n ∧ n ≤ intMax) {tail : Str} (ht : Ends tail)
    (old : Option Int) : exInt (some (intText n ++ tail)) old = (some tail, some n) := by
  rcases ht with rfl | ⟨u, rfl⟩
  · rw [List.append_nil]
    simp only [exInt, readInt_end h]
  · exact exInt_text h (by decide) u old

theorem nat_fits {n : Nat} (h : (n : Int) ≤ intMax) : intMin ≤ (n : Int) ∧ (n : Int) ≤ intMax :=
  ⟨by unfold intMin; omega, h⟩

theorem parity_fits (p : Parity) : intMin ≤ p.toInt ∧ p.toInt ≤ intMax := by
  obtain ⟨b⟩ := p; cases b <;> decide

theorem parity_back (p : Parity) : Parity.ofInt p.toInt = .ok p := by
  obtain ⟨b⟩ := p; cases b <;> rfl

theorem levelFields_record [Field K] {f : DblFmt K} {i : Nat} {l : TLevel K} {line : Str}
    (h : LevelRecord f i l line) (hi : (i : Int) ≤ intMax) (hl : Fits l) :
    levelFields f line = some (l.energy, (l.twoJ : K) / 2, l.parity.toInt, (l.gammas.length : Int)) := by
  obtain ⟨-, b0, b1, b2, b3, b4, tE, tJ, tail, g0, g1, g2, g3, g4, ht, hE, hJ, rfl⟩ := h
  unfold levelFields
  rw [natText_intText i, natText_intText l.gammas.length]
  simp only [exInt_gap g0, exInt_text (nat_fits hi) (show isDigit ' ' = false by decide),
    exDbl_space (show isSpace ' ' = true by decide), exDbl_gap g1, exDbl_gap g2, exDbl_text hE,
    exDbl_text hJ, exInt_space (show isSpace ' ' = true by decide), exInt_gap g3, exInt_gap g4,
    exInt_text (parity_fits l.parity) (show isDigit ' ' = false by decide),
    exInt_ends (nat_fits hl.2.2.1) ht]

theorem gammaFields_record [Zero K] {f : DblFmt K} {g : TGamma K} {line : Str}
    (h : GammaRecord f g line) (hg : (g.final : Int) ≤ intMax) :
    gammaFields f line = some ((g.final : Int), g.ratio) := by
  obtain ⟨-, b0, b1, tB, tail, g0, g1, hB, rfl⟩ := h
  unfold gammaFields
  rw [natText_intText g.final]
  simp only [exInt_gap g0, exInt_text (nat_fits hg) (show isDigit ' ' = false by decide),
    exDbl_space (show isSpace ' ' = true by decide), exDbl_gap g1, exDbl_text hB]

theorem twoJOf_half [Field K] [LinearOrder K] [IsStrictOrderedRing K] [FloorRing K] {n : Int}
    (h : intMin ≤ n ∧ n ≤ intMax) : twoJOf ((n : K) / 2) = .ok n := by
  have e : 2 * ((n : K) / 2) = n := by field_simp
  have hr : roundInt (n : K) = n := by
    unfold roundInt
    split_ifs
    · rw [Int.floor_eq_iff]
      constructor <;> norm_num
    · rw [Int.ceil_eq_iff]
      constructor <;> norm_num
  unfold twoJOf
  rw [e, hr]
  exact if_pos h

/-! ## Lemmas: the loops -/

section loops
variable [Field K] [LinearOrder K]

/-- The level with further gammas. -/
def withGammas (l0 : Level K) (gs : List (Gamma K)) : Level K :=
  ⟨l0.energy, l0.twoJ, l0.parity, l0.gammas ++ gs⟩

/-- The gammas that are stored. -/
def gammasOf (Ls : List (TLevel K)) (next : Nat) (E : K) (gs : List (TGamma K)) : List (Gamma K) :=
  (gs.filter (fun g => decide (0 < g.ratio))).map
    (fun g => ⟨E - energyAt Ls g.final, g.ratio, some (next + g.final)⟩)

/-- The scheme knows the levels up to the `n`-th, at the expected places. -/
def Placed (Ls : List (TLevel K)) (next n : Nat) (s : Scheme K) : Prop :=
  s.levels.length = n + 1 ∧ ∀ k ≤ n, ∃ lv, s.levels[k]? = some (next + k, lv) ∧ lv.energy = energyAt Ls k

theorem gammaLoop_records {f : DblFmt K} {Ls : List (TLevel K)} {next : Nat} {a : Nat}
    {gs : List (TGamma K)} {lines : List Str} (h : List.Forall₂ (GammaRecord f) gs lines) :
    ∀ {P : List (Nat × Level K)} {l0 : Level K} {s : Scheme K} (rest : List Str) (line : Str),
      s.levels = P ++ [(a, l0)] → Addressed s → Placed Ls next P.length s →
      (∀ g ∈ gs, (g.final : Int) ≤ intMax) →
      ((∀ g ∈ gs, 0 < g.ratio → g.final ≤ P.length) →
        ∃ line', gammaLoop f a l0.energy gs.length s (lines ++ rest) line =
          .ok (⟨s.Z, s.A, P ++ [(a, withGammas l0 (gammasOf Ls next l0.energy gs))], s.next⟩,
            rest, line')) ∧
      (¬ (∀ g ∈ gs, 0 < g.ratio → g.final ≤ P.length) →
        gammaLoop f a l0.energy gs.length s (lines ++ rest) line = .error .outOfRange) := by
  induction h with
  | nil =>
    intro P l0 s rest line hs _ _ _
    refine ⟨fun _ => ⟨line, ?_⟩, fun h => absurd (by simp) h⟩
    simp only [List.length_nil, gammaLoop, List.nil_append, gammasOf, withGammas, List.filter_nil,
      List.map_nil, List.append_nil]
    rw [← hs]
  | @cons g ln gs lines hg _ ih =>
    intro P l0 s rest line hs ha hp hfit
    have hfields := gammaFields_record hg (hfit g (by simp))
    have hstep : gammaLoop f a l0.energy (g :: gs).length s (ln :: lines ++ rest) line =
        if g.ratio > 0 then
          match pointerAt s (g.final : Int) with
          | .error e => .error e
          | .ok p =>
            match levelAt s p with
            | none => .error .ub
            | some l => gammaLoop f a l0.energy gs.length
                (addGamma s a ⟨l0.energy - l.energy, g.ratio, some p⟩) (lines ++ rest) ln
        else gammaLoop f a l0.energy gs.length s (lines ++ rest) ln := by
      simp only [List.length_cons, gammaLoop, List.cons_append, getline, hfields]
      rfl
    rw [hstep]
    by_cases hr : 0 < g.ratio
    · rw [if_pos hr]
      by_cases hle : g.final ≤ P.length
      · obtain ⟨lv, h1, h2⟩ := hp.2 g.final hle
        have hptr : pointerAt s (g.final : Int) = .ok (next + g.final) := by
          unfold pointerAt
          rw [if_neg (by omega), Int.toNat_natCast, h1]
        have hlev : levelAt s (next + g.final) = some lv :=
          levelAt_of_mem ha (List.mem_of_getElem? h1)
        rw [hptr]
        dsimp only
        rw [hlev]
        dsimp only
        rw [h2]
        have hPa : ∀ x ∈ P, x.1 ≠ a := by
          have := ha.nodup
          rw [hs, List.map_append, List.nodup_append] at this
          intro x hx
          exact this.2.2 x.1 (List.mem_map.2 ⟨x, hx, rfl⟩) a (by simp)
        have hs' : (addGamma s a ⟨l0.energy - energyAt Ls g.final, g.ratio, some (next + g.final)⟩).levels =
            P ++ [(a, withGammas l0
              [⟨l0.energy - energyAt Ls g.final, g.ratio, some (next + g.final)⟩])] := by
          simp only [addGamma]
          rw [hs, List.map_append]
          congr 1
          · rw [List.map_congr_left (g := id) (fun x hx => by simp [hPa x hx])]
            simp
          · simp [withGammas]
        have hp' : Placed Ls next P.length
            (addGamma s a ⟨l0.energy - energyAt Ls g.final, g.ratio, some (next + g.final)⟩) := by
          refine ⟨by rw [← hp.1]; simp [addGamma], fun k hk => ?_⟩
          obtain ⟨lv, e1, e2⟩ := hp.2 k hk
          simp only [addGamma, List.getElem?_map, e1, Option.map_some]
          split_ifs
          · exact ⟨_, rfl, e2⟩
          · exact ⟨_, rfl, e2⟩
        have := ih (l0 := withGammas l0
              [⟨l0.energy - energyAt Ls g.final, g.ratio, some (next + g.final)⟩]) rest ln hs'
          (addGamma_addressed ha a _) hp' (fun x hx => hfit x (by simp [hx]))
        refine ⟨fun hall => ?_, fun hn => ?_⟩
        · obtain ⟨line', e⟩ := this.1 (fun x hx => hall x (by simp [hx]))
          refine ⟨line', ?_⟩
          refine e.trans ?_
          simp [addGamma, hr, withGammas, gammasOf]
        · refine this.2 (fun hall => hn ?_)
          intro x hx
          rcases List.mem_cons.1 hx with rfl | hx
          · exact fun _ => hle
          · exact hall x hx
      · refine ⟨fun hall => absurd (hall g (by simp) hr) hle, fun _ => ?_⟩
        have hptr : pointerAt s (g.final : Int) = .error .outOfRange := by
          unfold pointerAt
          rw [if_neg (by omega), Int.toNat_natCast, List.getElem?_eq_none (by rw [hp.1]; omega)]
        rw [hptr]
    · rw [if_neg hr]
      have := ih rest ln hs ha hp (fun x hx => hfit x (by simp [hx]))
      refine ⟨fun hall => ?_, fun hn => ?_⟩
      · obtain ⟨line', e⟩ := this.1 (fun x hx => hall x (by simp [hx]))
        refine ⟨line', ?_⟩
        rw [e]
        simp [hr, gammasOf]
      · refine this.2 (fun hall => hn ?_)
        intro x hx
        rcases List.mem_cons.1 hx with rfl | hx
        · exact fun h => absurd h hr
        · exact hall x hx

theorem stored_get (Ls : List (TLevel K)) (next : Nat) (done : List (TLevel K)) (k : Nat) :
    (stored Ls next done)[k]? = (done[k]?).map (fun l => (next + k, levelOf' Ls next l)) := by
  simp [stored, List.getElem?_mapIdx]

theorem stored_length (Ls : List (TLevel K)) (next : Nat) (done : List (TLevel K)) :
    (stored Ls next done).length = done.length := by simp [stored]

theorem stored_snoc (Ls : List (TLevel K)) (next : Nat) (done : List (TLevel K)) (l : TLevel K) :
    stored Ls next (done ++ [l]) = stored Ls next done ++ [(next + done.length, levelOf' Ls next l)] := by
  simp [stored, List.mapIdx_append]

theorem stored_mem {Ls : List (TLevel K)} {next : Nat} {done : List (TLevel K)} {x : Nat × Level K}
    (h : x ∈ stored Ls next done) :
    ∃ k l, k < done.length ∧ done[k]? = some l ∧ x = (next + k, levelOf' Ls next l) := by
  obtain ⟨k, hk⟩ := List.mem_iff_getElem?.1 h
  rw [stored_get, Option.map_eq_some_iff] at hk
  obtain ⟨l, h1, h2⟩ := hk
  exact ⟨k, l, (List.getElem?_eq_some_iff.1 h1).1, h1, h2.symm⟩

theorem stored_sorted {Ls : List (TLevel K)} {next : Nat} {done : List (TLevel K)} {Z A : Int} {n : Nat}
    (h : done.Pairwise (fun a b => a.energy < b.energy)) :
    Sorted (⟨Z, A, stored Ls next done, n⟩ : Scheme K) := by
  simp only [Sorted, List.pairwise_iff_getElem]
  intro i j hi hj hij
  simp only [stored, List.length_mapIdx] at hi hj
  simp only [stored, List.getElem_mapIdx]
  exact (List.pairwise_iff_getElem.1 h i j hi hj hij).le

theorem stored_addressed (Ls : List (TLevel K)) (next : Nat) (done : List (TLevel K)) (Z A : Int) :
    Addressed (⟨Z, A, stored Ls next done, next + done.length⟩ : Scheme K) := by
  constructor
  · simp only [stored]
    rw [List.nodup_iff_injective_getElem]
    rintro ⟨i, hi⟩ ⟨j, hj⟩ h
    simp at h
    simp [h]
  · intro x hx
    obtain ⟨k, l, hk, -, rfl⟩ := stored_mem hx
    dsimp only
    omega

variable [IsStrictOrderedRing K] [FloorRing K]

theorem levelLoop_records {f : DblFmt K} {Ls : List (TLevel K)} {next : Nat} {Z A : Int}
    (hinc : Ls.Pairwise (fun a b => a.energy < b.energy)) (hlen : (Ls.length : Int) ≤ intMax)
    (hfit : ∀ l ∈ Ls, Fits l) (rest : List Str) :
    ∀ (rem done : List (TLevel K)) (lines : List Str) (line : Str), Ls = done ++ rem →
      Records f done.length rem lines →
      ((∀ k l, done.length ≤ k → Ls[k]? = some l → GoodGammas k l) →
        ∃ line', levelLoop f rem.length ⟨Z, A, stored Ls next done, next + done.length⟩ (lines ++ rest) line =
          .ok (⟨Z, A, stored Ls next Ls, next + Ls.length⟩, rest, line')) ∧
      (¬ (∀ k l, done.length ≤ k → Ls[k]? = some l → GoodGammas k l) →
        levelLoop f rem.length ⟨Z, A, stored Ls next done, next + done.length⟩ (lines ++ rest) line =
          .error .outOfRange) := by
  intro rem
  induction rem with
  | nil =>
    intro done lines line hLs hrec
    rw [List.append_nil] at hLs
    subst hLs
    simp only [Records] at hrec
    subst hrec
    refine ⟨fun _ => ⟨line, rfl⟩, fun h => absurd ?_ h⟩
    intro k l hk hl
    rw [List.getElem?_eq_none hk] at hl
    cases hl
  | cons l rem ih =>
    intro done lines line hLs hrec
    obtain ⟨ln, gl, rest', rfl, h1, h2, h3⟩ := hrec
    have hmem : l ∈ Ls := by rw [hLs]; simp
    have hl := hfit l hmem
    have hidx : (done.length : Int) ≤ intMax := by
      have : done.length ≤ Ls.length := by rw [hLs]; simp
      omega
    have hget : Ls[done.length]? = some l := by rw [hLs]; simp
    have hpair : (done ++ [l]).Pairwise (fun a b => a.energy < b.energy) := by
      refine hinc.sublist ?_
      rw [hLs]
      exact List.Sublist.append_left (by simp) _
    have hdone : done.Pairwise (fun a b => a.energy < b.energy) := (List.pairwise_append.1 hpair).1
    have hadd : addLevel (⟨Z, A, stored Ls next done, next + done.length⟩ : Scheme K)
        ⟨l.energy, l.twoJ, l.parity, []⟩ =
        (⟨Z, A, stored Ls next done ++ [(next + done.length, ⟨l.energy, l.twoJ, l.parity, []⟩)],
          next + done.length + 1⟩, next + done.length) := by
      refine addLevel_last (stored_sorted hdone) ?_
      intro m hm
      obtain ⟨k, lk, hk, hlk, rfl⟩ := stored_mem hm
      exact (List.pairwise_append.1 hpair).2.2 lk (List.mem_of_getElem? hlk) l (by simp)
    have hstep : levelLoop f (l :: rem).length ⟨Z, A, stored Ls next done, next + done.length⟩
        (ln :: (gl ++ rest') ++ rest) line =
        match gammaLoop f (next + done.length) l.energy l.gammas.length
          ⟨Z, A, stored Ls next done ++ [(next + done.length, ⟨l.energy, l.twoJ, l.parity, []⟩)],
            next + done.length + 1⟩ (gl ++ (rest' ++ rest)) ln with
        | .error e => .error e
        | .ok (s, ps, line) => levelLoop f rem.length s ps line := by
      have hpar := parity_back l.parity
      simp only [List.length_cons, levelLoop, List.cons_append, getline, levelFields_record h1 hidx hl,
        twoJOf_half ⟨hl.1, hl.2.1⟩, hpar, hadd, Int.toNat_natCast, List.append_assoc]
      rfl
    rw [hstep]
    have hA := stored_addressed Ls next done Z A
    have hgl := gammaLoop_records (Ls := Ls) (next := next) (a := next + done.length) h2
      (P := stored Ls next done) (l0 := ⟨l.energy, l.twoJ, l.parity, []⟩)
      (s := ⟨Z, A, stored Ls next done ++ [(next + done.length, ⟨l.energy, l.twoJ, l.parity, []⟩)],
        next + done.length + 1⟩) (rest' ++ rest) ln rfl
      (by
        have := addLevel_addressed (stored_sorted hdone) hA ⟨l.energy, l.twoJ, l.parity, []⟩
        rw [hadd] at this
        exact this)
      (by
        refine ⟨by simp, fun k hk => ?_⟩
        rw [stored_length] at hk
        dsimp only
        rcases Nat.lt_or_ge k done.length with hlt | hge
        · rw [List.getElem?_append_left (by rw [stored_length]; exact hlt), stored_get]
          refine ⟨levelOf' Ls next done[k], by simp [hlt], ?_⟩
          have : Ls[k]? = some done[k] := by
            rw [hLs, List.getElem?_append_left hlt]; simp [hlt]
          simp [energyAt, this, levelOf']
        · have hk' : k = done.length := by omega
          subst hk'
          rw [List.getElem?_append_right (by rw [stored_length])]
          rw [stored_length, Nat.sub_self]
          exact ⟨_, rfl, by simp [energyAt, hget]⟩)
      hl.2.2.2
    rw [stored_length] at hgl
    have hnext := ih (done ++ [l]) rest' 
    by_cases hg : ∀ g ∈ l.gammas, 0 < g.ratio → g.final ≤ done.length
    · obtain ⟨line', e⟩ := hgl.1 hg
      rw [e]
      dsimp only
      have hst : stored Ls next done ++ [(next + done.length,
          withGammas ⟨l.energy, l.twoJ, l.parity, []⟩ (gammasOf Ls next l.energy l.gammas))] =
          stored Ls next (done ++ [l]) := by
        rw [stored_snoc]; rfl
      rw [hst]
      have hlen' : next + done.length + 1 = next + (done ++ [l]).length := by simp; omega
      rw [hlen']
      have := hnext line' (by rw [hLs]; simp) (by simpa using h3)
      refine ⟨fun hall => this.1 (fun k x hk hx => hall k x (by simp at hk; omega) hx), fun hn => ?_⟩
      refine this.2 (fun hall => hn ?_)
      intro k x hk hx
      rcases Nat.lt_or_ge done.length k with hlt | hge
      · exact hall k x (by simp; omega) hx
      · have hk' : k = done.length := by omega
        subst hk'
        rw [hget] at hx
        injection hx with hx
        subst hx
        exact hg
    · rw [hgl.2 hg]
      exact ⟨fun hall => absurd (hall _ l le_rfl hget) hg, fun _ => rfl⟩

end loops

/-! ## Lemmas: the first line -/

theorem symbols_name : ∀ p ∈ Utils.elementSymbols,
    Utils.lowerLast (if (p.2.map Utils.toUpper).length = 1 then p.2.map Utils.toUpper ++ [' ']
      else p.2.map Utils.toUpper) = p.2 ++ List.replicate (2 - p.2.length) ' ' ∧
    0 ≤ p.1 ∧ p.1 ≤ 116 ∧ p.2 ≠ [] ∧ p.2.length ≤ 2 ∧ ∀ c ∈ p.2, c ≠ '\n' ∧ c ≠ '\r' := by
  decide +kernel

theorem symbol_mem {Z : Int} {sym : Str} (h : Utils.elementSymbol Z = .ok sym) :
    (Z, sym) ∈ Utils.elementSymbols := by
  unfold Utils.elementSymbol at h
  split at h
  · rename_i s hs
    injection h with h
    subst h
    exact mem_of_lookup hs
  · cases h

theorem massText : ∀ A < 1000, Utils.nucIdMass A = List.replicate (3 - (natText A).length) ' ' ++ natText A ∧
    (natText A).length ≤ 3 := by
  decide +kernel

theorem lowerLast_tail (x : Str) {y : Str} (h : y ≠ []) :
    Utils.lowerLast (x ++ y) = x ++ Utils.lowerLast y := by
  induction x with
  | nil => rfl
  | cons c x ih =>
    rw [List.cons_append, List.cons_append, ← ih]
    cases e : x ++ y with
    | nil => simp at e; exact absurd e.2 h
    | cons d z => rfl

theorem talysId_iff {Z A : Nat} (hA : 1 ≤ A ∧ A ≤ 999) (name : Str) :
    talysId Z A = .ok name ↔ IsName Z A name := by
  unfold talysId Utils.nucId IsName
  rw [if_neg (by omega)]
  cases e : Utils.elementSymbol (Z : Int) with
  | error x => simp
  | ok sym =>
    have hm := massText A (by omega)
    have hs := symbols_name _ (symbol_mem e)
    simp only [Except.ok.injEq, exists_eq_left', Int.toNat_natCast]
    rw [lowerLast_tail, hm.1, hs.1]
    · exact eq_comm
    · have := hs.2.2.2.1
      split_ifs <;> simpa using this

theorem name_length {Z A : Nat} (hA : A ≤ 999) {name : Str} (h : IsName Z A name) : name.length = 5 := by
  obtain ⟨sym, h1, rfl⟩ := h
  have hm := massText A (by omega)
  have hs := symbols_name _ (symbol_mem h1)
  have : sym.length ≤ 2 := hs.2.2.2.2.1
  simp
  omega

theorem isNuclideLine_iff {Z A : Nat} {name : Str} (h : IsName Z A name) (line : Str) :
    isNuclideLine name line = true ↔ LooksLike Z A line := by
  unfold isNuclideLine LooksLike
  simp only [Bool.and_eq_true, beq_iff_eq, List.all_eq_true, Bool.or_eq_true]
  constructor
  · rintro ⟨⟨h1, h2⟩, h3⟩
    exact ⟨line.take 18, name, h1, h2, h, by rw [← h3, List.take_append_drop]⟩
  · rintro ⟨fields, name', h1, h2, h3, rfl⟩
    have : name' = name := by
      obtain ⟨sym, e1, rfl⟩ := h
      obtain ⟨sym', e2, rfl⟩ := h3
      rw [e1] at e2
      injection e2 with e2
      rw [e2]
    subst this
    rw [List.take_left' h1, List.drop_left' h1]
    exact ⟨⟨h1, h2⟩, rfl⟩

theorem gap_chars {b : Str} (h : IsGap b) : ∀ c ∈ b, isDigit c = true ∨ c = ' ' := fun c hc => .inr (h c hc)

theorem nat_chars (n : Nat) : ∀ c ∈ natText n, isDigit c = true ∨ c = ' ' :=
  fun c hc => .inl (Json.natText_digits n c hc)

theorem header_looks {Z A n : Nat} {line : Str} (h : Header Z A n line) : LooksLike Z A line := by
  obtain ⟨b0, b1, b2, b3, b4, name, total, g0, g1, g2, g3, g4, -, hn, hlen, rfl⟩ := h
  refine ⟨_, name, hlen, ?_, hn, rfl⟩
  intro c hc
  simp only [List.mem_append, List.mem_cons] at hc
  rcases hc with h | h | rfl | h | h | rfl | h | h | rfl | h | h | h
  · exact gap_chars g0 c h
  · exact nat_chars Z c h
  · exact .inr rfl
  · exact gap_chars g1 c h
  · exact nat_chars A c h
  · exact .inr rfl
  · exact gap_chars g2 c h
  · exact nat_chars total c h
  · exact .inr rfl
  · exact gap_chars g3 c h
  · exact nat_chars n c h
  · exact gap_chars g4 c h

theorem name_fits {Z A : Nat} {name : Str} (h : IsName Z A name) : (Z : Int) ≤ intMax := by
  obtain ⟨sym, h1, -⟩ := h
  have := (symbols_name _ (symbol_mem h1)).2.2.1
  unfold intMax
  dsimp only at this
  omega

theorem gap_blank {b : Str} (h : IsGap b) (t : Str) : ∃ u, b ++ ' ' :: t = ' ' :: u := by
  cases b with
  | nil => exact ⟨t, rfl⟩
  | cons c b => exact ⟨b ++ ' ' :: t, by rw [List.cons_append, h c (by simp)]⟩

theorem excitedLevels_header {Z A n : Nat} {line : Str} (hA : A ≤ 999) (hn : (n : Int) ≤ intMax)
    (h : Header Z A n line) : excitedLevels line = some (n : Int) := by
  obtain ⟨b0, b1, b2, b3, b4, name, total, g0, g1, g2, g3, g4, ht, hN, -, rfl⟩ := h
  obtain ⟨u, hu⟩ := gap_blank g4 (List.replicate 56 ' ' ++ name)
  have hA' : (A : Int) ≤ intMax := by unfold intMax; omega
  have e57 : List.replicate 57 ' ' ++ name = ' ' :: (List.replicate 56 ' ' ++ name) := rfl
  rw [e57]
  simp only [List.append_assoc, List.cons_append]
  rw [hu]
  unfold excitedLevels
  rw [natText_intText Z, natText_intText A, natText_intText total, natText_intText n]
  simp only [exInt_gap g0, exInt_gap g1, exInt_gap g2, exInt_gap g3,
    exInt_space (show isSpace ' ' = true by decide),
    exInt_text (nat_fits (name_fits hN)) (show isDigit ' ' = false by decide),
    exInt_text (nat_fits hA') (show isDigit ' ' = false by decide),
    exInt_text (nat_fits ht) (show isDigit ' ' = false by decide),
    exInt_text (nat_fits hn) (show isDigit ' ' = false by decide)]

theorem findLine_first {Z A : Nat} {name : Str} (hname : IsName Z A name) {pre : List Str} {line : Str}
    (hpre : ∀ l ∈ pre, ¬ LooksLike Z A l) (hl : LooksLike Z A line) {ps : List Str} (hps : ps ≠ []) :
    findLine name (pre ++ line :: ps) = some (line, ps) := by
  have hpos := (isNuclideLine_iff hname line).2 hl
  induction pre with
  | nil =>
    cases ps with
    | nil => exact absurd rfl hps
    | cons p ps => simp [findLine, hpos]
  | cons q pre ih =>
    have hq : isNuclideLine name q = false := by
      rw [← Bool.not_eq_true, isNuclideLine_iff hname]
      exact hpre q (by simp)
    rw [List.cons_append]
    cases e : pre ++ line :: ps with
    | nil => simp at e
    | cons x y =>
      rw [findLine, if_neg (by simp [hq]), ← e]
      · exact ih (fun l hl => hpre l (by simp [hl]))
      · simp

theorem findLine_none {Z A : Nat} {name : Str} (hname : IsName Z A name) :
    ∀ {ps : List Str}, (∀ l ∈ ps, ¬ LooksLike Z A l) → findLine name ps = none := by
  intro ps
  induction ps with
  | nil => intro _; rfl
  | cons p ps ih =>
    intro h
    have hp : isNuclideLine name p = false := by
      rw [← Bool.not_eq_true, isNuclideLine_iff hname]
      exact h p (by simp)
    cases ps with
    | nil => simp [findLine, hp]
    | cons q ps =>
      rw [findLine, if_neg (by simp [hp])]
      · exact ih (fun l hl => h l (by simp [hl]))
      · simp

theorem records_lines [Field K] {f : DblFmt K} : ∀ {Ls : List (TLevel K)} {i : Nat} {lines : List Str},
    Records f i Ls lines → ∀ l ∈ lines, '\n' ∉ l := by
  intro Ls
  induction Ls with
  | nil => intro i lines h; simp only [Records] at h; subst h; simp
  | cons l Ls ih =>
    intro i lines h
    obtain ⟨line, gs, rest, rfl, h1, h2, h3⟩ := h
    intro x hx
    simp only [List.mem_cons, List.mem_append] at hx
    rcases hx with rfl | hx | hx
    · exact h1.1
    · clear h1 h3
      generalize l.gammas = gl at h2
      induction h2 with
      | nil => cases hx
      | cons hg _ ih =>
        rcases List.mem_cons.1 hx with rfl | hx
        · exact hg.1
        · exact ih hx
    · exact ih h3 x hx

theorem looks_line {Z A : Nat} {line : Str} (h : LooksLike Z A line) : '\n' ∉ line := by
  obtain ⟨fields, name, -, h2, ⟨sym, h3, rfl⟩, rfl⟩ := h
  have hs := (symbols_name _ (symbol_mem h3)).2.2.2.2.2
  simp only [List.mem_append, List.mem_replicate, not_or]
  refine ⟨fun hm => ?_, by decide, ⟨by simp, fun hm => ?_⟩, fun hm => (hs _ hm).1 rfl, by simp⟩
  · rcases h2 _ hm with h | h
    · revert h; decide
    · revert h; decide
  · have := Json.natText_digits A _ hm
    revert this; decide

end Marley.Props
