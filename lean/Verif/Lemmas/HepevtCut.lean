import Verif.Lemmas.EventCut
import Verif.Lemmas.Hepevt

/-! Helper lemmas about HEPEVT records that are cut off. -/

set_option autoImplicit false

namespace Marley
open Json (Str isDigit natText intText isSpace digitsVal)

/-- The same for the literal text `0.` (written by `dump_hepevt_particle`). -/
def DblFmt.LawfulCutZero {K : Type} (f : DblFmt K) : Prop :=
  ∀ u, u <+: ['0', '.'] → f.read u = none ∨ ∃ y, f.read u = some (y, [])

namespace Event
variable {K : Type} {f : DblFmt K}

theorem get_cutZero (hc : f.LawfulCutZero) {u : Str} (hu : u <+: ['0', '.']) :
    f.get u = none ∨ ∃ y, f.get u = some (y, []) := by
  rw [DblFmt.get]
  have : skipBlank u = u := by
    cases u with
    | nil => rfl
    | cons c u =>
      obtain ⟨w, hw⟩ := hu
      obtain ⟨rfl, -⟩ := List.cons.inj hw
      exact skipBlank_cons (by decide) _
  rw [this]
  exact hc u hu

theorem readInt_cutZero {u : Str} (hu : u <+: ['0']) :
    readInt u = none ∨ ∃ q, readInt u = some (q, []) := by
  have : ['0'] = intText 0 := by decide +kernel
  rw [this] at hu
  exact readInt_cut' (by unfold intMin intMax; omega) hu

theorem none_bind' {α β : Type} (g : α → Option β) : ((none : Option α) >>= g) = none := rfl

/-- The beginning of a line: it cannot be read, or nothing but the last characters is missing. -/
theorem readRec_cutOff [Zero K] (hf : f.Lawful) (hz : f.LawfulZero) (hc : f.LawfulCut)
    (hcz : f.LawfulCutZero) {r : HepRec K} (hr : r.Fits) {t : Str} (ht : t <+: printRec f r)
    (hlt : t.length < (printRec f r).length)
    (P : Option (HepRec K × Str) → Prop) (h0 : P none)
    (hs : ∀ y, (printRec f r).length ≤ t.length + 2 → P (some ({ r with v4 := y }, []))) :
    P (readRec f t) := by
  obtain ⟨h1, h2, h3, h4, h5, h6, h7, h8, h9, h10⟩ := hr
  have e1 : " 0 0 ".toList = [' ', '0', ' ', '0', ' '] := by decide
  have e2 : " 0. 0. 0. 0.\n".toList =
    [' ', '0', '.', ' ', '0', '.', ' ', '0', '.', ' ', '0', '.', '\n'] := by decide
  have e : printRec f r = intText r.status ++ ' ' :: (intText r.pdg ++ ' ' :: (intText r.jmo1 ++
      ' ' :: (intText r.jmo2 ++ ' ' :: (['0'] ++ ' ' :: (['0'] ++ ' ' :: (f.print r.px ++ ' ' ::
      (f.print r.py ++ ' ' :: (f.print r.pz ++ ' ' :: (f.print r.E ++ ' ' :: (f.print r.M ++
      ' ' :: (['0', '.'] ++ ' ' :: (['0', '.'] ++ ' ' :: (['0', '.'] ++ ' ' :: (['0', '.'] ++
      '\n' :: [])))))))))))))) := by
    simp only [printRec, e1, e2, List.append_assoc, List.cons_append, List.nil_append]
  rw [e] at ht hs hlt
  clear e
  simp only [readRec]
  rcases field_cases ht with g | ⟨t1, rfl, g1⟩
  · rcases readInt_cut' h1 g with g | ⟨q, g⟩
    · rw [g]; exact h0
    · rw [g, some_bind']; dsimp only; rw [readInt_nil]; exact h0
  rw [readInt_intText h1 spd, some_bind']
  dsimp only
  rw [readInt_space sp]
  rcases field_cases g1 with g | ⟨t2, rfl, g2⟩
  · rcases readInt_cut' h2 g with g | ⟨q, g⟩
    · rw [g]; exact h0
    · rw [g, some_bind']; dsimp only; rw [readInt_nil]; exact h0
  rw [readInt_intText h2 spd, some_bind']
  dsimp only
  rw [readInt_space sp]
  rcases field_cases g2 with g | ⟨t3, rfl, g3⟩
  · rcases readInt_cut' h3 g with g | ⟨q, g⟩
    · rw [g]; exact h0
    · rw [g, some_bind']; dsimp only; rw [readInt_nil]; exact h0
  rw [readInt_intText h3 spd, some_bind']
  dsimp only
  rw [readInt_space sp]
  rcases field_cases g3 with g | ⟨t4, rfl, g4⟩
  · rcases readInt_cut' h4 g with g | ⟨q, g⟩
    · rw [g]; exact h0
    · rw [g, some_bind']; dsimp only; rw [readInt_nil]; exact h0
  rw [readInt_intText h4 spd, some_bind']
  dsimp only
  rw [readInt_space sp]
  rcases field_cases g4 with g | ⟨t5, rfl, g5⟩
  · rcases readInt_cutZero g with g | ⟨q, g⟩
    · rw [g]; exact h0
    · rw [g, some_bind']; dsimp only; rw [readInt_nil]; exact h0
  rw [List.singleton_append, readInt_zero, some_bind']
  dsimp only
  rw [readInt_space sp]
  rcases field_cases g5 with g | ⟨t6, rfl, g6⟩
  · rcases readInt_cutZero g with g | ⟨q, g⟩
    · rw [g]; exact h0
    · rw [g, some_bind']; dsimp only; rw [get_nil hf]; exact h0
  rw [List.singleton_append, readInt_zero, some_bind']
  dsimp only
  rw [get_space f sp]
  rcases field_cases g6 with g | ⟨t7, rfl, g7⟩
  · rcases get_cut hf hc g with g | ⟨q, g⟩
    · rw [g]; exact h0
    · rw [g, some_bind']; dsimp only; rw [get_nil hf]; exact h0
  rw [get_print hf _ sp, some_bind']
  dsimp only
  rw [get_space f sp]
  rcases field_cases g7 with g | ⟨t8, rfl, g8⟩
  · rcases get_cut hf hc g with g | ⟨q, g⟩
    · rw [g]; exact h0
    · rw [g, some_bind']; dsimp only; rw [get_nil hf]; exact h0
  rw [get_print hf _ sp, some_bind']
  dsimp only
  rw [get_space f sp]
  rcases field_cases g8 with g | ⟨t9, rfl, g9⟩
  · rcases get_cut hf hc g with g | ⟨q, g⟩
    · rw [g]; exact h0
    · rw [g, some_bind']; dsimp only; rw [get_nil hf]; exact h0
  rw [get_print hf _ sp, some_bind']
  dsimp only
  rw [get_space f sp]
  rcases field_cases g9 with g | ⟨t10, rfl, g10⟩
  · rcases get_cut hf hc g with g | ⟨q, g⟩
    · rw [g]; exact h0
    · rw [g, some_bind']; dsimp only; rw [get_nil hf]; exact h0
  rw [get_print hf _ sp, some_bind']
  dsimp only
  rw [get_space f sp]
  rcases field_cases g10 with g | ⟨t11, rfl, g11⟩
  · rcases get_cut hf hc g with g | ⟨q, g⟩
    · rw [g]; exact h0
    · rw [g, some_bind']; dsimp only; rw [get_nil hf]; exact h0
  rw [get_print hf _ sp, some_bind']
  dsimp only
  rw [get_space f sp]
  rcases field_cases g11 with g | ⟨t12, rfl, g12⟩
  · rcases get_cutZero hcz g with g | ⟨q, g⟩
    · rw [g]; exact h0
    · rw [g, some_bind']; dsimp only; rw [get_nil hf]; exact h0
  rw [List.cons_append, List.singleton_append, get_zero hz sp, some_bind']
  dsimp only
  rw [get_space f sp]
  rcases field_cases g12 with g | ⟨t13, rfl, g13⟩
  · rcases get_cutZero hcz g with g | ⟨q, g⟩
    · rw [g]; exact h0
    · rw [g, some_bind']; dsimp only; rw [get_nil hf]; exact h0
  rw [List.cons_append, List.singleton_append, get_zero hz sp, some_bind']
  dsimp only
  rw [get_space f sp]
  rcases field_cases g13 with g | ⟨t14, rfl, g14⟩
  · rcases get_cutZero hcz g with g | ⟨q, g⟩
    · rw [g]; exact h0
    · rw [g, some_bind']; dsimp only; rw [get_nil hf]; exact h0
  rw [List.cons_append, List.singleton_append, get_zero hz sp, some_bind']
  dsimp only
  rw [get_space f sp]
  have er : ∀ q, ({ r with v4 := q } : HepRec K) = ⟨r.status, r.pdg, r.jmo1, r.jmo2, 0, 0, r.px,
      r.py, r.pz, r.E, r.M, 0, 0, 0, q⟩ := by
    intro q; rw [h5, h6, h7, h8, h9]
  by_cases he : t14 = []
  · subst he; rw [get_nil hf]; exact h0
  have hpos : 0 < t14.length := List.length_pos_iff.2 he
  rcases field_cases g14 with g | ⟨t15, rfl, g15⟩
  · rcases get_cutZero hcz g with g | ⟨q, g⟩
    · rw [g]; exact h0
    · rw [g, some_bind']
      dsimp only
      have hq := hs q (by simp only [List.length_append, List.length_cons, List.length_nil]; omega)
      rw [er] at hq
      exact hq
  · obtain rfl : t15 = [] := List.prefix_nil.1 g15
    exact absurd hlt (by simp)

theorem readRec_nil : readRec f [] = none := by
  simp only [readRec]
  rw [readInt_nil]
  rfl

/-- The beginning of the lines of a record. -/
theorem readRecs_cutOff [Zero K] (hf : f.Lawful) (hz : f.LawfulZero) (hc : f.LawfulCut)
    (hcz : f.LawfulCutZero) (rs : List (HepRec K)) (hrs : ∀ r ∈ rs, r.Fits) {t : Str}
    (ht : t <+: rs.flatMap (printRec f)) (hlt : t.length < (rs.flatMap (printRec f)).length) :
    readRecs f rs.length t = none ∨
      ∃ rs0 r y, rs = rs0 ++ [r] ∧ (rs.flatMap (printRec f)).length ≤ t.length + 2 ∧
        readRecs f rs.length t = some (rs0 ++ [{ r with v4 := y }], []) := by
  induction rs generalizing t with
  | nil => simp at hlt
  | cons r rs ih =>
    rw [List.flatMap_cons] at ht hlt ⊢
    have hr := hrs r (by simp)
    have hrest : ∀ q ∈ rs, q.Fits := fun q hq => hrs q (by simp [hq])
    have inner : ∀ u, u <+: rs.flatMap (printRec f) →
        u.length < (rs.flatMap (printRec f)).length →
        readRecs f (rs.length + 1) (printRec f r ++ u) = none ∨
        ∃ rs0 r0 y, r :: rs = rs0 ++ [r0] ∧
          (printRec f r ++ rs.flatMap (printRec f)).length ≤ (printRec f r ++ u).length + 2 ∧
          readRecs f (rs.length + 1) (printRec f r ++ u) = some (rs0 ++ [{ r0 with v4 := y }], []) := by
      intro u hu hult
      have hne : rs ≠ [] := by rintro rfl; simp at hult
      obtain ⟨n, hn⟩ : ∃ n, rs.length = n + 1 := by
        cases rs with
        | nil => exact absurd rfl hne
        | cons a b => exact ⟨_, rfl⟩
      have hsp : readRecs f rs.length ('\n' :: u) = readRecs f rs.length u := by
        rw [hn]; simp only [readRecs, readRec_space nl]
      rcases ih hrest hu hult with h | ⟨rs0, r0, y, h1, h2, h3⟩
      · left
        simp only [readRecs, readRec_print hf hz hr, hsp, h]
      · right
        refine ⟨r :: rs0, r0, y, by rw [h1]; rfl, ?_, ?_⟩
        · simp only [List.length_append]; omega
        · simp only [readRecs, readRec_print hf hz hr, hsp, h3, List.cons_append]
    rcases prefix_cases ht with h | ⟨u, rfl, h⟩
    · by_cases hl : t.length < (printRec f r).length
      · refine readRec_cutOff hf hz hc hcz hr h hl
          (fun o => readRec f t = o → _) ?_ ?_ rfl
        · intro e; left; simp only [List.length_cons, readRecs, e]
        · intro y hy e
          cases rs with
          | nil =>
            right
            refine ⟨[], r, y, rfl, by simpa using hy, ?_⟩
            simp [readRecs, e]
          | cons r2 rs =>
            left
            simp only [List.length_cons, readRecs, e, readRec_nil]
      · have he : t = printRec f r := h.eq_of_length_le (by omega)
        have := inner [] (by simp) (by
          simp only [List.length_append] at hlt
          rw [he] at hlt
          simp only [List.length_nil]; omega)
        rw [List.append_nil] at this
        rw [he]
        exact this
    · exact inner u h (by simp only [List.length_append] at hlt; omega)

theorem hepStep_v4 [Ring K] (st : HepState K) (r : HepRec K) (y : K) :
    hepStep st { r with v4 := y } = hepStep st r := rfl

theorem hepFold_v4 [Ring K] (st : HepState K) (rs : List (HepRec K)) (r : HepRec K) (y : K) :
    hepFold st (rs ++ [{ r with v4 := y }]) = hepFold st (rs ++ [r]) := by
  induction rs generalizing st with
  | nil => rfl
  | cons a rs ih =>
    simp only [List.cons_append, hepFold]
    cases hepStep st a with
    | error e => rfl
    | ok st' => exact ih st'

theorem hepLoop_none [Ring K] (n : Nat) (st : HepState K) (s : Str) (h : readRecs f n s = none) :
    ∃ x, hepLoop f n st s = .error x := by
  cases e : hepLoop f n st s with
  | error x => exact ⟨x, rfl⟩
  | ok r =>
    obtain ⟨rs, h1, -⟩ := hepLoop_ok n st r.1 s r.2 e
    rw [h] at h1; cases h1

/-- The beginning of a record: nothing is read, or the same as from the whole record, nothing
but the last characters being missing. -/
theorem readHepevt_cutOff [Ring K] (hf : f.Lawful) (hz : f.LawfulZero) (hc : f.LawfulCut)
    (hcz : f.LawfulCutZero) (num : Nat) (hnum : (num : Int) ≤ intMax) (rs : List (HepRec K))
    (hn : (rs.length : Int) ≤ intMax) (hrs : ∀ r ∈ rs, r.Fits) (hne : rs ≠ []) {t : Str}
    (ht : t <+: natText num ++ ' ' :: (natText rs.length ++ '\n' :: rs.flatMap (printRec f)))
    (hlt : t.length <
      (natText num ++ ' ' :: (natText rs.length ++ '\n' :: rs.flatMap (printRec f))).length) :
    readHepevt f t = .ok (false, cleared, 0, none) ∨ (∃ x, readHepevt f t = .error x) ∨
    ((natText num ++ ' ' :: (natText rs.length ++ '\n' :: rs.flatMap (printRec f))).length ≤
        t.length + 2 ∧
      ∀ b ev x rest, readHepevt f
        (natText num ++ ' ' :: (natText rs.length ++ '\n' :: rs.flatMap (printRec f))) =
          .ok (b, ev, x, rest) → readHepevt f t = .ok (b, ev, x, some [])) := by
  have i1 : intMin ≤ (num : Int) ∧ (num : Int) ≤ intMax := ⟨by unfold intMin; omega, hnum⟩
  have i2 : intMin ≤ (rs.length : Int) ∧ (rs.length : Int) ≤ intMax :=
    ⟨by unfold intMin; omega, hn⟩
  rcases field_cases ht with g | ⟨t1, rfl, g1⟩
  · left
    have g' : t <+: intText (num : Int) := g
    rcases readInt_cut' i1 g' with h | ⟨q, h⟩
    · simp only [readHepevt, h]
    · simp only [readHepevt, h, readInt_nil]
  have hfirst : ∀ u, readInt (natText num ++ ' ' :: u) = some ((num : Int), ' ' :: u) :=
    fun u => readInt_natText hnum spd u
  rcases field_cases g1 with g | ⟨t2, rfl, g2⟩
  · have g' : t1 <+: intText (rs.length : Int) := g
    rcases readInt_cut' i2 g' with h | ⟨q, h⟩
    · left
      simp only [readHepevt, hfirst, readInt_space sp, h]
    · right; left
      simp only [readHepevt, hfirst, readInt_space sp, h]
      by_cases hq : q < 0
      · exact ⟨.marleyError, by rw [if_pos hq]⟩
      · rw [if_neg hq]
        cases q.toNat with
        | zero => exact ⟨.marleyError, rfl⟩
        | succ n => exact ⟨.marleyError, by simp only [hepLoop, readRec_nil]⟩
  have hsecond : ∀ u, readHepevt f (natText num ++ ' ' :: (natText rs.length ++ '\n' :: u)) =
      (match hepLoop f rs.length hepInit u with
        | .error e => .error e
        | .ok (st, s) =>
          match hepFinish st with
          | .error e => .error e
          | .ok ev => .ok (true, ev, st.xsec, some s)) := by
    intro u
    have hsp : hepLoop f rs.length hepInit ('\n' :: u) = hepLoop f rs.length hepInit u := by
      cases hl : rs.length with
      | zero => exact absurd (List.length_eq_zero_iff.1 hl) hne
      | succ n => simp only [hepLoop, readRec_space nl]
    have hneg : ¬ ((rs.length : Int) < 0) := by omega
    simp only [readHepevt, hfirst, readInt_space sp, readInt_natText hn nld, if_neg hneg,
      Int.toNat_natCast, hsp]
    rfl
  rw [hsecond, hsecond]
  have hlt2 : t2.length < (rs.flatMap (printRec f)).length := by
    simp only [List.length_append, List.length_cons] at hlt; omega
  rcases readRecs_cutOff hf hz hc hcz rs hrs g2 hlt2 with h | ⟨rs0, r, y, e1, e2, e3⟩
  · right; left
    obtain ⟨x, hx⟩ := hepLoop_none _ hepInit _ h
    exact ⟨x, by rw [hx]⟩
  · right; right
    refine ⟨by simp only [List.length_append, List.length_cons]; omega, ?_⟩
    have hfull := readRecs_print hf hz rs hrs hne []
    rw [List.append_nil] at hfull
    rw [hepLoop_of _ _ _ _ _ hfull, hepLoop_of _ _ _ _ _ e3, hepFold_v4, ← e1]
    intro b ev x rest
    cases hepFold hepInit rs with
    | error e => intro h; cases h
    | ok st =>
      dsimp only
      cases hepFinish st with
      | error e => intro h; cases h
      | ok ev' => intro h; cases h; rfl

end Event
end Marley
