import Verif.Lemmas.HepevtOrder

/-! Helper lemmas for the HEPEVT round trip. -/

set_option autoImplicit false

namespace Marley.Event
open Json (Str isDigit natText intText isSpace)

variable {K : Type} {f : DblFmt K}

/-- `p'` is `p` with the charge that the table gives for its code. -/
def BareOf (p p' : Particle K) : Prop := ∃ q, Pdg.charge p.pdg = .ok q ∧ p' = { p with charge := q }

section
variable [Field K] [CharZero K]

theorem div_mul_1000 (x : K) : x / 1000 * 1000 = x :=
  div_mul_cancel₀ x (by norm_num)

theorem mul_div_1000 (x : K) : x * 1000 / 1000 = x :=
  mul_div_cancel_right₀ x (by norm_num)

theorem mk6_hepRec {p p' : Particle K} (h : BareOf p p') (s j1 j2 : Int) :
    Particle.mk6 (hepRec p s j1 j2).pdg ((hepRec p s j1 j2).E * 1000)
      ((hepRec p s j1 j2).px * 1000) ((hepRec p s j1 j2).py * 1000)
      ((hepRec p s j1 j2).pz * 1000) ((hepRec p s j1 j2).M * 1000) = .ok p' := by
  obtain ⟨q, hq, rfl⟩ := h
  simp [Particle.mk6, hepRec, hq, div_mul_1000]

theorem step_initial {p p' : Particle K} (h : BareOf p p') (st : HepState K) :
    ∃ st', hepStep st (hepRec p INITIAL_CODE 0 0) = .ok st' ∧
      st'.ev = { st.ev with initial := st.ev.initial ++ [p'] } ∧ st'.xsec = st.xsec := by
  rw [hepStep, if_neg (by simp [hepRec, INITIAL_CODE, INFO_CODE]), if_pos (by simp [hepRec]),
    hepInitial, mk6_hepRec h]
  exact ⟨_, rfl, rfl, rfl⟩

theorem step_final {p p' : Particle K} (h : BareOf p p') (st : HepState K) :
    ∃ st', hepStep st (hepRec p FINAL_CODE 0 0) = .ok st' ∧
      st'.ev = { st.ev with final := st.ev.final ++ [p'] } ∧ st'.xsec = st.xsec := by
  rw [hepStep, if_neg (by simp [hepRec, FINAL_CODE, INFO_CODE]),
    if_neg (by simp [hepRec, FINAL_CODE, INITIAL_CODE]), if_pos (by simp [hepRec]),
    hepFinal, mk6_hepRec h]
  refine ⟨_, rfl, ?_, ?_⟩
  · simp only [hepIon]; split_ifs <;> rfl
  · simp only [hepIon]; split_ifs <;> rfl

theorem fold_initial {ps ps' : List (Particle K)} (h : List.Forall₂ BareOf ps ps')
    (st : HepState K) (rest : List (HepRec K)) :
    ∃ st', hepFold st (ps.map (fun p => hepRec p INITIAL_CODE 0 0) ++ rest) = hepFold st' rest ∧
      st'.ev = { st.ev with initial := st.ev.initial ++ ps' } ∧ st'.xsec = st.xsec := by
  induction h generalizing st with
  | nil => exact ⟨st, by simp, by simp, rfl⟩
  | cons h _ ih =>
    obtain ⟨st1, e1, e2, e3⟩ := step_initial h st
    obtain ⟨st2, g1, g2, g3⟩ := ih st1
    exact ⟨st2, by simp only [List.map_cons, List.cons_append, hepFold, e1, g1],
      by rw [g2, e2]; simp, by rw [g3, e3]⟩

theorem fold_final {ps ps' : List (Particle K)} (h : List.Forall₂ BareOf ps ps')
    (st : HepState K) (rest : List (HepRec K)) :
    ∃ st', hepFold st (ps.map (fun p => hepRec p FINAL_CODE 0 0) ++ rest) = hepFold st' rest ∧
      st'.ev = { st.ev with final := st.ev.final ++ ps' } ∧ st'.xsec = st.xsec := by
  induction h generalizing st with
  | nil => exact ⟨st, by simp, by simp, rfl⟩
  | cons h _ ih =>
    obtain ⟨st1, e1, e2, e3⟩ := step_final h st
    obtain ⟨st2, g1, g2, g3⟩ := ih st1
    exact ⟨st2, by simp only [List.map_cons, List.cons_append, hepFold, e1, g1],
      by rw [g2, e2]; simp, by rw [g3, e3]⟩

theorem assignInt_toInt (o π : Parity) : Parity.assignInt o π.toInt = .ok π := by
  rcases π with ⟨b⟩; cases b <;> simp [Parity.assignInt, Parity.toInt]

/-- The loop over the lines written for an event. -/
theorem fold_hepRecs (e : Event K) (xsec : K) {ini' fin' : List (Particle K)}
    (h1 : List.Forall₂ BareOf e.initial ini') (h2 : List.Forall₂ BareOf e.final fin') :
    ∃ st, hepFold hepInit (hepRecs e xsec) = .ok st ∧
      st.ev = { e with initial := ini', final := fin' } ∧ st.xsec = xsec := by
  rw [hepRecs]
  obtain ⟨st1, a1, a2, a3⟩ := fold_initial h1 hepInit
    (hepRec ⟨0, e.Ex * 1000, 0, 0, 0, xsec * 1000, 0⟩ INFO_CODE e.twoJ e.parity.toInt ::
      e.final.map (fun p => hepRec p FINAL_CODE 0 0))
  rw [a1, hepFold, hepStep, if_pos (by simp [hepRec]), hepInfo]
  simp only [hepRec, assignInt_toInt]
  obtain ⟨st2, b1, b2, b3⟩ := fold_final h2
    { st1 with
      ev := { st1.ev with Ex := e.Ex * 1000 / 1000, twoJ := e.twoJ, parity := e.parity }
      xsec := xsec * 1000 / 1000 } []
  simp only [List.append_nil, hepRec] at b1
  rw [b1]
  refine ⟨st2, rfl, ?_, ?_⟩
  · rw [b2]; simp [a2, hepInit, cleared, mul_div_1000]
  · rw [b3]; simp [mul_div_1000]

end

theorem bareOf_exists_ion {p : Particle K} (h : Pdg.isIon p.pdg = true) :
    ∃ q, BareOf p { p with charge := q } := by
  simp only [Pdg.isIon, Bool.and_eq_true, decide_eq_true_eq] at h
  exact ⟨_, _, by rw [Pdg.charge, if_pos (by omega)], rfl⟩

theorem forall₂_bare_self {l : List (Particle K)} (h : ∀ p ∈ l, Pdg.charge p.pdg = .ok p.charge) :
    List.Forall₂ BareOf l l := by
  induction l with
  | nil => exact .nil
  | cons p l ih =>
    exact .cons ⟨p.charge, h p (by simp), rfl⟩ (ih (fun q hq => h q (by simp [hq])))

end Marley.Event
