import Verif.Lemmas.Hepevt

/-! Helper lemmas about the reordering and the charges in `read_hepevt`. -/

set_option autoImplicit false

namespace Marley.Event
open Json (Str isDigit natText intText isSpace)

variable {K : Type} {f : DblFmt K}

theorem iterSwap_ok {α} {l l' : List α} {i j : Nat} (h : iterSwap l i j = .ok l') :
    ∃ a b, l[i]? = some a ∧ l[j]? = some b ∧ l' = (l.set i b).set j a ∧ l'.Perm l := by
  rw [iterSwap] at h
  split at h
  · next a b e1 e2 =>
    cases h
    refine ⟨a, b, e1, e2, rfl, ?_⟩
    obtain ⟨h1, rfl⟩ := List.getElem?_eq_some_iff.1 e1
    obtain ⟨h2, rfl⟩ := List.getElem?_eq_some_iff.1 e2
    exact List.set_set_perm h1 h2
  · cases h

theorem lt_of_getElem? {α} {l : List α} {i : Nat} {a : α} (h : l[i]? = some a) : i < l.length :=
  (List.getElem?_eq_some_iff.1 h).1

/-- What the two swaps of the final particles do. -/
theorem hepOrderFinal_spec {l : List (Particle K)} {li ii : Nat} {lep ion : Particle K}
    (h1 : l[li]? = some lep) (h2 : l[ii]? = some ion) (hne : li ≠ ii) :
    ∃ l', hepOrderFinal l li ii = .ok l' ∧ l'.Perm l ∧
      (ii ≠ 0 → l'[0]? = some lep ∧ l'[1]? = some ion) ∧
      (ii = 0 → l'[1]? = some lep) := by
  have b1 := lt_of_getElem? h1
  have b2 := lt_of_getElem? h2
  have b3 : 2 ≤ l.length := by omega
  obtain ⟨x0, hx0⟩ : ∃ x, l[0]? = some x := ⟨l[0], by simp⟩
  obtain ⟨x1, hx1⟩ : ∃ x, l[1]? = some x := ⟨l[1], by simp⟩
  -- the first swap
  have s1 : ∃ m, (if li ≠ 0 then iterSwap l 0 li else .ok l) = .ok m ∧ m.Perm l ∧
      m.length = l.length ∧ m[0]? = some lep ∧ (∀ k, k ≠ 0 → k ≠ li → m[k]? = l[k]?) := by
    by_cases c : li = 0
    · subst c; exact ⟨l, by simp, List.Perm.refl _, rfl, h1, fun _ _ _ => rfl⟩
    · rw [if_pos c]
      have e : iterSwap l 0 li = .ok ((l.set 0 lep).set li x0) := by simp [iterSwap, hx0, h1]
      obtain ⟨a, b, _, _, _, hp⟩ := iterSwap_ok e
      refine ⟨_, e, hp, by simp, ?_, ?_⟩
      · rw [List.getElem?_set_ne (by omega), List.getElem?_set_self (by omega)]
      · intro k hk0 hk
        rw [List.getElem?_set_ne (by omega), List.getElem?_set_ne (by omega)]
  obtain ⟨m, hm, hp, hlen, hm0, hmk⟩ := s1
  obtain ⟨y1, hy1⟩ : ∃ x, m[1]? = some x := ⟨m[1], by simp⟩
  rw [hepOrderFinal, hm]
  dsimp only
  by_cases c : ii = 1
  · subst c
    refine ⟨m, by simp, hp, fun _ => ⟨hm0, ?_⟩, by simp⟩
    rw [hmk 1 (by omega) (by omega), h2]
  · by_cases c0 : ii = 0
    · subst c0
      have e : iterSwap m 1 0 = .ok ((m.set 1 lep).set 0 y1) := by simp [iterSwap, hy1, hm0]
      obtain ⟨a, b, _, _, _, hp'⟩ := iterSwap_ok e
      refine ⟨_, ?_, hp'.trans hp, by simp, ?_⟩
      · rw [if_pos (by decide)]; exact e
      · intro _
        rw [List.getElem?_set_ne (by omega), List.getElem?_set_self (by omega)]
    · have hi : m[ii]? = some ion := by rw [hmk ii c0 (by omega), h2]
      have e : iterSwap m 1 ii = .ok ((m.set 1 ion).set ii y1) := by simp [iterSwap, hy1, hi]
      obtain ⟨a, b, _, _, _, hp'⟩ := iterSwap_ok e
      refine ⟨_, ?_, hp'.trans hp, fun _ => ⟨?_, ?_⟩, fun h => absurd h c0⟩
      · rw [if_pos c]; exact e
      · rw [List.getElem?_set_ne (by omega), List.getElem?_set_ne (by omega), hm0]
      · rw [List.getElem?_set_ne (by omega), List.getElem?_set_self (by omega)]

theorem hepOrderInitial_spec {l : List (Particle K)} (h2 : l.length = 2)
    (h : l.countP (fun p => Pdg.isIon p.pdg) = 1) :
    ∃ a b, hepOrderInitial l = .ok [a, b] ∧ [a, b].Perm l ∧ Pdg.isIon a.pdg = false ∧
      Pdg.isIon b.pdg = true := by
  match l, h2 with
  | [a, b], _ =>
    simp only [List.countP_cons, List.countP_nil] at h
    by_cases hb : Pdg.isIon b.pdg = true
    · have ha : Pdg.isIon a.pdg = false := by
        cases hh : Pdg.isIon a.pdg
        · rfl
        · simp [hh, hb] at h
      exact ⟨a, b, by simp [hepOrderInitial, hb], List.Perm.refl _, ha, hb⟩
    · have ha : Pdg.isIon a.pdg = true := by
        cases hh : Pdg.isIon a.pdg
        · simp [hh, hb] at h
        · rfl
      exact ⟨b, a, by simp [hepOrderInitial, hb, iterSwap], List.Perm.swap _ _ _,
        by simpa using hb, ha⟩

theorem hepFinish_ok {st : HepState K} {ev : Event K} (h : hepFinish st = .ok ev) :
    st.nInitial = 2 ∧ st.nInitialIons = 1 ∧ st.nFinalLeptons = 1 ∧ 1 ≤ st.nFinalIons ∧
    ∃ ini fin tgt ej res, hepOrderInitial st.ev.initial = .ok ini ∧
      hepOrderFinal st.ev.final st.leptonIdx st.ionIdx = .ok fin ∧
      ini[1]? = some tgt ∧ fin[0]? = some ej ∧ fin[1]? = some res ∧
      ev = { st.ev with
        initial := ini.set 1 { tgt with charge := 0 }
        final := fin.set 1 { res with charge := -ej.charge - ionChargeSum fin } } := by
  simp only [hepFinish, bind, Except.bind, throw, throwThe, MonadExceptOf.throw] at h
  by_cases c1 : st.nInitial = 2
  swap
  · simp [c1] at h
  by_cases c2 : st.nInitialIons = 1
  swap
  · simp [c1, c2] at h
  by_cases c3 : st.nFinalLeptons = 1
  swap
  · simp [c1, c2, c3] at h
  by_cases c4 : st.nFinalIons < 1
  · simp [c1, c2, c3, c4, pure, Except.pure] at h
  refine ⟨c1, c2, c3, by omega, ?_⟩
  simp only [c1, c2, c3, c4, pure, Except.pure, ne_eq, not_true_eq_false, if_false] at h
  split at h
  · cases h
  next ini e1 =>
  split at h
  · cases h
  next fin e2 =>
  rw [setChargeAt] at h
  split at h
  · cases h
  next ini' e3 =>
  split at e3
  · cases e3
  next tgt e4 =>
  cases e3
  split at h
  · cases h
  next ej e5 =>
  rw [setChargeAt] at h
  split at h
  · cases h
  next fin' e6 =>
  split at e6
  · cases e6
  next res e7 =>
  cases e6
  cases h
  exact ⟨ini, fin, tgt, ej, res, e1, e2, e4, e5, e7, rfl⟩

/-- Converse of `hepFinish_ok`. -/
theorem hepFinish_of {st : HepState K} (c1 : st.nInitial = 2) (c2 : st.nInitialIons = 1)
    (c3 : st.nFinalLeptons = 1) (c4 : 1 ≤ st.nFinalIons) {ini fin : List (Particle K)}
    {tgt ej res : Particle K} (e1 : hepOrderInitial st.ev.initial = .ok ini)
    (e2 : hepOrderFinal st.ev.final st.leptonIdx st.ionIdx = .ok fin)
    (e3 : ini[1]? = some tgt) (e4 : fin[0]? = some ej) (e5 : fin[1]? = some res) :
    hepFinish st = .ok { st.ev with
        initial := ini.set 1 { tgt with charge := 0 }
        final := fin.set 1 { res with charge := -ej.charge - ionChargeSum fin } } := by
  have c4' : ¬ st.nFinalIons < 1 := by omega
  simp only [hepFinish, bind, Except.bind, throw, throwThe, MonadExceptOf.throw, c1, c2, c3, c4',
    pure, Except.pure, ne_eq, not_true_eq_false, if_false, e1, e2, setChargeAt, e3, e4, e5]

theorem foldl_add_eq (l : List (Particle K)) (a : Int) :
    l.foldl (fun s p => s + p.charge) a = a + (l.map (·.charge)).sum := by
  induction l generalizing a with
  | nil => simp
  | cons p l ih => simp [ih]; omega

theorem sum_filter_split (l : List (Particle K)) (P : Particle K → Bool) :
    (l.map (·.charge)).sum = ((l.filter P).map (·.charge)).sum +
      ((l.filter (fun p => !P p)).map (·.charge)).sum := by
  induction l with
  | nil => simp
  | cons p l ih =>
    cases h : P p <;> simp [h, ih] <;> omega

end Marley.Event
