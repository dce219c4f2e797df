import Verif.Spec.Iterators
import Mathlib.Tactic.Linarith

/-!
# C116: iterators to members
-/

set_option autoImplicit false

namespace Marley.Props
open Marley Marley.Iter

variable {T R : Type}

theorem place_eq (len : Nat) (p : Int) :
    place len p = if 0 ≤ p ∧ p < len then .ok p.toNat else .error .ub := rfl

theorem plain_get (m : Member T R) (xs : List T) (q p : Int) :
    (Plain.mk (xs.map m.get) q).get p = if p < 0 then none else xs[p.toNat]?.map m.get := by
  simp [Plain.get]

theorem place_get (xs : List T) (p : Int) :
    (∃ k t, place xs.length p = .ok k ∧ 0 ≤ p ∧ k = p.toNat ∧ xs[k]? = some t) ∨
      place xs.length p = .error .ub ∧ (p < 0 ∨ xs[p.toNat]? = none) := by
  rw [place_eq]
  by_cases h : 0 ≤ p ∧ p < xs.length
  · rw [if_pos h]
    exact .inl ⟨p.toNat, xs[p.toNat]'(by omega), rfl, h.1, rfl, List.getElem?_eq_getElem _⟩
  · rw [if_neg h]
    refine .inr ⟨rfl, ?_⟩
    by_cases h0 : p < 0
    · exact .inl h0
    · exact .inr (List.getElem?_eq_none (by omega))

theorem sameRest_refl {m : Member T R} (hm : m.Lawful) (t : T) : SameRest m t t := ⟨m.get t, (hm.set_get t).symm⟩

theorem sameRest_trans {m : Member T R} (hm : m.Lawful) {a b c : T} (h : SameRest m a b) (h' : SameRest m b c) :
    SameRest m a c := by
  obtain ⟨v, rfl⟩ := h
  obtain ⟨w, rfl⟩ := h'
  exact ⟨w, hm.set_set w v a⟩

theorem forall₂_set {A B : Type} {Q : A → B → Prop} {xs : List A} {ys : List B} (h : List.Forall₂ Q xs ys) (k : Nat) (y : B)
    (hy : ∀ x, xs[k]? = some x → Q x y) : List.Forall₂ Q xs (ys.set k y) := by
  induction h generalizing k with
  | nil => simp
  | cons h0 h1 ih =>
    cases k with
    | zero => exact .cons (hy _ rfl) h1
    | succ k => exact .cons h0 (ih k (fun x hx => hy x (by simpa using hx)))

theorem forall₂_trans {A : Type} {Q : A → A → Prop} (hQ : ∀ a b c, Q a b → Q b c → Q a c) {xs ys zs : List A}
    (h : List.Forall₂ Q xs ys) (h' : List.Forall₂ Q ys zs) : List.Forall₂ Q xs zs := by
  induction h generalizing zs with
  | nil => exact h'
  | cons h0 _ ih =>
    cases h' with
    | cons h2 h3 => exact .cons (hQ _ _ _ h0 h2) (ih h3)

/-- One operation. -/
theorem stepM_plain {m : Member T R} (hm : m.Lawful) (xs : List T) (p : Int) (o : Op R) :
    (∃ xs' p' a, stepM (xs, ⟨p, m⟩) o = .ok ((xs', ⟨p', m⟩), a) ∧
      (Plain.mk (xs.map m.get) p).step o = .ok (⟨xs'.map m.get, p'⟩, a) ∧ List.Forall₂ (SameRest m) xs xs') ∨
    (stepM (xs, ⟨p, m⟩) o = .error .ub ∧ (Plain.mk (xs.map m.get) p).step o = .error .ub) := by
  have hr : List.Forall₂ (SameRest m) xs xs := List.forall₂_same.2 (fun t _ => sameRest_refl hm t)
  have hmove : ∀ n : Int, (move xs.length p n = .ok (p + n) ∧ 0 ≤ p + n ∧ p + n ≤ xs.length) ∨
      (move xs.length p n = .error .ub ∧ ¬ (0 ≤ p + n ∧ p + n ≤ xs.length)) := by
    intro n
    by_cases h : 0 ≤ p + n ∧ p + n ≤ xs.length
    · exact .inl ⟨by rw [move, if_pos h], h⟩
    · exact .inr ⟨by rw [move, if_neg h], h⟩
  cases o with
  | preInc =>
    rcases hmove 1 with ⟨h1, h2⟩ | ⟨h1, h2⟩
    · exact .inl ⟨xs, p + 1, .at (p + 1), by simp only [stepM, ItM.preInc, h1], by
        simp [Plain.step, Plain.go, h2], hr⟩
    · exact .inr ⟨by simp only [stepM, ItM.preInc, h1], by
        simp only [Plain.step, Plain.go, List.length_map, if_neg h2]⟩
  | postInc =>
    rcases hmove 1 with ⟨h1, h2⟩ | ⟨h1, h2⟩
    · exact .inl ⟨xs, p + 1, .at p, by simp only [stepM, ItM.postInc, h1], by
        simp [Plain.step, Plain.go, h2], hr⟩
    · exact .inr ⟨by simp only [stepM, ItM.postInc, h1], by
        simp only [Plain.step, Plain.go, List.length_map, if_neg h2]⟩
  | preDec =>
    rcases hmove (-1) with ⟨h1, h2⟩ | ⟨h1, h2⟩
    · exact .inl ⟨xs, p + -1, .at (p + -1), by simp only [stepM, ItM.preDec, h1], by
        simp only [Plain.step, Plain.go, List.length_map, if_pos h2]; rfl, hr⟩
    · exact .inr ⟨by simp only [stepM, ItM.preDec, h1], by
        simp only [Plain.step, Plain.go, List.length_map, if_neg h2]⟩
  | postDec =>
    rcases hmove (-1) with ⟨h1, h2⟩ | ⟨h1, h2⟩
    · exact .inl ⟨xs, p + -1, .at p, by simp only [stepM, ItM.postDec, h1], by
        simp only [Plain.step, Plain.go, List.length_map, if_pos h2]; rfl, hr⟩
    · exact .inr ⟨by simp only [stepM, ItM.postDec, h1], by
        simp only [Plain.step, Plain.go, List.length_map, if_neg h2]⟩
  | addAssign n =>
    rcases hmove n with ⟨h1, h2⟩ | ⟨h1, h2⟩
    · exact .inl ⟨xs, p + n, .at (p + n), by simp only [stepM, ItM.addAssign, h1], by
        simp only [Plain.step, Plain.go, List.length_map, if_pos h2]; rfl, hr⟩
    · exact .inr ⟨by simp only [stepM, ItM.addAssign, h1], by
        simp only [Plain.step, Plain.go, List.length_map, if_neg h2]⟩
  | subAssign n =>
    rcases hmove (-n) with ⟨h1, h2⟩ | ⟨h1, h2⟩
    · exact .inl ⟨xs, p + -n, .at (p + -n), by simp only [stepM, ItM.subAssign, h1], by
        simp only [Plain.step, Plain.go, List.length_map, if_pos h2]; rfl, hr⟩
    · exact .inr ⟨by simp only [stepM, ItM.subAssign, h1], by
        simp only [Plain.step, Plain.go, List.length_map, if_neg h2]⟩
  | plus n =>
    rcases hmove n with ⟨h1, h2⟩ | ⟨h1, h2⟩
    · exact .inl ⟨xs, p, .at (p + n), by simp only [stepM, ItM.plus, h1], by
        simp only [Plain.step, Plain.go, List.length_map, if_pos h2]; rfl, hr⟩
    · exact .inr ⟨by simp only [stepM, ItM.plus, h1], by
        simp only [Plain.step, Plain.go, List.length_map, if_neg h2]⟩
  | minus n =>
    rcases hmove (-n) with ⟨h1, h2⟩ | ⟨h1, h2⟩
    · exact .inl ⟨xs, p, .at (p + -n), by simp only [stepM, ItM.minus, h1], by
        simp only [Plain.step, Plain.go, List.length_map, if_pos h2]; rfl, hr⟩
    · exact .inr ⟨by simp only [stepM, ItM.minus, h1], by
        simp only [Plain.step, Plain.go, List.length_map, if_neg h2]⟩
  | read =>
    rcases place_get xs p with ⟨k, t, h1, h2, rfl, h3⟩ | ⟨h1, h2⟩
    · refine .inl ⟨xs, p, .value (m.get t), by simp only [stepM, ItM.star, h1, h3], ?_, hr⟩
      simp only [Plain.step, plain_get, if_neg (show ¬ p < 0 by omega), h3, Option.map_some]
    · refine .inr ⟨by simp only [stepM, ItM.star, h1], ?_⟩
      rcases h2 with h2 | h2 <;> simp [Plain.step, plain_get, h2]
  | readAt n =>
    rcases place_get xs (p + n) with ⟨k, t, h1, h2, rfl, h3⟩ | ⟨h1, h2⟩
    · refine .inl ⟨xs, p, .value (m.get t), by simp only [stepM, ItM.index, h1, h3], ?_, hr⟩
      simp only [Plain.step, plain_get, if_neg (show ¬ p + n < 0 by omega), h3, Option.map_some]
    · refine .inr ⟨by simp only [stepM, ItM.index, h1], ?_⟩
      rcases h2 with h2 | h2 <;> simp [Plain.step, plain_get, h2]
  | write v =>
    rcases place_get xs p with ⟨k, t, h1, h2, rfl, h3⟩ | ⟨h1, h2⟩
    · refine .inl ⟨xs.set p.toNat (m.set v t), p, .nothing, by simp only [stepM, ItM.assign, h1, h3], ?_, ?_⟩
      · simp only [Plain.step, plain_get, if_neg (show ¬ p < 0 by omega), h3, Option.map_some]
        rw [List.map_set, hm.get_set]
      · refine forall₂_set hr _ _ (fun x hx => ?_)
        rw [h3] at hx
        cases hx
        exact ⟨v, rfl⟩
    · refine .inr ⟨by simp only [stepM, ItM.assign, h1], ?_⟩
      rcases h2 with h2 | h2 <;> simp [Plain.step, plain_get, h2]

/-- C116: an iterator to a member does what a plain iterator over the values of the member does, for any sequence of
operations; the other members of the objects do not change.  What is undefined is undefined for both. -/
theorem C116_members {m : Member T R} (hm : m.Lawful) (xs : List T) (p : Int) (ops : List (Op R)) :
    (runM (xs, ⟨p, m⟩) ops).1 = ((Plain.mk (xs.map m.get) p).run ops).1 ∧
    ((∃ xs' p', (runM (xs, ⟨p, m⟩) ops).2 = .ok (xs', ⟨p', m⟩) ∧
      ((Plain.mk (xs.map m.get) p).run ops).2 = .ok ⟨xs'.map m.get, p'⟩ ∧ List.Forall₂ (SameRest m) xs xs') ∨
     ((runM (xs, ⟨p, m⟩) ops).2 = .error .ub ∧ ((Plain.mk (xs.map m.get) p).run ops).2 = .error .ub)) := by
  induction ops generalizing xs p with
  | nil => exact ⟨rfl, .inl ⟨xs, p, rfl, rfl, List.forall₂_same.2 (fun t _ => sameRest_refl hm t)⟩⟩
  | cons o l ih =>
    rcases stepM_plain hm xs p o with ⟨xs', p', a, h1, h2, h3⟩ | ⟨h1, h2⟩
    · obtain ⟨i1, i2⟩ := ih xs' p'
      simp only [runM, Plain.run, h1, h2]
      refine ⟨by rw [i1], ?_⟩
      rcases i2 with ⟨ys, q, j1, j2, j3⟩ | j
      · exact .inl ⟨ys, q, j1, j2, forall₂_trans (Q := SameRest m) (fun _ _ _ h h' => sameRest_trans hm h h') h3 j3⟩
      · exact .inr j
    · simp only [runM, Plain.run, h1, h2]
      exact ⟨trivial, .inr ⟨trivial, trivial⟩⟩

/-- The second part of a pair. -/
def exPart : Member (Nat × Nat) Nat := ⟨(·.2), fun v t => (t.1, v)⟩

theorem exPart_lawful : exPart.Lawful := ⟨fun _ _ => rfl, fun _ => rfl, fun _ _ _ => rfl⟩

example : runM ([(1, 10), (2, 20), (3, 30)], ⟨0, exPart⟩)
      [.read, .postInc, .read, .write 25, .readAt 1, .plus 2, .addAssign 2, .preDec, .read, .subAssign 1, .read] =
    ([.value 10, .at 0, .value 20, .nothing, .value 30, .at 3, .at 3, .at 2, .value 30, .at 1, .value 25],
      .ok ([(1, 10), (2, 25), (3, 30)], ⟨1, exPart⟩)) := rfl

/-! ## Pointers -/

theorem pointsTo_get {h : Heap T} {ps : List Ptr} {ts : List T} (hp : PointsTo h ps ts) (k : Nat) :
    (∃ a t, ps[k]? = some (some a) ∧ ts[k]? = some t ∧ h a = some t) ∨ ps[k]? = none ∧ ts[k]? = none := by
  induction hp generalizing k with
  | nil => simp
  | cons h0 _ ih =>
    cases k with
    | zero =>
      obtain ⟨a, rfl, h2⟩ := h0
      exact .inl ⟨a, _, rfl, rfl, h2⟩
    | succ k => simpa using ih k

theorem pointsTo_length {h : Heap T} {ps : List Ptr} {ts : List T} (hp : PointsTo h ps ts) : ps.length = ts.length :=
  hp.length_eq

theorem pointsTo_put {h : Heap T} {ps : List Ptr} {ts : List T} (hn : ps.Nodup) (hp : PointsTo h ps ts) (k a : Nat) (t' : T)
    (hk : ps[k]? = some (some a)) : PointsTo (h.put a t') ps (ts.set k t') := by
  have frame : ∀ {ps : List Ptr} {ts : List T}, PointsTo h ps ts → (some a) ∉ ps → PointsTo (h.put a t') ps ts := by
    intro ps ts hp hnot
    induction hp with
    | nil => exact .nil
    | cons h0 _ ih =>
      obtain ⟨b, rfl, h2⟩ := h0
      refine .cons ⟨b, rfl, ?_⟩ (ih (fun hh => hnot (by simp [hh])))
      have hb : b ≠ a := fun hb => hnot (by simp [hb])
      simp [Heap.put, hb, h2]
  induction hp generalizing k with
  | nil => simp at hk
  | cons h0 h1 ih =>
    rw [List.nodup_cons] at hn
    cases k with
    | zero =>
      obtain rfl : _ = some a := Option.some.inj (by simpa using hk)
      exact .cons ⟨a, rfl, by simp [Heap.put]⟩ (frame h1 hn.1)
    | succ k =>
      have hk' := by simpa using hk
      refine .cons ?_ (ih hn.2 k hk')
      obtain ⟨b, rfl, h2⟩ := h0
      refine ⟨b, rfl, ?_⟩
      have hb : b ≠ a := fun hb => hn.1 (by rw [hb]; exact List.mem_of_getElem? hk')
      simp [Heap.put, hb, h2]

/-- C116: the same for pointers to different objects: the values are those of the objects that are pointed to, and no other
object changes. -/
theorem C116_pointers {m : Member T R} {ps : List Ptr} (hn : ps.Nodup) (h : Heap T) (ts : List T)
    (hp : PointsTo h ps ts) (p : Int) (ops : List (Op R)) (ho : ∀ n, Op.readAt n ∉ ops) :
    (runP ps (h, ⟨p, m⟩) ops).1 = (runM (ts, ⟨p, m⟩) ops).1 ∧
    ((∃ h' ts' p', (runP ps (h, ⟨p, m⟩) ops).2 = .ok (h', ⟨p', m⟩) ∧ (runM (ts, ⟨p, m⟩) ops).2 = .ok (ts', ⟨p', m⟩) ∧
        PointsTo h' ps ts' ∧ ∀ a, some a ∉ ps → h' a = h a) ∨
     ((runP ps (h, ⟨p, m⟩) ops).2 = .error .ub ∧ (runM (ts, ⟨p, m⟩) ops).2 = .error .ub)) := by
  induction ops generalizing h ts p with
  | nil => exact ⟨rfl, .inl ⟨h, ts, p, rfl, rfl, hp, fun _ _ => rfl⟩⟩
  | cons o l ih =>
    have hl := pointsTo_length hp
    have key : (∃ h' ts' p' a, stepP ps (h, ⟨p, m⟩) o = .ok ((h', ⟨p', m⟩), a) ∧
          stepM (ts, ⟨p, m⟩) o = .ok ((ts', ⟨p', m⟩), a) ∧ PointsTo h' ps ts' ∧ ∀ a, some a ∉ ps → h' a = h a) ∨
        (stepP ps (h, ⟨p, m⟩) o = .error .ub ∧ stepM (ts, ⟨p, m⟩) o = .error .ub) := by
      have hmove : ∀ n : Int, move ts.length p n = .ok (p + n) ∨ move ts.length p n = .error .ub := by
        intro n
        rw [move]
        split_ifs
        · exact .inl rfl
        · exact .inr rfl
      cases o with
      | preInc =>
        rcases hmove 1 with h1 | h1
        · exact .inl ⟨h, ts, _, _, by simp only [stepP, ItM.preInc, hl, h1]; rfl, by simp only [stepM, ItM.preInc, h1], hp, fun _ _ => rfl⟩
        · exact .inr ⟨by simp only [stepP, ItM.preInc, hl, h1], by simp only [stepM, ItM.preInc, h1]⟩
      | postInc =>
        rcases hmove 1 with h1 | h1
        · exact .inl ⟨h, ts, _, _, by simp only [stepP, ItM.postInc, hl, h1]; rfl, by simp only [stepM, ItM.postInc, h1], hp, fun _ _ => rfl⟩
        · exact .inr ⟨by simp only [stepP, ItM.postInc, hl, h1], by simp only [stepM, ItM.postInc, h1]⟩
      | preDec =>
        rcases hmove (-1) with h1 | h1
        · exact .inl ⟨h, ts, _, _, by simp only [stepP, ItM.preDec, hl, h1]; rfl, by simp only [stepM, ItM.preDec, h1], hp, fun _ _ => rfl⟩
        · exact .inr ⟨by simp only [stepP, ItM.preDec, hl, h1], by simp only [stepM, ItM.preDec, h1]⟩
      | postDec =>
        rcases hmove (-1) with h1 | h1
        · exact .inl ⟨h, ts, _, _, by simp only [stepP, ItM.postDec, hl, h1]; rfl, by simp only [stepM, ItM.postDec, h1], hp, fun _ _ => rfl⟩
        · exact .inr ⟨by simp only [stepP, ItM.postDec, hl, h1], by simp only [stepM, ItM.postDec, h1]⟩
      | addAssign n =>
        rcases hmove n with h1 | h1
        · exact .inl ⟨h, ts, _, _, by simp only [stepP, ItM.addAssign, hl, h1]; rfl, by simp only [stepM, ItM.addAssign, h1], hp, fun _ _ => rfl⟩
        · exact .inr ⟨by simp only [stepP, ItM.addAssign, hl, h1], by simp only [stepM, ItM.addAssign, h1]⟩
      | subAssign n =>
        rcases hmove (-n) with h1 | h1
        · exact .inl ⟨h, ts, _, _, by simp only [stepP, ItM.subAssign, hl, h1]; rfl, by simp only [stepM, ItM.subAssign, h1], hp, fun _ _ => rfl⟩
        · exact .inr ⟨by simp only [stepP, ItM.subAssign, hl, h1], by simp only [stepM, ItM.subAssign, h1]⟩
      | plus n =>
        rcases hmove n with h1 | h1
        · exact .inl ⟨h, ts, _, _, by simp only [stepP, ItM.plus, hl, h1]; rfl, by simp only [stepM, ItM.plus, h1], hp, fun _ _ => rfl⟩
        · exact .inr ⟨by simp only [stepP, ItM.plus, hl, h1], by simp only [stepM, ItM.plus, h1]⟩
      | minus n =>
        rcases hmove (-n) with h1 | h1
        · exact .inl ⟨h, ts, _, _, by simp only [stepP, ItM.minus, hl, h1]; rfl, by simp only [stepM, ItM.minus, h1], hp, fun _ _ => rfl⟩
        · exact .inr ⟨by simp only [stepP, ItM.minus, hl, h1], by simp only [stepM, ItM.minus, h1]⟩
      | readAt n => exact absurd List.mem_cons_self (ho n)
      | read =>
        rcases hk : place ts.length p with e | k
        · have he : e = .ub := by rw [place_eq] at hk; split_ifs at hk; cases hk; rfl
          subst he
          exact .inr ⟨by simp only [stepP, ItM.pstar, hl, hk], by simp only [stepM, ItM.star, hk]⟩
        · rcases pointsTo_get hp k with ⟨a, t, h1, h2, h3⟩ | ⟨h1, h2⟩
          · exact .inl ⟨h, ts, p, .value (m.get t), by simp only [stepP, ItM.pstar, hl, hk, h1, follow, h3],
              by simp only [stepM, ItM.star, hk, h2], hp, fun _ _ => rfl⟩
          · exact .inr ⟨by simp only [stepP, ItM.pstar, hl, hk, h1], by simp only [stepM, ItM.star, hk, h2]⟩
      | write v =>
        rcases hk : place ts.length p with e | k
        · have he : e = .ub := by rw [place_eq] at hk; split_ifs at hk; cases hk; rfl
          subst he
          exact .inr ⟨by simp only [stepP, ItM.passign, hl, hk], by simp only [stepM, ItM.assign, hk]⟩
        · rcases pointsTo_get hp k with ⟨a, t, h1, h2, h3⟩ | ⟨h1, h2⟩
          · refine .inl ⟨h.put a (m.set v t), ts.set k (m.set v t), p, .nothing,
              by simp only [stepP, ItM.passign, hl, hk, h1, follow, h3],
              by simp only [stepM, ItM.assign, hk, h2], pointsTo_put hn hp k a _ h1, fun b hb => ?_⟩
            have : b ≠ a := fun hba => hb (by rw [hba]; exact List.mem_of_getElem? h1)
            simp [Heap.put, this]
          · exact .inr ⟨by simp only [stepP, ItM.passign, hl, hk, h1], by simp only [stepM, ItM.assign, hk, h2]⟩
    rcases key with ⟨h', ts', p', a, k1, k2, k3, k4⟩ | ⟨k1, k2⟩
    · obtain ⟨i1, i2⟩ := ih h' ts' k3 p' (fun n hh => ho n (by simp [hh]))
      simp only [runP, runM, k1, k2]
      refine ⟨by rw [i1], ?_⟩
      rcases i2 with ⟨h2, ts2, p2, j1, j2, j3, j4⟩ | j
      · exact .inl ⟨h2, ts2, p2, j1, j2, j3, fun a ha => (j4 a ha).trans (k4 a ha)⟩
      · exact .inr j
    · simp only [runP, runM, k1, k2]
      exact ⟨trivial, .inr ⟨trivial, trivial⟩⟩

/-- Two objects. -/
def exHeap : Heap (Nat × Nat) := fun a => if a = 7 then some (1, 10) else if a = 3 then some (2, 20) else none

example : PointsTo exHeap [some 7, some 3] [(1, 10), (2, 20)] ∧ [some 7, some 3].Nodup ∧
    (runP [some 7, some 3] (exHeap, ⟨0, exPart⟩) [.preInc, .read, .write 5, .read, .postDec, .read]).1 =
      [.at 1, .value 20, .nothing, .value 5, .at 1, .value 10] :=
  ⟨.cons ⟨7, rfl, rfl⟩ (.cons ⟨3, rfl, rfl⟩ .nil), by decide, rfl⟩

/-! ## Ranges -/

/-- C116: positions are compared and subtracted like those of the container. -/
theorem C116_compare (i j : ItM T R) : i.diff j = i.it - j.it ∧ (i.eq j = true ↔ i.it = j.it) ∧ (i.ne j = true ↔ i.it ≠ j.it) := by
  simp [ItM.diff, ItM.eq, ItM.ne]

theorem readRange_run {m : Member T R} (star : ItM T R → Res R) (ts : List T)
    (hs : ∀ (k : Nat) t, ts[k]? = some t → star ⟨k, m⟩ = .ok (m.get t)) (d k fuel : Nat) (hd : k + d = ts.length) (hf : d < fuel) :
    readRange star ts.length fuel ⟨k, m⟩ ⟨ts.length, m⟩ = some (.ok ((ts.drop k).map m.get)) := by
  induction d generalizing k fuel with
  | zero =>
    obtain ⟨fuel, rfl⟩ : ∃ n, fuel = n + 1 := ⟨fuel - 1, by omega⟩
    rw [readRange, if_neg (by simp [ItM.ne]; omega), List.drop_eq_nil_of_le (by omega)]
    rfl
  | succ d ih =>
    obtain ⟨fuel, rfl⟩ : ∃ n, fuel = n + 1 := ⟨fuel - 1, by omega⟩
    have hk : k < ts.length := by omega
    rw [readRange, if_pos (by simp [ItM.ne]; omega), hs k ts[k] (List.getElem?_eq_getElem hk)]
    have hm : move ts.length (k : Int) 1 = .ok ((k + 1 : Nat) : Int) := by
      rw [move, if_pos (by omega)]
      rfl
    simp only [ItM.preInc, hm]
    rw [ih (k + 1) fuel (by omega) (by omega), List.drop_eq_getElem_cons hk]
    rfl

/-- C116: a range of iterators to members gives the members of all elements, in order; so the weights that
`std::discrete_distribution` gets are those of the decays. -/
theorem C116_range (m : Member T R) (ts : List T) (fuel : Nat) (hf : ts.length < fuel) :
    readRange (fun i => i.star ts) ts.length fuel ⟨0, m⟩ ⟨ts.length, m⟩ = some (.ok (ts.map m.get)) := by
  have h := readRange_run (m := m) (fun i => i.star ts) ts (fun k t hk => ?_) ts.length 0 fuel (by omega) hf
  · simpa using h
  · obtain ⟨h1, -⟩ := List.getElem?_eq_some_iff.1 hk
    have hp : place ts.length (k : Int) = .ok k := by rw [place, if_pos (by omega)]; rfl
    simp only [ItM.star, hp, hk]

/-- C116: likewise for pointers. -/
theorem C116_pointer_range (m : Member T R) {h : Heap T} {ps : List Ptr} {ts : List T} (hp : PointsTo h ps ts) (fuel : Nat)
    (hf : ps.length < fuel) :
    readRange (fun i => i.pstar h ps) ps.length fuel ⟨0, m⟩ ⟨ps.length, m⟩ = some (.ok (ts.map m.get)) := by
  have hl := pointsTo_length hp
  rw [hl] at hf ⊢
  have h := readRange_run (m := m) (fun i => i.pstar h ps) ts (fun k t hk => ?_) ts.length 0 fuel (by omega) hf
  · simpa using h
  · obtain ⟨h1, -⟩ := List.getElem?_eq_some_iff.1 hk
    have hpl : place ts.length (k : Int) = .ok k := by rw [place, if_pos (by omega)]; rfl
    rcases pointsTo_get hp k with ⟨a, t', j1, j2, j3⟩ | ⟨-, j2⟩
    · rw [hk] at j2
      cases j2
      simp only [ItM.pstar, hl, hpl, j1, follow, j3]
    · rw [hk] at j2; cases j2

/-- C116: a null pointer makes reading undefined. -/
theorem C116_null (m : Member T R) (h : Heap T) (ps : List Ptr) (k : Nat) (hk : ps[k]? = some none) :
    (ItM.mk (k : Int) m).pstar h ps = .error .ub := by
  obtain ⟨h1, -⟩ := List.getElem?_eq_some_iff.1 hk
  have hpl : place ps.length (k : Int) = .ok k := by rw [place, if_pos (by omega)]; rfl
  simp only [ItM.pstar, hpl, hk, follow]

example : readRange (fun i => i.pstar exHeap [some 7, some 3]) 2 5 ⟨0, exPart⟩ ⟨2, exPart⟩ = some (.ok [10, 20]) :=
  C116_pointer_range exPart (h := exHeap) (ps := [some 7, some 3]) (ts := [(1, 10), (2, 20)])
    (.cons ⟨7, rfl, rfl⟩ (.cons ⟨3, rfl, rfl⟩ .nil)) 5 (by decide)

end Marley.Props
