import Verif.Lemmas.JsonOps

/-!
# Operations on JSON objects, and programs
-/

set_option autoImplicit false

namespace Marley.JsonHeap
open Marley Marley.Json Marley.JsonValue

variable {K : Type}

/-! ## Stores -/

/-- The address of the container a reference points into. -/
def Loc.addr : Loc → Option Nat
  | .var _ => none
  | .member p _ => some p
  | .item p _ => some p

theorem store_frame {s s' : Mem K} {ℓ : Loc} {c : Cell K} (h : s.store ℓ c = .ok s') :
    s'.heap.next = s.heap.next ∧ (∀ a, ℓ.addr ≠ some a → s'.heap.node a = s.heap.node a) ∧
      ∀ a, s'.heap.node a ≠ none → s.heap.node a ≠ none := by
  cases ℓ with
  | var i =>
    simp only [Mem.store] at h
    split at h
    · injection h with h; subst h; exact ⟨rfl, fun _ _ => rfl, fun _ h => h⟩
    · cases h
  | member p k =>
    simp only [Mem.store] at h
    split at h
    · rename_i m hm
      injection h with h
      subst h
      refine ⟨rfl, fun a ha => ?_, fun a ha => ?_⟩
      · have : a ≠ p := fun e => ha (by rw [e]; rfl)
        simp [Heap.write, this]
      · by_cases e : a = p
        · rw [e, hm]; simp
        · simpa [Heap.write, e] using ha
    · cases h
  | item p n =>
    simp only [Mem.store] at h
    split at h
    · rename_i m hm
      split at h
      · injection h with h
        subst h
        refine ⟨rfl, fun a ha => ?_, fun a ha => ?_⟩
        · have : a ≠ p := fun e => ha (by rw [e]; rfl)
          simp [Heap.write, this]
        · by_cases e : a = p
          · rw [e, hm]; simp
          · simpa [Heap.write, e] using ha
      · cases h
    · cases h

theorem refTo_addr (q : Nat) (s : Step) : (refTo q s).addr = some q := by cases s <;> rfl

theorem loc_addr {n : Nat} {t u : Tree K} {i : Nat} {p : List Step} {ℓ : Loc} {a : Nat}
    (hf : Fits n t) (hu : t.sub p = some u) (hl : t.loc (.var i) p = some ℓ) (ha : ℓ.addr = some a) :
    a ∈ t.addrs ∧ a ∉ u.addrs := by
  rcases List.eq_nil_or_concat p with rfl | ⟨p, st, rfl⟩
  · simp only [Tree.loc, Option.some.injEq] at hl
    subst hl
    simp [Loc.addr] at ha
  · rw [List.concat_eq_append] at hu hl
    obtain ⟨o, q, l, e, g1, g2, rfl, rfl⟩ := last_step hu hl
    rw [refTo_addr] at ha
    injection ha with ha
    subst ha
    have hfi := fits_sub g1 hf
    refine ⟨addrs_sub g1 (by rw [addrs_cont]; simp), fun hc => ?_⟩
    obtain ⟨l1, l2, k, e1, -⟩ := setEntry_split g2
    have := hfi.nodup
    rw [addrs_cont, List.nodup_cons] at this
    exact this.1 (mem_addrsL.2 ⟨e, by rw [e1]; simp, hc⟩)

/-- A tree is dropped without being destroyed. -/
theorem Change.lose {h h1 : Heap K} {u : Tree K} (hn : ∀ a, h1.next ≤ a → h1.node a = none)
    (h2 : h1.next = h.next) (h3 : ∀ a, a ∉ u.addrs → h1.node a = h.node a) (x : Prim K) {y : Bool}
    (hy : y = true → u.addrs = []) : Change y h h1 u (.prim x) where
  next := h2.ge
  fresh := hn
  frame a _ ha := h3 a ha
  stored := stored_prim _ _
  nodup := by rw [addrs_prim]; exact .nil
  range := by simp [addrs_prim]
  lt := by simp [addrs_prim]
  exact hy' a hl hr := by
    rw [hy hy'] at hr
    rcases hr with hr | hr
    · simp at hr
    · exact absurd (hn a (by omega)) hl

/-- The object at the end of a path becomes null, and its storage that of the temporary
object. -/
theorem Sim.take {x : Bool} {s : Mem K} {ω : Option Nat → Option (Tree K)} {j : Nat} {t v : Tree K}
    {q : List Step} {ℓ : Loc} (S : Sim x s ω) (h0 : ω none = none) (hj : ω (some j) = some t)
    (hv : t.sub q = some v) (hl : t.loc (.var j) q = some ℓ) :
    ∃ s', s.store ℓ (.prim .null) = .ok s' ∧
      Sim x s' (upd (upd ω (some j) (some (t.set q (.prim .null)))) none (some v)) := by
  have hf := S.fits _ _ hj
  obtain ⟨s', a1, a2⟩ := S.store hj hv hl (u' := .prim .null) (h1 := s.heap) (y := false)
    (Change.lose S.fresh rfl (fun _ _ => rfl) .null (by simp))
  have a1 : s.store ℓ (.prim .null) = .ok s' := a1
  obtain ⟨f1, f2, f3⟩ := store_frame a1
  obtain ⟨A, hA, hB⟩ := addrs_set hv
  have hB0 : ∀ a, a ∈ (t.set q (.prim .null)).addrs ↔ a ∈ A := fun a => by
    rw [(hB (.prim .null)).mem_iff, addrs_prim, List.append_nil]
  have hnd := hA.nodup_iff.1 hf.nodup
  have hfv := fits_sub hv hf
  have hsv := stored_sub hv (S.stored _ _ hj)
  have hvo : ∀ k u, k ≠ none → upd ω (some j) (some (t.set q (.prim .null))) k = some u →
      ∀ a ∈ v.addrs, a ∉ u.addrs := by
    intro k u hk hu a ha hc
    by_cases hkj : k = some j
    · subst hkj
      rw [upd_same] at hu
      injection hu with hu
      subst hu
      rw [hB0] at hc
      exact (List.nodup_append.1 hnd).2.2 a hc a ha rfl
    · rw [upd_other hkj] at hu
      exact S.apart k _ u t hkj hu hj a hc (addrs_sub hv ha)
  refine ⟨s', a1, fun i => ?_, fun k u hk => ?_, fun k u hk => ?_, fun k l u w hkl hk hl' a ha => ?_,
    a2.fresh, fun hx a hla => ?_⟩
  · rw [upd_other (by simp)]; exact a2.vars i
  · by_cases h : k = none
    · subst h
      rw [upd_same] at hk
      injection hk with hk
      subst hk
      exact hsv.frame fun a ha => f2 a fun hc => (loc_addr hf hv hl hc).2 ha
    · rw [upd_other h] at hk; exact a2.stored k u hk
  · by_cases h : k = none
    · subst h
      rw [upd_same] at hk
      injection hk with hk
      subst hk
      rw [f1]; exact hfv
    · rw [upd_other h] at hk; exact a2.fits k u hk
  · by_cases h : k = none
    · subst h
      rw [upd_same] at hk
      injection hk with hk
      subst hk
      rw [upd_other (Ne.symm hkl)] at hl'
      exact hvo l w (Ne.symm hkl) hl' a ha
    · rw [upd_other h] at hk
      by_cases h' : l = none
      · subst h'
        rw [upd_same] at hl'
        injection hl' with hl'
        subst hl'
        exact fun hc => hvo k u h hk a hc ha
      · rw [upd_other h'] at hl'
        exact a2.apart k l u w hkl hk hl' a ha
  · obtain ⟨k, u, hk, ha⟩ := S.exact hx a (f3 a hla)
    have hk0 : k ≠ none := fun e => by rw [e, h0] at hk; cases hk
    by_cases hkj : k = some j
    · subst hkj
      rw [hj] at hk
      injection hk with hk
      subst hk
      rcases List.mem_append.1 (hA.mem_iff.1 ha) with h | h
      · exact ⟨some j, _, by rw [upd_other (by simp), upd_same], (hB0 a).2 h⟩
      · exact ⟨none, v, upd_same _ _ _, h⟩
    · exact ⟨k, u, by rw [upd_other hk0, upd_other hkj]; exact hk, ha⟩

/-- The temporary object becomes a variable. -/
theorem Sim.give {x : Bool} {s : Mem K} {ω : Option Nat → Option (Tree K)} {i : Nat} {v : Tree K}
    {V : Nat → Option (Cell K)} (S : Sim x s ω) (h0 : ω none = some v) (hi : ω (some i) = none)
    (hV : ∀ j, V j = if j = i then some v.cell else s.vars j) :
    Sim x ⟨s.heap, V⟩ (upd (upd ω (some i) (some v)) none none) := by
  have key : ∀ k t, upd (upd ω (some i) (some v)) none none k = some t →
      k ≠ none ∧ ω (if k = some i then none else k) = some t := by
    intro k t hk
    have h : k ≠ none := fun e => by rw [e, upd_same] at hk; cases hk
    rw [upd_other h] at hk
    refine ⟨h, ?_⟩
    by_cases hki : k = some i
    · rw [hki, upd_same] at hk
      rw [if_pos hki, h0]; exact hk
    · rw [upd_other hki] at hk
      rw [if_neg hki]; exact hk
  refine ⟨fun j => ?_, fun k u hk => S.stored _ u (key k u hk).2, fun k u hk => S.fits _ u (key k u hk).2,
    fun k l u w hkl hk hl a ha => ?_, S.fresh, fun hx a hla => ?_⟩
  · show V j = _
    rw [hV j, upd_other (by simp)]
    by_cases h : j = i
    · rw [if_pos h, h, upd_same]; rfl
    · rw [if_neg h, upd_other (by simpa using h)]; exact S.vars j
  · obtain ⟨a1, a2⟩ := key k u hk
    obtain ⟨b1, b2⟩ := key l w hl
    refine S.apart _ _ u w ?_ a2 b2 a ha
    by_cases h1 : k = some i
    · have h2 : l ≠ some i := fun e => hkl (h1.trans e.symm)
      rw [if_pos h1, if_neg h2]; exact Ne.symm b1
    · rw [if_neg h1]
      by_cases h2 : l = some i
      · rw [if_pos h2]; exact a1
      · rw [if_neg h2]; exact hkl
  · obtain ⟨k, u, hk, ha⟩ := S.exact hx a hla
    by_cases h : k = none
    · subst h
      rw [h0] at hk
      exact ⟨some i, u, by rw [upd_other (by simp), upd_same]; exact hk, ha⟩
    · have : k ≠ some i := fun e => by rw [e, hi] at hk; cases hk
      exact ⟨k, u, by rw [upd_other h, upd_other this]; exact hk, ha⟩

/-- The storage of the temporary object is given to an object. -/
theorem Sim.put {x y : Bool} {s : Mem K} {ω : Option Nat → Option (Tree K)} {i : Nat} {t u v : Tree K}
    {p : List Step} {ℓ : Loc} (S : Sim x s ω) (h0 : ω none = some v) (hi : ω (some i) = some t)
    (hu : t.sub p = some u) (hl : t.loc (.var i) p = some ℓ) (hy : y = true → u.addrs = []) :
    ∃ s', s.store ℓ v.cell = .ok s' ∧
      Sim (x && y) s' (upd (upd ω (some i) (some (t.set p v))) none none) := by
  have hv := S.fits _ _ h0
  have c : ChangeN (fun a => s.heap.next ≤ a ∨ a ∈ v.addrs) y s.heap s.heap u v :=
    ⟨le_rfl, S.fresh, fun _ _ _ => rfl, S.stored _ _ h0, hv.nodup, fun a ha => .inr (.inr ha), hv.lt,
      fun hy' a hl hr => by
        rw [hy hy'] at hr
        rcases hr with hr | hr | hr
        · simp at hr
        · exact absurd (S.fresh a hr) hl
        · exact hr⟩
  obtain ⟨s', a1, a2, a3⟩ := S.store_change hi hu hl c fun a ha hc => by
    rcases hc with hc | hc
    · have := (S.fits _ _ hi).lt a ha; omega
    · exact S.apart _ _ _ _ (by simp) hi h0 a ha hc
  refine ⟨s', a1, ?_⟩
  refine S.changeN hi a2 (by rw [upd_other (by simp), upd_same]) (fun _ h => .inl h) (fun j w hj hw => ?_)
    (fun j w hj hw => ?_) fun j => ?_
  · have h : j ≠ none := fun e => by rw [e, upd_same] at hw; cases hw
    rw [upd_other h, upd_other hj] at hw
    refine ⟨hw, fun a ha hc => ?_⟩
    rcases hc with hc | hc
    · have := (S.fits _ _ hw).lt a ha; omega
    · exact S.apart _ _ _ _ h hw h0 a ha hc
  · by_cases h : j = none
    · subst h
      rw [h0] at hw
      injection hw with hw
      subst hw
      exact .inr fun a ha => .inr ha
    · rw [upd_other h, upd_other hj]; exact .inl hw
  · rw [a3, upd_other (by simp)]
    by_cases h : some j = some i
    · rw [if_pos h, h, upd_same]; rfl
    · rw [if_neg h, upd_other h]; exact S.vars j

/-- Storage that nobody owns may change. -/
theorem Sim.garbage {s : Mem K} {ω : Option Nat → Option (Tree K)} {h1 : Heap K} (S : Sim false s ω)
    (h2 : h1.next = s.heap.next)
    (h3 : ∀ i t, ω i = some t → ∀ a ∈ t.addrs, h1.node a = s.heap.node a)
    (h4 : ∀ a, h1.node a ≠ none → s.heap.node a ≠ none) : Sim false ⟨h1, s.vars⟩ ω where
  vars := S.vars
  stored i t hi := (S.stored i t hi).frame (h3 i t hi)
  fits i t hi := by show Fits h1.next t; rw [h2]; exact S.fits i t hi
  apart := S.apart
  fresh a ha := by
    have ha : h1.next ≤ a := ha
    by_contra hc
    exact h4 a hc (S.fresh a (by omega))
  exact h := by cases h

/-! ## Representation of the variables -/

/-- The heap state represents the values of the variables. -/
structure Rep (x : Bool) (s : Mem K) (ω : Option Nat → Option (Tree K)) (ρ : Vars K) : Prop where
  sim : Sim x s ω
  tmp : ω none = none
  val : ∀ i, ρ i = (ω (some i)).map Tree.val

theorem Rep.tree {x : Bool} {s : Mem K} {ω : Option Nat → Option (Tree K)} {ρ : Vars K}
    (R : Rep x s ω ρ) {i : Nat} {v : JVal K} (h : ρ i = some v) :
    ∃ t, ω (some i) = some t ∧ t.val = v := by
  rw [R.val] at h
  exact Option.map_eq_some_iff.1 h

theorem Rep.none {x : Bool} {s : Mem K} {ω : Option Nat → Option (Tree K)} {ρ : Vars K}
    (R : Rep x s ω ρ) {i : Nat} (h : ρ i = Option.none) : ω (some i) = Option.none ∧ s.vars i = Option.none := by
  rw [R.val, Option.map_eq_none_iff] at h
  exact ⟨h, by rw [R.sim.vars, h]; rfl⟩

theorem val_upd {ω : Option Nat → Option (Tree K)} {ρ : Vars K} (h : ∀ i, ρ i = (ω (some i)).map Tree.val)
    (j : Nat) (t : Tree K) (k : Nat) :
    ρ.set j t.val k = (upd ω (some j) (some t) (some k)).map Tree.val := by
  by_cases hk : k = j
  · subst hk; rw [upd_same]; simp [Vars.set]
  · rw [upd_other (by simpa using hk)]
    simp only [Vars.set, hk, if_false]; exact h k

theorem Rep.touch [Zero K] {x : Bool} {s : Mem K} {ω : Option Nat → Option (Tree K)} {ρ ρ' : Vars K}
    (R : Rep x s ω ρ) {i : Nat} {p : List Step} (hr : InRange p) (h : ρ.touch i p = some ρ') :
    ∃ s' t t' u' ℓ, ω (some i) = some t ∧ s.path (.var i) p = .ok (s', ℓ) ∧
      Rep x s' (upd ω (some i) (some t')) ρ' ∧ t'.sub p = some u' ∧ t'.loc (.var i) p = some ℓ ∧
      ∀ q ℓq, t.loc (.var i) q = some ℓq → t'.loc (.var i) q = some ℓq ∨ Broken q p := by
  obtain ⟨v, h1, rfl⟩ := Option.map_eq_some_iff.1 h
  obtain ⟨t, h2, rfl⟩ := R.tree h1
  obtain ⟨s', t', ℓ, a1, a2, a3, a4, a5, a6⟩ := R.sim.path (p := []) p h2 rfl rfl hr
  obtain ⟨u', a3⟩ := Option.isSome_iff_exists.1 a3
  refine ⟨s', t, t', u', ℓ, h2, a1, ⟨a2, ?_, fun k => ?_⟩, a3, a4, a6⟩
  · rw [upd_other (by simp)]; exact R.tmp
  · rw [← val_upd R.val, a5]; rfl

/-- Two paths, one after the other. -/
theorem Rep.two [Zero K] {x : Bool} {s : Mem K} {ω : Option Nat → Option (Tree K)} {ρ ρ1 ρ' : Vars K}
    (R : Rep x s ω ρ) {i j : Nat} {p q : List Step} (hp : InRange p) (hq : InRange q)
    (h1 : ρ.touch i p = some ρ1) (h2 : ρ1.touch j q = some ρ') {a w' : JVal K} (ha : ρ' i = some a)
    (hw : lookPath a p = some w') :
    ∃ s1 s' ω' ti tj u v ℓp ℓq, s.path (.var i) p = .ok (s1, ℓp) ∧ s1.path (.var j) q = .ok (s', ℓq) ∧
      Rep x s' ω' ρ' ∧ ω' (some i) = some ti ∧ ω' (some j) = some tj ∧ ti.sub p = some u ∧
      ti.loc (.var i) p = some ℓp ∧ tj.sub q = some v ∧ tj.loc (.var j) q = some ℓq := by
  obtain ⟨s1, t0, t1, u1, ℓp, a1, a2, R1, a4, a5, -⟩ := R.touch hp h1
  obtain ⟨s', t2, tj, v, ℓq, b1, b2, R2, b4, b5, b6⟩ := R1.touch hq h2
  by_cases hij : i = j
  · subst hij
    rw [upd_same] at b1
    injection b1 with b1
    subst b1
    have hs : ∃ u, tj.sub p = some u := by
      have := R2.val i
      rw [upd_same, ha] at this
      simp only [Option.map_some, Option.some.injEq] at this
      rw [this, lookPath_val] at hw
      obtain ⟨u, hu, -⟩ := Option.map_eq_some_iff.1 hw
      exact ⟨u, hu⟩
    obtain ⟨u, hu⟩ := hs
    refine ⟨s1, s', _, tj, tj, u, v, ℓp, ℓq, a2, b2, R2, upd_same _ _ _, upd_same _ _ _, hu, ?_, b4, b5⟩
    rcases b6 p ℓp a5 with h | h
    · exact h
    · rw [h.none b4] at hu; cases hu
  · refine ⟨s1, s', _, t1, tj, u1, v, ℓp, ℓq, a2, b2, R2, ?_, upd_same _ _ _, a4, a5, b4, b5⟩
    rw [upd_other (by simpa using hij), upd_same]

theorem Rep.sides [Zero K] {x : Bool} {s : Mem K} {ω : Option Nat → Option (Tree K)} {ρ ρ' : Vars K}
    (R : Rep x s ω ρ) {right : Bool} {i j : Nat} {p q : List Step} (hp : InRange p) (hq : InRange q)
    (h : ρ.both right i p j q = some ρ') {a b w w' : JVal K} (ha : ρ' i = some a) (hb : ρ' j = some b)
    (hw' : lookPath a p = some w') (hw : lookPath b q = some w) :
    ∃ s' ω' ti tj u v ℓp ℓq, s.sides right i p j q = .ok (s', ℓp, ℓq) ∧
      Rep x s' ω' ρ' ∧ ω' (some i) = some ti ∧ ω' (some j) = some tj ∧ ti.val = a ∧ tj.val = b ∧
      ti.sub p = some u ∧ u.val = w' ∧
      ti.loc (.var i) p = some ℓp ∧ tj.sub q = some v ∧ v.val = w ∧ tj.loc (.var j) q = some ℓq := by
  have fin : ∀ {s' : Mem K} {ω' : Option Nat → Option (Tree K)} {ti tj u v : Tree K}, Rep x s' ω' ρ' →
      ω' (some i) = some ti → ω' (some j) = some tj → ti.sub p = some u → tj.sub q = some v →
      ti.val = a ∧ tj.val = b ∧ u.val = w' ∧ v.val = w := by
    intro s' ω' ti tj u v R' h1 h2 h3 h4
    have e1 := R'.val i
    have e2 := R'.val j
    rw [h1, ha] at e1
    rw [h2, hb] at e2
    simp only [Option.map_some, Option.some.injEq] at e1 e2
    rw [e1, lookPath_val, h3] at hw'
    rw [e2, lookPath_val, h4] at hw
    simp only [Option.map_some, Option.some.injEq] at hw hw'
    exact ⟨e1.symm, e2.symm, hw', hw⟩
  cases right with
  | false =>
    obtain ⟨ρ1, h1, h2⟩ := Option.bind_eq_some_iff.1 h
    obtain ⟨s1, s', ω', ti, tj, u, v, ℓp, ℓq, a1, a2, R', a4, a5, a6, a7, a8, a9⟩ :=
      R.two hp hq h1 h2 ha hw'
    obtain ⟨f1, f2, f3, f4⟩ := fin R' a4 a5 a6 a8
    refine ⟨s', ω', ti, tj, u, v, ℓp, ℓq, ?_, R', a4, a5, f1, f2, a6, f3, a7, a8, f4, a9⟩
    simp [Mem.sides, a1, a2, bind, Except.bind]
  | true =>
    obtain ⟨ρ1, h1, h2⟩ := Option.bind_eq_some_iff.1 h
    obtain ⟨s1, s', ω', tj, ti, v, u, ℓq, ℓp, a1, a2, R', a4, a5, a6, a7, a8, a9⟩ :=
      R.two hq hp h1 h2 hb hw
    obtain ⟨f1, f2, f3, f4⟩ := fin R' a5 a4 a8 a6
    refine ⟨s', ω', ti, tj, u, v, ℓp, ℓq, ?_, R', a5, a4, f1, f2, a8, f3, a9, a6, f4, a7⟩
    simp [Mem.sides, a1, a2, bind, Except.bind]

end Marley.JsonHeap
