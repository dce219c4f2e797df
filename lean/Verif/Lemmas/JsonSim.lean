import Verif.Lemmas.JsonPath

/-!
# What the operations do to the trees of storage
-/

set_option autoImplicit false

namespace Marley.JsonHeap
open Marley Marley.Json Marley.JsonValue

variable {K : Type}

/-- From `h` to `h1` the tree `u` was replaced by `u'`, which may use the addresses of `u`
and those in `N`.  If `x` holds, no storage was lost. -/
structure ChangeN (N : Nat → Prop) (x : Bool) (h h1 : Heap K) (u u' : Tree K) : Prop where
  next : h.next ≤ h1.next
  fresh : ∀ a, h1.next ≤ a → h1.node a = none
  frame : ∀ a, a < h.next → a ∉ u.addrs → h1.node a = h.node a
  stored : Stored h1 u'
  nodup : u'.addrs.Nodup
  range : ∀ a ∈ u'.addrs, a ∈ u.addrs ∨ N a
  lt : ∀ a ∈ u'.addrs, a < h1.next
  exact : x = true → ∀ a, h1.node a ≠ none → a ∈ u.addrs ∨ N a → a ∈ u'.addrs

/-- The same, with new addresses. -/
abbrev Change (x : Bool) (h h1 : Heap K) (u u' : Tree K) : Prop :=
  ChangeN (fun a => h.next ≤ a) x h h1 u u'

theorem Change.refl {h : Heap K} {u : Tree K} (hn : ∀ a, h.next ≤ a → h.node a = none)
    (hs : Stored h u) (hf : Fits h.next u) : Change true h h u u where
  next := le_rfl
  fresh := hn
  frame _ _ _ := rfl
  stored := hs
  nodup := hf.nodup
  range _ ha := .inl ha
  lt := hf.lt
  exact _ a hl hr := hr.resolve_right fun hc => hl (hn a hc)

theorem Change.trans {x y : Bool} {h h1 h2 : Heap K} {u u1 u2 : Tree K} (c : Change x h h1 u u1)
    (d : Change y h1 h2 u1 u2) : Change (x && y) h h2 u u2 where
  next := c.next.trans d.next
  fresh := d.fresh
  frame a ha hu := by
    have hu1 : a ∉ u1.addrs := fun hc => by
      rcases c.range a hc with h | h
      · exact hu h
      · omega
    rw [d.frame a (ha.trans_le c.next) hu1, c.frame a ha hu]
  stored := d.stored
  nodup := d.nodup
  range a ha := by
    rcases d.range a ha with h | h
    · exact c.range a h
    · exact .inr (c.next.trans h)
  lt := d.lt
  exact hxy a hl hr := by
    rw [Bool.and_eq_true] at hxy
    by_cases h1 : h1.next ≤ a
    · exact d.exact hxy.2 a hl (.inr h1)
    · by_cases hu : a ∈ u1.addrs
      · exact d.exact hxy.2 a hl (.inl hu)
      · rw [d.frame a (by omega) hu] at hl
        exact absurd (c.exact hxy.1 a hl hr) hu

theorem Made.fresh {h h' : Heap K} {A : List Nat} (m : Made h h' A)
    (hn : ∀ a, h.next ≤ a → h.node a = none) : ∀ a, h'.next ≤ a → h'.node a = none := by
  intro a ha
  by_contra hc
  rcases m.all a (m.le.trans ha) hc with h | h
  · have := (m.range a h).2; omega
  · exact h (hn a (m.le.trans ha))

theorem Change.made {x : Bool} {h h' : Heap K} {u u' : Tree K} (hn : ∀ a, h.next ≤ a → h.node a = none)
    (m : Made h h' u'.addrs) (hs : Stored h' u') (hx : x = true → u.addrs = []) :
    Change x h h' u u' where
  next := m.le
  fresh := m.fresh hn
  frame a ha _ := m.old a ha
  stored := hs
  nodup := m.nodup
  range a ha := .inr (m.range a ha).1
  lt a ha := (m.range a ha).2
  exact h1 a hl hr := by
    rw [hx h1] at hr
    rcases hr with hr | hr
    · simp at hr
    · exact (m.all a hr hl).resolve_right fun hc => hc (hn a hr)

theorem Change.mono {x y : Bool} {h h1 : Heap K} {u u' : Tree K} (c : Change x h h1 u u')
    (hxy : y = true → x = true) : Change y h h1 u u' :=
  { c with exact := fun hy => c.exact (hxy hy) }

theorem shape_setEntry {o : Bool} {l : List (Str × Tree K)} {s : Step} {e : Str × Tree K}
    (h : entry o l s = some e) {u : Tree K} (hc : u.cell = e.2.cell) :
    shape o (cells (setEntry l s u)) = shape o (cells l) := by
  cases s with
  | key k =>
    cases o with
    | false => simp [entry] at h
    | true =>
      simp only [entry, if_true] at h
      obtain ⟨h1, l1, l2, h2, -, h4⟩ := changeKey_split h
      simp only [setEntry, h4, shape, if_true, cells]
      rw [h2]
      simp [hc, h1]
  | index n =>
    cases o with
    | true => simp [entry] at h
    | false =>
      simp only [entry, Bool.false_eq_true, if_false] at h
      obtain ⟨hn, rfl⟩ := List.getElem?_eq_some_iff.1 h
      simp only [setEntry, shape, Bool.false_eq_true, if_false, cells_snd, List.map_set, hc]
      congr 1
      apply List.ext_getElem
      · simp
      · intro i h1 h2
        rw [List.getElem_set]
        split
        · rename_i e; subst e; simp
        · rfl

/-- A change of an element, as a change of the container. -/
theorem ChangeN.up {N : Nat → Prop} {x : Bool} {h h1 h2 : Heap K} {u' : Tree K} {o : Bool} {q : Nat}
    {l : List (Str × Tree K)} {s : Step} {e : Str × Tree K} (he : entry o l s = some e)
    (c : ChangeN N x h h1 e.2 u') (hs : Stored h (.cont o q l)) (hf : Fits h.next (.cont o q l))
    (hN : ∀ a ∈ (Tree.cont o q l).addrs, ¬ N a) (hnext : h2.next = h1.next) (hq : h2.node q = some (shape o (cells (setEntry l s u'))))
    (ho : ∀ a, a ≠ q → h2.node a = h1.node a) :
    ChangeN N x h h2 (.cont o q l) (.cont o q (setEntry l s u')) := by
  obtain ⟨l1, l2, k, e1, e2⟩ := setEntry_split he
  have hqn : q < h.next := hf.lt q (by rw [addrs_cont]; simp)
  have hnd := hf.nodup
  rw [addrs_cont, e1, addrsL_append, addrsL_cons, List.nodup_cons, List.nodup_append,
    List.nodup_append] at hnd
  simp only [List.mem_append, not_or] at hnd
  obtain ⟨⟨n1, n2, n3⟩, d1, ⟨d2, d3, d4⟩, d5⟩ := hnd
  have hmem : ∀ a, a ∈ (Tree.cont o q l).addrs ↔ a = q ∨ a ∈ addrsL l1 ∨ a ∈ e.2.addrs ∨ a ∈ addrsL l2 := by
    intro a
    rw [addrs_cont, e1, addrsL_append, addrsL_cons, List.mem_cons, List.mem_append, List.mem_append]
  have hmem' : ∀ a, a ∈ (Tree.cont o q (setEntry l s u')).addrs ↔
      a = q ∨ a ∈ addrsL l1 ∨ a ∈ u'.addrs ∨ a ∈ addrsL l2 := by
    intro a
    rw [addrs_cont, e2, addrsL_append, addrsL_cons, List.mem_cons, List.mem_append, List.mem_append]
  have hqu : q ∉ u'.addrs := fun hc => by
    rcases c.range q hc with h | h
    · exact n2 h
    · exact hN q (by rw [addrs_cont]; simp) h
  have hlow : ∀ a, a ∈ addrsL l1 ∨ a ∈ addrsL l2 → a ∉ u'.addrs := by
    intro a ha hc
    rcases c.range a hc with h | h
    · rcases ha with ha | ha
      · exact d5 a ha a (.inl h) rfl
      · exact d4 a h a ha rfl
    · exact hN a ((hmem a).2 (by tauto)) h
  refine ⟨by rw [hnext]; exact c.next, fun a ha => ?_, fun a ha hn => ?_, ?_, ?_, fun a ha => ?_,
    fun a ha => ?_, fun hx a hl hr => ?_⟩
  · have := c.next
    rw [ho a (by omega)]
    exact c.fresh a (by omega)
  · rw [hmem] at hn
    push Not at hn
    rw [ho a hn.1, c.frame a ha hn.2.2.1]
  · rw [stored_cont]
    refine ⟨hq, fun y hy => ?_⟩
    rw [e2] at hy
    have hold : ∀ y, y ∈ l1 ∨ y ∈ l2 → Stored h2 y.2 := by
      intro y hy
      have hyl : y ∈ l := by rw [e1]; simp only [List.mem_append, List.mem_cons]; tauto
      refine (((stored_cont _ _ _ _).1 hs).2 y hyl).frame fun a ha => ?_
      have hal : a ∈ addrsL l1 ∨ a ∈ addrsL l2 :=
        hy.imp (fun h => mem_addrsL.2 ⟨y, h, ha⟩) (fun h => mem_addrsL.2 ⟨y, h, ha⟩)
      have haq : a ≠ q := fun e => by subst e; exact hal.elim n1 n3
      rw [ho a haq]
      refine c.frame a (hf.lt a ((hmem a).2 (by tauto))) fun hc => ?_
      rcases hal with hal | hal
      · exact d5 a hal a (.inl hc) rfl
      · exact d4 a hc a hal rfl
    rcases List.mem_append.1 hy with hy | hy
    · exact hold y (.inl hy)
    · rcases List.mem_cons.1 hy with rfl | hy
      · exact c.stored.frame fun a ha => ho a fun e => hqu (e ▸ ha)
      · exact hold y (.inr hy)
  · rw [addrs_cont, e2, addrsL_append, addrsL_cons, List.nodup_cons, List.nodup_append,
      List.nodup_append]
    simp only [List.mem_append, not_or]
    refine ⟨⟨n1, hqu, n3⟩, d1, ⟨c.nodup, d3, fun a ha b hb e => ?_⟩, fun a ha b hb e => ?_⟩
    · subst e; exact hlow a (.inr hb) ha
    · subst e
      rcases hb with hb | hb
      · exact hlow a (.inl ha) hb
      · exact d5 a ha a (.inr hb) rfl
  · rw [hmem'] at ha
    rw [hmem]
    rcases ha with h | h | h | h
    · tauto
    · tauto
    · rcases c.range a h with h | h <;> tauto
    · tauto
  · rw [hmem'] at ha
    rw [hnext]
    have hle := c.next
    rcases ha with h | h | h | h
    · omega
    · have := hf.lt a ((hmem a).2 (by tauto)); omega
    · exact c.lt a h
    · have := hf.lt a ((hmem a).2 (by tauto)); omega
  · rw [hmem] at hr
    rw [hmem']
    by_cases haq : a = q
    · exact .inl haq
    · rw [ho a haq] at hl
      have := c.exact hx a hl
      tauto

/-- A change of a subtree whose cell stays the same. -/
theorem ChangeN.path {N : Nat → Prop} {x : Bool} {h h1 : Heap K} {t u u' : Tree K} {p : List Step}
    (hu : t.sub p = some u) (c : ChangeN N x h h1 u u') (hc : u'.cell = u.cell) (hs : Stored h t)
    (hf : Fits h.next t) (hN : ∀ a ∈ t.addrs, ¬ N a) : ChangeN N x h h1 t (t.set p u') := by
  induction p generalizing t with
  | nil =>
    simp only [Tree.sub, Option.some.injEq] at hu
    subst hu; exact c
  | cons s p ih =>
    obtain ⟨o, q, l, e, rfl, h1', h2⟩ := sub_cons hu
    have hse : Stored h e.2 := stored_sub (p := [s]) (by simp [Tree.sub, h1']) hs
    have hfe : Fits h.next e.2 := fits_sub (p := [s]) (by simp [Tree.sub, h1']) hf
    have d := ih h2 hse hfe fun a ha => hN a (addrs_sub (p := [s]) (by simp [Tree.sub, h1']) ha)
    have hsu : Stored h u := stored_sub h2 hse
    simp only [Tree.set, h1']
    refine d.up h1' hs hf hN rfl ?_ fun _ _ => rfl
    have hcell : (e.2.set p u').cell = e.2.cell := set_cell h2 fun _ => hc
    rw [shape_setEntry h1' hcell]
    have hq : q ∉ e.2.addrs := by
      obtain ⟨l1, l2, k, e1, -⟩ := setEntry_split h1'
      have := hf.nodup
      rw [addrs_cont, List.nodup_cons] at this
      exact fun hc => this.1 (mem_addrsL.2 ⟨e, by rw [e1]; simp, hc⟩)
    rw [d.frame q (hf.lt q (by rw [addrs_cont]; simp)) hq]
    exact ((stored_cont _ _ _ _).1 hs).1

/-! ## Owners -/

/-- The state `s` holds the trees `ω`: those of the variables, and one for a temporary
object (`none`).  If `x` holds, there is no other storage. -/
structure Sim (x : Bool) (s : Mem K) (ω : Option Nat → Option (Tree K)) : Prop where
  vars : ∀ i, s.vars i = (ω (some i)).map Tree.cell
  stored : ∀ i t, ω i = some t → Stored s.heap t
  fits : ∀ i t, ω i = some t → Fits s.heap.next t
  apart : ∀ i j t u, i ≠ j → ω i = some t → ω j = some u → ∀ a ∈ t.addrs, a ∉ u.addrs
  fresh : ∀ a, s.heap.next ≤ a → s.heap.node a = none
  exact : x = true → ∀ a, s.heap.node a ≠ none → ∃ i t, ω i = some t ∧ a ∈ t.addrs

/-- An owner gets another tree. -/
def upd (ω : Option Nat → Option (Tree K)) (i : Option Nat) (t : Option (Tree K)) :
    Option Nat → Option (Tree K) := fun j => if j = i then t else ω j

theorem upd_same (ω : Option Nat → Option (Tree K)) (i : Option Nat) (t : Option (Tree K)) :
    upd ω i t i = t := by simp [upd]

theorem upd_other {ω : Option Nat → Option (Tree K)} {i j : Option Nat} (h : j ≠ i)
    (t : Option (Tree K)) : upd ω i t j = ω j := by simp [upd, h]

theorem upd_upd (ω : Option Nat → Option (Tree K)) (i : Option Nat) (t t' : Option (Tree K)) :
    upd (upd ω i t) i t' = upd ω i t' := by
  funext j; simp only [upd]; split <;> rfl

/-- An owner changes its tree; other owners may be gone afterwards (`ω2`). -/
theorem Sim.changeN {N : Nat → Prop} {x y : Bool} {s : Mem K} {ω ω2 : Option Nat → Option (Tree K)}
    {i : Option Nat} {t t' : Tree K} {h1 : Heap K} {V : Nat → Option (Cell K)} (S : Sim x s ω)
    (hi : ω i = some t) (c : ChangeN N y s.heap h1 t t') (h2 : ω2 i = some t')
    (hge : ∀ a, s.heap.next ≤ a → N a)
    (hold : ∀ j u, j ≠ i → ω2 j = some u → ω j = some u ∧ ∀ a ∈ u.addrs, ¬ N a)
    (hgone : ∀ j u, j ≠ i → ω j = some u → ω2 j = some u ∨ ∀ a ∈ u.addrs, N a)
    (hV : ∀ j, V j = (ω2 (some j)).map Tree.cell) :
    Sim (x && y) ⟨h1, V⟩ ω2 := by
  have other : ∀ j u, j ≠ i → ω2 j = some u → ∀ a ∈ u.addrs, h1.node a = s.heap.node a ∧ a ∉ t'.addrs := by
    intro j u hj hu a ha
    have h1 := S.apart j i u t hj (hold j u hj hu).1 hi a ha
    have h2 := (S.fits j u (hold j u hj hu).1).lt a ha
    refine ⟨c.frame a h2 h1, fun hc => ?_⟩
    rcases c.range a hc with h | h
    · exact h1 h
    · exact (hold j u hj hu).2 a ha h
  refine ⟨hV, fun j u hj => ?_, fun j u hj => ?_, fun j k u v hjk hj hk a ha => ?_, c.fresh,
    fun hxy a hl => ?_⟩
  · by_cases h : j = i
    · subst h
      rw [h2] at hj
      injection hj with hj
      subst hj; exact c.stored
    · exact (S.stored j u (hold j u h hj).1).frame fun a ha => (other j u h hj a ha).1
  · by_cases h : j = i
    · subst h
      rw [h2] at hj
      injection hj with hj
      subst hj; exact ⟨c.nodup, c.lt⟩
    · have := S.fits j u (hold j u h hj).1
      exact ⟨this.nodup, fun a ha => (this.lt a ha).trans_le c.next⟩
  · by_cases h : j = i
    · subst h
      rw [h2] at hj
      injection hj with hj
      subst hj
      exact fun hc => (other k v (Ne.symm hjk) hk a hc).2 ha
    · by_cases h' : k = i
      · subst h'
        rw [h2] at hk
        injection hk with hk
        subst hk
        exact (other j u h hj a ha).2
      · exact S.apart j k u v hjk (hold j u h hj).1 (hold k v h' hk).1 a ha
  · rw [Bool.and_eq_true] at hxy
    by_cases h : a ∈ t.addrs ∨ N a
    · exact ⟨i, t', h2, c.exact hxy.2 a hl h⟩
    · push Not at h
      have hlt : a < s.heap.next := by
        by_contra hc
        exact h.2 (hge a (by omega))
      have hl' : s.heap.node a ≠ none := by rw [← c.frame a hlt h.1]; exact hl
      obtain ⟨j, u, hj, ha⟩ := S.exact hxy.1 a hl'
      have hji : j ≠ i := fun e => by
        subst e
        rw [hi] at hj
        injection hj with hj
        subst hj; exact h.1 ha
      rcases hgone j u hji hj with h3 | h3
      · exact ⟨j, u, h3, ha⟩
      · exact absurd (h3 a ha) h.2

theorem Sim.change {x y : Bool} {s : Mem K} {ω : Option Nat → Option (Tree K)} {i : Option Nat}
    {t t' : Tree K} {h1 : Heap K} {V : Nat → Option (Cell K)} (S : Sim x s ω) (hi : ω i = some t)
    (c : Change y s.heap h1 t t')
    (hV : ∀ j, V j = if some j = i then some t'.cell else s.vars j) :
    Sim (x && y) ⟨h1, V⟩ (upd ω i (some t')) := by
  refine S.changeN hi c (upd_same _ _ _) (fun _ h => h) (fun j u hj hu => ?_) (fun j u hj hu => ?_)
    fun j => ?_
  · rw [upd_other hj] at hu
    exact ⟨hu, fun a ha => by have := (S.fits j u hu).lt a ha; omega⟩
  · rw [upd_other hj]; exact .inl hu
  · rw [hV j]
    by_cases h : some j = i
    · rw [if_pos h, h, upd_same]; rfl
    · rw [if_neg h, upd_other h]; exact S.vars j

/-- A new owner. -/
theorem Sim.add {x : Bool} {s : Mem K} {ω : Option Nat → Option (Tree K)} {i : Option Nat}
    {t' : Tree K} {h1 : Heap K} {V : Nat → Option (Cell K)} (S : Sim x s ω) (hi : ω i = none)
    (m : Made s.heap h1 t'.addrs) (hs : Stored h1 t')
    (hV : ∀ j, V j = if some j = i then some t'.cell else s.vars j) :
    Sim x ⟨h1, V⟩ (upd ω i (some t')) := by
  have other : ∀ j u, ω j = some u → ∀ a ∈ u.addrs, h1.node a = s.heap.node a ∧ a ∉ t'.addrs := by
    intro j u hu a ha
    have h2 := (S.fits j u hu).lt a ha
    exact ⟨m.old a h2, fun hc => by have := (m.range a hc).1; omega⟩
  refine ⟨fun j => ?_, fun j u hj => ?_, fun j u hj => ?_, fun j k u v hjk hj hk a ha => ?_,
    m.fresh S.fresh, fun hx a hl => ?_⟩
  · show V j = _
    rw [hV j]
    by_cases h : some j = i
    · rw [if_pos h, h, upd_same]; rfl
    · rw [if_neg h, upd_other h]; exact S.vars j
  · by_cases h : j = i
    · subst h
      rw [upd_same] at hj
      injection hj with hj
      subst hj; exact hs
    · rw [upd_other h] at hj
      exact (S.stored j u hj).frame fun a ha => (other j u hj a ha).1
  · by_cases h : j = i
    · subst h
      rw [upd_same] at hj
      injection hj with hj
      subst hj; exact ⟨m.nodup, fun a ha => (m.range a ha).2⟩
    · rw [upd_other h] at hj
      have := S.fits j u hj
      exact ⟨this.nodup, fun a ha => (this.lt a ha).trans_le m.le⟩
  · by_cases h : j = i
    · subst h
      rw [upd_same] at hj
      injection hj with hj
      subst hj
      rw [upd_other (Ne.symm hjk)] at hk
      exact fun hc => (other k v hk a hc).2 ha
    · rw [upd_other h] at hj
      by_cases h' : k = i
      · subst h'
        rw [upd_same] at hk
        injection hk with hk
        subst hk
        exact (other j u hj a ha).2
      · rw [upd_other h'] at hk
        exact S.apart j k u v hjk hj hk a ha
  · by_cases h : s.heap.next ≤ a
    · exact ⟨i, t', upd_same _ _ _, (m.all a h hl).resolve_right fun hc => hc (S.fresh a h)⟩
    · rw [m.old a (by omega)] at hl
      obtain ⟨j, u, hj, ha⟩ := S.exact hx a hl
      have hji : j ≠ i := fun e => by subst e; rw [hi] at hj; cases hj
      exact ⟨j, u, by rw [upd_other hji]; exact hj, ha⟩

/-- An owner is destroyed. -/
theorem Sim.drop {x : Bool} {s : Mem K} {ω : Option Nat → Option (Tree K)} {i : Option Nat}
    {t : Tree K} {V : Nat → Option (Cell K)} (S : Sim x s ω) (hi : ω i = some t)
    (hV : ∀ j, V j = if some j = i then none else s.vars j) :
    ∃ h1, s.heap.destroy t.cell = .ok h1 ∧ Sim x ⟨h1, V⟩ (upd ω i none) := by
  obtain ⟨h1, a1, a2, a3, a4⟩ := destroy_spec (S.stored i t hi) (S.fits i t hi)
  refine ⟨h1, a1, fun j => ?_, fun j u hj => ?_, fun j u hj => ?_, fun j k u v hjk hj hk => ?_,
    fun a ha => ?_, fun hx a hl => ?_⟩
  · show V j = _
    rw [hV j]
    by_cases h : some j = i
    · rw [if_pos h, h, upd_same]; rfl
    · rw [if_neg h, upd_other h]; exact S.vars j
  · have h : j ≠ i := fun e => by rw [e, upd_same] at hj; cases hj
    rw [upd_other h] at hj
    exact (S.stored j u hj).frame fun a ha => a4 a (S.apart j i u t h hj hi a ha)
  · have h : j ≠ i := fun e => by rw [e, upd_same] at hj; cases hj
    rw [upd_other h] at hj
    show Fits h1.next u
    rw [a2]; exact S.fits j u hj
  · have h : j ≠ i := fun e => by rw [e, upd_same] at hj; cases hj
    have h' : k ≠ i := fun e => by rw [e, upd_same] at hk; cases hk
    rw [upd_other h] at hj
    rw [upd_other h'] at hk
    exact S.apart j k u v hjk hj hk
  · have ha : h1.next ≤ a := ha
    rw [a2] at ha
    show h1.node a = none
    rw [a4 a fun hc => by have := (S.fits i t hi).lt a hc; omega]
    exact S.fresh a ha
  · have hl : h1.node a ≠ none := hl
    have hat : a ∉ t.addrs := fun hc => hl (a3 a hc)
    rw [a4 a hat] at hl
    obtain ⟨j, u, hj, ha⟩ := S.exact hx a hl
    have hji : j ≠ i := fun e => by
      subst e
      rw [hi] at hj
      injection hj with hj
      subst hj; exact hat ha
    exact ⟨j, u, by rw [upd_other hji]; exact hj, ha⟩

/-! ## References -/

theorem last_step {t u : Tree K} {r ℓ : Loc} {p : List Step} {s : Step} (hu : t.sub (p ++ [s]) = some u)
    (hl : t.loc r (p ++ [s]) = some ℓ) :
    ∃ o q l e, t.sub p = some (.cont o q l) ∧ entry o l s = some e ∧ e.2 = u ∧ ℓ = refTo q s := by
  rw [sub_append] at hu
  obtain ⟨v, h1, h2⟩ := Option.bind_eq_some_iff.1 hu
  obtain ⟨o, q, l, e, rfl, h3, h4⟩ := sub_cons h2
  have h5 : (t.loc r p).isSome = true := by rw [loc_isSome, h1]; rfl
  obtain ⟨r', h6⟩ := Option.isSome_iff_exists.1 h5
  rw [loc_append h1 h6] at hl
  simp only [Tree.loc, h3, Option.bind_some, Option.some.injEq] at hl
  simp only [Tree.sub, Option.some.injEq] at h4
  exact ⟨o, q, l, e, h1, h3, h4, hl.symm⟩

theorem Sim.load {x : Bool} {s : Mem K} {ω : Option Nat → Option (Tree K)} {i : Nat} {t u : Tree K}
    {p : List Step} {ℓ : Loc} (S : Sim x s ω) (hi : ω (some i) = some t) (hu : t.sub p = some u)
    (hl : t.loc (.var i) p = some ℓ) : s.load ℓ = .ok u.cell := by
  rcases List.eq_nil_or_concat p with rfl | ⟨p, st, rfl⟩
  · simp only [Tree.loc, Option.some.injEq] at hl
    simp only [Tree.sub, Option.some.injEq] at hu
    subst hl hu
    have := S.vars i
    rw [hi] at this
    simp [Mem.load, this]
  · rw [List.concat_eq_append] at hu hl
    obtain ⟨o, q, l, e, h1, h2, rfl, rfl⟩ := last_step hu hl
    have hn := ((stored_cont _ _ _ _).1 (stored_sub h1 (S.stored _ _ hi))).1
    cases st with
    | key k =>
      cases o with
      | false => simp [entry] at h2
      | true =>
        simp only [entry, if_true] at h2
        have : findKey (cells l) k = some e.2.cell := by
          rw [cells, findKey_map Tree.cell, findKey, h2]; rfl
        simp [refTo, Mem.load, hn, shape, this]
    | index n =>
      cases o with
      | true => simp [entry] at h2
      | false =>
        simp only [entry, Bool.false_eq_true, if_false] at h2
        simp [refTo, Mem.load, hn, shape, cells_snd, h2]

/-- What a store does to the heap. -/
theorem Sim.store_change {N : Nat → Prop} {x y : Bool} {s : Mem K} {ω : Option Nat → Option (Tree K)}
    {i : Nat} {t u u' : Tree K} {p : List Step} {ℓ : Loc} {h1 : Heap K} (S : Sim x s ω)
    (hi : ω (some i) = some t) (hu : t.sub p = some u) (hl : t.loc (.var i) p = some ℓ)
    (c : ChangeN N y s.heap h1 u u') (hN : ∀ a ∈ t.addrs, ¬ N a) :
    ∃ s', (⟨h1, s.vars⟩ : Mem K).store ℓ u'.cell = .ok s' ∧
      ChangeN N y s.heap s'.heap t (t.set p u') ∧
      ∀ j, s'.vars j = if some j = some i then some (t.set p u').cell else s.vars j := by
  have hv := S.vars i
  rw [hi] at hv
  rcases List.eq_nil_or_concat p with rfl | ⟨p, st, rfl⟩
  · simp only [Tree.loc, Option.some.injEq] at hl
    simp only [Tree.sub, Option.some.injEq] at hu
    subst hl hu
    exact ⟨⟨h1, fun j => if j = i then some u'.cell else s.vars j⟩, by simp [Mem.store, hv], c,
      fun j => by simp [Tree.set]⟩
  · rw [List.concat_eq_append] at hu hl ⊢
    obtain ⟨o, q, l, e, g1, g2, rfl, rfl⟩ := last_step hu hl
    have hst := stored_sub g1 (S.stored _ _ hi)
    have hfi := fits_sub g1 (S.fits _ _ hi)
    have hqn : q < s.heap.next := hfi.lt q (by rw [addrs_cont]; simp)
    have hqe : q ∉ e.2.addrs := by
      obtain ⟨l1, l2, k, e1, -⟩ := setEntry_split g2
      have := hfi.nodup
      rw [addrs_cont, List.nodup_cons] at this
      exact fun hc => this.1 (mem_addrsL.2 ⟨e, by rw [e1]; simp, hc⟩)
    have hn : h1.node q = some (shape o (cells l)) := by
      rw [c.frame q hqn hqe]; exact ((stored_cont _ _ _ _).1 hst).1
    have d := c.up g2 hst hfi (fun a ha => hN a (addrs_sub g1 ha)) (h2 := h1.write q (shape o (cells (setEntry l st u')))) rfl
      (by simp [Heap.write]) (fun a ha => by simp [Heap.write, ha])
    have d' := d.path g1 (by cases o <;> rfl) (S.stored _ _ hi) (S.fits _ _ hi) hN
    have hset : t.set (p ++ [st]) u' = t.set p (.cont o q (setEntry l st u')) := by
      rw [set_append g1]
      simp [Tree.set, g2]
    refine ⟨⟨h1.write q (shape o (cells (setEntry l st u'))), s.vars⟩, ?_, ?_, fun j => ?_⟩
    · cases st with
      | key k =>
        cases o with
        | false => simp [entry] at g2
        | true =>
          have : changeKey (cells l) k u'.cell = cells (changeKey l k u') :=
            changeKey_map Tree.cell l k u'
          simp [refTo, Mem.store, hn, shape, this, setEntry]
      | index n =>
        cases o with
        | true => simp [entry] at g2
        | false =>
          simp only [entry, Bool.false_eq_true, if_false] at g2
          obtain ⟨hlt, -⟩ := List.getElem?_eq_some_iff.1 g2
          simp [refTo, Mem.store, hn, shape, cells_snd, hlt, setEntry]
    · rw [hset]; exact d'
    · by_cases h : some j = some i
      · rw [if_pos h, hset, set_cell g1 (fun _ => by cases o <;> rfl)]
        injection h with h
        rw [h]; exact hv
      · rw [if_neg h]

/-- The state after a store. -/
theorem Sim.store {x y : Bool} {s : Mem K} {ω : Option Nat → Option (Tree K)} {i : Nat}
    {t u u' : Tree K} {p : List Step} {ℓ : Loc} {h1 : Heap K} (S : Sim x s ω)
    (hi : ω (some i) = some t) (hu : t.sub p = some u) (hl : t.loc (.var i) p = some ℓ)
    (c : Change y s.heap h1 u u') :
    ∃ s', (⟨h1, s.vars⟩ : Mem K).store ℓ u'.cell = .ok s' ∧
      Sim (x && y) s' (upd ω (some i) (some (t.set p u'))) := by
  obtain ⟨s', a1, a2, a3⟩ := S.store_change hi hu hl c fun a ha => by
    have := (S.fits _ _ hi).lt a ha; omega
  exact ⟨s', a1, S.change hi a2 a3⟩

/-- The state after a change inside of the storage. -/
theorem Sim.inplace {x y : Bool} {s : Mem K} {ω : Option Nat → Option (Tree K)} {i : Nat}
    {t u u' : Tree K} {p : List Step} {h1 : Heap K} (S : Sim x s ω)
    (hi : ω (some i) = some t) (hu : t.sub p = some u) (hc : u'.cell = u.cell)
    (c : Change y s.heap h1 u u') :
    Sim (x && y) ⟨h1, s.vars⟩ (upd ω (some i) (some (t.set p u'))) := by
  have hv := S.vars i
  rw [hi] at hv
  refine S.change hi (c.path hu hc (S.stored _ _ hi) (S.fits _ _ hi) fun a ha => by
    have := (S.fits _ _ hi).lt a ha; omega) fun j => ?_
  by_cases h : some j = some i
  · rw [if_pos h, set_cell hu (fun _ => hc)]
    injection h with h
    rw [h]; exact hv
  · rw [if_neg h]

end Marley.JsonHeap
