import Verif.Spec.JsonValue
import Mathlib.Data.List.Nodup
import Mathlib.Data.Finset.Range
import Mathlib.Data.Finset.Card

/-!
# Trees of storage: what a cell owns
-/

set_option autoImplicit false

namespace Marley.JsonHeap
open Marley Marley.Json Marley.JsonValue

variable {K : Type}

/-- A value together with the addresses at which it is stored. -/
inductive Tree (K : Type) where
  | prim (x : Prim K)
  | str (p : Nat) (s : Str)
  | cont (o : Bool) (p : Nat) (l : List (Str × Tree K))

theorem Tree.induct {P : Tree K → Prop} (h1 : ∀ x, P (.prim x)) (h2 : ∀ p s, P (.str p s))
    (h3 : ∀ o p l, (∀ e ∈ l, P e.2) → P (.cont o p l)) : ∀ t, P t
  | .prim x => h1 x
  | .str p s => h2 p s
  | .cont o p l => h3 o p l fun e he => Tree.induct h1 h2 h3 e.2
termination_by t => sizeOf t
decreasing_by
  have := List.sizeOf_lt_of_mem he
  obtain ⟨k, t⟩ := e
  simp at *; omega

/-- The cell that owns a tree. -/
def Tree.cell : Tree K → Cell K
  | .prim x => .prim x
  | .str p _ => .str p
  | .cont true p _ => .obj p
  | .cont false p _ => .arr p

theorem cell_obj (p : Nat) (l : List (Str × Tree K)) : (Tree.cont true p l).cell = .obj p := rfl

theorem cell_arr (p : Nat) (l : List (Str × Tree K)) : (Tree.cont false p l).cell = .arr p := rfl

/-- The value of a simple cell. -/
def Prim.val : Prim K → JVal K
  | .null => .null
  | .bool b => .bool b
  | .int n => .int n
  | .float x => .float x

/-- The value of a tree. -/
def Tree.val : Tree K → JVal K
  | .prim x => x.val
  | .str _ s => .str s
  | .cont o _ l =>
    if o then .obj (l.map fun e => (e.1, e.2.val)) else .arr (l.map fun e => e.2.val)
termination_by t => sizeOf t
decreasing_by
  all_goals
    have := List.sizeOf_lt_of_mem (by assumption)
    obtain ⟨k, t⟩ := e
    simp at *; omega

/-- The node of a container. -/
def shape (o : Bool) (l : List (Str × Cell K)) : Node K :=
  if o then .map l else .list (l.map Prod.snd)

/-- The cells of the elements. -/
def cells (l : List (Str × Tree K)) : List (Str × Cell K) := l.map fun e => (e.1, e.2.cell)

/-- The nodes of a tree with their addresses. -/
def Tree.nodes : Tree K → List (Nat × Node K)
  | .prim _ => []
  | .str p s => [(p, .text s)]
  | .cont o p l => (p, shape o (cells l)) :: l.flatMap fun e => e.2.nodes
termination_by t => sizeOf t
decreasing_by
  have := List.sizeOf_lt_of_mem (by assumption)
  obtain ⟨k, t⟩ := e
  simp at *; omega

/-- The depth of a tree. -/
def Tree.depth : Tree K → Nat
  | .prim _ => 0
  | .str _ _ => 0
  | .cont _ _ l => 1 + (l.map fun e => e.2.depth).sum
termination_by t => sizeOf t
decreasing_by
  have := List.sizeOf_lt_of_mem (by assumption)
  obtain ⟨k, t⟩ := e
  simp at *; omega

/-- The addresses of a tree. -/
def Tree.addrs (t : Tree K) : List Nat := t.nodes.map Prod.fst

/-- The addresses of the elements. -/
def addrsL (l : List (Str × Tree K)) : List Nat := l.flatMap fun e => e.2.addrs

theorem addrs_prim (x : Prim K) : (Tree.prim x).addrs = [] := by simp [Tree.addrs, Tree.nodes]

theorem addrs_str (p : Nat) (s : Str) : (Tree.str p s : Tree K).addrs = [p] := by
  simp [Tree.addrs, Tree.nodes]

theorem addrs_cont (o : Bool) (p : Nat) (l : List (Str × Tree K)) :
    (Tree.cont o p l).addrs = p :: addrsL l := by
  simp only [Tree.addrs, Tree.nodes, List.map_cons, List.map_flatMap, addrsL]

/-- The tree is in the heap. -/
def Stored (h : Heap K) (t : Tree K) : Prop := ∀ x ∈ t.nodes, h.node x.1 = some x.2

theorem stored_prim (h : Heap K) (x : Prim K) : Stored h (.prim x) := by simp [Stored, Tree.nodes]

theorem stored_str (h : Heap K) (p : Nat) (s : Str) :
    Stored h (.str p s) ↔ h.node p = some (.text s) := by simp [Stored, Tree.nodes]

theorem stored_cont (h : Heap K) (o : Bool) (p : Nat) (l : List (Str × Tree K)) :
    Stored h (.cont o p l) ↔ h.node p = some (shape o (cells l)) ∧ ∀ e ∈ l, Stored h e.2 := by
  simp only [Stored, Tree.nodes, List.mem_cons, forall_eq_or_imp, List.mem_flatMap]
  refine and_congr_right fun _ => ⟨fun h e he x hx => h x ⟨e, he, hx⟩, fun h x ⟨e, he, hx⟩ => h e he x hx⟩

theorem Stored.frame {h h' : Heap K} {t : Tree K} (hs : Stored h t)
    (he : ∀ a ∈ t.addrs, h'.node a = h.node a) : Stored h' t := fun x hx =>
  (he x.1 (List.mem_map_of_mem hx)).trans (hs x hx)

theorem Stored.live {h : Heap K} {t : Tree K} (hs : Stored h t) {a : Nat} (ha : a ∈ t.addrs) :
    h.node a ≠ none := by
  obtain ⟨x, hx, rfl⟩ := List.mem_map.1 ha
  rw [hs x hx]; simp

theorem mem_addrsL {l : List (Str × Tree K)} {a : Nat} :
    a ∈ addrsL l ↔ ∃ e ∈ l, a ∈ e.2.addrs := by simp [addrsL]

theorem addrsL_cons (e : Str × Tree K) (l : List (Str × Tree K)) :
    addrsL (e :: l) = e.2.addrs ++ addrsL l := rfl

theorem depth_le (t : Tree K) : t.depth ≤ t.addrs.length := by
  induction t using Tree.induct with
  | h1 x => simp [Tree.depth]
  | h2 p s => simp [Tree.depth]
  | h3 o p l ih =>
    rw [Tree.depth, addrs_cont, List.length_cons, addrsL, List.length_flatMap]
    have : ∀ l : List (Str × Tree K), (∀ e ∈ l, e.2.depth ≤ e.2.addrs.length) →
        (l.map fun e => e.2.depth).sum ≤ (l.map fun e => e.2.addrs.length).sum := by
      intro l
      induction l with
      | nil => intro _; simp
      | cons e l ih =>
        intro h
        have h1 := h e (by simp)
        have h2 := ih (fun x hx => h x (by simp [hx]))
        simp only [List.map_cons, List.sum_cons]; omega
    have := this l ih
    omega

theorem depth_elem {l : List (Str × Tree K)} {e : Str × Tree K} (he : e ∈ l) :
    e.2.depth ≤ (l.map fun e => e.2.depth).sum := by
  induction l with
  | nil => simp at he
  | cons x l ih =>
    simp only [List.map_cons, List.sum_cons]
    rcases List.mem_cons.1 he with rfl | he
    · omega
    · have := ih he; omega

/-- A tree that fits below `n`. -/
structure Fits (n : Nat) (t : Tree K) : Prop where
  nodup : t.addrs.Nodup
  lt : ∀ a ∈ t.addrs, a < n

theorem nodup_length {l : List Nat} {n : Nat} (h : l.Nodup) (hl : ∀ a ∈ l, a < n) : l.length ≤ n := by
  have : l.toFinset ⊆ Finset.range n := fun a ha => by
    rw [Finset.mem_range]; exact hl a (List.mem_toFinset.1 ha)
  have := Finset.card_le_card this
  rwa [List.toFinset_card_of_nodup h, Finset.card_range] at this

theorem Fits.depth {n : Nat} {t : Tree K} (h : Fits n t) : t.depth ≤ n :=
  (depth_le t).trans (nodup_length h.nodup h.lt)

/-! ## Reading -/

theorem mapM_ok {α β : Type} {f : α → Res β} {g : α → β} : ∀ {l : List α},
    (∀ a ∈ l, f a = .ok (g a)) → l.mapM f = .ok (l.map g)
  | [], _ => rfl
  | a :: l, h => by
    have h2 := mapM_ok (l := l) (fun x hx => h x (by simp [hx]))
    rw [List.mapM_cons, h a (by simp), h2]
    rfl

theorem cells_snd (l : List (Str × Tree K)) : (cells l).map Prod.snd = l.map fun e => e.2.cell := by
  simp [cells, Function.comp_def]

theorem cells_fst (l : List (Str × Tree K)) : (cells l).map Prod.fst = l.map Prod.fst := by
  simp [cells, Function.comp_def]

theorem zip_map {α β γ : Type} (l : List α) (f : α → β) (g : α → γ) :
    (l.map f).zip (l.map g) = l.map fun a => (f a, g a) := by
  induction l with
  | nil => rfl
  | cons a l ih => simp [ih]

theorem read_spec {h : Heap K} (t : Tree K) : ∀ n, t.depth < n → Stored h t →
    readN n h t.cell = .ok t.val := by
  induction t using Tree.induct with
  | h1 x => intro n _ _; cases x <;> simp [readN, Tree.cell, Tree.val, Prim.val]
  | h2 p s =>
    intro n _ hs
    rw [stored_str] at hs
    simp [readN, Tree.cell, Tree.val, hs]
  | h3 o p l ih =>
    intro n hn hs
    rw [stored_cont] at hs
    rw [Tree.depth] at hn
    cases n with
    | zero => omega
    | succ n =>
      have key : (l.map fun e => e.2.cell).mapM (readN n h) = .ok (l.map fun e => e.2.val) := by
        rw [List.mapM_map]
        exact mapM_ok fun e he => ih e he n (by have := depth_elem he; omega) (hs.2 e he)
      cases o with
      | true =>
        simp only [readN, cell_obj, cell_arr, hs.1, shape, if_true, cells_snd, key, bind, Except.bind,
          Tree.val, cells_fst, zip_map]
      | false =>
        simp only [readN, cell_obj, cell_arr, hs.1, shape, Bool.false_eq_true, if_false, cells_snd, key, bind,
          Except.bind, Tree.val]

/-! ## Destroying -/

theorem destroyN_spec (t : Tree K) : ∀ (n : Nat) (h : Heap K), t.depth < n → Stored h t →
    t.addrs.Nodup → ∃ h', destroyN n h t.cell = .ok h' ∧ h'.next = h.next ∧
      (∀ a ∈ t.addrs, h'.node a = none) ∧ ∀ a, a ∉ t.addrs → h'.node a = h.node a := by
  induction t using Tree.induct with
  | h1 x => intro n h _ _ _; exact ⟨h, by simp [destroyN, Tree.cell], rfl, by simp [addrs_prim], by simp⟩
  | h2 p s =>
    intro n h _ hs _
    rw [stored_str] at hs
    refine ⟨h.release p, by simp [destroyN, Tree.cell, hs], rfl, ?_, ?_⟩
    · simp [addrs_str, Heap.release]
    · intro a ha
      rw [addrs_str, List.mem_singleton] at ha
      simp [Heap.release, ha]
  | h3 o p l ih =>
    intro n h hn hs hd
    rw [stored_cont] at hs
    rw [Tree.depth] at hn
    rw [addrs_cont, List.nodup_cons] at hd
    cases n with
    | zero => omega
    | succ n =>
      have key : ∀ (l' : List (Str × Tree K)), (∀ e ∈ l', e ∈ l) → (addrsL l').Nodup → ∀ h : Heap K,
          (∀ e ∈ l', Stored h e.2) →
          ∃ h', (l'.map fun e => e.2.cell).foldlM (destroyN n) h = .ok h' ∧ h'.next = h.next ∧
            (∀ a ∈ addrsL l', h'.node a = none) ∧ ∀ a, a ∉ addrsL l' → h'.node a = h.node a := by
        intro l'
        induction l' with
        | nil => intro _ _ h _; exact ⟨h, rfl, rfl, by simp [addrsL], fun _ _ => rfl⟩
        | cons e l' ih' =>
          intro hm hd' h hst
          rw [addrsL_cons, List.nodup_append] at hd'
          obtain ⟨d1, d2, d3⟩ := hd'
          have he : e ∈ l := hm e (by simp)
          obtain ⟨h1, a1, a2, a3, a4⟩ := ih e he n h (by have := depth_elem he; omega)
            (hst e (by simp)) d1
          have hst1 : ∀ x ∈ l', Stored h1 x.2 := fun x hx => (hst x (by simp [hx])).frame fun a ha =>
            a4 a fun hc => d3 a hc a (mem_addrsL.2 ⟨x, hx, ha⟩) rfl
          obtain ⟨h2, b1, b2, b3, b4⟩ := ih' (fun x hx => hm x (by simp [hx])) d2 h1 hst1
          refine ⟨h2, ?_, b2.trans a2, fun a ha => ?_, fun a ha => ?_⟩
          · rw [List.map_cons, List.foldlM_cons, a1]; exact b1
          · rw [addrsL_cons, List.mem_append] at ha
            by_cases hb : a ∈ addrsL l'
            · exact b3 a hb
            · rw [b4 a hb]; exact a3 a (ha.resolve_right hb)
          · rw [addrsL_cons, List.mem_append, not_or] at ha
            rw [b4 a ha.2, a4 a ha.1]
      obtain ⟨h', a1, a2, a3, a4⟩ := key l (fun _ h => h) hd.2 h hs.2
      refine ⟨h'.release p, ?_, a2, fun a ha => ?_, fun a ha => ?_⟩
      · cases o with
        | true =>
          simp only [destroyN, cell_obj, cell_arr, hs.1, shape, if_true, cells_snd, a1, bind, Except.bind]
        | false =>
          simp only [destroyN, cell_obj, cell_arr, hs.1, shape, Bool.false_eq_true, if_false, cells_snd, a1,
            bind, Except.bind]
      · rw [addrs_cont, List.mem_cons] at ha
        by_cases hp : a = p
        · simp [Heap.release, hp]
        · simp [Heap.release, hp, a3 a (ha.resolve_left hp)]
      · rw [addrs_cont, List.mem_cons, not_or] at ha
        simp [Heap.release, ha.1, a4 a ha.2]

theorem destroy_spec {t : Tree K} {h : Heap K} (hs : Stored h t) (hf : Fits h.next t) :
    ∃ h', h.destroy t.cell = .ok h' ∧ h'.next = h.next ∧
      (∀ a ∈ t.addrs, h'.node a = none) ∧ ∀ a, a ∉ t.addrs → h'.node a = h.node a :=
  destroyN_spec t _ h (Nat.lt_succ_of_le hf.depth) hs hf.nodup

/-! ## Copying -/

/-- `t'` was made in going from `h` to `h'`, and nothing else. -/
structure Made (h h' : Heap K) (A : List Nat) : Prop where
  le : h.next ≤ h'.next
  old : ∀ a, a < h.next → h'.node a = h.node a
  nodup : A.Nodup
  range : ∀ a ∈ A, h.next ≤ a ∧ a < h'.next
  all : ∀ a, h.next ≤ a → h'.node a ≠ none → a ∈ A ∨ h.node a ≠ none

theorem Made.refl (h : Heap K) : Made h h [] :=
  ⟨le_rfl, fun _ _ => rfl, .nil, by simp, fun _ _ h => .inr h⟩

theorem Made.trans {h h1 h2 : Heap K} {A B : List Nat} (x : Made h h1 A) (y : Made h1 h2 B) :
    Made h h2 (A ++ B) where
  le := x.le.trans y.le
  old a ha := (y.old a (ha.trans_le x.le)).trans (x.old a ha)
  nodup := by
    rw [List.nodup_append]
    refine ⟨x.nodup, y.nodup, fun a ha b hb e => ?_⟩
    have := (x.range a ha).2
    have := (y.range b hb).1
    omega
  range a ha := by
    have := x.le
    have := y.le
    rcases List.mem_append.1 ha with ha | ha
    · have := x.range a ha; omega
    · have := y.range a ha; omega
  all a ha hn := by
    rw [List.mem_append]
    by_cases h1 : h1.next ≤ a
    · rcases y.all a h1 hn with h | h
      · exact .inl (.inr h)
      · exact (x.all a ha h).imp_left .inl
    · rw [y.old a (by omega)] at hn
      exact (x.all a ha hn).imp_left .inl

theorem Made.alloc (h : Heap K) (n : Node K) : Made h (h.alloc n).1 [(h.alloc n).2] where
  le := Nat.le_succ _
  old a ha := by simp [Heap.alloc, ha.ne]
  nodup := by simp
  range a ha := by
    rw [List.mem_singleton] at ha
    simp [ha, Heap.alloc]
  all a _ hn := by
    by_cases h1 : a = h.next
    · exact .inl (by simp [Heap.alloc, h1])
    · simp only [Heap.alloc, h1, if_false] at hn
      exact .inr hn

theorem Made.stored {h h' : Heap K} {A : List Nat} (m : Made h h' A) {t : Tree K} (hs : Stored h t)
    (hl : ∀ a ∈ t.addrs, a < h.next) : Stored h' t :=
  hs.frame fun a ha => m.old a (hl a ha)

theorem copyN_spec (t : Tree K) : ∀ (n : Nat) (h : Heap K), t.depth < n → Stored h t →
    (∀ a ∈ t.addrs, a < h.next) → ∃ h' t', copyN n h t.cell = .ok (h', t'.cell) ∧ t'.val = t.val ∧
      Stored h' t' ∧ Made h h' t'.addrs := by
  induction t using Tree.induct with
  | h1 x =>
    intro n h _ _ _
    exact ⟨h, .prim x, by simp [copyN, Tree.cell], rfl, stored_prim _ _, by rw [addrs_prim]; exact .refl h⟩
  | h2 p s =>
    intro n h _ hs _
    rw [stored_str] at hs
    refine ⟨(h.alloc (.text s)).1, .str (h.alloc (.text s)).2 s, by simp [copyN, Tree.cell, hs],
      by simp [Tree.val], ?_, ?_⟩
    · rw [stored_str]; simp [Heap.alloc]
    · rw [addrs_str]; exact Made.alloc _ _
  | h3 o p l ih =>
    intro n h hn hs hl
    rw [stored_cont] at hs
    rw [Tree.depth] at hn
    cases n with
    | zero => omega
    | succ n =>
      have key : ∀ (l' : List (Str × Tree K)), (∀ e ∈ l', e ∈ l) → ∀ h : Heap K,
          (∀ e ∈ l', Stored h e.2) → (∀ e ∈ l', ∀ a ∈ e.2.addrs, a < h.next) →
          ∃ (h' : Heap K) (l2 : List (Str × Tree K)), copyAll (copyN n) h (l'.map fun e => e.2.cell)
              = .ok (h', l2.map fun e => e.2.cell) ∧
            l2.map Prod.fst = l'.map Prod.fst ∧ (l2.map fun e => e.2.val) = (l'.map fun e => e.2.val) ∧
            (∀ e ∈ l2, Stored h' e.2) ∧ Made h h' (addrsL l2) := by
        intro l'
        induction l' with
        | nil => intro _ h _ _; exact ⟨h, [], rfl, rfl, rfl, by simp, .refl h⟩
        | cons e l' ih' =>
          intro hm h hst hlt
          have he : e ∈ l := hm e (by simp)
          obtain ⟨h1, t1, a1, a2, a3, a4⟩ := ih e he n h (by have := depth_elem he; omega)
            (hst e (by simp)) (hlt e (by simp))
          obtain ⟨h2, l2, b1, b2, b3, b4, b5⟩ := ih' (fun x hx => hm x (by simp [hx])) h1
            (fun x hx => a4.stored (hst x (by simp [hx])) (hlt x (by simp [hx])))
            (fun x hx a ha => (hlt x (by simp [hx]) a ha).trans_le a4.le)
          refine ⟨h2, (e.1, t1) :: l2, ?_, by simp [b2], by simp [a2, b3], ?_, ?_⟩
          · simp only [List.map_cons, copyAll, a1, b1, bind, Except.bind]
          · intro x hx
            rcases List.mem_cons.1 hx with rfl | hx
            · exact b5.stored a3 fun a ha => (a4.range a ha).2
            · exact b4 x hx
          · rw [addrsL_cons]; exact a4.trans b5
      obtain ⟨h', l2, a1, a2, a3, a4, a5⟩ := key l (fun _ h => h) h hs.2 fun e he a ha =>
        hl a (by rw [addrs_cont]; exact List.mem_cons_of_mem _ (mem_addrsL.2 ⟨e, he, ha⟩))
      have hzip : (l.map Prod.fst).zip (l2.map fun e => e.2.cell) = cells l2 := by
        rw [← a2, zip_map]; rfl
      have hval : (Tree.cont o (h'.alloc (shape o (cells l2))).2 l2).val = (Tree.cont o p l).val := by
        have e2 : (l2.map fun e => (e.1, e.2.val)) = l.map fun e => (e.1, e.2.val) := by
          rw [← zip_map l2 Prod.fst (fun e => e.2.val), ← zip_map l Prod.fst (fun e => e.2.val), a2, a3]
        simp only [Tree.val, e2, a3]
      refine ⟨(h'.alloc (shape o (cells l2))).1, .cont o (h'.alloc (shape o (cells l2))).2 l2, ?_, hval,
        ?_, ?_⟩
      · cases o with
        | true =>
          simp only [copyN, cell_obj, cell_arr, hs.1, shape, if_true, cells_snd, a1, bind, Except.bind, cells_fst,
            hzip]
        | false =>
          simp only [copyN, cell_obj, cell_arr, hs.1, shape, Bool.false_eq_true, if_false, cells_snd, a1, bind,
            Except.bind]
      · rw [stored_cont]
        refine ⟨by simp [Heap.alloc], fun e he => (Made.alloc h' _).stored (a4 e he) fun a ha => ?_⟩
        exact (a5.range a (mem_addrsL.2 ⟨e, he, ha⟩)).2
      · rw [addrs_cont]
        have := a5.trans (Made.alloc h' (shape o (cells l2)))
        refine ⟨this.le, this.old, ?_, fun a ha => this.range a ?_, fun a h1 h2 => ?_⟩
        · exact (List.perm_append_singleton _ _).nodup_iff.1 this.nodup
        · exact (List.perm_append_singleton _ _).mem_iff.2 ha
        · exact (this.all a h1 h2).imp_left fun h => (List.perm_append_singleton _ _).mem_iff.1 h

theorem copy_spec {t : Tree K} {h : Heap K} (hs : Stored h t) (hf : Fits h.next t) :
    ∃ h' t', h.copy t.cell = .ok (h', t'.cell) ∧ t'.val = t.val ∧ Stored h' t' ∧
      Made h h' t'.addrs :=
  copyN_spec t _ h (Nat.lt_succ_of_le hf.depth) hs hf.lt

end Marley.JsonHeap
