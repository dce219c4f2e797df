import Verif.Lemmas.JsonSim

/-!
# Subscripts
-/

set_option autoImplicit false

namespace Marley.JsonHeap
open Marley Marley.Json Marley.JsonValue

variable {K : Type}

/-! ## The laws of `get` and `put` -/

theorem findKey_insert {α : Type} {m : List (Str × α)} {k : Str} (x : α) (h : findKey m k = none) :
    findKey (insertKey m k x) k = some x := by
  rw [findKey, Option.map_eq_none_iff] at h
  rw [findKey, find_insert_self x h]; rfl

theorem findKey_change {α : Type} {m : List (Str × α)} {k : Str} (x : α) (h : (findKey m k).isSome = true) :
    findKey (changeKey m k x) k = some x := by
  rw [findKey, Option.isSome_map] at h
  obtain ⟨e, h⟩ := Option.isSome_iff_exists.1 h
  obtain ⟨-, l1, l2, -, h3, h4⟩ := changeKey_split h
  rw [findKey, h4, find_split h3]; rfl

theorem changeKey_insert {α : Type} {m : List (Str × α)} {k : Str} (x y : α) (h : findKey m k = none) :
    changeKey (insertKey m k x) k y = insertKey m k y := by
  rw [findKey, Option.map_eq_none_iff] at h
  obtain ⟨l1, l2, h1, h2⟩ := insertKey_split m k
  have h3 : ∀ z ∈ l1, z.1 ≠ k := by
    intro z hz
    have := List.find?_eq_none.1 h z (by rw [h1]; exact List.mem_append_left _ hz)
    simpa using this
  rw [h2, h2]
  clear h h1 h2
  induction l1 with
  | nil => simp [changeKey]
  | cons z l1 ih =>
    rw [List.cons_append, changeKey, if_neg (h3 z (by simp)), ih fun w hw => h3 w (by simp [hw])]
    rfl

theorem changeKey_change {α : Type} (m : List (Str × α)) (k : Str) (x y : α) :
    changeKey (changeKey m k x) k y = changeKey m k y := by
  induction m with
  | nil => rfl
  | cons e m ih =>
    by_cases h : e.1 = k
    · simp [changeKey, h]
    · simp [changeKey, h, ih]

theorem find_putMember (m : List (Str × JVal K)) (k : Str) (w : JVal K) :
    findKey (putMember m k w) k = some w := by
  unfold putMember
  by_cases h : (findKey m k).isSome = true
  · rw [if_pos h, findKey_change w h]
  · rw [if_neg h, findKey_insert w (by simpa using h)]

theorem putMember_put (m : List (Str × JVal K)) (k : Str) (a b : JVal K) :
    putMember (putMember m k a) k b = putMember m k b := by
  have h1 : (findKey (putMember m k a) k).isSome = true := by rw [find_putMember]; rfl
  rw [putMember, if_pos h1]
  unfold putMember
  by_cases h : (findKey m k).isSome = true
  · rw [if_pos h, if_pos h, changeKey_change]
  · rw [if_neg h, if_neg h, changeKey_insert a b (by simpa using h)]

theorem putItem_get (l : List (JVal K)) (n : Nat) (w : JVal K) : (putItem l n w)[n]? = some w := by
  rw [putItem, List.getElem?_set_self]
  simp; omega

theorem putItem_put (l : List (JVal K)) (n : Nat) (a b : JVal K) :
    putItem (putItem l n a) n b = putItem l n b := by
  have : n + 1 - (putItem l n a).length = 0 := by simp [putItem]; omega
  rw [putItem, this, List.replicate_zero, List.append_nil, putItem, List.set_set, putItem]

theorem get_put (v : JVal K) (s : Step) (w : JVal K) : JsonValue.get (put v s w) s = w := by
  cases s with
  | key k => cases v <;> simp [put, JsonValue.get, find_putMember]
  | index n => cases v <;> simp [put, JsonValue.get, putItem_get]

theorem put_put (v : JVal K) (s : Step) (a b : JVal K) : put (put v s a) s b = put v s b := by
  cases s with
  | key k => cases v <;> simp [put, putMember_put]
  | index n => cases v <;> simp [put, putItem_put]

theorem putPath_putPath (v a w : JVal K) (p q : List Step) :
    putPath (putPath v p a) (p ++ q) w = putPath v p (putPath a q w) := by
  induction p generalizing v with
  | nil => rfl
  | cons s p ih => simp only [putPath, List.cons_append, get_put, put_put, ih]

theorem putPath_append (v : JVal K) (p q : List Step) (w : JVal K) :
    putPath v (p ++ q) w = putPath v p (putPath (getPath v p) q w) := by
  induction p generalizing v with
  | nil => rfl
  | cons s p ih => simp only [putPath, List.cons_append, getPath, ih]

theorem getPath_putPath (v w : JVal K) (p : List Step) : getPath (putPath v p w) p = w := by
  induction p generalizing v with
  | nil => rfl
  | cons s p ih => simp only [putPath, getPath, get_put, ih]

theorem touch_cons (v : JVal K) (s : Step) (p : List Step) :
    touch v (s :: p) = put v s (touch (JsonValue.get v s) p) := rfl

/-! ## `set_type` -/

/-- The type a container has. -/
def kind (o : Bool) : DataType := if o then .object else .array

theorem type_cont (o : Bool) (q : Nat) (l : List (Str × Tree K)) : (Tree.cont o q l).cell.type = kind o := by
  cases o <;> rfl

theorem of_type {u : Tree K} {o : Bool} (h : u.cell.type = kind o) : ∃ q l, u = .cont o q l := by
  cases u with
  | prim x => cases x <;> cases o <;> simp [Tree.cell, Cell.type, kind] at h
  | str q s => cases o <;> simp [Tree.cell, Cell.type, kind] at h
  | cont o' q l =>
    have : o' = o := by cases o <;> cases o' <;> simp [Tree.cell, Cell.type, kind] at h ⊢
    exact ⟨q, l, by rw [this]⟩

theorem get_other {u : Tree K} {st : Step} (h : u.cell.type ≠ kind st.isKey) :
    JsonValue.get u.val st = .null := by
  cases st with
  | key k =>
    cases u with
    | prim x => cases x <;> simp [Tree.val, Prim.val, JsonValue.get]
    | str q s => simp [Tree.val, JsonValue.get]
    | cont o q l =>
      cases o with
      | true => exact absurd rfl h
      | false => rw [val_arr]; rfl
  | index n =>
    cases u with
    | prim x => cases x <;> simp [Tree.val, Prim.val, JsonValue.get]
    | str q s => simp [Tree.val, JsonValue.get]
    | cont o q l =>
      cases o with
      | false => exact absurd rfl h
      | true => rw [val_obj]; rfl

theorem put_other {u : Tree K} {st : Step} (h : u.cell.type ≠ kind st.isKey) (q' : Nat) (w : JVal K) :
    put u.val st w = put (Tree.cont (K := K) st.isKey q' []).val st w := by
  cases st with
  | key k =>
    cases u with
    | prim x => cases x <;> simp [Tree.val, Prim.val, put, Step.isKey]
    | str q s => simp [Tree.val, put, Step.isKey]
    | cont o q l =>
      cases o with
      | true => exact absurd rfl h
      | false => simp [Tree.val, put, Step.isKey]
  | index n =>
    cases u with
    | prim x => cases x <;> simp [Tree.val, Prim.val, put, Step.isKey]
    | str q s => simp [Tree.val, put, Step.isKey]
    | cont o q l =>
      cases o with
      | false => exact absurd rfl h
      | true => simp [Tree.val, put, Step.isKey]

/-- What `fresh` makes. -/
def freshTree [Zero K] (a : Nat) : DataType → Tree K
  | .null => .prim .null
  | .object => .cont true a []
  | .array => .cont false a []
  | .string => .str a []
  | .floating => .prim (.float 0)
  | .integral => .prim (.int 0)
  | .boolean => .prim (.bool false)

theorem fresh_spec [Zero K] (h : Heap K) (ty : DataType) :
    ∃ h', h.fresh ty = (h', (freshTree h.next ty).cell) ∧ Stored h' (freshTree h.next ty) ∧
      Made h h' (freshTree (K := K) h.next ty).addrs := by
  cases ty <;> refine ⟨_, rfl, ?_, ?_⟩ <;>
    simp only [freshTree, stored_prim, stored_str, stored_cont, addrs_prim, addrs_str, addrs_cont]
  all_goals first | exact Made.refl h | exact Made.alloc h _ | simp [Heap.alloc, shape, cells]

theorem freshTree_type [Zero K] (a : Nat) (ty : DataType) : (freshTree (K := K) a ty).cell.type = ty := by
  cases ty <;> rfl

/-- A subtree is destroyed and another one made. -/
theorem Change.replace {h h1 h' : Heap K} {u u' : Tree K} (hn : ∀ a, h.next ≤ a → h.node a = none)
    (hf : Fits h.next u) (e1 : h1.next = h.next)
    (e2 : ∀ a ∈ u.addrs, h1.node a = none) (e3 : ∀ a, a ∉ u.addrs → h1.node a = h.node a)
    (m : Made h1 h' u'.addrs) (hs : Stored h' u') : Change true h h' u u' := by
  have hn1 : ∀ a, h1.next ≤ a → h1.node a = none := fun a ha => by
    rw [e3 a fun hc => by have := hf.lt a hc; omega]
    exact hn a (by omega)
  have c1 : Change true h h1 u (.prim .null) := by
    refine ⟨e1.ge, hn1, fun a _ ha => e3 a ha, stored_prim _ _, by rw [addrs_prim]; exact .nil,
      by simp [addrs_prim], by simp [addrs_prim], fun _ a hl hr => ?_⟩
    rcases hr with hr | hr
    · exact absurd (e2 a hr) hl
    · exact absurd (hn1 a (by omega)) hl
  exact c1.trans (Change.made hn1 m hs fun _ => addrs_prim _)

theorem and_true' (x : Bool) : (x && true) = x := by cases x <;> rfl

theorem Sim.setType [Zero K] {x : Bool} {s : Mem K} {ω : Option Nat → Option (Tree K)} {i : Nat}
    {t u : Tree K} {p : List Step} {ℓ : Loc} (S : Sim x s ω) (hi : ω (some i) = some t)
    (hu : t.sub p = some u) (hl : t.loc (.var i) p = some ℓ) (ty : DataType) :
    ∃ s' u', s.setType ℓ ty = .ok (s', u'.cell) ∧
      Sim x s' (upd ω (some i) (some (t.set p u'))) ∧
      ((u.cell.type = ty ∧ u' = u) ∨ (u.cell.type ≠ ty ∧ ∃ a, u' = freshTree a ty)) := by
  have hld := S.load hi hu hl
  have hs := stored_sub hu (S.stored _ _ hi)
  have hf := fits_sub hu (S.fits _ _ hi)
  by_cases hty : u.cell.type = ty
  · obtain ⟨s', h1, h2⟩ := S.store hi hu hl (Change.refl S.fresh hs hf)
    rw [and_true'] at h2
    refine ⟨s', u, ?_, h2, .inl ⟨hty, rfl⟩⟩
    simp only [Mem.setType, hld, Heap.setType, hty, if_true, bind, Except.bind]
    simp only [h1]
  · obtain ⟨h1, a1, a2, a3, a4⟩ := destroy_spec hs hf
    obtain ⟨h', b1, b2, b3⟩ := fresh_spec h1 ty
    have c := Change.replace S.fresh hf a2 a3 a4 b3 b2
    obtain ⟨s', d1, d2⟩ := S.store hi hu hl c
    rw [and_true'] at d2
    refine ⟨s', freshTree h1.next ty, ?_, d2, .inr ⟨hty, _, rfl⟩⟩
    simp only [Mem.setType, hld, Heap.setType, hty, if_false, bind, Except.bind, a1, b1]
    simp only [d1]

/-! ## Growing a container -/

/-- A container gets elements that own no storage. -/
theorem Change.grow {h : Heap K} {o : Bool} {q : Nat} {l l' : List (Str × Tree K)}
    (hn : ∀ a, h.next ≤ a → h.node a = none) (hs : Stored h (.cont o q l)) (hf : Fits h.next (.cont o q l))
    (hp : addrsL l' = addrsL l) (he : ∀ e ∈ l', e ∈ l ∨ e.2 = .prim .null) :
    Change true h (h.write q (shape o (cells l'))) (.cont o q l) (.cont o q l') := by
  have hqn : q < h.next := hf.lt q (by rw [addrs_cont]; simp)
  have hql : q ∉ addrsL l := by
    have := hf.nodup
    rw [addrs_cont, List.nodup_cons] at this
    exact this.1
  have hA : (Tree.cont o q l').addrs = (Tree.cont o q l).addrs := by rw [addrs_cont, addrs_cont, hp]
  refine ⟨le_rfl, fun a ha => ?_, fun a ha hna => ?_, ?_, by rw [hA]; exact hf.nodup,
    fun a ha => .inl (by rwa [← hA]), fun a ha => hf.lt a (by rwa [← hA]), fun _ a hl hr => ?_⟩
  · have ha : h.next ≤ a := ha
    have : a ≠ q := by omega
    simp [Heap.write, this, hn a ha]
  · have : a ≠ q := fun e => hna (by rw [addrs_cont, e]; simp)
    simp [Heap.write, this]
  · rw [stored_cont]
    refine ⟨by simp [Heap.write], fun e hel => ?_⟩
    rcases he e hel with h1 | h1
    · refine (((stored_cont _ _ _ _).1 hs).2 e h1).frame fun a ha => ?_
      have : a ≠ q := fun e' => hql (mem_addrsL.2 ⟨e, h1, e' ▸ ha⟩)
      simp [Heap.write, this]
    · rw [h1]; exact stored_prim _ _
  · rw [hA]
    refine hr.resolve_right fun hc => hl ?_
    have : a ≠ q := by omega
    simp [Heap.write, this, hn a hc]

/-- The elements after a subscript was used. -/
def grown (l : List (Str × Tree K)) : Step → List (Str × Tree K)
  | .key k => if (findKey l k).isSome then l else insertKey l k (.prim .null)
  | .index n => l ++ List.replicate (n + 1 - l.length) ([], .prim .null)

theorem addrsL_null (n : Nat) : addrsL (List.replicate n (([] : Str), (Tree.prim .null : Tree K))) = [] := by
  induction n with
  | zero => rfl
  | succ n ih => rw [List.replicate_succ, addrsL_cons, ih, addrs_prim]; rfl

theorem grown_addrs (l : List (Str × Tree K)) (st : Step) : addrsL (grown l st) = addrsL l := by
  cases st with
  | key k =>
    simp only [grown]
    by_cases h : (findKey l k).isSome = true
    · rw [if_pos h]
    · rw [if_neg h]
      obtain ⟨l1, l2, h1, h2⟩ := insertKey_split l k
      rw [h2, h1, addrsL_append, addrsL_append, addrsL_cons, addrs_prim]; rfl
  | index n => rw [grown, addrsL_append, addrsL_null, List.append_nil]

theorem grown_mem (l : List (Str × Tree K)) (st : Step) :
    ∀ e ∈ grown l st, e ∈ l ∨ e.2 = .prim .null := by
  intro e he
  cases st with
  | key k =>
    simp only [grown] at he
    by_cases h : (findKey l k).isSome = true
    · rw [if_pos h] at he; exact .inl he
    · rw [if_neg h] at he
      obtain ⟨l1, l2, h1, h2⟩ := insertKey_split l k
      rw [h2] at he
      rw [h1]
      rcases List.mem_append.1 he with he | he
      · exact .inl (List.mem_append_left _ he)
      · rcases List.mem_cons.1 he with rfl | he
        · exact .inr rfl
        · exact .inl (List.mem_append_right _ he)
  | index n =>
    rcases List.mem_append.1 he with he | he
    · exact .inl he
    · exact .inr (by rw [List.eq_of_mem_replicate he])

theorem grown_old {l : List (Str × Tree K)} {st st' : Step} {e : Str × Tree K}
    (h : entry st.isKey l st' = some e) : entry st.isKey (grown l st) st' = some e := by
  cases st with
  | key k =>
    cases st' with
    | index n => simp [entry, Step.isKey] at h
    | key k' =>
      simp only [entry, Step.isKey, if_true] at h ⊢
      simp only [grown]
      by_cases hk : (findKey l k).isSome = true
      · rw [if_pos hk]; exact h
      · rw [if_neg hk, find_insert_other _ fun e' => hk (by rw [← e', findKey, h]; rfl)]
        exact h
  | index n =>
    cases st' with
    | key k => simp [entry, Step.isKey] at h
    | index n' =>
      simp only [entry, Step.isKey, Bool.false_eq_true, if_false] at h ⊢
      obtain ⟨hn, -⟩ := List.getElem?_eq_some_iff.1 h
      rw [grown, List.getElem?_append_left hn]; exact h

theorem grown_self {l : List (Str × Tree K)} {st : Step} {e : Str × Tree K}
    (h : entry st.isKey l st = some e) : grown l st = l := by
  cases st with
  | key k =>
    simp only [entry, Step.isKey, if_true] at h
    have hf : (findKey l k).isSome = true := by rw [findKey, h]; rfl
    rw [grown, if_pos hf]
  | index n =>
    simp only [entry, Step.isKey, Bool.false_eq_true, if_false] at h
    obtain ⟨hn, -⟩ := List.getElem?_eq_some_iff.1 h
    rw [grown, show n + 1 - l.length = 0 by omega]; simp

theorem put_self {o : Bool} {q : Nat} {l : List (Str × Tree K)} {st : Step} {e : Str × Tree K}
    (h : entry o l st = some e) : put (Tree.cont o q l).val st e.2.val = (Tree.cont o q l).val := by
  rw [← put_entry h]
  obtain rfl := entry_kind h
  cases st with
  | key k =>
    simp only [entry, Step.isKey, if_true] at h
    rw [setEntry, changeKey_self h]
  | index n =>
    simp only [entry, Step.isKey, Bool.false_eq_true, if_false] at h
    obtain ⟨hn, rfl⟩ := List.getElem?_eq_some_iff.1 h
    simp only [Step.isKey, val_arr, setEntry, List.map_set]
    congr 1
    apply List.ext_getElem
    · simp
    · intro i h1 h2
      rw [List.getElem_set]
      split
      · rename_i e; subst e; simp
      · rfl

theorem putPath_self {t u : Tree K} {p : List Step} (h : t.sub p = some u) :
    putPath t.val p u.val = t.val := by
  induction p generalizing t with
  | nil => simp only [Tree.sub, Option.some.injEq] at h; rw [h]; rfl
  | cons s p ih =>
    obtain ⟨o, a, l, e, rfl, h1, h2⟩ := sub_cons h
    rw [putPath, get_entry h1, ih h2, put_self h1]

theorem grown_new (q : Nat) (l : List (Str × Tree K)) (st : Step) :
    ∃ e, entry st.isKey (grown l st) st = some e ∧
      e.2.val = JsonValue.get (Tree.cont st.isKey q l).val st ∧
      (Tree.cont st.isKey q (grown l st)).val = put (Tree.cont st.isKey q l).val st e.2.val := by
  rcases h : entry st.isKey l st with _ | e
  · cases st with
    | key k =>
      simp only [entry, Step.isKey, if_true] at h
      have hf : findKey l k = none := by rw [findKey, h]; rfl
      have hf' : findKey (l.map fun e => (e.1, e.2.val)) k = none := by
        rw [findKey_map Tree.val, hf]; rfl
      have hnone : ¬ (findKey l k).isSome = true := by rw [hf]; simp
      refine ⟨(k, .prim .null), ?_, ?_, ?_⟩
      · simp only [entry, Step.isKey, if_true, grown, if_neg hnone]
        exact find_insert_self _ h
      · simp [Step.isKey, val_obj, JsonValue.get, hf', Tree.val, Prim.val]
      · simp only [Step.isKey, val_obj, put, putMember, hf', grown, if_neg hnone]
        rw [← insertKey_map Tree.val]
        simp
    | index n =>
      simp only [entry, Step.isKey, Bool.false_eq_true, if_false, List.getElem?_eq_none_iff] at h
      refine ⟨([], .prim .null), ?_, ?_, ?_⟩
      · simp only [entry, Step.isKey, Bool.false_eq_true, if_false, grown]
        rw [List.getElem?_append_right h, List.getElem?_replicate, if_pos (by omega)]
      · simp [Step.isKey, val_arr, JsonValue.get, h, Tree.val, Prim.val]
      · simp only [Step.isKey, val_arr, put, putItem, grown, List.map_append, List.map_replicate,
          List.length_map]
        congr 1
        have : (Tree.prim Prim.null : Tree K).val = .null := by simp [Tree.val, Prim.val]
        rw [this, List.set_append_right _ _ (by simpa using h), List.set_replicate_self]
  · exact ⟨e, grown_old h, (get_entry h).symm, by rw [grown_self h, put_self h]⟩

/-! ## `operator[]` -/

/-- Going along `d` replaces something that `q` goes through. -/
def Broken (q d : List Step) : Prop :=
  ∃ q1 s q2 st, q = q1 ++ s :: q2 ∧ (q1 ++ [st]) <+: d ∧ s.isKey ≠ st.isKey

theorem Broken.none {t u : Tree K} {q d : List Step} (h : Broken q d) (hd : t.sub d = some u) :
    t.sub q = Option.none := by
  obtain ⟨q1, s, q2, st, rfl, ⟨d2, rfl⟩, hk⟩ := h
  rw [List.append_assoc, sub_append] at hd
  obtain ⟨v, h1, h2⟩ := Option.bind_eq_some_iff.1 hd
  obtain ⟨o, a, l, e, rfl, h3, -⟩ := sub_cons h2
  rw [sub_append, h1]
  simp only [Option.bind_some, Tree.sub]
  rcases h4 : entry o l s with _ | e'
  · rfl
  · exact absurd ((entry_kind h4).symm.trans (entry_kind h3)) hk

theorem fresh_kind [Zero K] (a : Nat) (o : Bool) : freshTree (K := K) a (kind o) = .cont o a [] := by
  cases o <;> rfl

theorem sub_eq [Zero K] (s : Mem K) (r : Loc) (st : Step) (hr : ∀ n, st = .index n → n + 1 < 2 ^ 32)
    {s1 : Mem K} {q : Nat} {l : List (Str × Tree K)}
    (h1 : s.setType r (kind st.isKey) = .ok (s1, (Tree.cont st.isKey q l).cell))
    (h2 : s1.heap.node q = some (shape st.isKey (cells l))) :
    ∃ s2, s.sub r st = .ok (s2, refTo q st) ∧ s2.vars = s1.vars ∧ s2.heap.next = s1.heap.next ∧
      s2.heap.node = (s1.heap.write q (shape st.isKey (cells (grown l st)))).node := by
  have same : grown l st = l → s1.heap.node = (s1.heap.write q (shape st.isKey (cells (grown l st)))).node := by
    intro hg
    funext a
    by_cases ha : a = q
    · simp [Heap.write, ha, h2, hg]
    · simp [Heap.write, ha]
  cases st with
  | key k =>
    simp only [Step.isKey, kind, if_true, cell_obj, shape] at h1 h2
    simp only [Mem.sub, h1, bind, Except.bind, h2, refTo, cells, findKey_map Tree.cell]
    rcases hk : findKey l k with _ | c
    · refine ⟨_, rfl, rfl, rfl, ?_⟩
      simp only [Step.isKey, shape, if_true, grown, hk, Option.isSome_none, Bool.false_eq_true, if_false]
      rw [show (Cell.prim Prim.null : Cell K) = (Tree.prim Prim.null).cell from rfl,
        insertKey_map Tree.cell]
    · exact ⟨s1, rfl, rfl, rfl, same (by simp [grown, hk])⟩
  | index n =>
    simp only [Step.isKey, kind, Bool.false_eq_true, if_false, cell_arr, shape, cells_snd] at h1 h2
    have hn := hr n rfl
    simp only [Mem.sub, h1, bind, Except.bind, h2, refTo, List.length_map]
    by_cases hle : l.length ≤ n
    · rw [if_pos hle, Nat.mod_eq_of_lt hn, if_pos (Nat.lt_succ_self n)]
      refine ⟨_, rfl, rfl, rfl, ?_⟩
      simp only [Step.isKey, shape, Bool.false_eq_true, if_false, grown, cells_snd, List.map_append,
        List.map_replicate]
      rfl
    · rw [if_neg hle]
      exact ⟨s1, rfl, rfl, rfl, same (by rw [grown, show n + 1 - l.length = 0 by omega]; simp)⟩

theorem Sim.sub [Zero K] {x : Bool} {s : Mem K} {ω : Option Nat → Option (Tree K)} {i : Nat}
    {t u : Tree K} {p : List Step} {ℓ : Loc} (S : Sim x s ω) (hi : ω (some i) = some t)
    (hu : t.sub p = some u) (hl : t.loc (.var i) p = some ℓ) (st : Step)
    (hr : ∀ n, st = .index n → n + 1 < 2 ^ 32) :
    ∃ s' t' c ℓ', s.sub ℓ st = .ok (s', ℓ') ∧ Sim x s' (upd ω (some i) (some t')) ∧
      t'.sub (p ++ [st]) = some c ∧ t'.loc (.var i) (p ++ [st]) = some ℓ' ∧
      c.val = JsonValue.get u.val st ∧
      t'.val = putPath t.val p (put u.val st (JsonValue.get u.val st)) ∧
      ∀ q ℓq, t.loc (.var i) q = some ℓq →
        t'.loc (.var i) q = some ℓq ∨ Broken q (p ++ [st]) := by
  obtain ⟨s1, u1, a1, S1, a3⟩ := S.setType hi hu hl (kind st.isKey)
  have hu1 : ∃ q l, u1 = .cont st.isKey q l ∧ (u = u1 ∨ (u.cell.type ≠ kind st.isKey ∧ l = [])) := by
    rcases a3 with ⟨b1, b2⟩ | ⟨b1, a, b2⟩
    · obtain ⟨q, l, b3⟩ := of_type b1
      exact ⟨q, l, by rw [b2, b3], .inl b2.symm⟩
    · exact ⟨a, [], by rw [b2, fresh_kind], .inr ⟨b1, rfl⟩⟩
  obtain ⟨q, l, rfl, hul⟩ := hu1
  have hi1 : upd ω (some i) (some (t.set p (.cont st.isKey q l))) (some i) = _ := upd_same _ _ _
  have hsub1 := sub_set hu (.cont st.isKey q l)
  have hst1 := stored_sub hsub1 (S1.stored _ _ hi1)
  have hfi1 := fits_sub hsub1 (S1.fits _ _ hi1)
  obtain ⟨s2, b1, b2, b3, b4⟩ := sub_eq s ℓ st hr a1 ((stored_cont _ _ _ _).1 hst1).1
  have c := Change.grow S1.fresh hst1 hfi1 (grown_addrs l st) (grown_mem l st)
  have S2 := S1.inplace hi1 hsub1 (u' := .cont st.isKey q (grown l st))
    (by cases st.isKey <;> rfl) c
  rw [and_true', upd_upd, set_set hu] at S2
  have e2 : (⟨s1.heap.write q (shape st.isKey (cells (grown l st))), s1.vars⟩ : Mem K) = s2 := by
    obtain ⟨⟨n2, x2⟩, v2⟩ := s2
    simp only at b2 b3 b4
    subst b2 b3 b4
    rfl
  rw [e2] at S2
  obtain ⟨e, d1, d2, d3⟩ := grown_new q l st
  have hloc2 : ∀ u2, (t.set p u2).loc (.var i) p = some ℓ := fun u2 => by
    rw [loc_set hu u2 fun hc => hc.2 rfl]; exact hl
  refine ⟨s2, t.set p (.cont st.isKey q (grown l st)), e.2, refTo q st, b1, S2, ?_, ?_, ?_, ?_, ?_⟩
  · rw [sub_append, sub_set hu]
    simp [Tree.sub, d1]
  · rw [loc_append (sub_set hu _) (hloc2 _)]
    simp [Tree.loc, d1]
  · rw [d2]
    rcases hul with h | ⟨h1, h2⟩
    · rw [h]
    · subst h2
      rw [get_other h1]
      exact get_other' q st
  · rw [val_set hu, d3, d2]
    rcases hul with h | ⟨h1, h2⟩
    · rw [h]
    · subst h2
      rw [get_other h1, get_other' q st, ← put_other h1]
  · intro q' ℓq hq
    by_cases hab : Above p q'
    · obtain ⟨⟨rest, rfl⟩, hne⟩ := hab
      cases rest with
      | nil => simp at hne
      | cons s' rest =>
        rw [loc_append hu hl] at hq
        cases u with
        | prim x => simp [Tree.loc] at hq
        | str a x => simp [Tree.loc] at hq
        | cont o' a' l' =>
          simp only [Tree.loc] at hq
          obtain ⟨e', g1, g2⟩ := Option.bind_eq_some_iff.1 hq
          have hk := entry_kind g1
          by_cases hs : s'.isKey = st.isKey
          · left
            rcases hul with h | ⟨h1, -⟩
            · injection h with h1 h2 h3
              subst h2 h3
              rw [loc_append (sub_set hu _) (hloc2 _)]
              simp only [Tree.loc]
              rw [grown_old (by rw [← h1]; exact g1), Option.bind_some]
              exact g2
            · exact absurd (by rw [type_cont, hk, hs]) h1
          · exact .inr ⟨p, s', rest, st, rfl, List.prefix_rfl, hs⟩
    · left
      rw [loc_set hu _ hab]; exact hq
where
  get_other' (q : Nat) (st : Step) : JsonValue.get (Tree.cont (K := K) st.isKey q []).val st = .null := by
    cases st with
    | key k => simp [Step.isKey, Tree.val, JsonValue.get, findKey]
    | index n => simp [Step.isKey, Tree.val, JsonValue.get]

theorem Sim.path [Zero K] {x : Bool} {i : Nat} (rest : List Step) : ∀ {s : Mem K}
    {ω : Option Nat → Option (Tree K)} {t u : Tree K} {p : List Step} {ℓ : Loc}, Sim x s ω →
    ω (some i) = some t → t.sub p = some u → t.loc (.var i) p = some ℓ → InRange rest →
    ∃ s' t' ℓ', s.path ℓ rest = .ok (s', ℓ') ∧ Sim x s' (upd ω (some i) (some t')) ∧
      (t'.sub (p ++ rest)).isSome = true ∧ t'.loc (.var i) (p ++ rest) = some ℓ' ∧
      t'.val = putPath t.val p (touch u.val rest) ∧
      ∀ q ℓq, t.loc (.var i) q = some ℓq →
        t'.loc (.var i) q = some ℓq ∨ Broken q (p ++ rest) := by
  induction rest with
  | nil =>
    intro s ω t u p ℓ S hi hu hl _
    refine ⟨s, t, ℓ, rfl, ?_, by rw [List.append_nil, hu]; rfl, by rw [List.append_nil]; exact hl, ?_,
      fun q ℓq hq => .inl hq⟩
    · rw [show upd ω (some i) (some t) = ω by
        funext j
        by_cases h : j = some i
        · rw [h, upd_same, hi]
        · rw [upd_other h]]
      exact S
    · exact (putPath_self hu).symm
  | cons st rest ih =>
    intro s ω t u p ℓ S hi hu hl hr
    obtain ⟨s1, t1, c, ℓ1, a1, a2, a3, a4, a5, a6, a7⟩ := S.sub hi hu hl st fun n e => hr n (by simp [e])
    obtain ⟨s', t', ℓ', b1, b2, b3, b4, b5, b6⟩ := ih a2 (upd_same _ _ _) a3 a4
      fun n hn => hr n (by simp [hn])
    rw [List.append_assoc] at b3 b4 b6
    rw [upd_upd] at b2
    refine ⟨s', t', ℓ', ?_, b2, b3, b4, ?_, fun q ℓq hq => ?_⟩
    · simp only [Mem.path, a1, bind, Except.bind]; exact b1
    · rw [b5, a6, a5, putPath_putPath, touch_cons]
      simp only [putPath, put_put]
    · rcases a7 q ℓq hq with h | h
      · exact b6 q ℓq h
      · obtain ⟨q1, s, q2, st', h1, h2, h3⟩ := h
        refine .inr ⟨q1, s, q2, st', h1, h2.trans ?_, h3⟩
        exact ⟨rest, by simp⟩

end Marley.JsonHeap
