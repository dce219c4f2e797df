import Verif.Lemmas.JsonTree

/-!
# Paths in trees of storage
-/

set_option autoImplicit false

namespace Marley.JsonHeap
open Marley Marley.Json Marley.JsonValue

variable {K : Type}

/-! ## Maps -/

section assoc
variable {α β : Type}

theorem find_map (f : α → β) (m : List (Str × α)) (k : Str) :
    (m.map fun e => (e.1, f e.2)).find? (fun e => decide (e.1 = k)) =
      (m.find? fun e => decide (e.1 = k)).map fun e => (e.1, f e.2) := by
  induction m with
  | nil => rfl
  | cons e m ih =>
    rw [List.map_cons, List.find?_cons, List.find?_cons]
    by_cases h : e.1 = k
    · simp [h]
    · simp only [h, decide_false]; exact ih

theorem findKey_map (f : α → β) (m : List (Str × α)) (k : Str) :
    findKey (m.map fun e => (e.1, f e.2)) k = (findKey m k).map f := by
  rw [findKey, find_map, findKey, Option.map_map, Option.map_map]; rfl

theorem changeKey_map (f : α → β) (m : List (Str × α)) (k : Str) (x : α) :
    changeKey (m.map fun e => (e.1, f e.2)) k (f x) = (changeKey m k x).map fun e => (e.1, f e.2) := by
  induction m with
  | nil => rfl
  | cons e m ih =>
    rw [List.map_cons, changeKey, changeKey]
    by_cases h : e.1 = k
    · simp [h]
    · simp [h, ih]

theorem insertKey_map (f : α → β) (m : List (Str × α)) (k : Str) (x : α) :
    insertKey (m.map fun e => (e.1, f e.2)) k (f x) = (insertKey m k x).map fun e => (e.1, f e.2) := by
  induction m with
  | nil => rfl
  | cons e m ih =>
    rw [List.map_cons, insertKey, insertKey]
    by_cases h : keyLt k e.1 = true
    · simp [h]
    · simp only [h]; simp [ih]

theorem insertKey_split (m : List (Str × α)) (k : Str) :
    ∃ l1 l2, m = l1 ++ l2 ∧ ∀ x, insertKey m k x = l1 ++ (k, x) :: l2 := by
  induction m with
  | nil => exact ⟨[], [], rfl, fun _ => rfl⟩
  | cons e m ih =>
    by_cases h : keyLt k e.1 = true
    · exact ⟨[], e :: m, rfl, fun x => by simp [insertKey, h]⟩
    · obtain ⟨l1, l2, h1, h2⟩ := ih
      exact ⟨e :: l1, l2, by rw [h1]; rfl, fun x => by simp [insertKey, h, h2]⟩

theorem changeKey_split {m : List (Str × α)} {k : Str} {e : Str × α}
    (h : m.find? (fun e => decide (e.1 = k)) = some e) :
    e.1 = k ∧ ∃ l1 l2, m = l1 ++ e :: l2 ∧ (∀ y ∈ l1, y.1 ≠ k) ∧
      ∀ x, changeKey m k x = l1 ++ (k, x) :: l2 := by
  induction m with
  | nil => simp at h
  | cons y m ih =>
    rw [List.find?_cons] at h
    by_cases hy : y.1 = k
    · simp only [hy, decide_true, Option.some.injEq] at h
      subst h
      exact ⟨hy, [], m, rfl, by simp, fun x => by simp [changeKey, hy]⟩
    · simp only [hy, decide_false] at h
      obtain ⟨h1, l1, l2, h2, h3, h4⟩ := ih h
      refine ⟨h1, y :: l1, l2, by rw [h2]; rfl, ?_, fun x => by simp [changeKey, hy, h4]⟩
      intro z hz
      rcases List.mem_cons.1 hz with rfl | hz
      · exact hy
      · exact h3 z hz

theorem find_split {l1 l2 : List (Str × α)} {k : Str} {x : α} (h : ∀ y ∈ l1, y.1 ≠ k) :
    (l1 ++ (k, x) :: l2).find? (fun e => decide (e.1 = k)) = some (k, x) := by
  rw [List.find?_append, List.find?_eq_none.2 (by simpa using h)]
  simp

theorem find_insert_other {m : List (Str × α)} {k k' : Str} (x : α) (h : k' ≠ k) :
    (insertKey m k x).find? (fun e => decide (e.1 = k')) = m.find? (fun e => decide (e.1 = k')) := by
  obtain ⟨l1, l2, h1, h2⟩ := insertKey_split m k
  rw [h2, h1, List.find?_append, List.find?_append, List.find?_cons]
  simp [h.symm]

theorem find_insert_self {m : List (Str × α)} {k : Str} (x : α)
    (h : m.find? (fun e => decide (e.1 = k)) = none) :
    (insertKey m k x).find? (fun e => decide (e.1 = k)) = some (k, x) := by
  obtain ⟨l1, l2, h1, h2⟩ := insertKey_split m k
  rw [h2]
  apply find_split
  intro y hy
  have := List.find?_eq_none.1 h y (by rw [h1]; exact List.mem_append_left _ hy)
  simpa using this

end assoc

/-! ## Elements -/

/-- Is the subscript a key? -/
def Step.isKey : Step → Bool
  | .key _ => true
  | .index _ => false

/-- The element a subscript selects. -/
def entry (o : Bool) (l : List (Str × Tree K)) : Step → Option (Str × Tree K)
  | .key k => if o then l.find? (fun e => decide (e.1 = k)) else none
  | .index n => if o then none else l[n]?

/-- The element a subscript selects is changed. -/
def setEntry (l : List (Str × Tree K)) : Step → Tree K → List (Str × Tree K)
  | .key k, u => changeKey l k u
  | .index n, u => l.set n ([], u)

theorem entry_kind {o : Bool} {l : List (Str × Tree K)} {s : Step} {e : Str × Tree K}
    (h : entry o l s = some e) : o = s.isKey := by
  cases s <;> cases o <;> simp [entry, Step.isKey] at *

theorem setEntry_split {o : Bool} {l : List (Str × Tree K)} {s : Step} {e : Str × Tree K}
    (h : entry o l s = some e) :
    ∃ l1 l2 k, l = l1 ++ e :: l2 ∧ ∀ u, setEntry l s u = l1 ++ (k, u) :: l2 := by
  cases s with
  | key k =>
    cases o with
    | false => simp [entry] at h
    | true =>
      simp only [entry, if_true] at h
      obtain ⟨-, l1, l2, h2, -, h4⟩ := changeKey_split h
      exact ⟨l1, l2, k, h2, h4⟩
  | index n =>
    cases o with
    | true => simp [entry] at h
    | false =>
      simp only [entry, Bool.false_eq_true, if_false] at h
      obtain ⟨hn, rfl⟩ := List.getElem?_eq_some_iff.1 h
      refine ⟨l.take n, l.drop (n + 1), [], ?_, fun u => ?_⟩
      · rw [List.getElem_cons_drop, List.take_append_drop]
      · rw [setEntry, List.set_eq_take_append_cons_drop, if_pos hn]

theorem entry_set {o : Bool} {l : List (Str × Tree K)} {s : Step} {e : Str × Tree K}
    (h : entry o l s = some e) (u : Tree K) : ∃ k, entry o (setEntry l s u) s = some (k, u) := by
  cases s with
  | key k =>
    cases o with
    | false => simp [entry] at h
    | true =>
      simp only [entry, if_true] at h
      obtain ⟨-, l1, l2, h2, h3, h4⟩ := changeKey_split h
      refine ⟨k, ?_⟩
      simp only [entry, setEntry, if_true, h4]
      exact find_split h3
  | index n =>
    cases o with
    | true => simp [entry] at h
    | false =>
      simp only [entry, Bool.false_eq_true, if_false] at h
      obtain ⟨hn, rfl⟩ := List.getElem?_eq_some_iff.1 h
      exact ⟨[], by simp [entry, setEntry, hn]⟩

theorem entry_set_other {o : Bool} {l : List (Str × Tree K)} {s s' : Step} (hs : s' ≠ s) (u : Tree K) :
    entry o (setEntry l s u) s' = entry o l s' ∨ s'.isKey ≠ s.isKey := by
  cases s with
  | key k =>
    cases s' with
    | index n => right; simp [Step.isKey]
    | key k' =>
      left
      have hk : k ≠ k' := fun e => hs (by rw [e])
      cases o with
      | false => simp [entry]
      | true =>
        simp only [entry, if_true, setEntry]
        rcases hf : l.find? (fun e => decide (e.1 = k)) with _ | e
        · have : changeKey l k u = l := by
            rw [List.find?_eq_none] at hf
            clear hs
            induction l with
            | nil => rfl
            | cons y l ih =>
              have hy : y.1 ≠ k := by simpa using hf y (by simp)
              rw [changeKey, if_neg hy, ih (fun z hz => hf z (by simp [hz]))]
          rw [this]
        · obtain ⟨he, l1, l2, h2, -, h4⟩ := changeKey_split hf
          rw [h4, h2, List.find?_append, List.find?_append, List.find?_cons, List.find?_cons]
          simp [he, hk]
  | index n =>
    cases s' with
    | key k => right; simp [Step.isKey]
    | index n' =>
      left
      have hn : n ≠ n' := fun e => hs (by rw [e])
      cases o with
      | true => simp [entry]
      | false => simp [entry, setEntry, List.getElem?_set, hn]

/-! ## Subtrees -/

/-- The subtree at the end of a path. -/
def Tree.sub : Tree K → List Step → Option (Tree K)
  | t, [] => some t
  | .cont o _ l, s :: p => (entry o l s).bind fun e => e.2.sub p
  | .prim _, _ :: _ => none
  | .str _ _, _ :: _ => none

/-- The subtree at the end of a path is replaced. -/
def Tree.set : Tree K → List Step → Tree K → Tree K
  | _, [], u => u
  | .cont o q l, s :: p, u =>
    match entry o l s with
    | some e => .cont o q (setEntry l s (e.2.set p u))
    | none => .cont o q l
  | .prim x, _ :: _, _ => .prim x
  | .str q x, _ :: _, _ => .str q x

/-- The reference to an element of a container. -/
def refTo (q : Nat) : Step → Loc
  | .key k => .member q k
  | .index n => .item q n

/-- The reference to the end of a path. -/
def Tree.loc : Loc → Tree K → List Step → Option Loc
  | r, _, [] => some r
  | _, .cont o q l, s :: p => (entry o l s).bind fun e => e.2.loc (refTo q s) p
  | _, .prim _, _ :: _ => none
  | _, .str _ _, _ :: _ => none

theorem sub_cons {t u : Tree K} {s : Step} {p : List Step} (h : t.sub (s :: p) = some u) :
    ∃ o q l e, t = .cont o q l ∧ entry o l s = some e ∧ e.2.sub p = some u := by
  cases t with
  | prim x => simp [Tree.sub] at h
  | str q x => simp [Tree.sub] at h
  | cont o q l =>
    obtain ⟨e, h1, h2⟩ := Option.bind_eq_some_iff.1 h
    exact ⟨o, q, l, e, rfl, h1, h2⟩

theorem loc_isSome (r : Loc) (t : Tree K) (p : List Step) : (t.loc r p).isSome = (t.sub p).isSome := by
  induction p generalizing r t with
  | nil => simp [Tree.loc, Tree.sub]
  | cons s p ih =>
    cases t with
    | prim x => simp [Tree.loc, Tree.sub]
    | str q x => simp [Tree.loc, Tree.sub]
    | cont o q l =>
      simp only [Tree.loc, Tree.sub]
      cases entry o l s with
      | none => rfl
      | some e => exact ih _ _

theorem sub_append (t : Tree K) (p q : List Step) : t.sub (p ++ q) = (t.sub p).bind fun u => u.sub q := by
  induction p generalizing t with
  | nil => simp [Tree.sub]
  | cons s p ih =>
    cases t with
    | prim x => simp [Tree.sub]
    | str a x => simp [Tree.sub]
    | cont o a l =>
      simp only [List.cons_append, Tree.sub, Option.bind_assoc]
      congr 1
      funext e
      exact ih e.2

theorem loc_append {t u : Tree K} {r r' : Loc} {p : List Step} (hu : t.sub p = some u)
    (hr : t.loc r p = some r') (q : List Step) : t.loc r (p ++ q) = u.loc r' q := by
  induction p generalizing t r with
  | nil =>
    simp only [Tree.sub, Option.some.injEq] at hu
    simp only [Tree.loc, Option.some.injEq] at hr
    rw [hu, hr]; rfl
  | cons s p ih =>
    obtain ⟨o, a, l, e, rfl, h1, h2⟩ := sub_cons hu
    simp only [Tree.loc, h1, Option.bind_some] at hr
    simp only [List.cons_append, Tree.loc, h1, Option.bind_some]
    exact ih h2 hr

theorem sub_set {t u : Tree K} {p : List Step} (h : t.sub p = some u) (u' : Tree K) :
    (t.set p u').sub p = some u' := by
  induction p generalizing t with
  | nil => simp [Tree.sub, Tree.set]
  | cons s p ih =>
    obtain ⟨o, q, l, e, rfl, h1, h2⟩ := sub_cons h
    obtain ⟨k, hk⟩ := entry_set h1 (e.2.set p u')
    simp only [Tree.set, h1, Tree.sub, hk, Option.bind_some]
    exact ih h2

theorem set_cell {t u u' : Tree K} {p : List Step} (h : t.sub p = some u)
    (hc : p = [] → u'.cell = u.cell) : (t.set p u').cell = t.cell := by
  cases p with
  | nil =>
    simp only [Tree.sub, Option.some.injEq] at h
    rw [h]; exact hc rfl
  | cons s p =>
    obtain ⟨o, q, l, e, rfl, h1, -⟩ := sub_cons h
    simp only [Tree.set, h1]
    cases o <;> rfl

theorem setEntry_set {l : List (Str × Tree K)} {s : Step} (u u' : Tree K) :
    setEntry (setEntry l s u) s u' = setEntry l s u' := by
  cases s with
  | key k =>
    simp only [setEntry]
    induction l with
    | nil => rfl
    | cons e l ih =>
      by_cases h : e.1 = k
      · simp [changeKey, h]
      · simp [changeKey, h, ih]
  | index n => simp [setEntry]

theorem set_set {t u : Tree K} {p : List Step} (h : t.sub p = some u) (u1 u2 : Tree K) :
    (t.set p u1).set p u2 = t.set p u2 := by
  induction p generalizing t with
  | nil => simp [Tree.set]
  | cons s p ih =>
    obtain ⟨o, q, l, e, rfl, h1, h2⟩ := sub_cons h
    obtain ⟨k, hk⟩ := entry_set h1 (e.2.set p u1)
    simp only [Tree.set, h1, hk, setEntry_set, ih h2]

theorem set_append {t u : Tree K} {p : List Step} (h : t.sub p = some u) (q : List Step) (w : Tree K) :
    t.set (p ++ q) w = t.set p (u.set q w) := by
  induction p generalizing t with
  | nil =>
    simp only [Tree.sub, Option.some.injEq] at h
    rw [h]; rfl
  | cons s p ih =>
    obtain ⟨o, a, l, e, rfl, h1, h2⟩ := sub_cons h
    simp only [List.cons_append, Tree.set, h1, ih h2]

theorem changeKey_self {α : Type} {m : List (Str × α)} {k : Str} {e : Str × α}
    (h : m.find? (fun e => decide (e.1 = k)) = some e) : changeKey m k e.2 = m := by
  obtain ⟨h1, l1, l2, h2, -, h4⟩ := changeKey_split h
  rw [h4, h2, ← h1]

/-- References elsewhere stay as they are. -/
theorem loc_set {t u : Tree K} {r : Loc} {p q : List Step} (h : t.sub p = some u) (u' : Tree K)
    (hq : ¬ Above p q) : (t.set p u').loc r q = t.loc r q := by
  induction p generalizing t r q with
  | nil =>
    obtain rfl : q = [] := by
      by_contra hn
      exact hq ⟨List.nil_prefix, fun e => hn e.symm⟩
    rfl
  | cons s p ih =>
    obtain ⟨o, a, l, e, rfl, h1, h2⟩ := sub_cons h
    simp only [Tree.set, h1]
    cases q with
    | nil => rfl
    | cons s' q =>
      simp only [Tree.loc]
      by_cases hs : s' = s
      · subst hs
        obtain ⟨k, hk⟩ := entry_set h1 (e.2.set p u')
        rw [hk, h1]
        refine ih h2 fun hc => hq ⟨?_, fun he => hc.2 (by simpa using he)⟩
        exact List.cons_prefix_cons.2 ⟨rfl, hc.1⟩
      · rcases entry_set_other (o := o) (l := l) hs (e.2.set p u') with he | he
        · rw [he]
        · have := entry_kind h1
          have hn : ∀ l' : List (Str × Tree K), entry o l' s' = none := by
            intro l'
            rcases hx : entry o l' s' with _ | x
            · rfl
            · exact absurd (entry_kind hx).symm (by rw [this]; exact he)
          rw [hn, hn]

/-! ## Values -/

theorem val_obj (q : Nat) (l : List (Str × Tree K)) :
    (Tree.cont true q l).val = .obj (l.map fun e => (e.1, e.2.val)) := by simp [Tree.val]

theorem val_arr (q : Nat) (l : List (Str × Tree K)) :
    (Tree.cont false q l).val = .arr (l.map fun e => e.2.val) := by simp [Tree.val]

theorem lookPath_val (t : Tree K) (p : List Step) : lookPath t.val p = (t.sub p).map Tree.val := by
  induction p generalizing t with
  | nil => simp [lookPath, Tree.sub]
  | cons s p ih =>
    cases t with
    | prim x => cases s <;> cases x <;> simp [lookPath, Tree.sub, Tree.val, Prim.val]
    | str a x => cases s <;> simp [lookPath, Tree.sub, Tree.val]
    | cont o a l =>
      cases s with
      | key k =>
        cases o with
        | false => simp [val_arr, lookPath, Tree.sub, entry]
        | true =>
          simp only [val_obj, lookPath, Tree.sub, entry, if_true, findKey, find_map Tree.val]
          cases l.find? (fun e => decide (e.1 = k)) with
          | none => rfl
          | some e => exact ih e.2
      | index n =>
        cases o with
        | true => simp [val_obj, lookPath, Tree.sub, entry]
        | false =>
          simp only [val_arr, lookPath, Tree.sub, entry, Bool.false_eq_true, if_false, List.getElem?_map]
          cases l[n]? with
          | none => rfl
          | some e => exact ih e.2

theorem get_of_look {v w : JVal K} {s : Step} (h : lookPath v [s] = some w) : get v s = w := by
  cases s with
  | key k =>
    cases v with
    | obj m =>
      simp only [lookPath] at h
      obtain ⟨x, h1, h2⟩ := Option.bind_eq_some_iff.1 h
      simp only [Option.some.injEq] at h2
      simp [JsonValue.get, h1, h2]
    | _ => simp [lookPath] at h
  | index n =>
    cases v with
    | arr l =>
      simp only [lookPath] at h
      obtain ⟨x, h1, h2⟩ := Option.bind_eq_some_iff.1 h
      simp only [Option.some.injEq] at h2
      simp [JsonValue.get, h1, h2]
    | _ => simp [lookPath] at h

theorem get_entry {o : Bool} {q : Nat} {l : List (Str × Tree K)} {s : Step} {e : Str × Tree K}
    (h : entry o l s = some e) : get (Tree.cont o q l).val s = e.2.val := by
  apply get_of_look
  rw [lookPath_val]
  simp [Tree.sub, h]

theorem getPath_val {t u : Tree K} {p : List Step} (h : t.sub p = some u) : getPath t.val p = u.val := by
  induction p generalizing t with
  | nil => simp only [Tree.sub, Option.some.injEq] at h; rw [h]; rfl
  | cons s p ih =>
    obtain ⟨o, a, l, e, rfl, h1, h2⟩ := sub_cons h
    rw [getPath, get_entry h1, ih h2]

theorem put_entry {o : Bool} {q : Nat} {l : List (Str × Tree K)} {s : Step} {e : Str × Tree K}
    (h : entry o l s = some e) (u : Tree K) :
    (Tree.cont o q (setEntry l s u)).val = put (Tree.cont o q l).val s u.val := by
  cases s with
  | key k =>
    cases o with
    | false => simp [entry] at h
    | true =>
      simp only [entry, if_true] at h
      have : (findKey (l.map fun e => (e.1, e.2.val)) k).isSome = true := by
        rw [findKey_map Tree.val, findKey, h]; rfl
      simp only [val_obj, put, putMember, this, if_true, setEntry, changeKey_map Tree.val]
  | index n =>
    cases o with
    | true => simp [entry] at h
    | false =>
      simp only [entry, Bool.false_eq_true, if_false] at h
      obtain ⟨hn, -⟩ := List.getElem?_eq_some_iff.1 h
      simp only [val_arr, put, putItem, setEntry, List.map_set, List.length_map]
      rw [show n + 1 - l.length = 0 by omega]
      simp

theorem val_set {t u : Tree K} {p : List Step} (h : t.sub p = some u) (u' : Tree K) :
    (t.set p u').val = putPath t.val p u'.val := by
  induction p generalizing t with
  | nil => rfl
  | cons s p ih =>
    obtain ⟨o, a, l, e, rfl, h1, h2⟩ := sub_cons h
    simp only [Tree.set, h1, putPath, get_entry h1, put_entry h1, ih h2]

/-! ## Addresses -/

theorem addrsL_append (l1 l2 : List (Str × Tree K)) : addrsL (l1 ++ l2) = addrsL l1 ++ addrsL l2 := by
  simp [addrsL]

theorem addrs_set {t u : Tree K} {p : List Step} (h : t.sub p = some u) :
    ∃ A, t.addrs.Perm (A ++ u.addrs) ∧ ∀ u', (t.set p u').addrs.Perm (A ++ u'.addrs) := by
  induction p generalizing t with
  | nil =>
    simp only [Tree.sub, Option.some.injEq] at h
    exact ⟨[], by rw [h]; rfl, fun u' => by rfl⟩
  | cons s p ih =>
    obtain ⟨o, a, l, e, rfl, h1, h2⟩ := sub_cons h
    obtain ⟨l1, l2, k, e1, e2⟩ := setEntry_split h1
    obtain ⟨A, hA, hB⟩ := ih h2
    refine ⟨a :: (addrsL l1 ++ addrsL l2 ++ A), ?_, fun u' => ?_⟩
    · rw [addrs_cont, e1, addrsL_append, addrsL_cons, List.cons_append]
      refine List.Perm.cons a ?_
      have := hA
      calc addrsL l1 ++ (e.2.addrs ++ addrsL l2) |>.Perm (addrsL l1 ++ (addrsL l2 ++ e.2.addrs)) :=
            List.Perm.append_left _ List.perm_append_comm
        _ |>.Perm (addrsL l1 ++ (addrsL l2 ++ (A ++ u.addrs))) :=
            List.Perm.append_left _ (List.Perm.append_left _ hA)
        _ = _ := by simp
    · simp only [Tree.set, h1]
      rw [addrs_cont, e2, addrsL_append, addrsL_cons, List.cons_append]
      refine List.Perm.cons a ?_
      calc addrsL l1 ++ ((e.2.set p u').addrs ++ addrsL l2)
            |>.Perm (addrsL l1 ++ (addrsL l2 ++ (e.2.set p u').addrs)) :=
            List.Perm.append_left _ List.perm_append_comm
        _ |>.Perm (addrsL l1 ++ (addrsL l2 ++ (A ++ u'.addrs))) :=
            List.Perm.append_left _ (List.Perm.append_left _ (hB u'))
        _ = _ := by simp

theorem addrs_sub {t u : Tree K} {p : List Step} (h : t.sub p = some u) {a : Nat} (ha : a ∈ u.addrs) :
    a ∈ t.addrs := by
  obtain ⟨A, h1, -⟩ := addrs_set h
  exact h1.mem_iff.2 (List.mem_append_right _ ha)

theorem stored_sub {h : Heap K} {t u : Tree K} {p : List Step} (hu : t.sub p = some u)
    (hs : Stored h t) : Stored h u := by
  induction p generalizing t with
  | nil => simp only [Tree.sub, Option.some.injEq] at hu; rwa [← hu]
  | cons s p ih =>
    obtain ⟨o, a, l, e, rfl, h1, h2⟩ := sub_cons hu
    obtain ⟨l1, l2, k, e1, -⟩ := setEntry_split h1
    exact ih h2 (((stored_cont _ _ _ _).1 hs).2 e (by rw [e1]; simp))

theorem fits_sub {n : Nat} {t u : Tree K} {p : List Step} (hu : t.sub p = some u) (hf : Fits n t) :
    Fits n u := by
  obtain ⟨A, h1, -⟩ := addrs_set hu
  exact ⟨(List.nodup_append.1 (h1.nodup_iff.1 hf.nodup)).2.1, fun a ha => hf.lt a (addrs_sub hu ha)⟩

end Marley.JsonHeap
