import Verif.Lemmas.JsonExec

/-!
# Every operation on JSON objects does what it should to the values
-/

set_option autoImplicit false

namespace Marley.JsonHeap
open Marley Marley.Json Marley.JsonValue

variable {K : Type}

theorem simple_addrs {u : Tree K} (h : Simple u.val) : u.addrs = [] := by
  cases u with
  | prim x => exact addrs_prim x
  | str p s => simp [Tree.val, Simple] at h
  | cont o p l => cases o <;> simp [Tree.val, Simple] at h

theorem lit_spec (h : Heap K) (x : Lit K) : ∃ h' t', h.lit x = (h', t'.cell) ∧ t'.val = litVal x ∧
    Stored h' t' ∧ Made h h' t'.addrs := by
  cases x with
  | bool b =>
    exact ⟨h, .prim (.bool b), rfl, by simp [Tree.val, Prim.val, litVal], stored_prim _ _,
      by rw [addrs_prim]; exact .refl h⟩
  | int b =>
    exact ⟨h, .prim (.int b), rfl, by simp [Tree.val, Prim.val, litVal], stored_prim _ _,
      by rw [addrs_prim]; exact .refl h⟩
  | float b =>
    exact ⟨h, .prim (.float b), rfl, by simp [Tree.val, Prim.val, litVal], stored_prim _ _,
      by rw [addrs_prim]; exact .refl h⟩
  | text s =>
    refine ⟨(h.alloc (.text s)).1, .str (h.alloc (.text s)).2 s, rfl, by simp [Tree.val, litVal], ?_, ?_⟩
    · rw [stored_str]; simp [Heap.alloc]
    · rw [addrs_str]; exact Made.alloc _ _

theorem build_spec [Zero K] (h : Heap K) (x : Init K) :
    ∃ h' t', h.build x = (h', t'.cell) ∧ t'.val = initVal x ∧ Stored h' t' ∧ Made h h' t'.addrs := by
  cases x with
  | null =>
    exact ⟨h, .prim .null, rfl, by simp [Tree.val, Prim.val, initVal], stored_prim _ _,
      by rw [addrs_prim]; exact .refl h⟩
  | object =>
    obtain ⟨h', a1, a2, a3⟩ := fresh_spec h .object
    exact ⟨h', _, a1, by simp [freshTree, Tree.val, initVal], a2, a3⟩
  | array =>
    obtain ⟨h', a1, a2, a3⟩ := fresh_spec h .array
    exact ⟨h', _, a1, by simp [freshTree, Tree.val, initVal], a2, a3⟩
  | lit x => exact lit_spec h x

theorem touch_none {ρ ρ' : Vars K} {i j : Nat} {q : List Step} (h : ρ.touch j q = some ρ')
    (hi : ρ i = none) : ρ' i = none ∧ i ≠ j := by
  obtain ⟨v, h1, rfl⟩ := Option.map_eq_some_iff.1 h
  have : i ≠ j := fun e => by rw [e, h1] at hi; cases hi
  exact ⟨by simp [Vars.set, this, hi], this⟩

/-! ## Two places at once -/

theorem sub_set_other {t v : Tree K} {p q : List Step} (hv : t.sub q = some v) (u' : Tree K)
    (h1 : ¬ Above q p) (h2 : ¬ Above p q) (h3 : p ≠ q) : (t.set q u').sub p = t.sub p := by
  induction q generalizing t p with
  | nil => exact absurd ⟨List.nil_prefix, fun e => h3 e.symm⟩ h1
  | cons s q ih =>
    obtain ⟨o, a, l, e, rfl, g1, g2⟩ := sub_cons hv
    cases p with
    | nil => exact absurd ⟨List.nil_prefix, by simp⟩ h2
    | cons s' p =>
      simp only [Tree.set, g1, Tree.sub]
      by_cases hs : s' = s
      · subst hs
        obtain ⟨k, hk⟩ := entry_set g1 (e.2.set q u')
        rw [hk, g1]
        refine ih g2 (fun hc => h1 ⟨List.cons_prefix_cons.2 ⟨rfl, hc.1⟩, fun he => hc.2 (by simpa using he)⟩)
          (fun hc => h2 ⟨List.cons_prefix_cons.2 ⟨rfl, hc.1⟩, fun he => hc.2 (by simpa using he)⟩)
          fun he => h3 (by rw [he])
      · rcases entry_set_other (o := o) (l := l) hs (e.2.set q u') with he | he
        · rw [he]
        · have := entry_kind g1
          have hn : ∀ l' : List (Str × Tree K), entry o l' s' = none := by
            intro l'
            rcases hx : entry o l' s' with _ | x
            · rfl
            · exact absurd (entry_kind hx).symm (by rw [this]; exact he)
          rw [hn, hn]

theorem changeKey_comm {α : Type} (m : List (Str × α)) {k k' : Str} (h : k ≠ k') (x y : α) :
    changeKey (changeKey m k x) k' y = changeKey (changeKey m k' y) k x := by
  induction m with
  | nil => rfl
  | cons e m ih =>
    by_cases h1 : e.1 = k
    · have h2 : e.1 ≠ k' := fun e' => h (h1.symm.trans e')
      simp [changeKey, h1, h]
    · by_cases h2 : e.1 = k'
      · simp [changeKey, h2, h.symm]
      · simp [changeKey, h1, h2, ih]

theorem setEntry_comm {o : Bool} {l : List (Str × Tree K)} {s s' : Step} {e e' : Str × Tree K}
    (h1 : entry o l s = some e) (h2 : entry o l s' = some e') (h : s ≠ s') (u u' : Tree K) :
    setEntry (setEntry l s u) s' u' = setEntry (setEntry l s' u') s u := by
  have hk : s.isKey = s'.isKey := (entry_kind h1).symm.trans (entry_kind h2)
  cases s with
  | key k =>
    cases s' with
    | key k' => exact changeKey_comm l (fun e => h (by rw [e])) u u'
    | index n => simp [Step.isKey] at hk
  | index n =>
    cases s' with
    | key k' => simp [Step.isKey] at hk
    | index n' => exact List.set_comm _ _ fun e => h (by rw [e])

theorem set_comm {t v u : Tree K} {p q : List Step} (hu : t.sub p = some u) (hv : t.sub q = some v)
    (u' v' : Tree K) (h1 : ¬ Above q p) (h2 : ¬ Above p q) (h3 : p ≠ q) :
    (t.set q v').set p u' = (t.set p u').set q v' := by
  induction q generalizing t p with
  | nil => exact absurd ⟨List.nil_prefix, fun e => h3 e.symm⟩ h1
  | cons s q ih =>
    obtain ⟨o, a, l, e, rfl, g1, g2⟩ := sub_cons hv
    cases p with
    | nil => exact absurd ⟨List.nil_prefix, by simp⟩ h2
    | cons s' p =>
      simp only [Tree.sub] at hu
      obtain ⟨e', g3, g4⟩ := Option.bind_eq_some_iff.1 hu
      by_cases hs : s' = s
      · subst hs
        rw [g1] at g3
        injection g3 with g3
        subst g3
        obtain ⟨k, hk⟩ := entry_set g1 (e.2.set q v')
        obtain ⟨k', hk'⟩ := entry_set g1 (e.2.set p u')
        simp only [Tree.set, g1, hk, hk', setEntry_set]
        rw [ih g4 g2
          (fun hc => h1 ⟨List.cons_prefix_cons.2 ⟨rfl, hc.1⟩, fun he => hc.2 (by simpa using he)⟩)
          (fun hc => h2 ⟨List.cons_prefix_cons.2 ⟨rfl, hc.1⟩, fun he => hc.2 (by simpa using he)⟩)
          fun he => h3 (by rw [he])]
      · have e1 : entry o (setEntry l s (e.2.set q v')) s' = some e' := by
          rcases entry_set_other (o := o) (l := l) hs (e.2.set q v') with he | he
          · rw [he, g3]
          · exact absurd ((entry_kind g3).symm.trans (entry_kind g1)) he
        have e2 : entry o (setEntry l s' (e'.2.set p u')) s = some e := by
          rcases entry_set_other (o := o) (l := l) (Ne.symm hs) (e'.2.set p u') with he | he
          · rw [he, g1]
          · exact absurd ((entry_kind g1).symm.trans (entry_kind g3)) he
        simp only [Tree.set, g1, g3, e1, e2]
        rw [setEntry_comm g1 g3 (Ne.symm hs)]

theorem write_comm (h : Heap K) {p q : Nat} (hpq : p ≠ q) (m n : Node K) :
    (h.write p m).write q n = (h.write q n).write p m := by
  simp only [Heap.write, Heap.mk.injEq, and_true]
  funext a
  by_cases h1 : a = q
  · have : a ≠ p := fun e => hpq (e.symm.trans h1)
    simp [h1, Ne.symm hpq]
  · simp [h1]

theorem write_write (h : Heap K) (p : Nat) (m n : Node K) : (h.write p m).write p n = h.write p n := by
  simp only [Heap.write, Heap.mk.injEq, and_true]
  funext a
  by_cases h1 : a = p <;> simp [h1]

theorem write_same (h : Heap K) (p : Nat) (n : Node K) : (h.write p n).node p = some n := by simp [Heap.write]

theorem write_other (h : Heap K) {p q : Nat} (hq : q ≠ p) (n : Node K) : (h.write p n).node q = h.node q := by
  simp [Heap.write, hq]

theorem load_member {s : Mem K} {p : Nat} {k : Str} {c : Cell K} (h : s.load (.member p k) = .ok c) :
    ∃ m, s.heap.node p = some (.map m) := by
  simp only [Mem.load] at h
  split at h
  · rename_i m hm; exact ⟨m, hm⟩
  · cases h

theorem load_item {s : Mem K} {p n : Nat} {c : Cell K} (h : s.load (.item p n) = .ok c) :
    ∃ l, s.heap.node p = some (.list l) ∧ n < l.length := by
  simp only [Mem.load] at h
  split at h
  · rename_i l hl
    refine ⟨l, hl, ?_⟩
    split at h
    · rename_i c' hc; exact (List.getElem?_eq_some_iff.1 hc).1
    · cases h
  · cases h

theorem load_var {s : Mem K} {i : Nat} {c : Cell K} (h : s.load (.var i) = .ok c) : s.vars i = some c := by
  simp only [Mem.load] at h
  split at h
  · rename_i c' hc; injection h with h; rw [hc, h]
  · cases h

theorem store_ok {s : Mem K} {ℓ : Loc} {c : Cell K} (h : s.load ℓ = .ok c) (d : Cell K) :
    ∃ s', s.store ℓ d = .ok s' := by
  cases ℓ with
  | var i => simp [Mem.store, load_var h]
  | member p k => obtain ⟨m, hm⟩ := load_member h; simp [Mem.store, hm]
  | item p n => obtain ⟨l, hl, hn⟩ := load_item h; simp [Mem.store, hl, hn]

theorem store_vars {s s' : Mem K} {ℓ : Loc} {c : Cell K} {a : Nat} (h : s.store ℓ c = .ok s')
    (ha : ℓ.addr = some a) : s'.vars = s.vars := by
  cases ℓ with
  | var i => simp [Loc.addr] at ha
  | member p k =>
    simp only [Mem.store] at h
    split at h
    · injection h with h; subst h; rfl
    · cases h
  | item p n =>
    simp only [Mem.store] at h
    split at h
    · split at h
      · injection h with h; subst h; rfl
      · cases h
    · cases h

theorem load_frame {s s' : Mem K} {ℓ : Loc} {a : Nat} (ha : ℓ.addr = some a)
    (hn : s'.heap.node a = s.heap.node a) : s'.load ℓ = s.load ℓ := by
  cases ℓ with
  | var i => simp [Loc.addr] at ha
  | member p k =>
    simp only [Loc.addr, Option.some.injEq] at ha
    subst ha
    simp only [Mem.load, hn]
  | item p n =>
    simp only [Loc.addr, Option.some.injEq] at ha
    subst ha
    simp only [Mem.load, hn]

theorem store_comm {s s1 s2 : Mem K} {ℓ ℓ' : Loc} {c c' : Cell K} (hl : s.load ℓ = .ok c)
    (hl' : s.load ℓ' = .ok c') (hne : ℓ ≠ ℓ') {d d' : Cell K} (h1 : s.store ℓ' d' = .ok s1)
    (h2 : s1.store ℓ d = .ok s2) :
    ∃ s3, s.store ℓ d = .ok s3 ∧ s3.store ℓ' d' = .ok s2 := by
  cases ℓ with
  | var i =>
    have hi := load_var hl
    cases ℓ' with
    | var j =>
      have hj := load_var hl'
      have hij : i ≠ j := fun e => hne (by rw [e])
      simp only [Mem.store, hj] at h1
      injection h1 with h1; subst h1
      simp only [Mem.store, hij, if_false, hi] at h2
      injection h2 with h2; subst h2
      refine ⟨_, (by simp only [Mem.store, hi]; rfl), ?_⟩
      simp only [Mem.store, hij.symm, if_false, hj]
      congr 2
      funext k
      by_cases e : k = j
      · subst e; simp [hij.symm]
      · simp [e]
    | member p k =>
      obtain ⟨m, hm⟩ := load_member hl'
      simp only [Mem.store, hm] at h1
      injection h1 with h1; subst h1
      simp only [Mem.store, hi] at h2
      injection h2 with h2; subst h2
      exact ⟨_, (by simp only [Mem.store, hi]; rfl), by simp only [Mem.store, hm]⟩
    | item p n =>
      obtain ⟨m, hm, hn⟩ := load_item hl'
      simp only [Mem.store, hm, hn, if_true] at h1
      injection h1 with h1; subst h1
      simp only [Mem.store, hi] at h2
      injection h2 with h2; subst h2
      exact ⟨_, (by simp only [Mem.store, hi]; rfl), by simp only [Mem.store, hm, hn, if_true]⟩
  | member p k =>
    obtain ⟨m, hm⟩ := load_member hl
    cases ℓ' with
    | var j =>
      have hj := load_var hl'
      simp only [Mem.store, hj] at h1
      injection h1 with h1; subst h1
      simp only [Mem.store, hm] at h2
      injection h2 with h2; subst h2
      exact ⟨_, (by simp only [Mem.store, hm]; rfl), by simp only [Mem.store, hj]⟩
    | member p' k' =>
      obtain ⟨m', hm'⟩ := load_member hl'
      simp only [Mem.store, hm'] at h1
      injection h1 with h1; subst h1
      by_cases hp : p = p'
      · subst hp
        have hk : k ≠ k' := fun e => hne (by rw [e])
        rw [hm] at hm'
        injection hm' with hm'
        injection hm' with hm'
        subst hm'
        simp only [Mem.store, write_same] at h2
        injection h2 with h2; subst h2
        refine ⟨_, (by simp only [Mem.store, hm]; rfl), ?_⟩
        simp only [Mem.store, write_same, write_write, changeKey_comm m hk]
      · simp only [Mem.store, write_other _ hp, hm] at h2
        injection h2 with h2; subst h2
        refine ⟨_, (by simp only [Mem.store, hm]; rfl), ?_⟩
        simp only [Mem.store, write_other _ (Ne.symm hp), hm']
        rw [write_comm _ hp]
    | item p' n' =>
      obtain ⟨m', hm', hn'⟩ := load_item hl'
      simp only [Mem.store, hm', hn', if_true] at h1
      injection h1 with h1; subst h1
      have hp : p ≠ p' := fun e => by subst e; rw [hm] at hm'; cases hm'
      simp only [Mem.store, write_other _ hp, hm] at h2
      injection h2 with h2; subst h2
      refine ⟨_, (by simp only [Mem.store, hm]; rfl), ?_⟩
      simp only [Mem.store, write_other _ (Ne.symm hp), hm', hn', if_true]
      rw [write_comm _ hp]
  | item p n =>
    obtain ⟨m, hm, hn⟩ := load_item hl
    cases ℓ' with
    | var j =>
      have hj := load_var hl'
      simp only [Mem.store, hj] at h1
      injection h1 with h1; subst h1
      simp only [Mem.store, hm, hn, if_true] at h2
      injection h2 with h2; subst h2
      exact ⟨_, (by simp only [Mem.store, hm, hn, if_true]; rfl), by simp only [Mem.store, hj]⟩
    | member p' k' =>
      obtain ⟨m', hm'⟩ := load_member hl'
      simp only [Mem.store, hm'] at h1
      injection h1 with h1; subst h1
      have hp : p ≠ p' := fun e => by subst e; rw [hm] at hm'; cases hm'
      simp only [Mem.store, write_other _ hp, hm, hn, if_true] at h2
      injection h2 with h2; subst h2
      refine ⟨_, (by simp only [Mem.store, hm, hn, if_true]; rfl), ?_⟩
      simp only [Mem.store, write_other _ (Ne.symm hp), hm']
      rw [write_comm _ hp]
    | item p' n' =>
      obtain ⟨m', hm', hn'⟩ := load_item hl'
      simp only [Mem.store, hm', hn', if_true] at h1
      injection h1 with h1; subst h1
      by_cases hp : p = p'
      · subst hp
        have hk : n ≠ n' := fun e => hne (by rw [e])
        rw [hm] at hm'
        injection hm' with hm'
        injection hm' with hm'
        subst hm'
        simp only [Mem.store, write_same, List.length_set, hn, if_true] at h2
        injection h2 with h2; subst h2
        refine ⟨_, (by simp only [Mem.store, hm, hn, if_true]; rfl), ?_⟩
        simp only [Mem.store, write_same, write_write, List.length_set, hn', if_true]
        rw [List.set_comm _ _ hk]
      · simp only [Mem.store, write_other _ hp, hm, hn, if_true] at h2
        injection h2 with h2; subst h2
        refine ⟨_, (by simp only [Mem.store, hm, hn, if_true]; rfl), ?_⟩
        simp only [Mem.store, write_other _ (Ne.symm hp), hm', hn', if_true]
        rw [write_comm _ hp]

/-! ## Append -/

theorem Change.push {h h2 : Heap K} {o : Bool} {q : Nat} {l : List (Str × Tree K)} {e : Tree K} {k : Str}
    (hn : ∀ a, h.next ≤ a → h.node a = none) (hs : Stored h (.cont o q l)) (hf : Fits h.next (.cont o q l))
    (m : Made h h2 e.addrs) (he : Stored h2 e) :
    Change true h (h2.write q (shape o (cells (l ++ [(k, e)])))) (.cont o q l) (.cont o q (l ++ [(k, e)])) := by
  have hqn : q < h.next := hf.lt q (by rw [addrs_cont]; simp)
  have hnd := hf.nodup
  rw [addrs_cont, List.nodup_cons] at hnd
  have hA : (Tree.cont o q (l ++ [(k, e)])).addrs = q :: (addrsL l ++ e.addrs) := by
    rw [addrs_cont, addrsL_append, addrsL_cons]; simp [addrsL]
  have hlt : ∀ a ∈ addrsL l, a < h.next := fun a ha => hf.lt a (by rw [addrs_cont]; simp [ha])
  refine ⟨m.le, fun a ha => ?_, fun a ha hna => ?_, ?_, ?_, fun a ha => ?_, fun a ha => ?_, fun _ a hl hr => ?_⟩
  · have ha : h2.next ≤ a := ha
    have := m.le
    rw [write_other _ (by omega)]
    exact m.fresh hn a ha
  · have : a ≠ q := fun e => hna (by rw [addrs_cont, e]; simp)
    rw [write_other _ this]; exact m.old a ha
  · rw [stored_cont]
    refine ⟨write_same _ _ _, fun x hx => ?_⟩
    rcases List.mem_append.1 hx with hx | hx
    · have hxs := ((stored_cont _ _ _ _).1 hs).2 x hx
      refine (m.stored hxs fun a ha => hlt a (mem_addrsL.2 ⟨x, hx, ha⟩)).frame fun a ha => ?_
      exact write_other _ (fun (e' : a = q) => hnd.1 (mem_addrsL.2 ⟨x, hx, e' ▸ ha⟩)) _
    · rw [List.mem_singleton] at hx
      subst hx
      refine he.frame fun a ha => write_other _ (fun e' => ?_) _
      have := (m.range a ha).1
      omega
  · rw [hA, List.nodup_cons, List.nodup_append, List.mem_append]
    refine ⟨?_, hnd.2, m.nodup, fun a ha b hb e' => ?_⟩
    · rintro (h' | h')
      · exact hnd.1 h'
      · have := (m.range q h').1; omega
    · have := hlt a ha
      have := (m.range b hb).1
      omega
  · rw [hA, List.mem_cons, List.mem_append] at ha
    rw [addrs_cont, List.mem_cons]
    rcases ha with h' | h' | h'
    · exact .inl (.inl h')
    · exact .inl (.inr h')
    · exact .inr (m.range a h').1
  · rw [hA, List.mem_cons, List.mem_append] at ha
    show a < h2.next
    have := m.le
    rcases ha with h' | h' | h'
    · omega
    · have := hlt a h'; omega
    · exact (m.range a h').2
  · rw [hA, List.mem_cons, List.mem_append]
    rw [addrs_cont, List.mem_cons] at hr
    rcases hr with (h' | h') | h'
    · exact .inl h'
    · exact .inr (.inl h')
    · rw [write_other _ (by omega)] at hl
      exact .inr (.inr ((m.all a h' hl).resolve_right fun hc => hc (hn a h')))

/-! ## The operations -/

theorem addrs_of_type {u : Tree K} {ty : DataType} (h : u.cell.type = ty)
    (ht : ty = .boolean ∨ ty = .integral ∨ ty = .floating) : u.addrs = [] := by
  cases u with
  | prim x => exact addrs_prim x
  | str p s => subst h; simp [Tree.cell, Cell.type] at ht
  | cont o p l => subst h; cases o <;> simp [Tree.cell, Cell.type] at ht

theorem Sim.setPrim [Zero K] {x : Bool} {s : Mem K} {ω : Option Nat → Option (Tree K)} {i : Nat}
    {t u : Tree K} {p : List Step} {ℓ : Loc} (S : Sim x s ω) (hi : ω (some i) = some t)
    (hu : t.sub p = some u) (hl : t.loc (.var i) p = some ℓ) (ty : DataType)
    (ht : ty = .boolean ∨ ty = .integral ∨ ty = .floating) (z : Prim K) :
    ∃ s1 c s', s.setType ℓ ty = .ok (s1, c) ∧ s1.store ℓ (.prim z) = .ok s' ∧
      Sim x s' (upd ω (some i) (some (t.set p (.prim z)))) := by
  obtain ⟨s1, u1, a1, S1, a3⟩ := S.setType hi hu hl ty
  have h1 : u1.addrs = [] := by
    rcases a3 with ⟨b1, rfl⟩ | ⟨-, a, rfl⟩
    · exact addrs_of_type b1 ht
    · exact addrs_of_type (freshTree_type a ty) ht
  obtain ⟨s', b1, b2⟩ := S1.store (upd_same _ _ _) (sub_set hu u1) (u' := .prim z) (h1 := s1.heap) (y := true)
    (by rw [loc_set hu _ fun hc => hc.2 rfl]; exact hl)
    (Change.lose S1.fresh rfl (fun _ _ => rfl) z fun _ => h1)
  rw [and_true', upd_upd, set_set hu] at b2
  exact ⟨s1, _, s', a1, b1, b2⟩

theorem Sim.assignLit [Zero K] {x : Bool} {s : Mem K} {ω : Option Nat → Option (Tree K)} {i : Nat}
    {t u : Tree K} {p : List Step} {ℓ : Loc} (S : Sim x s ω) (hi : ω (some i) = some t)
    (hu : t.sub p = some u) (hl : t.loc (.var i) p = some ℓ) (z : Lit K) :
    ∃ s' u', s.assignLit ℓ z = .ok s' ∧ Sim x s' (upd ω (some i) (some (t.set p u'))) ∧
      u'.val = litVal z := by
  cases z with
  | bool b =>
    obtain ⟨s1, c, s', a1, a2, a3⟩ := S.setPrim hi hu hl .boolean (by simp) (.bool b)
    exact ⟨s', _, by simp only [Mem.assignLit, a1, bind, Except.bind]; exact a2, a3,
      by simp [Tree.val, Prim.val, litVal]⟩
  | int b =>
    obtain ⟨s1, c, s', a1, a2, a3⟩ := S.setPrim hi hu hl .integral (by simp) (.int b)
    exact ⟨s', _, by simp only [Mem.assignLit, a1, bind, Except.bind]; exact a2, a3,
      by simp [Tree.val, Prim.val, litVal]⟩
  | float b =>
    obtain ⟨s1, c, s', a1, a2, a3⟩ := S.setPrim hi hu hl .floating (by simp) (.float b)
    exact ⟨s', _, by simp only [Mem.assignLit, a1, bind, Except.bind]; exact a2, a3,
      by simp [Tree.val, Prim.val, litVal]⟩
  | text w =>
    obtain ⟨s1, u1, a1, S1, a3⟩ := S.setType hi hu hl .string
    have h1 : ∃ q z, u1 = .str q z := by
      have : u1.cell.type = .string := by
        rcases a3 with ⟨b1, rfl⟩ | ⟨-, a, rfl⟩
        · exact b1
        · exact freshTree_type a _
      cases u1 with
      | prim x => cases x <;> simp [Tree.cell, Cell.type] at this
      | str q z => exact ⟨q, z, rfl⟩
      | cont o q l => cases o <;> simp [Tree.cell, Cell.type] at this
    obtain ⟨q, z, rfl⟩ := h1
    have hi1 : upd ω (some i) (some (t.set p (.str q z))) (some i) = _ := upd_same _ _ _
    have hf := fits_sub (sub_set hu (.str q z)) (S1.fits _ _ hi1)
    have hq : q < s1.heap.next := hf.lt q (by simp [addrs_str])
    have c : Change true s1.heap (s1.heap.write q (.text w)) (.str q z) (.str q w) := by
      refine ⟨le_rfl, fun a ha => ?_, fun a _ ha => ?_, by rw [stored_str]; exact write_same _ _ _,
        by simp [addrs_str], by simp [addrs_str], by simpa [addrs_str, Heap.write] using hq, fun _ a hl hr => ?_⟩
      · have ha : s1.heap.next ≤ a := ha
        rw [write_other _ (by omega)]; exact S1.fresh a ha
      · rw [addrs_str, List.mem_singleton] at ha
        exact write_other _ ha _
      · rw [addrs_str] at hr ⊢
        refine hr.resolve_right fun hc => hl ?_
        rw [write_other _ (by omega)]; exact S1.fresh a hc
    have S2 := S1.inplace hi1 (sub_set hu _) (by rfl) c
    rw [and_true', upd_upd, set_set hu] at S2
    exact ⟨_, _, by simp only [Mem.assignLit, a1, bind, Except.bind, Tree.cell], S2,
      by simp [Tree.val, litVal]⟩

/-- What an object loses when it gets other contents. -/
theorem and_decide (x : Bool) (A : List Nat) (h : A = []) : (x && decide (A = [])) = x := by
  rw [h]; simp

theorem Sim.assignCopy {x : Bool} {s : Mem K} {ω : Option Nat → Option (Tree K)} {i j : Nat}
    {ti tj u v : Tree K} {p q : List Step} {ℓp ℓq : Loc} (S : Sim x s ω) (hi : ω (some i) = some ti)
    (hj : ω (some j) = some tj) (hu : ti.sub p = some u) (hlp : ti.loc (.var i) p = some ℓp)
    (hv : tj.sub q = some v) (hlq : tj.loc (.var j) q = some ℓq) :
    ∃ s' v', s.assignCopy ℓp ℓq = .ok s' ∧ v'.val = v.val ∧
      Sim (x && decide (u.addrs = [])) s' (upd ω (some i) (some (ti.set p v'))) := by
  have hld := S.load hj hv hlq
  obtain ⟨h', v', a1, a2, a3, a4⟩ := copy_spec (stored_sub hv (S.stored _ _ hj)) (fits_sub hv (S.fits _ _ hj))
  obtain ⟨s', b1, b2⟩ := S.store hi hu hlp (Change.made (x := decide (u.addrs = [])) S.fresh a4 a3 (by simp))
  exact ⟨s', v', by simp only [Mem.assignCopy, hld, a1, bind, Except.bind]; exact b1, a2, b2⟩

theorem not_above (p : List Step) : ¬ Above p p := fun h => h.2 rfl

/-- Different places have different references. -/
theorem Sim.loc_ne {x : Bool} {s : Mem K} {ω : Option Nat → Option (Tree K)} {i j : Nat}
    {ti tj u v : Tree K} {p q : List Step} {ℓp ℓq : Loc} (S : Sim x s ω) (hi : ω (some i) = some ti)
    (hj : ω (some j) = some tj) (hu : ti.sub p = some u) (hlp : ti.loc (.var i) p = some ℓp)
    (hv : tj.sub q = some v) (hlq : tj.loc (.var j) q = some ℓq)
    (h : i ≠ j ∨ ¬ Above q p ∧ ¬ Above p q ∧ p ≠ q) : ℓp ≠ ℓq := by
  intro e
  subst e
  have key : ∀ b : Bool, u.cell = .prim (.bool b) := by
    intro b
    obtain ⟨s', a1, S'⟩ := S.store hj hv hlq (u' := .prim (.bool b)) (h1 := s.heap) (y := false)
      (Change.lose S.fresh rfl (fun _ _ => rfl) (.bool b) (by simp))
    have l2 := S'.load (upd_same _ _ _) (sub_set hv _)
      (by rw [loc_set hv _ (not_above q)]; exact hlq)
    have l1 : s'.load ℓp = .ok u.cell := by
      by_cases hij : i = j
      · subst hij
        rw [hi] at hj
        injection hj with hj
        subst hj
        obtain ⟨n1, n2, n3⟩ := h.resolve_left (by simp)
        exact S'.load (upd_same _ _ _) (by rw [sub_set_other hv _ n1 n2 n3]; exact hu)
          (by rw [loc_set hv _ n1]; exact hlp)
      · exact S'.load (by rw [upd_other (by simpa using hij)]; exact hi) hu hlp
    rw [l1] at l2
    injection l2
  have := (key true).symm.trans (key false)
  simp at this

theorem loc_addr_below {n : Nat} {t u : Tree K} {r : Loc} {p : List Step} {ℓ : Loc}
    (hf : Fits n t) (hu : t.sub p = some u) (hl : t.loc r p = some ℓ) (hp : p ≠ []) :
    ∃ a, ℓ.addr = some a ∧ a ∈ t.addrs ∧ a ∉ u.addrs := by
  rcases List.eq_nil_or_concat p with rfl | ⟨p, st, rfl⟩
  · exact absurd rfl hp
  · rw [List.concat_eq_append] at hu hl
    obtain ⟨o, q, l, e, g1, g2, rfl, rfl⟩ := last_step hu hl
    have hfi := fits_sub g1 hf
    refine ⟨q, refTo_addr q st, addrs_sub g1 (by rw [addrs_cont]; simp), fun hc => ?_⟩
    obtain ⟨l1, l2, k, e1, -⟩ := setEntry_split g2
    have := hfi.nodup
    rw [addrs_cont, List.nodup_cons] at this
    exact this.1 (mem_addrsL.2 ⟨e, by rw [e1]; simp, hc⟩)

/-- Moving between places that have nothing to do with each other. -/
theorem Sim.move_apart {x : Bool} {s : Mem K} {ω : Option Nat → Option (Tree K)} {i j : Nat}
    {ti tj u v : Tree K} {p q : List Step} {ℓp ℓq : Loc} (S : Sim x s ω) (h0 : ω none = none)
    (hi : ω (some i) = some ti)
    (hj : ω (some j) = some tj) (hu : ti.sub p = some u) (hlp : ti.loc (.var i) p = some ℓp)
    (hv : tj.sub q = some v) (hlq : tj.loc (.var j) q = some ℓq)
    (h : i ≠ j ∨ ¬ Above q p ∧ ¬ Above p q ∧ p ≠ q) :
    ∃ s' ω', s.assignMove ℓp ℓq = .ok s' ∧ Sim (x && decide (u.addrs = [])) s' ω' ∧
      ω' none = none ∧
      ∀ k, ω' (some k) = if k = j then
          (if i = j then some ((ti.set p v).set q (.prim .null)) else some (tj.set q (.prim .null)))
        else if k = i then some (ti.set p v) else ω (some k) := by
  have hne := S.loc_ne hi hj hu hlp hv hlq h
  have l1 := S.load hi hu hlp
  have l2 := S.load hj hv hlq
  obtain ⟨s1, a1, S1⟩ := S.take h0 hj hv hlq
  by_cases hij : i = j
  · subst hij
    rw [hi] at hj
    injection hj with hj
    subst hj
    obtain ⟨n1, n2, n3⟩ := h.resolve_left (by simp)
    obtain ⟨s2, b1, S2⟩ := S1.put (y := decide (u.addrs = [])) (p := p) (upd_same _ _ _)
      (by rw [upd_other (by simp), upd_same]) (by rw [sub_set_other hv _ n1 n2 n3]; exact hu)
      (by rw [loc_set hv _ n1]; exact hlp) (by simp)
    obtain ⟨s3, c1, c2⟩ := store_comm l1 l2 hne a1 b1
    refine ⟨s2, _, ?_, S2, upd_same _ _ _, fun k => ?_⟩
    · simp only [Mem.assignMove, l2, bind, Except.bind, c1]; exact c2
    · rw [upd_other (by simp)]
      by_cases hk : k = i
      · subst hk
        rw [upd_same, if_pos rfl, if_pos rfl, set_comm hu hv _ _ n1 n2 n3]
      · rw [upd_other (by simpa using hk), if_neg hk, if_neg hk, upd_other (by simp),
          upd_other (by simpa using hk)]
  · obtain ⟨s2, b1, S2⟩ := S1.put (y := decide (u.addrs = [])) (p := p) (i := i) (upd_same _ _ _)
      (by rw [upd_other (by simp), upd_other (by simpa using hij)]; exact hi) hu hlp (by simp)
    obtain ⟨s3, c1, c2⟩ := store_comm l1 l2 hne a1 b1
    refine ⟨s2, _, ?_, S2, upd_same _ _ _, fun k => ?_⟩
    · simp only [Mem.assignMove, l2, bind, Except.bind, c1]; exact c2
    · rw [upd_other (by simp)]
      by_cases hk : k = j
      · subst hk
        rw [upd_other (by simpa using Ne.symm hij), if_pos rfl, if_neg hij, upd_other (by simp), upd_same]
      · rw [if_neg hk]
        by_cases hk' : k = i
        · subst hk'
          rw [upd_same, if_pos rfl]
        · rw [upd_other (by simpa using hk'), if_neg hk', upd_other (by simp),
            upd_other (by simpa using hk)]

/-- Moving an object onto itself. -/
theorem Sim.move_self {x : Bool} {s : Mem K} {ω : Option Nat → Option (Tree K)} {i : Nat}
    {t u : Tree K} {p : List Step} {ℓ : Loc} (S : Sim x s ω) (hi : ω (some i) = some t)
    (hu : t.sub p = some u) (hl : t.loc (.var i) p = some ℓ) :
    ∃ s', s.assignMove ℓ ℓ = .ok s' ∧
      Sim (x && decide (u.addrs = [])) s' (upd ω (some i) (some (t.set p (.prim .null)))) := by
  have l1 := S.load hi hu hl
  obtain ⟨s1, a1, S1⟩ := S.store hi hu hl (Change.refl S.fresh (stored_sub hu (S.stored _ _ hi))
    (fits_sub hu (S.fits _ _ hi)))
  rw [and_true'] at S1
  obtain ⟨s2, b1, S2⟩ := S1.store (upd_same _ _ _) (sub_set hu u) (u' := .prim .null) (h1 := s1.heap)
    (y := decide (u.addrs = [])) (by rw [loc_set hu _ (not_above p)]; exact hl)
    (Change.lose S1.fresh rfl (fun _ _ => rfl) .null (by simp))
  rw [upd_upd, set_set hu] at S2
  refine ⟨s2, ?_, S2⟩
  have a1 : s.store ℓ u.cell = .ok s1 := a1
  simp only [Mem.assignMove, l1, bind, Except.bind, a1]; exact b1

/-- Moving a part of an object onto the object. -/
theorem Sim.move_up {x : Bool} {s : Mem K} {ω : Option Nat → Option (Tree K)} {i : Nat}
    {t u v : Tree K} {p q : List Step} {ℓp ℓq : Loc} (S : Sim x s ω) (hi : ω (some i) = some t)
    (hu : t.sub p = some u) (hlp : t.loc (.var i) p = some ℓp)
    (hv : t.sub q = some v) (hlq : t.loc (.var i) q = some ℓq) (h : Above p q) :
    u.addrs ≠ [] ∧ ∃ s', s.assignMove ℓp ℓq = .ok s' ∧
      Sim false s' (upd ω (some i) (some (t.set p v))) := by
  obtain ⟨⟨rest, rfl⟩, hne⟩ := h
  have hr : rest ≠ [] := fun e => hne (by rw [e, List.append_nil])
  have hf := S.fits _ _ hi
  have hv' : u.sub rest = some v := by rw [sub_append, hu] at hv; exact hv
  have hl' : u.loc ℓp rest = some ℓq := by rw [← loc_append hu hlp]; exact hlq
  obtain ⟨a, ha, hau, hav⟩ := loc_addr_below (fits_sub hu hf) hv' hl' hr
  refine ⟨fun e => by rw [e] at hau; simp at hau, ?_⟩
  have l1 := S.load hi hu hlp
  have l2 := S.load hi hv hlq
  have hfv := fits_sub hv hf
  have c : Change false s.heap s.heap u v :=
    ⟨le_rfl, S.fresh, fun _ _ _ => rfl, stored_sub hv (S.stored _ _ hi), hfv.nodup,
      fun b hb => .inl (addrs_sub hv' hb), hfv.lt, by simp⟩
  obtain ⟨s1, a1, S1⟩ := S.store hi hu hlp c
  have a1 : s.store ℓp v.cell = .ok s1 := a1
  rw [Bool.and_false] at S1
  obtain ⟨f1, f2, f3⟩ := store_frame a1
  have hpa : ℓp.addr ≠ some a := fun e => (loc_addr hf hu hlp e).2 hau
  have l3 : s1.load ℓq = .ok v.cell := by rw [load_frame ha (f2 a hpa)]; exact l2
  obtain ⟨s2, b1⟩ := store_ok l3 (.prim .null)
  obtain ⟨g1, g2, g3⟩ := store_frame b1
  have g4 := store_vars b1 ha
  refine ⟨s2, ?_, ?_⟩
  · simp only [Mem.assignMove, l2, bind, Except.bind, a1]; exact b1
  · have := S1.garbage (h1 := s2.heap) g1 (fun k w hk b hb => g2 b fun e => ?_) g3
    · rw [← g4] at this; exact this
    · rw [ha] at e
      injection e with e
      subst e
      by_cases hki : k = some i
      · subst hki
        rw [upd_same] at hk
        injection hk with hk
        subst hk
        obtain ⟨A, hA, hB⟩ := addrs_set hu
        have hnd := hA.nodup_iff.1 hf.nodup
        rcases List.mem_append.1 ((hB v).mem_iff.1 hb) with h | h
        · exact (List.nodup_append.1 hnd).2.2 a h a hau rfl
        · exact hav h
      · rw [upd_other hki] at hk
        exact S.apart k _ w t hki hk hi a hb (addrs_sub hu hau)

/-- Moving an object onto a part of itself. -/
theorem Sim.move_down {x : Bool} {s : Mem K} {ω : Option Nat → Option (Tree K)} {i : Nat}
    {t u v : Tree K} {p q : List Step} {ℓp ℓq : Loc} (S : Sim x s ω) (hi : ω (some i) = some t)
    (hu : t.sub p = some u) (hlp : t.loc (.var i) p = some ℓp)
    (hv : t.sub q = some v) (hlq : t.loc (.var i) q = some ℓq) (h : Above q p) :
    ∃ s', s.assignMove ℓp ℓq = .ok s' ∧
      Sim false s' (upd ω (some i) (some (t.set q (.prim .null)))) := by
  obtain ⟨⟨rest, rfl⟩, hne⟩ := h
  have hr : rest ≠ [] := fun e => hne (by rw [e, List.append_nil])
  have hf := S.fits _ _ hi
  have hu' : v.sub rest = some u := by rw [sub_append, hv] at hu; exact hu
  have hl' : v.loc ℓq rest = some ℓp := by rw [← loc_append hv hlq]; exact hlp
  obtain ⟨a, ha, hav, -⟩ := loc_addr_below (fits_sub hv hf) hu' hl' hr
  have l1 := S.load hi hu hlp
  have l2 := S.load hi hv hlq
  obtain ⟨s1, a1⟩ := store_ok l1 v.cell
  obtain ⟨f1, f2, f3⟩ := store_frame a1
  have f4 := store_vars a1 ha
  have c : Change false s.heap s1.heap v (.prim .null) := by
    refine Change.lose (fun b hb => ?_) f1 (fun b hb => f2 b fun e => ?_) .null (by simp)
    · by_contra hc
      exact f3 b hc (S.fresh b (by omega))
    · rw [ha] at e
      injection e with e
      subst e
      exact hb hav
  obtain ⟨s2, b1, S2⟩ := S.store hi hv hlq c
  rw [Bool.and_false] at S2
  refine ⟨s2, ?_, S2⟩
  have : (⟨s1.heap, s.vars⟩ : Mem K) = s1 := by rw [← f4]
  rw [this] at b1
  simp only [Mem.assignMove, l2, bind, Except.bind, a1]; exact b1

theorem items_other {u : Tree K} (h : u.cell.type ≠ .array) : items u.val = [] := by
  cases u with
  | prim x => cases x <;> simp [Tree.val, Prim.val, items]
  | str q s => simp [Tree.val, items]
  | cont o q l =>
    cases o with
    | true => simp [Tree.val, items]
    | false => exact absurd rfl h

theorem Sim.append [Zero K] {x : Bool} {s : Mem K} {ω : Option Nat → Option (Tree K)} {i j : Nat}
    {ti tj u v : Tree K} {p q : List Step} {ℓp ℓq : Loc} (S : Sim x s ω) (h0 : ω none = none)
    (hi : ω (some i) = some ti)
    (hj : ω (some j) = some tj) (hu : ti.sub p = some u) (hlp : ti.loc (.var i) p = some ℓp)
    (hv : tj.sub q = some v) (hlq : tj.loc (.var j) q = some ℓq) :
    ∃ s' u', s.append ℓp ℓq = .ok s' ∧ u'.val = .arr (items u.val ++ [v.val]) ∧
      Sim x s' (upd ω (some i) (some (ti.set p u'))) := by
  have l2 := S.load hj hv hlq
  obtain ⟨h1, g, a1, a2, a3, a4⟩ := copy_spec (stored_sub hv (S.stored _ _ hj)) (fits_sub hv (S.fits _ _ hj))
  have S1 := S.add (i := none) (V := s.vars) h0 a4 a3 (by simp)
  have hi1 : upd ω none (some g) (some i) = some ti := by rw [upd_other (by simp)]; exact hi
  obtain ⟨s2, u2, b1, S2, b3⟩ := S1.setType hi1 hu hlp .array
  have hu2 : ∃ c l, u2 = .cont false c l ∧ (l.map fun e => e.2.val) = items u.val := by
    rcases b3 with ⟨c1, rfl⟩ | ⟨c1, a, rfl⟩
    · obtain ⟨c, l, rfl⟩ := of_type (o := false) c1
      exact ⟨c, l, rfl, by rw [val_arr]; rfl⟩
    · exact ⟨a, [], rfl, (items_other c1).symm⟩
  obtain ⟨c, l, rfl, hitems⟩ := hu2
  have hg2 : upd (upd ω none (some g)) (some i) (some (ti.set p (.cont false c l))) none = some g := by
    rw [upd_other (by simp), upd_same]
  have hi2 : upd (upd ω none (some g)) (some i) (some (ti.set p (.cont false c l))) (some i) = _ :=
    upd_same _ _ _
  obtain ⟨h3, e, c1, c2, c3, c4⟩ := copy_spec (S2.stored _ _ hg2) (S2.fits _ _ hg2)
  have hst := stored_sub (sub_set hu _) (S2.stored _ _ hi2)
  have hfi := fits_sub (sub_set hu _) (S2.fits _ _ hi2)
  have hn : h3.node c = some (.list (l.map fun e => e.2.cell)) := by
    rw [c4.old c (hfi.lt c (by rw [addrs_cont]; simp)), ((stored_cont _ _ _ _).1 hst).1]
    simp [shape, cells_snd]
  have ch := Change.push (k := []) S2.fresh hst hfi c4 c3
  have S3 := S2.inplace hi2 (sub_set hu _) (u' := .cont false c (l ++ [([], e)])) rfl ch
  rw [and_true', upd_upd, set_set hu] at S3
  obtain ⟨h4, d1, S4⟩ := S3.drop (i := none) (t := g) (V := s2.vars)
    (by rw [upd_other (by simp), upd_same]) (by simp)
  refine ⟨⟨h4, s2.vars⟩, .cont false c (l ++ [([], e)]), ?_, ?_, ?_⟩
  · have hsh : shape false (cells (l ++ [(([] : Str), e)])) = .list ((l.map fun e => e.2.cell) ++ [e.cell]) := by
      simp [shape, cells_snd]
    rw [hsh] at d1
    simp only [Mem.append, l2, a1, b1, bind, Except.bind, cell_arr, c1, hn]
    simp only [d1]
  · rw [val_arr, List.map_append, hitems]
    simp [c2, a2]
  · have : upd (upd (upd ω none (some g)) (some i) (some (ti.set p (.cont false c (l ++ [([], e)]))))) none none
        = upd ω (some i) (some (ti.set p (.cont false c (l ++ [([], e)])))) := by
      funext k
      by_cases hk : k = none
      · subst hk
        rw [upd_same, upd_other (by simp), h0]
      · rw [upd_other hk]
        by_cases hk' : k = some i
        · rw [hk', upd_same, upd_same]
        · rw [upd_other hk', upd_other hk', upd_other hk]
    rw [this] at S4
    exact S4

/-! ## One operation -/

theorem set_set_vars (ρ : Vars K) (i : Nat) (v w : JVal K) : (ρ.set i v).set i w = ρ.set i w := by
  funext k
  simp only [Vars.set]
  split <;> rfl

theorem Rep.update {x : Bool} {s : Mem K} {ω : Option Nat → Option (Tree K)} {ρ : Vars K} {y : Bool}
    {s' : Mem K} (R : Rep x s ω ρ) {i : Nat} {t : Tree K}
    (S : Sim y s' (upd ω (some i) (some t))) : Rep y s' (upd ω (some i) (some t)) (ρ.set i t.val) :=
  ⟨S, by rw [upd_other (by simp)]; exact R.tmp, val_upd R.val i t⟩

theorem Rep.step [Zero K] {x : Bool} {s : Mem K} {ω : Option Nat → Option (Tree K)} {ρ ρ' : Vars K}
    {op : Op K} (R : Rep x s ω ρ) (h : Step1 ρ op ρ') :
    ∃ s' ω' y, s.exec op = .ok s' ∧ Rep (x && y) s' ω' ρ' ∧ (Clean ρ op → y = true) := by
  cases h with
  | @build i z hi =>
    obtain ⟨h1, h2⟩ := R.none hi
    obtain ⟨h', t', a1, a2, a3, a4⟩ := build_spec s.heap z
    have S := R.sim.add (V := fun j => if j = i then some t'.cell else s.vars j) h1 a4 a3
      (fun j => by simp)
    refine ⟨⟨h', fun j => if j = i then some t'.cell else s.vars j⟩, upd ω (some i) (some t'), true, ?_, ?_,
      fun _ => rfl⟩
    rotate_left
    · rw [and_true', ← a2]
      exact R.update S
    · simp only [Mem.exec, h2, a1, Mem.start]
  | @copyNew i j q ρ1 v hi hr ht hv =>
    obtain ⟨-, h2⟩ := R.none hi
    obtain ⟨s1, t0, t, u, ℓ, -, a2, R1, a4, a5, -⟩ := R.touch hr ht
    have hj : upd ω (some j) (some t) (some j) = some t := upd_same _ _ _
    have hv' : v = t.val := by
      have := R1.val j
      rw [hj, hv] at this
      simpa using this
    have ld := R1.sim.load hj a4 a5
    obtain ⟨h', c, b1, b2, b3, b4⟩ := copy_spec (stored_sub a4 (R1.sim.stored _ _ hj))
      (fits_sub a4 (R1.sim.fits _ _ hj))
    have hn := (R1.none (touch_none ht hi).1).1
    have S := R1.sim.add (V := fun k => if k = i then some c.cell else s1.vars k) hn b4 b3
      (fun k => by simp)
    refine ⟨⟨h', fun k => if k = i then some c.cell else s1.vars k⟩, upd (upd ω (some j) (some t)) (some i) (some c), true, ?_, ?_,
      fun _ => rfl⟩
    rotate_left
    · rw [and_true', hv', getPath_val a4, ← b2]
      exact R1.update S
    · simp only [Mem.exec, h2, a2, bind, Except.bind, ld, b1, Mem.start]
  | @moveNew i j q ρ1 v hi hr ht hv =>
    obtain ⟨-, h2⟩ := R.none hi
    obtain ⟨s1, t0, t, u, ℓ, -, a2, R1, a4, a5, -⟩ := R.touch hr ht
    have hj : upd ω (some j) (some t) (some j) = some t := upd_same _ _ _
    have hv' : v = t.val := by
      have := R1.val j
      rw [hj, hv] at this
      simpa using this
    have ld := R1.sim.load hj a4 a5
    obtain ⟨n1, n2⟩ := touch_none ht hi
    have hn := (R1.none n1).1
    obtain ⟨s2, b1, S2⟩ := R1.sim.take R1.tmp hj a4 a5
    have S3 := S2.give (i := i) (V := fun k => if k = i then some u.cell else s2.vars k) (upd_same _ _ _)
      (by rw [upd_other (by simp), upd_other (by simpa using n2)]; exact hn) (fun k => rfl)
    refine ⟨⟨s2.heap, fun k => if k = i then some u.cell else s2.vars k⟩, _, true, ?_,
      ⟨by rw [and_true']; exact S3, upd_same _ _ _, fun k => ?_⟩, fun _ => rfl⟩
    · simp only [Mem.exec, h2, a2, bind, Except.bind, ld, b1, Mem.start]
    · rw [upd_other (by simp), hv', getPath_val a4]
      refine val_upd (fun k => ?_) i u k
      rw [upd_other (by simp)]
      have := val_upd R1.val j (t.set q (.prim .null)) k
      rw [val_set a4] at this
      simpa [Tree.val, Prim.val] using this
  | @setLit i p z v hv hr =>
    have ht : ρ.touch i p = some (ρ.set i (JsonValue.touch v p)) := by simp [Vars.touch, hv]
    obtain ⟨s1, t0, t, u, ℓ, -, a2, R1, a4, a5, -⟩ := R.touch hr ht
    have hi : upd ω (some i) (some t) (some i) = some t := upd_same _ _ _
    have hv' : JsonValue.touch v p = t.val := by
      have := R1.val i
      rw [hi] at this
      simpa [Vars.set] using this
    obtain ⟨s2, u2, b1, S2, b3⟩ := R1.sim.assignLit hi a4 a5 z
    refine ⟨s2, upd (upd ω (some i) (some t)) (some i) (some (t.set p u2)), true, ?_, ?_, fun _ => rfl⟩
    rotate_left
    · rw [and_true']
      have := R1.update S2
      rw [set_set_vars, val_set a4, b3, ← hv', JsonValue.touch] at this
      have e := putPath_putPath v (getPath v p) (litVal z) p []
      rw [List.append_nil] at e
      rw [e] at this
      exact this
    · simp only [Mem.exec, a2, bind, Except.bind]; exact b1
  | @copyTo right i p j q ρ1 a b w w' hp hq hb hi hj hw' hw =>
    obtain ⟨s1, ω1, ti, tj, u, v, ℓp, ℓq, a1, R1, a3, a4, rfl, rfl, a7, rfl, a9, a10, rfl, a12⟩ :=
      R.sides hp hq hb hi hj hw' hw
    obtain ⟨s2, v', b1, b2, S2⟩ := R1.sim.assignCopy a3 a4 a7 a9 a10 a12
    refine ⟨s2, upd ω1 (some i) (some (ti.set p v')), decide (u.addrs = []), ?_, ?_, fun hc => ?_⟩
    rotate_left
    · have := R1.update S2
      rw [val_set a7, b2] at this
      exact this
    · simpa using simple_addrs (hc _ _ _ hb hi hw')
    · simp only [Mem.exec, a1, bind, Except.bind]; exact b1
  | @moveTo right i p j q ρ1 a b w w' c hp hq hb hi hj hw' hw hc0 =>
    obtain ⟨s1, ω1, ti, tj, u, v, ℓp, ℓq, a1, R1, a3, a4, rfl, rfl, a7, rfl, a9, a10, rfl, a12⟩ :=
      R.sides hp hq hb hi hj hw' hw
    have fin : ∀ {s2 : Mem K}, s1.assignMove ℓp ℓq = .ok s2 → s.exec (.moveTo right i p j q) = .ok s2 := by
      intro s2 h
      simp only [Mem.exec, a1, bind, Except.bind]; exact h
    by_cases hap : i ≠ j ∨ ¬ Above q p ∧ ¬ Above p q ∧ p ≠ q
    · obtain ⟨s2, ω2, b1, S2, b3, b4⟩ := R1.sim.move_apart R1.tmp a3 a4 a7 a9 a10 a12 hap
      have hnot : ¬ (i = j ∧ Above p q) := by
        rintro ⟨e, hA⟩
        rcases hap with h | h
        · exact h e
        · exact h.2.1 hA
      refine ⟨s2, ω2, decide (u.addrs = []), fin b1, ⟨S2, b3, fun k => ?_⟩, fun hcl => ?_⟩
      · rw [if_neg hnot, b4 k]
        by_cases hij : i = j
        · subst hij
          rw [a3] at a4
          injection a4 with a4
          subst a4
          obtain ⟨n1, n2, n3⟩ := hap.resolve_left (by simp)
          simp only [Vars.set, if_true, Option.some.injEq] at hc0
          subst hc0
          by_cases hk : k = i
          · subst hk
            have hsub : (ti.set p v).sub q = some v := by
              rw [sub_set_other a7 _ n2 n1 (Ne.symm n3)]; exact a10
            simp [Vars.set, val_set hsub, val_set a7, Tree.val, Prim.val]
          · simp only [Vars.set, hk, if_false]; exact R1.val k
        · have hji : j ≠ i := Ne.symm hij
          simp only [Vars.set, hji, if_false, hj, Option.some.injEq] at hc0
          subst hc0
          by_cases hk : k = j
          · subst hk
            simp [Vars.set, hij, val_set a10, Tree.val, Prim.val]
          · by_cases hk' : k = i
            · subst hk'
              simp [Vars.set, hij, val_set a7]
            · simp only [Vars.set, hk, hk', if_false]; exact R1.val k
      · simpa using simple_addrs (hcl.1 _ _ _ hb hi hw')
    · push Not at hap
      obtain ⟨rfl, hap⟩ := hap
      rw [a3] at a4
      injection a4 with a4
      subst a4
      simp only [Vars.set, if_true, Option.some.injEq] at hc0
      subst hc0
      by_cases h1 : Above q p
      · obtain ⟨s2, b1, S2⟩ := R1.sim.move_down a3 a7 a9 a10 a12 h1
        refine ⟨s2, upd ω1 (some i) (some (ti.set q (.prim .null))), false, fin b1, ?_, fun hcl => absurd ⟨rfl, h1⟩ hcl.2⟩
        have hnot : ¬ (i = i ∧ Above p q) := by
          rintro ⟨-, h2⟩
          exact h1.2 (h1.1.eq_of_length (le_antisymm h1.1.length_le h2.1.length_le))
        rw [if_neg hnot, set_set_vars, Bool.and_false]
        have := R1.update S2
        rw [val_set a10] at this
        obtain ⟨⟨rest, rfl⟩, -⟩ := h1
        rw [putPath_append]
        have e := putPath_putPath ti.val (putPath (getPath ti.val q) rest v.val) .null q []
        rw [List.append_nil] at e
        rw [e]
        simpa [Tree.val, Prim.val, putPath] using this
      · by_cases h2 : Above p q
        · obtain ⟨b0, s2, b1, S2⟩ := R1.sim.move_up a3 a7 a9 a10 a12 h2
          refine ⟨s2, upd ω1 (some i) (some (ti.set p v)), false, fin b1, ?_, fun hcl => absurd (simple_addrs (hcl.1 _ _ _ hb hi hw')) b0⟩
          rw [if_pos ⟨rfl, h2⟩, Bool.and_false]
          have := R1.update S2
          rw [val_set a7] at this
          exact this
        · obtain rfl := hap h1 h2
          rw [a7] at a10
          injection a10 with a10
          subst a10
          rw [a9] at a12
          injection a12 with a12
          subst a12
          obtain ⟨s2, b1, S2⟩ := R1.sim.move_self a3 a7 a9
          refine ⟨s2, upd ω1 (some i) (some (ti.set p (.prim .null))), decide (u.addrs = []), fin b1, ?_, fun hcl => ?_⟩
          · rw [if_neg (fun h => h2 h.2), set_set_vars]
            have := R1.update S2
            rw [val_set a7] at this
            have e := putPath_putPath ti.val u.val .null p []
            rw [List.append_nil] at e
            rw [e]
            simpa [Tree.val, Prim.val, putPath] using this
          · simpa using simple_addrs (hcl.1 _ _ _ hb hi hw')
  | @append i p j q ρ1 a b w w' hp hq hb hi hj hw' hw =>
    obtain ⟨s1, ω1, ti, tj, u, v, ℓp, ℓq, a1, R1, a3, a4, rfl, rfl, a7, rfl, a9, a10, rfl, a12⟩ :=
      R.sides hp hq hb hi hj hw' hw
    obtain ⟨s2, u', b1, b2, S2⟩ := R1.sim.append R1.tmp a3 a4 a7 a9 a10 a12
    refine ⟨s2, upd ω1 (some i) (some (ti.set p u')), true, ?_, ?_, fun _ => rfl⟩
    rotate_left
    · rw [and_true']
      have := R1.update S2
      rw [val_set a7, b2] at this
      exact this
    · simp only [Mem.exec, a1, bind, Except.bind]; exact b1
  | @destroy i v hv =>
    obtain ⟨t, h1, -⟩ := R.tree hv
    have h2 := R.sim.vars i
    rw [h1] at h2
    obtain ⟨h', a1, S⟩ := R.sim.drop (V := fun j => if j = i then Option.none else s.vars j) h1 (fun j => by simp)
    refine ⟨⟨h', fun j => if j = i then Option.none else s.vars j⟩, _, true, ?_,
      ⟨by rw [and_true']; exact S, ?_, fun k => ?_⟩, fun _ => rfl⟩
    · simp only [Mem.exec, h2, Option.map_some, a1, bind, Except.bind]
    · rw [upd_other (by simp)]; exact R.tmp
    · by_cases hk : k = i
      · subst hk; rw [upd_same]; simp
      · rw [upd_other (by simpa using hk)]; simp only [hk, if_false]; exact R.val k

/-! ## Programs -/

theorem Rep.empty : Rep true (Mem.empty : Mem K) (fun _ => Option.none) (fun _ => Option.none) :=
  ⟨⟨fun _ => rfl, by simp, by simp, by simp, fun _ _ => rfl, fun _ a h => absurd rfl h⟩, rfl, fun _ => rfl⟩

theorem Rep.read {x : Bool} {s : Mem K} {ω : Option Nat → Option (Tree K)} {ρ : Vars K}
    (R : Rep x s ω ρ) (i : Nat) : s.read i = (ρ i).map .ok := by
  rw [Mem.read, R.sim.vars, R.val]
  rcases h : ω (some i) with _ | t
  · rfl
  · simp only [Option.map_some]
    rw [read_spec t _ (Nat.lt_succ_of_le (R.sim.fits _ _ h).depth) (R.sim.stored _ _ h)]

theorem Rep.steps [Zero K] {ρ ρ' : Vars K} {ops : List (Op K)} (h : Steps ρ ops ρ') :
    ∀ {x : Bool} {s : Mem K} {ω : Option Nat → Option (Tree K)}, Rep x s ω ρ →
    ∃ s' ω' y, s.run ops = .ok s' ∧ Rep y s' ω' ρ' := by
  induction h with
  | nil => intro x s ω R; exact ⟨s, ω, x, rfl, R⟩
  | cons h1 _ ih =>
    intro x s ω R
    obtain ⟨s1, ω1, y, a1, R1, -⟩ := R.step h1
    obtain ⟨s2, ω2, z, b1, R2⟩ := ih R1
    refine ⟨s2, ω2, z, ?_, R2⟩
    rw [Mem.run, List.foldlM_cons, a1]; exact b1

theorem Rep.clean [Zero K] {ρ ρ' : Vars K} {ops : List (Op K)} (h : CleanSteps ρ ops ρ') :
    ∀ {s : Mem K} {ω : Option Nat → Option (Tree K)}, Rep true s ω ρ →
    ∃ s' ω', s.run ops = .ok s' ∧ Rep true s' ω' ρ' := by
  induction h with
  | nil => intro s ω R; exact ⟨s, ω, rfl, R⟩
  | cons h1 hc _ ih =>
    intro s ω R
    obtain ⟨s1, ω1, y, a1, R1, hy⟩ := R.step h1
    rw [hy hc] at R1
    obtain ⟨s2, ω2, b1, R2⟩ := ih R1
    refine ⟨s2, ω2, ?_, R2⟩
    rw [Mem.run, List.foldlM_cons, a1]; exact b1

/-! ## When there is a result -/

theorem lookPath_cons (v : JVal K) (s : Step) (p : List Step) :
    lookPath v (s :: p) = (lookPath v [s]).bind fun w => lookPath w p := by
  cases s with
  | key k =>
    cases v with
    | obj m => simp only [lookPath]; cases findKey m k <;> rfl
    | _ => rfl
  | index n =>
    cases v with
    | arr l => simp only [lookPath]; cases l[n]? <;> rfl
    | _ => rfl

theorem look_put (v : JVal K) (s : Step) (w : JVal K) : lookPath (JsonValue.put v s w) [s] = some w := by
  cases s with
  | key k => cases v <;> simp [JsonValue.put, lookPath, find_putMember]
  | index n => cases v <;> simp [JsonValue.put, lookPath, putItem_get]

theorem look_touch_self (v : JVal K) (p : List Step) : lookPath (touch v p) p = some (getPath v p) := by
  induction p generalizing v with
  | nil => rfl
  | cons s p ih =>
    rw [touch_cons, lookPath_cons, look_put, Option.bind_some, ih]; rfl

theorem look_put_other {v w x : JVal K} {s s' : Step} (h : s ≠ s') (hk : s.isKey = s'.isKey)
    (hv : lookPath v [s] = some w) : lookPath (JsonValue.put v s' x) [s] = some w := by
  cases s with
  | key k =>
    cases s' with
    | index n => simp [Step.isKey] at hk
    | key k' =>
      have hkk : k ≠ k' := fun e => h (by rw [e])
      cases v with
      | obj m =>
        simp only [lookPath] at hv
        have hf : findKey (putMember m k' x) k = findKey m k := by
          unfold putMember
          by_cases hs : (findKey m k').isSome = true
          · rw [if_pos hs]
            rw [findKey, Option.isSome_map] at hs
            obtain ⟨e, he⟩ := Option.isSome_iff_exists.1 hs
            obtain ⟨h1, l1, l2, h2, -, h4⟩ := changeKey_split he
            rw [h4, findKey, findKey, h2, List.find?_append, List.find?_append, List.find?_cons,
              List.find?_cons]
            simp [h1, hkk.symm]
          · rw [if_neg hs, findKey, find_insert_other _ hkk, findKey]
        simp only [JsonValue.put, lookPath, hf]; exact hv
      | _ => simp [lookPath] at hv
  | index n =>
    cases s' with
    | key k => simp [Step.isKey] at hk
    | index n' =>
      have hnn : n ≠ n' := fun e => h (by rw [e])
      cases v with
      | arr l =>
        simp only [lookPath] at hv
        obtain ⟨y, h1, h2⟩ := Option.bind_eq_some_iff.1 hv
        obtain ⟨hn, -⟩ := List.getElem?_eq_some_iff.1 h1
        have : (putItem l n' x)[n]? = l[n]? := by
          rw [putItem, List.getElem?_set_ne hnn.symm, List.getElem?_append_left hn]
        simp only [JsonValue.put, lookPath, this]; exact hv
      | _ => simp [lookPath] at hv

theorem look_touch {v : JVal K} {p q : List Step} (hv : (lookPath v p).isSome = true) (h : ¬ Clash p q) :
    (lookPath (touch v q) p).isSome = true := by
  induction p generalizing v q with
  | nil => simp [lookPath]
  | cons s p ih =>
    cases q with
    | nil => exact hv
    | cons s' q =>
      obtain ⟨z, hz⟩ := Option.isSome_iff_exists.1 hv
      rw [lookPath_cons] at hz
      obtain ⟨w, h1, h2⟩ := Option.bind_eq_some_iff.1 hz
      rw [touch_cons, lookPath_cons]
      by_cases hs : s = s'
      · subst hs
        rw [look_put, Option.bind_some, get_of_look h1]
        refine ih (by rw [h2]; rfl) fun ⟨c, a, b, p', q', e1, e2, e3⟩ =>
          h ⟨s :: c, a, b, p', q', by rw [e1]; rfl, by rw [e2]; rfl, e3⟩
      · have hk : s.isKey = s'.isKey := by
          by_contra hk
          exact h ⟨[], s, s', p, q, rfl, rfl, hk⟩
        rw [look_put_other hs hk h1, Option.bind_some, h2]; rfl

theorem both_some {ρ : Vars K} {i j : Nat} (hi : (ρ i).isSome = true) (hj : (ρ j).isSome = true)
    {p q : List Step} (h : i = j → ¬ Clash p q) (right : Bool) :
    ∃ ρ' a b w w', ρ.both right i p j q = some ρ' ∧ ρ' i = some a ∧ ρ' j = some b ∧
      lookPath a p = some w' ∧ lookPath b q = some w := by
  have key : ∀ (i j : Nat) (p q : List Step), (ρ i).isSome = true → (ρ j).isSome = true →
      (i = j → ¬ Clash p q) → ∃ ρ1 ρ' a b w w', ρ.touch i p = some ρ1 ∧ ρ1.touch j q = some ρ' ∧
        ρ' i = some a ∧ ρ' j = some b ∧ lookPath a p = some w' ∧ lookPath b q = some w := by
    intro i j p q hi hj h
    obtain ⟨v, hv⟩ := Option.isSome_iff_exists.1 hi
    obtain ⟨v', hv'⟩ := Option.isSome_iff_exists.1 hj
    by_cases e : i = j
    · subst e
      have hl : (lookPath (touch (touch v p) q) p).isSome = true :=
        look_touch (by rw [look_touch_self]; rfl) (h rfl)
      obtain ⟨w', hw'⟩ := Option.isSome_iff_exists.1 hl
      refine ⟨ρ.set i (touch v p), (ρ.set i (touch v p)).set i (touch (touch v p) q),
        touch (touch v p) q, touch (touch v p) q, getPath (touch v p) q, w', ?_, ?_, ?_, ?_, hw',
        look_touch_self _ _⟩
      · simp only [Vars.touch, hv, Option.map_some]
      · simp only [Vars.touch, Vars.set, if_true, Option.map_some]
      · simp only [Vars.set, if_true]
      · simp only [Vars.set, if_true]
    · have e' : ¬ j = i := fun h => e h.symm
      refine ⟨ρ.set i (touch v p), (ρ.set i (touch v p)).set j (touch v' q), touch v p, touch v' q,
        getPath v' q, getPath v p, ?_, ?_, ?_, ?_,
        look_touch_self _ _, look_touch_self _ _⟩
      · simp only [Vars.touch, hv, Option.map_some]
      · simp only [Vars.touch, Vars.set, e', if_false, hv', Option.map_some]
      · simp only [Vars.set, e, if_false, if_true]
      · simp only [Vars.set, if_true]
  cases right with
  | false =>
    obtain ⟨ρ1, ρ', a, b, w, w', a1, a2, a3, a4, a5, a6⟩ := key i j p q hi hj h
    exact ⟨ρ', a, b, w, w', by simp [Vars.both, a1, a2], a3, a4, a5, a6⟩
  | true =>
    obtain ⟨ρ1, ρ', a, b, w, w', a1, a2, a3, a4, a5, a6⟩ := key j i q p hj hi fun e hc => h e.symm hc.symm
    exact ⟨ρ', b, a, w', w, by simp [Vars.both, a1, a2], a4, a3, a6, a5⟩

end Marley.JsonHeap
