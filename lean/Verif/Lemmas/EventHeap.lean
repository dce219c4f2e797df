import Verif.Model.EventHeap
import Mathlib.Data.List.Nodup
import Mathlib.Data.List.Basic

/-! Helper lemmas for the ownership model. -/

set_option autoImplicit false

namespace Marley.EventHeap
variable {K : Type}

/-- All pointers of an event. -/
def EvObj.ptrs (e : EvObj K) : List (Option Nat) := e.ini ++ e.fin

/-- Pointers of the event object named `i` (none if it does not exist). -/
def ptrsOf (w : World K) (i : Nat) : List (Option Nat) :=
  match w.ev i with
  | none => []
  | some e => e.ptrs

/-- The ownership invariant. -/
structure Inv (w : World K) : Prop where
  /-- every pointer points to a live particle -/
  live : ∀ i, ∀ p ∈ ptrsOf w i, ∃ a, p = some a ∧ (w.mem a).isSome
  /-- no event holds the same particle twice -/
  nodup : ∀ i, (ptrsOf w i).Nodup
  /-- no particle is owned by two events -/
  excl : ∀ i j, i ≠ j → ∀ p ∈ ptrsOf w i, p ∉ ptrsOf w j
  /-- every particle is owned by some event -/
  noLeak : ∀ a, (w.mem a).isSome → ∃ i, some a ∈ ptrsOf w i
  /-- bookkeeping of the allocator -/
  fresh : ∀ a, (w.mem a).isSome → a < w.next

theorem upd_same {α} (g : Nat → α) (i : Nat) (v : α) : upd g i v i = v := by simp [upd]
theorem upd_ne {α} (g : Nat → α) {i k : Nat} (v : α) (h : k ≠ i) : upd g i v k = g k := by
  simp [upd, h]

theorem ptrsOf_setEv_same (w : World K) (i : Nat) (e : EvObj K) :
    ptrsOf (setEv w i e) i = e.ptrs := by simp [ptrsOf, setEv, upd]

theorem ptrsOf_setEv_ne (w : World K) {i j : Nat} (e : EvObj K) (h : j ≠ i) :
    ptrsOf (setEv w i e) j = ptrsOf w j := by simp [ptrsOf, setEv, upd, h]

/-- `w'` arises from `w` by allocating exactly the addresses `as`. -/
structure Fresh (w w' : World K) (as : List (Option Nat)) : Prop where
  ev : w'.ev = w.ev
  le : w.next ≤ w'.next
  old : ∀ a, a < w.next → w'.mem a = w.mem a
  nd : as.Nodup
  rng : ∀ p ∈ as, ∃ a, p = some a ∧ w.next ≤ a ∧ a < w'.next ∧ (w'.mem a).isSome
  sole : ∀ a, w.next ≤ a → (w'.mem a).isSome → some a ∈ as
  below : ∀ a, (w'.mem a).isSome → a < w'.next

theorem Fresh.refl {w : World K} (h : ∀ a, (w.mem a).isSome → a < w.next) : Fresh w w [] where
  ev := rfl
  le := Nat.le_refl _
  old _ _ := rfl
  nd := List.nodup_nil
  rng := by simp
  sole a h1 h2 := absurd (h a h2) (by omega)
  below := h

theorem Fresh.alloc {w : World K} (h : ∀ a, (w.mem a).isSome → a < w.next) (p : Particle K) :
    Fresh w (alloc w p).1 [some (alloc w p).2] where
  ev := rfl
  le := Nat.le_succ _
  old a ha := by simp [EventHeap.alloc, upd]; omega
  nd := by simp
  rng := by
    intro q hq
    simp only [List.mem_singleton] at hq
    exact ⟨w.next, hq, Nat.le_refl _, Nat.lt_succ_self _, by simp [EventHeap.alloc, upd]⟩
  sole a h1 h2 := by
    by_cases e : a = w.next
    · simp [e, EventHeap.alloc]
    · simp only [EventHeap.alloc, upd_ne _ _ e] at h2
      have := h a h2; omega
  below a h2 := by
    by_cases e : a = w.next
    · simp [e, EventHeap.alloc]
    · simp only [EventHeap.alloc, upd_ne _ _ e] at h2 ⊢
      have := h a h2; omega

theorem Fresh.trans {w w1 w2 : World K} {as bs : List (Option Nat)} (h1 : Fresh w w1 as)
    (h2 : Fresh w1 w2 bs) : Fresh w w2 (as ++ bs) where
  ev := h2.ev.trans h1.ev
  le := Nat.le_trans h1.le h2.le
  old a ha := (h2.old a (Nat.lt_of_lt_of_le ha h1.le)).trans (h1.old a ha)
  nd := by
    rw [List.nodup_append]
    refine ⟨h1.nd, h2.nd, ?_⟩
    rintro p hp q hq rfl
    obtain ⟨a, rfl, _, h, _⟩ := h1.rng _ hp
    obtain ⟨b, hb, h', _, _⟩ := h2.rng _ hq
    cases hb; omega
  rng p hp := by
    rcases List.mem_append.1 hp with hp | hp
    · obtain ⟨a, rfl, x, y, z⟩ := h1.rng p hp
      exact ⟨a, rfl, x, Nat.lt_of_lt_of_le y h2.le, by rw [h2.old a y]; exact z⟩
    · obtain ⟨a, rfl, x, y, z⟩ := h2.rng p hp
      exact ⟨a, rfl, Nat.le_trans h1.le x, y, z⟩
  sole a ha hs := by
    rw [List.mem_append]
    by_cases hl : a < w1.next
    · left; rw [h2.old a hl] at hs; exact h1.sole a ha hs
    · right; exact h2.sole a (by omega) hs
  below := h2.below

theorem Fresh.ptrsOf {w w' : World K} {as} (h : Fresh w w' as) (i : Nat) :
    ptrsOf w' i = ptrsOf w i := by simp [EventHeap.ptrsOf, h.ev]

/-- Giving an event fresh addresses in addition to its own keeps the invariant. -/
theorem Inv.install {w w' : World K} {as : List (Option Nat)} (hi : Inv w) (hf : Fresh w w' as)
    (i : Nat) (e : EvObj K) (hp : e.ptrs.Perm (ptrsOf w i ++ as)) : Inv (setEv w' i e) := by
  have memI : ∀ p, p ∈ e.ptrs ↔ p ∈ ptrsOf w i ∨ p ∈ as := by
    intro p; rw [hp.mem_iff, List.mem_append]
  have nas : ∀ j, ∀ p ∈ ptrsOf w j, p ∉ as := by
    intro j p h1 h2
    obtain ⟨a, rfl, hs⟩ := hi.live j p h1
    obtain ⟨b, hb, h', _⟩ := hf.rng _ h2
    cases hb
    have := hi.fresh a hs; omega
  have keep : ∀ j, ∀ p ∈ ptrsOf w j, ∃ a, p = some a ∧ (w'.mem a).isSome := by
    intro j p h1
    obtain ⟨a, rfl, hs⟩ := hi.live j p h1
    exact ⟨a, rfl, by rw [hf.old a (hi.fresh a hs)]; exact hs⟩
  constructor
  · intro j p hpj
    show ∃ a, p = some a ∧ (w'.mem a).isSome
    by_cases h : j = i
    · subst h
      rw [ptrsOf_setEv_same, memI] at hpj
      rcases hpj with hpj | hpj
      · exact keep j p hpj
      · obtain ⟨a, rfl, _, _, z⟩ := hf.rng p hpj; exact ⟨a, rfl, z⟩
    · rw [ptrsOf_setEv_ne _ _ h, hf.ptrsOf] at hpj
      exact keep j p hpj
  · intro j
    by_cases h : j = i
    · subst h
      rw [ptrsOf_setEv_same, hp.nodup_iff, List.nodup_append]
      exact ⟨hi.nodup j, hf.nd, fun p h1 q h2 e => nas j p h1 (e ▸ h2)⟩
    · rw [ptrsOf_setEv_ne _ _ h, hf.ptrsOf]; exact hi.nodup j
  · intro j k hjk p hpj hpk
    by_cases h : j = i
    · subst h
      rw [ptrsOf_setEv_same, memI] at hpj
      rw [ptrsOf_setEv_ne _ _ (Ne.symm hjk), hf.ptrsOf] at hpk
      rcases hpj with hpj | hpj
      · exact hi.excl j k hjk p hpj hpk
      · exact nas k p hpk hpj
    · rw [ptrsOf_setEv_ne _ _ h, hf.ptrsOf] at hpj
      by_cases h' : k = i
      · subst h'
        rw [ptrsOf_setEv_same, memI] at hpk
        rcases hpk with hpk | hpk
        · exact hi.excl j k hjk p hpj hpk
        · exact nas j p hpj hpk
      · rw [ptrsOf_setEv_ne _ _ h', hf.ptrsOf] at hpk
        exact hi.excl j k hjk p hpj hpk
  · intro a ha
    change (w'.mem a).isSome at ha
    by_cases hl : a < w.next
    · rw [hf.old a hl] at ha
      obtain ⟨j, hj⟩ := hi.noLeak a ha
      by_cases h : j = i
      · subst h
        exact ⟨j, by rw [ptrsOf_setEv_same, memI]; exact .inl hj⟩
      · exact ⟨j, by rw [ptrsOf_setEv_ne _ _ h, hf.ptrsOf]; exact hj⟩
    · exact ⟨i, by rw [ptrsOf_setEv_same, memI]; exact .inr (hf.sole a (by omega) ha)⟩
  · exact hf.below

/-- Changing data members without changing the pointers. -/
theorem Inv.scalars {w : World K} (hi : Inv w) (i : Nat) (e : EvObj K)
    (hp : e.ptrs = ptrsOf w i) : Inv (setEv w i e) :=
  hi.install (Fresh.refl hi.fresh) i e (by rw [hp, List.append_nil])

theorem freeAll_spec (w : World K) (l : List (Option Nat))
    (hl : ∀ p ∈ l, ∃ a, p = some a ∧ (w.mem a).isSome) (hn : l.Nodup) :
    ∃ w', freeAll w l = .ok w' ∧ w'.ev = w.ev ∧ w'.next = w.next ∧
      ∀ a, w'.mem a = if some a ∈ l then none else w.mem a := by
  induction l generalizing w with
  | nil => exact ⟨w, rfl, rfl, rfl, by simp⟩
  | cons p l ih =>
    obtain ⟨a, rfl, ha⟩ := hl p (by simp)
    obtain ⟨v, hv⟩ := Option.isSome_iff_exists.1 ha
    rw [List.nodup_cons] at hn
    obtain ⟨w', h1, h2, h3, h4⟩ := ih { w with mem := upd w.mem a none } (by
      intro q hq
      obtain ⟨b, rfl, hb⟩ := hl q (by simp [hq])
      refine ⟨b, rfl, ?_⟩
      have : b ≠ a := by rintro rfl; exact hn.1 hq
      simpa [upd_ne _ _ this] using hb) hn.2
    refine ⟨w', by simp only [freeAll, free, hv, h1], h2, h3, ?_⟩
    intro b
    rw [h4]
    by_cases hb : b = a
    · subst hb; simp [upd]
    · simp [upd, hb]

/-- `deleteParticles` on a live event of a well-formed world. -/
theorem deleteParticles_spec {w : World K} (hi : Inv w) {i : Nat} {e : EvObj K}
    (he : w.ev i = some e) :
    ∃ w', deleteParticles w i = .ok w' ∧ Inv w' ∧
      w'.ev = upd w.ev i (some { e with ini := [], fin := [] }) ∧
      (∀ a, some a ∉ ptrsOf w i → w'.mem a = w.mem a) := by
  have hp : ptrsOf w i = e.ini ++ e.fin := by simp [ptrsOf, he, EvObj.ptrs]
  have hlive := hi.live i
  have hnd := hi.nodup i
  rw [hp] at hlive hnd
  rw [List.nodup_append] at hnd
  obtain ⟨n1, n2, n3⟩ := hnd
  obtain ⟨w1, a1, a2, a3, a4⟩ := freeAll_spec w e.ini (fun p h => hlive p (by simp [h])) n1
  obtain ⟨w2, b1, b2, b3, b4⟩ := freeAll_spec w1 e.fin (by
    intro p h
    obtain ⟨a, rfl, ha⟩ := hlive p (by simp [h])
    refine ⟨a, rfl, ?_⟩
    rw [a4, if_neg (fun h' => n3 _ h' _ h rfl)]; exact ha) n2
  have hm : ∀ a, w2.mem a = if some a ∈ ptrsOf w i then none else w.mem a := by
    intro a
    rw [b4, a4, hp]
    by_cases h1 : some a ∈ e.fin <;> by_cases h2 : some a ∈ e.ini <;> simp [h1, h2]
  refine ⟨setEv w2 i { e with ini := [], fin := [] }, ?_, ?_, ?_, ?_⟩
  · simp only [deleteParticles, get, he, a1, b1]
  · have hev : ∀ j, j ≠ i → ptrsOf (setEv w2 i { e with ini := [], fin := [] }) j = ptrsOf w j := by
      intro j h
      rw [ptrsOf_setEv_ne _ _ h]
      simp [ptrsOf, b2, a2]
    have hself : ptrsOf (setEv w2 i { e with ini := [], fin := [] }) i = [] := by
      rw [ptrsOf_setEv_same]; rfl
    constructor
    · intro j p hpj
      by_cases h : j = i
      · subst h; rw [hself] at hpj; cases hpj
      · rw [hev j h] at hpj
        obtain ⟨a, rfl, ha⟩ := hi.live j p hpj
        refine ⟨a, rfl, ?_⟩
        show (w2.mem a).isSome
        rw [hm, if_neg (hi.excl j i h _ hpj)]; exact ha
    · intro j
      by_cases h : j = i
      · subst h; rw [hself]; exact List.nodup_nil
      · rw [hev j h]; exact hi.nodup j
    · intro j k hjk p hpj hpk
      by_cases h : j = i
      · subst h; rw [hself] at hpj; cases hpj
      · by_cases h' : k = i
        · subst h'; rw [hself] at hpk; cases hpk
        · rw [hev j h] at hpj; rw [hev k h'] at hpk
          exact hi.excl j k hjk p hpj hpk
    · intro a ha
      change (w2.mem a).isSome at ha
      rw [hm] at ha
      by_cases hin : some a ∈ ptrsOf w i
      · simp [hin] at ha
      · rw [if_neg hin] at ha
        obtain ⟨j, hj⟩ := hi.noLeak a ha
        have : j ≠ i := by rintro rfl; exact hin hj
        exact ⟨j, by rw [hev j this]; exact hj⟩
    · intro a ha
      change (w2.mem a).isSome at ha
      show a < w2.next
      rw [hm] at ha
      by_cases hin : some a ∈ ptrsOf w i
      · simp [hin] at ha
      · rw [if_neg hin] at ha
        rw [b3, a3]; exact hi.fresh a ha
  · simp [setEv, b2, a2]
  · intro a ha
    show w2.mem a = w.mem a
    rw [hm, if_neg ha]

/-- What a pointer points to. -/
def look (w : World K) (p : Option Nat) : Option (Particle K) := p.bind w.mem

theorem copyAll_spec (w : World K) (hw : ∀ a, (w.mem a).isSome → a < w.next)
    (l : List (Option Nat)) (hl : ∀ p ∈ l, ∃ a, p = some a ∧ (w.mem a).isSome) :
    ∃ w' as, copyAll w l = .ok (w', as) ∧ Fresh w w' as ∧ as.map (look w') = l.map (look w) := by
  induction l generalizing w with
  | nil => exact ⟨w, [], rfl, Fresh.refl hw, rfl⟩
  | cons p l ih =>
    obtain ⟨a, rfl, ha⟩ := hl p (by simp)
    obtain ⟨v, hv⟩ := Option.isSome_iff_exists.1 ha
    have h0 := Fresh.alloc hw v
    have hkeep : ∀ q ∈ l, ∃ b, q = some b ∧ b < w.next ∧ (w.mem b).isSome := by
      intro q hq
      obtain ⟨b, rfl, hb⟩ := hl q (by simp [hq])
      exact ⟨b, rfl, hw b hb, hb⟩
    obtain ⟨w2, as, h1, h2, h3⟩ := ih (alloc w v).1 h0.below (by
      intro q hq
      obtain ⟨b, rfl, hb1, hb2⟩ := hkeep q hq
      exact ⟨b, rfl, by rw [h0.old b hb1]; exact hb2⟩)
    refine ⟨w2, some (alloc w v).2 :: as, ?_, h0.trans h2, ?_⟩
    · simp only [copyAll, deref, hv, h1]
    · rw [List.map_cons, List.map_cons, h3]
      congr 1
      · show w2.mem w.next = w.mem a
        rw [h2.old w.next (Nat.lt_succ_self _), hv]
        simp [alloc, upd]
      · apply List.map_congr_left
        intro q hq
        obtain ⟨b, rfl, hb1, hb2⟩ := hkeep q hq
        exact h0.old b hb1

theorem newAll_spec (w : World K) (hw : ∀ a, (w.mem a).isSome → a < w.next)
    (l : List (Particle K)) :
    Fresh w (newAll w l).1 (newAll w l).2 ∧
      (newAll w l).2.map (look (newAll w l).1) = l.map some := by
  induction l generalizing w with
  | nil => exact ⟨Fresh.refl hw, rfl⟩
  | cons v l ih =>
    have h0 := Fresh.alloc hw v
    obtain ⟨h2, h3⟩ := ih (alloc w v).1 h0.below
    refine ⟨h0.trans h2, ?_⟩
    simp only [newAll, List.map_cons]
    rw [h3]
    congr 1
    show (newAll (alloc w v).1 l).1.mem w.next = _
    rw [h2.old w.next (Nat.lt_succ_self _)]
    simp [alloc, upd]

/-- Moving all pointers from one event to another one that has none. -/
theorem Inv.transfer {w : World K} (hi : Inv w) {dst src : Nat} (hne : dst ≠ src)
    {o d : EvObj K} (hd : ptrsOf w dst = []) (ho : o.ptrs = []) (hp : d.ptrs = ptrsOf w src) :
    Inv (setEv (setEv w src o) dst d) := by
  have e1 : ptrsOf (setEv (setEv w src o) dst d) dst = ptrsOf w src := by
    rw [ptrsOf_setEv_same, hp]
  have e2 : ptrsOf (setEv (setEv w src o) dst d) src = [] := by
    rw [ptrsOf_setEv_ne _ _ (Ne.symm hne), ptrsOf_setEv_same, ho]
  have e3 : ∀ j, j ≠ dst → j ≠ src → ptrsOf (setEv (setEv w src o) dst d) j = ptrsOf w j := by
    intro j h1 h2
    rw [ptrsOf_setEv_ne _ _ h1, ptrsOf_setEv_ne _ _ h2]
  -- every event's new pointers are the old pointers of the event it is renamed to
  let ren : Nat → Nat := fun j => if j = dst then src else if j = src then dst else j
  have inj : ∀ j k, j ≠ k → ren j ≠ ren k := by
    intro j k h; simp only [ren]; split_ifs <;> omega
  have e : ∀ j, ptrsOf (setEv (setEv w src o) dst d) j = ptrsOf w (ren j) := by
    intro j
    simp only [ren]
    split_ifs with h1 h2
    · rw [h1, e1]
    · rw [h2, e2, hd]
    · exact e3 j h1 h2
  constructor
  · intro j p h; rw [e] at h; exact hi.live _ p h
  · intro j; rw [e]; exact hi.nodup _
  · intro j k h p h1; rw [e] at h1 ⊢; exact hi.excl _ _ (inj j k h) p h1
  · intro a ha
    obtain ⟨j, hj⟩ := hi.noLeak a ha
    refine ⟨ren j, ?_⟩
    rw [e]
    have : ren (ren j) = j := by simp only [ren]; split_ifs <;> omega
    rw [this]; exact hj
  · exact hi.fresh

/-- Ending the life of an event without pointers. -/
theorem Inv.remove {w : World K} (hi : Inv w) {i : Nat} (hd : ptrsOf w i = []) :
    Inv { w with ev := upd w.ev i none } := by
  have e : ∀ j, ptrsOf { w with ev := upd w.ev i none } j = ptrsOf w j := by
    intro j
    by_cases h : j = i
    · subst h; rw [hd]; simp [ptrsOf, upd]
    · simp [ptrsOf, upd, h]
  constructor
  · intro j p h; rw [e] at h; exact hi.live _ p h
  · intro j; rw [e]; exact hi.nodup _
  · intro j k h p h1; rw [e] at h1 ⊢; exact hi.excl _ _ h p h1
  · intro a ha
    obtain ⟨j, hj⟩ := hi.noLeak a ha
    exact ⟨j, by rw [e]; exact hj⟩
  · exact hi.fresh

/-- Overwriting a live particle. -/
theorem Inv.overwrite {w : World K} (hi : Inv w) {a : Nat} (ha : (w.mem a).isSome)
    (p : Particle K) : Inv { w with mem := upd w.mem a (some p) } := by
  have e : ∀ b, ((upd w.mem a (some p)) b).isSome = (w.mem b).isSome := by
    intro b
    by_cases h : b = a
    · subst h; simp [upd, ha]
    · rw [upd_ne _ _ h]
  constructor
  · intro j q h
    obtain ⟨b, rfl, hb⟩ := hi.live j q h
    exact ⟨b, rfl, by rw [e]; exact hb⟩
  · exact hi.nodup
  · exact hi.excl
  · intro b hb; rw [e] at hb; exact hi.noLeak b hb
  · intro b hb; rw [e] at hb; exact hi.fresh b hb

end Marley.EventHeap

/-! ### Contents -/

namespace Marley.EventHeap
variable {K : Type}

/-- The event object `e` holds the contents `ev`. -/
def RepE (w : World K) (e : EvObj K) (ev : Event K) : Prop :=
  e.ini.map (look w) = ev.initial.map some ∧ e.fin.map (look w) = ev.final.map some ∧
    e.Ex = ev.Ex ∧ e.twoJ = ev.twoJ ∧ e.parity = ev.parity

/-- The live event objects and their contents are those of `s`. -/
def Rep (w : World K) (s : Nat → Option (Event K)) : Prop :=
  ∀ i, (w.ev i = none ∧ s i = none) ∨ ∃ e ev, w.ev i = some e ∧ s i = some ev ∧ RepE w e ev

theorem RepE.congr {w w' : World K} {e : EvObj K} {ev : Event K} (h : RepE w e ev)
    (hm : ∀ p ∈ e.ptrs, look w' p = look w p) : RepE w' e ev := by
  obtain ⟨h1, h2, h3⟩ := h
  refine ⟨?_, ?_, h3⟩
  · rw [← h1]; exact List.map_congr_left (fun p hp => hm p (by simp [EvObj.ptrs, hp]))
  · rw [← h2]; exact List.map_congr_left (fun p hp => hm p (by simp [EvObj.ptrs, hp]))

theorem Rep.get {w : World K} {s : Nat → Option (Event K)} (h : Rep w s) {i : Nat} {e : EvObj K}
    (he : w.ev i = some e) : ∃ ev, s i = some ev ∧ RepE w e ev := by
  rcases h i with ⟨h1, _⟩ | ⟨e', ev, h1, h2, h3⟩
  · rw [h1] at he; cases he
  · rw [h1] at he; cases he; exact ⟨ev, h2, h3⟩

theorem Rep.setEv {w : World K} {s : Nat → Option (Event K)} (h : Rep w s) (i : Nat) {e : EvObj K}
    {ev : Event K} (he : RepE w e ev) : Rep (setEv w i e) (upd s i (some ev)) := by
  intro j
  by_cases hj : j = i
  · subst hj; right; exact ⟨e, ev, by simp [EventHeap.setEv, upd], by simp [upd], he⟩
  · have e1 : (EventHeap.setEv w i e).ev j = w.ev j := by simp [EventHeap.setEv, upd, hj]
    rw [e1, upd_ne _ _ hj]
    exact h j

theorem Rep.mem {w w' : World K} {s : Nat → Option (Event K)} (h : Rep w s) (hev : w'.ev = w.ev)
    (hm : ∀ j, ∀ p ∈ ptrsOf w j, look w' p = look w p) : Rep w' s := by
  intro j
  rw [hev]
  rcases h j with h | ⟨e, ev, h1, h2, h3⟩
  · exact .inl h
  · right
    refine ⟨e, ev, h1, h2, h3.congr (fun p hp => hm j p ?_)⟩
    simpa [ptrsOf, h1] using hp

theorem Fresh.look {w w' : World K} {as} (hf : Fresh w w' as) (hi : Inv w) {j : Nat}
    {p : Option Nat} (hp : p ∈ EventHeap.ptrsOf w j) : look w' p = look w p := by
  obtain ⟨a, rfl, ha⟩ := hi.live j p hp
  exact hf.old a (hi.fresh a ha)

theorem Rep.fresh {w w' : World K} {as} {s : Nat → Option (Event K)} (h : Rep w s) (hi : Inv w)
    (hf : Fresh w w' as) : Rep w' s :=
  h.mem hf.ev (fun _ _ hp => hf.look hi hp)

theorem Rep.delete {w w' : World K} {s : Nat → Option (Event K)} (h : Rep w s) (hi : Inv w)
    {i : Nat} {e : EvObj K} {ev : Event K} (he : w.ev i = some e) (hs : s i = some ev)
    (h1 : w'.ev = upd w.ev i (some { e with ini := [], fin := [] }))
    (h2 : ∀ a, some a ∉ ptrsOf w i → w'.mem a = w.mem a) :
    Rep w' (upd s i (some { ev with initial := [], final := [] })) := by
  obtain ⟨ev', hs', hr⟩ := h.get he
  rw [hs] at hs'; cases hs'
  intro j
  by_cases hj : j = i
  · subst hj; right
    rw [h1, upd_same]
    exact ⟨_, _, rfl, upd_same _ _ _, rfl, rfl, hr.2.2⟩
  · rw [h1, upd_ne _ _ hj, upd_ne _ _ hj]
    rcases h j with h | ⟨e', ev', g1, g2, g3⟩
    · exact .inl h
    · right
      refine ⟨e', ev', g1, g2, g3.congr (fun p hp => ?_)⟩
      have hp' : p ∈ ptrsOf w j := by simpa [ptrsOf, g1] using hp
      obtain ⟨a, rfl, ha⟩ := hi.live j p hp'
      exact h2 a (hi.excl j i hj _ hp')

theorem Rep.remove {w : World K} {s : Nat → Option (Event K)} (h : Rep w s) (i : Nat) :
    Rep { w with ev := upd w.ev i none } (upd s i none) := by
  intro j
  by_cases hj : j = i
  · subst hj; left; simp [upd]
  · have e1 : ({ w with ev := upd w.ev i none } : World K).ev j = w.ev j := by simp [upd, hj]
    rw [e1, upd_ne _ _ hj]
    exact h j

end Marley.EventHeap
