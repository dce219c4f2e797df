import Verif.Lemmas.EventHeap
import Verif.Props.EventAscii

/-!
# C12: ownership of particles by events

The concrete program state is a heap with event objects holding raw pointers.
The specification is that events behave as *values*: an abstract state maps the
names of the live event objects to their contents, and every operation has the
obvious effect on the contents of the events it names and on nothing else.
-/

set_option autoImplicit false

namespace Marley.Props
open Marley Marley.EventHeap

variable {K : Type}

/-! ## Specification -/

/-- Contents of the live events, by name. -/
abbrev Values (K : Type) := Nat → Option (Event K)

/-- Replace the `k`-th element, if there is one. -/
def replaceAt (l : List (Particle K)) (k : Nat) (p : Particle K) : List (Particle K) := l.set k p

/-- Effect of an operation on the contents (value semantics), with the effect of
self-assignment as in the code: the particles are lost. -/
def valueStep [Zero K] (s : Values K) : Op K → Values K
  | .construct i a b c d Ex twoJ P => upd s i (some ⟨[a, b], [c, d], Ex, twoJ, P⟩)
  | .copyCtor i src => upd s i (s src)
  | .moveCtor i src =>
    match s src with
    | none => s
    | some o => upd (upd s src (some { o with initial := [], final := [], Ex := 0 })) i (some o)
  | .copyAssign dst src =>
    if dst = src then
      match s src with
      | none => s
      | some o => upd s dst (some { o with initial := [], final := [] })
    else upd s dst (s src)
  | .moveAssign dst src =>
    match s src with
    | none => s
    | some o => upd (upd s dst (some o)) src (some ⟨[], [], 0, 0, ⟨true⟩⟩)
  | .addInitial i p =>
    match s i with
    | none => s
    | some e => upd s i (some { e with initial := e.initial ++ [p] })
  | .addFinal i p =>
    match s i with
    | none => s
    | some e => upd s i (some { e with final := e.final ++ [p] })
  | .setInitial i k p =>
    match s i with
    | none => s
    | some e => upd s i (some { e with initial := replaceAt e.initial k p })
  | .setFinal i k p =>
    match s i with
    | none => s
    | some e => upd s i (some { e with final := replaceAt e.final k p })
  | .clear i => upd s i (some ⟨[], [], 0, 0, ⟨true⟩⟩)
  | .destroy i => upd s i none

/-- What the C++ language asks of the caller: constructors get a new name, all
other operations existing objects. -/
def Legal (s : Values K) : Op K → Prop
  | .construct i .. => s i = none
  | .copyCtor i src => s i = none ∧ s src ≠ none
  | .moveCtor i src => s i = none ∧ s src ≠ none
  | .copyAssign dst src => s dst ≠ none ∧ s src ≠ none
  | .moveAssign dst src => s dst ≠ none ∧ s src ≠ none
  | .addInitial i _ => s i ≠ none
  | .addFinal i _ => s i ≠ none
  | .setInitial i _ _ => s i ≠ none
  | .setFinal i _ _ => s i ≠ none
  | .clear i => s i ≠ none
  | .destroy i => s i ≠ none

/-- One operation of a program that catches `std::out_of_range`. -/
def exec [Zero K] (w : World K) (op : Op K) : Res (World K) :=
  match step w op with
  | .error .outOfRange => .ok w
  | r => r

/-- A program. -/
def run [Zero K] (w : World K) : List (Op K) → Res (World K)
  | [] => .ok w
  | op :: ops =>
    match exec w op with
    | .error e => .error e
    | .ok w => run w ops

/-- A program respecting the rules of the language. -/
def LegalRun [Zero K] (s : Values K) : List (Op K) → Prop
  | [] => True
  | op :: ops => Legal s op ∧ LegalRun (valueStep s op) ops

/-! ## One step -/

section
variable [Zero K] {w : World K} {s : Values K}

theorem live_of {i : Nat} (h : Rep w s) (hl : s i ≠ none) :
    ∃ e ev, w.ev i = some e ∧ s i = some ev ∧ RepE w e ev := by
  rcases h i with ⟨_, h2⟩ | h
  · exact absurd h2 hl
  · exact h

theorem dead_of {i : Nat} (h : Rep w s) (hl : s i = none) : w.ev i = none := by
  rcases h i with ⟨h1, _⟩ | ⟨e, ev, _, h2, _⟩
  · exact h1
  · rw [hl] at h2; cases h2

theorem ptrsOf_live {i : Nat} {e : EvObj K} (h : w.ev i = some e) : ptrsOf w i = e.ptrs := by
  simp [ptrsOf, h]

theorem ptrsOf_dead {i : Nat} (h : w.ev i = none) : ptrsOf w i = [] := by simp [ptrsOf, h]

theorem get_live {i : Nat} {e : EvObj K} (h : w.ev i = some e) : get w i = .ok e := by
  simp [EventHeap.get, h]

/-- Copying both particle lists of an event. -/
theorem copyBoth (hi : Inv w) {src : Nat} {o : EvObj K} {ov : Event K} (ho : w.ev src = some o)
    (hr : RepE w o ov) :
    ∃ w1 ini w2 fin, copyAll w o.ini = .ok (w1, ini) ∧ copyAll w1 o.fin = .ok (w2, fin) ∧
      Fresh w w2 (ini ++ fin) ∧ ∀ d : EvObj K, d.Ex = ov.Ex → d.twoJ = ov.twoJ →
        d.parity = ov.parity → RepE w2 { d with ini := ini, fin := fin } ov := by
  have hl := hi.live src
  rw [ptrsOf_live ho] at hl
  obtain ⟨w1, ini, a1, a2, a3⟩ := copyAll_spec w hi.fresh o.ini
    (fun p hp => hl p (by simp [EvObj.ptrs, hp]))
  obtain ⟨w2, fin, b1, b2, b3⟩ := copyAll_spec w1 a2.below o.fin (by
    intro p hp
    obtain ⟨a, rfl, ha⟩ := hl p (by simp [EvObj.ptrs, hp])
    exact ⟨a, rfl, by rw [a2.old a (hi.fresh a ha)]; exact ha⟩)
  refine ⟨w1, ini, w2, fin, a1, b1, a2.trans b2, fun d d1 d2 d3 => ⟨?_, ?_, d1, d2, d3⟩⟩
  · have : ini.map (look w2) = ini.map (look w1) := by
      apply List.map_congr_left
      intro p hp
      obtain ⟨a, rfl, _, h, _⟩ := a2.rng p hp
      exact b2.old a h
    show ini.map (look w2) = _
    rw [this, a3, hr.1]
  · have : o.fin.map (look w1) = o.fin.map (look w) := by
      apply List.map_congr_left
      intro p hp
      exact a2.look hi (j := src) (by rw [ptrsOf_live ho]; simp [EvObj.ptrs, hp])
    show fin.map (look w2) = _
    rw [b3, this, hr.2.1]

/-- Overwriting one particle of event `i`. -/
theorem overwrite_rep (hi : Inv w) (hr : Rep w s) {i : Nat} {e : EvObj K} {ev : Event K}
    (he : w.ev i = some e) (a : Nat) (p : Particle K) (ev' : Event K)
    (ha : some a ∈ e.ptrs)
    (h' : RepE { w with mem := upd w.mem a (some p) } e ev') :
    Rep { w with mem := upd w.mem a (some p) } (upd s i (some ev')) := by
  intro j
  by_cases hj : j = i
  · subst hj; right; exact ⟨e, ev', he, upd_same _ _ _, h'⟩
  · rw [upd_ne _ _ hj]
    rcases hr j with h | ⟨e', ev'', g1, g2, g3⟩
    · exact .inl h
    · right
      refine ⟨e', ev'', g1, g2, g3.congr (fun q hq => ?_)⟩
      have hq' : q ∈ ptrsOf w j := by rw [ptrsOf_live g1]; exact hq
      obtain ⟨b, rfl, hb⟩ := hi.live j q hq'
      have : b ≠ a := by
        rintro rfl
        exact hi.excl j i hj _ hq' (by rw [ptrsOf_live he]; exact ha)
      simp [look, upd, this]

theorem map_look_set {l : List (Option Nat)} {vs : List (Particle K)} {a k : Nat} (p : Particle K)
    (h : l.map (look w) = vs.map some) (hk : l[k]? = some (some a)) (hn : l.Nodup)
    (hl : ∀ q ∈ l, ∃ b, q = some b) :
    l.map (look { w with mem := upd w.mem a (some p) }) = (vs.set k p).map some := by
  apply List.ext_getElem?
  intro m
  rw [List.getElem?_map, List.map_set]
  by_cases hm : m = k
  · subst hm
    have hlen : m < (vs.map some).length := by
      rw [← h, List.length_map]
      exact (List.getElem?_eq_some_iff.1 hk).1
    rw [hk, List.getElem?_set_self hlen]
    simp [look, upd]
  · rw [List.getElem?_set_ne (Ne.symm hm), ← h, List.getElem?_map]
    cases hq : l[m]? with
    | none => rfl
    | some q =>
      obtain ⟨b, rfl⟩ := hl q (List.mem_of_getElem? hq)
      have : b ≠ a := by
        rintro rfl
        obtain ⟨m1, m2⟩ := List.getElem?_eq_some_iff.1 hq
        obtain ⟨k1, k2⟩ := List.getElem?_eq_some_iff.1 hk
        exact hm ((List.Nodup.getElem_inj_iff hn).1 (m2.trans k2.symm))
      simp [look, upd, this]

theorem map_look_other {l : List (Option Nat)} {a : Nat} (p : Particle K) (ha : some a ∉ l) :
    l.map (look { w with mem := upd w.mem a (some p) }) = l.map (look w) := by
  apply List.map_congr_left
  intro q hq
  cases q with
  | none => rfl
  | some b =>
    have : b ≠ a := by rintro rfl; exact ha hq
    simp [look, upd, this]

/-- Every legal operation succeeds (possibly with `std::out_of_range`, caught),
keeps the ownership invariant and has the effect of value semantics. -/
theorem exec_spec (hi : Inv w) (hr : Rep w s) (op : Op K) (hl : Legal s op) :
    ∃ w', exec w op = .ok w' ∧ Inv w' ∧ Rep w' (valueStep s op) := by
  cases op with
  | construct i a b c d Ex twoJ P =>
    have hd := ptrsOf_dead (dead_of hr hl)
    obtain ⟨f1, v1⟩ := newAll_spec w hi.fresh [a, b]
    obtain ⟨f2, v2⟩ := newAll_spec (newAll w [a, b]).1 f1.below [c, d]
    refine ⟨_, rfl, hi.install (f1.trans f2) i _ (by rw [hd]; exact List.Perm.refl _), ?_⟩
    refine (hr.fresh hi (f1.trans f2)).setEv i ⟨?_, v2, rfl, rfl, rfl⟩
    show List.map _ (newAll w [a, b]).2 = _
    rw [← v1]
    apply List.map_congr_left
    intro p hp
    obtain ⟨x, rfl, _, h, _⟩ := f1.rng p hp
    exact f2.old x h
  | copyCtor i src =>
    obtain ⟨l1, l2⟩ := hl
    obtain ⟨o, ov, ho, hs, hro⟩ := live_of hr l2
    have hd := ptrsOf_dead (dead_of hr l1)
    obtain ⟨w1, ini, w2, fin, a1, a2, a3, a4⟩ := copyBoth hi ho hro
    refine ⟨setEv w2 i { o with ini := ini, fin := fin }, ?_, ?_, ?_⟩
    · simp only [exec, step, copyCtor, get_live ho, a1, a2]
    · exact hi.install a3 i _ (by rw [hd]; exact List.Perm.refl _)
    · simp only [valueStep, hs]
      exact (hr.fresh hi a3).setEv i (a4 o hro.2.2.1 hro.2.2.2.1 hro.2.2.2.2)
  | moveCtor i src =>
    obtain ⟨l1, l2⟩ := hl
    obtain ⟨o, ov, ho, hs, hro⟩ := live_of hr l2
    have hne : i ≠ src := by rintro rfl; exact l2 l1
    have hd := ptrsOf_dead (dead_of hr l1)
    refine ⟨setEv (setEv w src { o with ini := [], fin := [], Ex := 0 }) i o, ?_, ?_, ?_⟩
    · simp only [exec, step, moveCtor, get_live ho]
    · exact hi.transfer hne hd rfl (ptrsOf_live ho).symm
    · simp only [valueStep, hs]
      exact (hr.setEv src (e := { o with ini := [], fin := [], Ex := 0 })
        (ev := { ov with initial := [], final := [], Ex := 0 })
        ⟨rfl, rfl, rfl, hro.2.2.2⟩).setEv i hro
  | copyAssign dst src =>
    obtain ⟨l1, l2⟩ := hl
    obtain ⟨o, ov, ho, hs, hro⟩ := live_of hr l2
    obtain ⟨d, dv, hd, hsd, hrd⟩ := live_of hr l1
    set d1 : EvObj K := { d with Ex := o.Ex, twoJ := o.twoJ, parity := o.parity } with hd1
    have i1 : Inv (setEv w dst d1) := hi.scalars dst d1 (ptrsOf_live hd).symm
    have r1 : Rep (setEv w dst d1) (upd s dst (some ⟨dv.initial, dv.final, ov.Ex, ov.twoJ, ov.parity⟩)) :=
      hr.setEv dst ⟨hrd.1, hrd.2.1, hro.2.2⟩
    have e1 : (setEv w dst d1).ev dst = some d1 := by simp [setEv, upd]
    obtain ⟨w2, b1, b2, b3, b4⟩ := deleteParticles_spec i1 e1
    have r2 := r1.delete i1 e1 (upd_same _ _ _) b3 b4
    have e2 : w2.ev dst = some { d1 with ini := [], fin := [] } := by rw [b3, upd_same]
    by_cases hds : dst = src
    · subst hds
      rw [ho] at hd; cases hd
      rw [hs] at hsd; cases hsd
      refine ⟨setEv w2 dst { d1 with ini := [], fin := [] }, ?_, ?_, ?_⟩
      · simp only [exec, step, copyAssign, get_live ho, ← hd1, b1, get_live e2, copyAll]
      · exact b2.scalars dst _ (ptrsOf_live e2).symm
      · simp only [valueStep, if_true, hs]
        have := r2.setEv dst (e := { d1 with ini := [], fin := [] })
          (ev := { ov with initial := [], final := [] }) ⟨rfl, rfl, hro.2.2⟩
        convert this using 1
        funext j
        simp only [upd]
        split_ifs <;> rfl
    · have e3 : w2.ev src = some o := by
        rw [b3, upd_ne _ _ (Ne.symm hds)]
        simp [setEv, upd, Ne.symm hds, ho]
      obtain ⟨ov', g1, g2⟩ := r2.get e3
      rw [upd_ne _ _ (Ne.symm hds), upd_ne _ _ (Ne.symm hds), hs] at g1
      cases g1
      obtain ⟨w3, ini, w4, fin, a1, a2, a3, a4⟩ := copyBoth b2 e3 g2
      have e4 : w4.ev dst = some { d1 with ini := [], fin := [] } := by rw [a3.ev, e2]
      refine ⟨setEv w4 dst { d1 with ini := ini, fin := fin }, ?_, ?_, ?_⟩
      · simp only [exec, step, copyAssign, get_live ho, get_live hd, ← hd1, b1, get_live e3, a1, a2,
          get_live e4]
      · exact b2.install a3 dst _ (by rw [ptrsOf_live e2]; exact List.Perm.refl _)
      · simp only [valueStep, if_neg hds, hs]
        have := (r2.fresh b2 a3).setEv dst (a4 d1 hro.2.2.1 hro.2.2.2.1 hro.2.2.2.2)
        convert this using 1
        funext j
        simp only [upd]
        split_ifs <;> rfl
  | moveAssign dst src =>
    obtain ⟨l1, l2⟩ := hl
    obtain ⟨o, ov, ho, hs, hro⟩ := live_of hr l2
    obtain ⟨d, dv, hd, hsd, hrd⟩ := live_of hr l1
    set d1 : EvObj K := { d with Ex := o.Ex, twoJ := o.twoJ, parity := o.parity } with hd1
    have i1 : Inv (setEv w dst d1) := hi.scalars dst d1 (ptrsOf_live hd).symm
    have r1 : Rep (setEv w dst d1) (upd s dst (some ⟨dv.initial, dv.final, ov.Ex, ov.twoJ, ov.parity⟩)) :=
      hr.setEv dst ⟨hrd.1, hrd.2.1, hro.2.2⟩
    by_cases hds : dst = src
    · subst hds
      rw [ho] at hd; cases hd
      rw [hs] at hsd; cases hsd
      have e1 : (setEv w dst d1).ev dst = some d1 := by simp [setEv, upd]
      set d2 : EvObj K := { d1 with Ex := 0, twoJ := 0, parity := ⟨true⟩ } with hd2
      have i2 : Inv (setEv (setEv w dst d1) dst d2) := i1.scalars dst d2 (ptrsOf_live e1).symm
      have r2 := r1.setEv dst (e := d2) (ev := ⟨ov.initial, ov.final, 0, 0, ⟨true⟩⟩)
        ⟨hro.1, hro.2.1, rfl, rfl, rfl⟩
      have e2 : (setEv (setEv w dst d1) dst d2).ev dst = some d2 := by simp [setEv, upd]
      obtain ⟨w3, b1, b2, b3, b4⟩ := deleteParticles_spec i2 e2
      have r3 := r2.delete i2 e2 (upd_same _ _ _) b3 b4
      have e3 : w3.ev dst = some { d2 with ini := [], fin := [] } := by rw [b3, upd_same]
      have e4 : (setEv w3 dst { d2 with ini := [], fin := [] }).ev dst =
          some { d2 with ini := [], fin := [] } := by simp [setEv, upd]
      refine ⟨setEv (setEv w3 dst { d2 with ini := [], fin := [] }) dst
        { d2 with ini := [], fin := [] }, ?_, ?_, ?_⟩
      · simp only [exec, step, moveAssign, get_live ho, ← hd1, get_live e1, ← hd2, b1, get_live e3,
          get_live e4]
      · exact (b2.scalars dst _ (ptrsOf_live e3).symm).scalars dst _ (ptrsOf_live e4).symm
      · simp only [valueStep, hs]
        have := (r3.setEv dst (e := { d2 with ini := [], fin := [] })
          (ev := ⟨[], [], 0, 0, ⟨true⟩⟩) ⟨rfl, rfl, rfl, rfl, rfl⟩).setEv dst
          (e := { d2 with ini := [], fin := [] }) (ev := ⟨[], [], 0, 0, ⟨true⟩⟩)
          ⟨rfl, rfl, rfl, rfl, rfl⟩
        convert this using 1
        funext j
        simp only [upd]
        split_ifs <;> rfl
    · have hsd' : src ≠ dst := Ne.symm hds
      have e1 : (setEv w dst d1).ev src = some o := by simp [setEv, upd, hsd', ho]
      set o1 : EvObj K := { o with Ex := 0, twoJ := 0, parity := ⟨true⟩ } with ho1
      have i2 : Inv (setEv (setEv w dst d1) src o1) := i1.scalars src o1 (ptrsOf_live e1).symm
      have r2 := r1.setEv src (e := o1) (ev := ⟨ov.initial, ov.final, 0, 0, ⟨true⟩⟩)
        ⟨hro.1, hro.2.1, rfl, rfl, rfl⟩
      have e2 : (setEv (setEv w dst d1) src o1).ev dst = some d1 := by simp [setEv, upd, hds]
      obtain ⟨w3, b1, b2, b3, b4⟩ := deleteParticles_spec i2 e2
      have r3 := r2.delete i2 e2 (by rw [upd_ne _ _ hds, upd_same]) b3 b4
      have e3 : w3.ev dst = some { d1 with ini := [], fin := [] } := by rw [b3, upd_same]
      have e4 : w3.ev src = some o1 := by
        rw [b3, upd_ne _ _ hsd']; simp [setEv, upd]
      obtain ⟨ov', g1, g2⟩ := r3.get e4
      rw [upd_ne _ _ hsd', upd_same] at g1
      cases g1
      have e5 : (setEv w3 dst { d1 with ini := o1.ini, fin := o1.fin }).ev src = some o1 := by
        simp [setEv, upd, hsd', e4]
      refine ⟨setEv (setEv w3 dst { d1 with ini := o1.ini, fin := o1.fin }) src
        { o1 with ini := [], fin := [] }, ?_, ?_, ?_⟩
      · simp only [exec, step, moveAssign, get_live ho, get_live hd, ← hd1, get_live e1, ← ho1, b1,
          get_live e3, get_live e4, get_live e5]
      · have := b2.transfer (o := { o1 with ini := [], fin := [] })
          (d := { d1 with ini := o1.ini, fin := o1.fin }) hds
          (by rw [ptrsOf_live e3]; rfl) rfl (by rw [ptrsOf_live e4]; rfl)
        have comm : setEv (setEv w3 dst { d1 with ini := o1.ini, fin := o1.fin }) src
            { o1 with ini := [], fin := [] } = setEv (setEv w3 src { o1 with ini := [], fin := [] })
              dst { d1 with ini := o1.ini, fin := o1.fin } := by
          simp only [setEv, World.mk.injEq, true_and]
          funext j
          simp only [upd]
          split_ifs with h1 h2 <;> first | rfl | (exact absurd (h2.symm.trans h1) hds)
        rw [comm]; exact this
      · simp only [valueStep, hs]
        have := (r3.setEv dst (e := { d1 with ini := o1.ini, fin := o1.fin }) (ev := ov)
          ⟨g2.1, g2.2.1, hro.2.2⟩).setEv src (e := { o1 with ini := [], fin := [] })
          (ev := ⟨[], [], 0, 0, ⟨true⟩⟩) ⟨rfl, rfl, rfl, rfl, rfl⟩
        convert this using 1
        funext j
        simp only [upd]
        split_ifs <;> rfl
  | addInitial i p =>
    obtain ⟨e, ev, he, hs, hre⟩ := live_of hr hl
    have hf := Fresh.alloc hi.fresh p
    refine ⟨setEv (alloc w p).1 i { e with ini := e.ini ++ [some (alloc w p).2] }, ?_, ?_, ?_⟩
    · simp only [exec, step, addInitial, get_live he]
    · refine hi.install hf i _ ?_
      rw [ptrsOf_live he]
      simp only [EvObj.ptrs, List.append_assoc]
      exact List.Perm.append_left _ List.perm_append_comm
    · simp only [valueStep, hs]
      refine (hr.fresh hi hf).setEv i ?_
      have hre' := hre.congr (w' := (alloc w p).1)
        (fun q hq => hf.look hi (j := i) (by rw [ptrsOf_live he]; exact hq))
      refine ⟨?_, hre'.2⟩
      simp only [List.map_append, hre'.1]
      simp [look, alloc, upd]
  | addFinal i p =>
    obtain ⟨e, ev, he, hs, hre⟩ := live_of hr hl
    have hf := Fresh.alloc hi.fresh p
    refine ⟨setEv (alloc w p).1 i { e with fin := e.fin ++ [some (alloc w p).2] }, ?_, ?_, ?_⟩
    · simp only [exec, step, addFinal, get_live he]
    · refine hi.install hf i _ ?_
      rw [ptrsOf_live he]
      simp only [EvObj.ptrs, List.append_assoc]
      exact List.Perm.refl _
    · simp only [valueStep, hs]
      refine (hr.fresh hi hf).setEv i ?_
      have hre' := hre.congr (w' := (alloc w p).1)
        (fun q hq => hf.look hi (j := i) (by rw [ptrsOf_live he]; exact hq))
      refine ⟨hre'.1, ?_, hre'.2.2⟩
      simp only [List.map_append, hre'.2.1]
      simp [look, alloc, upd]
  | setInitial i k p =>
    obtain ⟨e, ev, he, hs, hre⟩ := live_of hr hl
    have hlive := hi.live i
    have hnd := hi.nodup i
    rw [ptrsOf_live he] at hlive hnd
    cases hk : e.ini[k]? with
    | none =>
      refine ⟨w, ?_, hi, ?_⟩
      · simp only [exec, step, setInitial, get_live he, hk]
      · simp only [valueStep, hs]
        have hlen : ev.initial.length ≤ k := by
          have := congrArg List.length hre.1
          simp only [List.length_map] at this
          rw [← this]; exact List.getElem?_eq_none_iff.1 hk
        rw [replaceAt, List.set_eq_of_length_le hlen]
        convert hr using 1
        funext j
        simp only [upd]
        split_ifs with h
        · rw [h, hs]
        · rfl
    | some q =>
      have hq : q ∈ e.ini := List.mem_of_getElem? hk
      obtain ⟨a, rfl, ha⟩ := hlive q (by simp [EvObj.ptrs, hq])
      obtain ⟨v, hv⟩ := Option.isSome_iff_exists.1 ha
      rw [EvObj.ptrs, List.nodup_append] at hnd
      refine ⟨{ w with mem := upd w.mem a (some p) }, ?_, hi.overwrite ha p, ?_⟩
      · simp only [exec, step, setInitial, get_live he, hk, hv]
      · simp only [valueStep, hs]
        refine overwrite_rep hi hr (ev := ev) he a p _ (by simp [EvObj.ptrs, hq]) ⟨?_, ?_, hre.2.2⟩
        · exact map_look_set p hre.1 hk hnd.1 (fun q hq => by
            obtain ⟨b, hb, _⟩ := hlive q (by simp [EvObj.ptrs, hq]); exact ⟨b, hb⟩)
        · rw [map_look_other p (fun h => hnd.2.2 _ hq _ h rfl)]; exact hre.2.1
  | setFinal i k p =>
    obtain ⟨e, ev, he, hs, hre⟩ := live_of hr hl
    have hlive := hi.live i
    have hnd := hi.nodup i
    rw [ptrsOf_live he] at hlive hnd
    cases hk : e.fin[k]? with
    | none =>
      refine ⟨w, ?_, hi, ?_⟩
      · simp only [exec, step, setFinal, get_live he, hk]
      · simp only [valueStep, hs]
        have hlen : ev.final.length ≤ k := by
          have := congrArg List.length hre.2.1
          simp only [List.length_map] at this
          rw [← this]; exact List.getElem?_eq_none_iff.1 hk
        rw [replaceAt, List.set_eq_of_length_le hlen]
        convert hr using 1
        funext j
        simp only [upd]
        split_ifs with h
        · rw [h, hs]
        · rfl
    | some q =>
      have hq : q ∈ e.fin := List.mem_of_getElem? hk
      obtain ⟨a, rfl, ha⟩ := hlive q (by simp [EvObj.ptrs, hq])
      obtain ⟨v, hv⟩ := Option.isSome_iff_exists.1 ha
      rw [EvObj.ptrs, List.nodup_append] at hnd
      refine ⟨{ w with mem := upd w.mem a (some p) }, ?_, hi.overwrite ha p, ?_⟩
      · simp only [exec, step, setFinal, get_live he, hk, hv]
      · simp only [valueStep, hs]
        refine overwrite_rep hi hr (ev := ev) he a p _ (by simp [EvObj.ptrs, hq]) ⟨?_, ?_, hre.2.2⟩
        · rw [map_look_other p (fun h => hnd.2.2 _ h _ hq rfl)]; exact hre.1
        · exact map_look_set p hre.2.1 hk hnd.2.1 (fun q hq => by
            obtain ⟨b, hb, _⟩ := hlive q (by simp [EvObj.ptrs, hq]); exact ⟨b, hb⟩)
  | clear i =>
    obtain ⟨e, ev, he, hs, hre⟩ := live_of hr hl
    obtain ⟨w2, b1, b2, b3, b4⟩ := deleteParticles_spec hi he
    have r2 := hr.delete hi he hs b3 b4
    have e2 : w2.ev i = some { e with ini := [], fin := [] } := by rw [b3, upd_same]
    refine ⟨setEv w2 i ⟨[], [], 0, 0, ⟨true⟩⟩, ?_, b2.scalars i _ (ptrsOf_live e2).symm, ?_⟩
    · simp only [exec, step, clear, b1, get_live e2]
    · have := r2.setEv i (e := ⟨[], [], 0, 0, ⟨true⟩⟩) (ev := ⟨[], [], 0, 0, ⟨true⟩⟩)
        ⟨rfl, rfl, rfl, rfl, rfl⟩
      simp only [valueStep]
      convert this using 1
      funext j
      simp only [upd]
      split_ifs <;> rfl
  | destroy i =>
    obtain ⟨e, ev, he, hs, hre⟩ := live_of hr hl
    obtain ⟨w2, b1, b2, b3, b4⟩ := deleteParticles_spec hi he
    have r2 := hr.delete hi he hs b3 b4
    have e2 : w2.ev i = some { e with ini := [], fin := [] } := by rw [b3, upd_same]
    refine ⟨{ w2 with ev := upd w2.ev i none }, ?_, b2.remove (by rw [ptrsOf_live e2]; rfl), ?_⟩
    · simp only [exec, step, destroy, b1]
    · have := r2.remove i
      simp only [valueStep]
      convert this using 1
      funext j
      simp only [upd]
      split_ifs <;> rfl

end

/-! ## C12 -/

theorem inv_empty : Inv (empty : World K) := by
  constructor <;> simp [EventHeap.empty, ptrsOf]

theorem rep_empty : Rep (empty : World K) (fun _ => none) := fun _ => .inl ⟨rfl, rfl⟩

theorem legalRun_prefix [Zero K] {s : Values K} {a b : List (Op K)} (h : LegalRun s (a ++ b)) :
    LegalRun s a := by
  induction a generalizing s with
  | nil => trivial
  | cons op a ih => exact ⟨h.1, ih h.2⟩

theorem live_of_rep {w : World K} {s : Values K} (h : Rep w s) {i : Nat} {ev : Event K}
    (hs : s i = some ev) : ∃ e ev', w.ev i = some e ∧ s i = some ev' ∧ RepE w e ev := by
  rcases h i with ⟨_, h2⟩ | ⟨e, ev', h1, h2, h3⟩
  · rw [hs] at h2; cases h2
  · rw [hs] at h2; cases h2; exact ⟨e, ev, h1, hs, h3⟩

/-- **C12**: every legal program runs without undefined behaviour (no double
free, no use after free), and at its end no particle is owned by two events or
twice by one, no event points to a freed particle, no particle is leaked, and
the contents of the live events are those of value semantics (in which every
copy is independent of its source). -/
theorem C12_ownership [Zero K] (ops : List (Op K)) (hl : LegalRun (fun _ => none) ops) :
    ∃ w, run (empty : World K) ops = .ok w ∧
      -- every pointer is valid
      (∀ i e, w.ev i = some e → ∀ p ∈ e.ini ++ e.fin, ∃ a, p = some a ∧ (w.mem a).isSome) ∧
      -- exclusive ownership
      (∀ i e, w.ev i = some e → (e.ini ++ e.fin).Nodup) ∧
      (∀ i j e e', i ≠ j → w.ev i = some e → w.ev j = some e' →
        ∀ p ∈ e.ini ++ e.fin, p ∉ e'.ini ++ e'.fin) ∧
      -- no leak
      (∀ a, (w.mem a).isSome → ∃ i e, w.ev i = some e ∧ some a ∈ e.ini ++ e.fin) ∧
      -- value semantics
      Rep w (ops.foldl valueStep (fun _ => none)) := by
  have main : ∀ (ops : List (Op K)) (w : World K) (s : Values K), Inv w → Rep w s →
      LegalRun s ops → ∃ w', run w ops = .ok w' ∧ Inv w' ∧ Rep w' (ops.foldl valueStep s) := by
    intro ops
    induction ops with
    | nil => intro w s hi hr _; exact ⟨w, rfl, hi, hr⟩
    | cons op ops ih =>
      intro w s hi hr hl
      obtain ⟨w1, e1, i1, r1⟩ := exec_spec hi hr op hl.1
      obtain ⟨w2, e2, i2, r2⟩ := ih w1 _ i1 r1 hl.2
      exact ⟨w2, by simp only [run, e1, e2], i2, r2⟩
  obtain ⟨w, h1, hi, hr⟩ := main ops empty _ inv_empty rep_empty hl
  refine ⟨w, h1, ?_, ?_, ?_, ?_, hr⟩
  · intro i e he p hp
    exact hi.live i p (by rw [ptrsOf, he]; exact hp)
  · intro i e he
    have := hi.nodup i
    rw [ptrsOf, he] at this; exact this
  · intro i j e e' hij he he' p hp hp'
    exact hi.excl i j hij p (by rw [ptrsOf, he]; exact hp) (by rw [ptrsOf, he']; exact hp')
  · intro a ha
    obtain ⟨i, hi'⟩ := hi.noLeak a ha
    cases he : w.ev i with
    | none => rw [ptrsOf, he] at hi'; cases hi'
    | some e => rw [ptrsOf, he] at hi'; exact ⟨i, e, he, hi'⟩

/-- The events an operation changes. -/
def Touches : Op K → Nat → Prop
  | .construct i .., j => j = i
  | .copyCtor i _, j => j = i
  | .moveCtor i src, j => j = i ∨ j = src
  | .copyAssign dst _, j => j = dst
  | .moveAssign dst src, j => j = dst ∨ j = src
  | .addInitial i _, j => j = i
  | .addFinal i _, j => j = i
  | .setInitial i _ _, j => j = i
  | .setFinal i _ _, j => j = i
  | .clear i, j => j = i
  | .destroy i, j => j = i

/-- Value semantics: copies are independent. -/
theorem valueStep_copy [Zero K] (s : Values K) (dst src : Nat) (hne : dst ≠ src)
    (later : List (Op K)) (hl : ∀ op ∈ later, ¬ Touches op dst) (op : Op K)
    (hop : op = .copyCtor dst src ∨ op = .copyAssign dst src) :
    (later.foldl valueStep (valueStep s op)) dst = s src := by
  have h0 : valueStep s op dst = s src := by
    rcases hop with rfl | rfl
    · simp [valueStep, upd]
    · simp [valueStep, hne, upd]
  rw [← h0]
  generalize valueStep s op = t
  clear h0 hop
  induction later generalizing t with
  | nil => rfl
  | cons op' later ih =>
    rw [List.foldl_cons, ih (fun o ho => hl o (by simp [ho]))]
    have hno := hl op' (by simp)
    cases op' with
    | moveCtor i src' =>
      have h1 : ¬ dst = i := fun h => hno (.inl h)
      have h2 : ¬ dst = src' := fun h => hno (.inr h)
      cases h : t src' <;> simp [valueStep, h, upd, h1, h2]
    | moveAssign i src' =>
      have h1 : ¬ dst = i := fun h => hno (.inl h)
      have h2 : ¬ dst = src' := fun h => hno (.inr h)
      cases h : t src' <;> simp [valueStep, h, upd, h1, h2]
    | copyAssign i src' =>
      simp only [Touches] at hno
      by_cases hi : i = src' <;> cases h : t src' <;> simp [valueStep, h, hi, upd] <;>
        intro e <;> exact absurd (by omega) hno
    | construct i _ _ _ _ _ _ _ => simp only [Touches] at hno; simp [valueStep, upd, hno]
    | copyCtor i _ => simp only [Touches] at hno; simp [valueStep, upd, hno]
    | clear i => simp only [Touches] at hno; simp [valueStep, upd, hno]
    | destroy i => simp only [Touches] at hno; simp [valueStep, upd, hno]
    | addInitial i _ => simp only [Touches] at hno; cases h : t i <;> simp [valueStep, h, upd, hno]
    | addFinal i _ => simp only [Touches] at hno; cases h : t i <;> simp [valueStep, h, upd, hno]
    | setInitial i _ _ => simp only [Touches] at hno; cases h : t i <;> simp [valueStep, h, upd, hno]
    | setFinal i _ _ => simp only [Touches] at hno; cases h : t i <;> simp [valueStep, h, upd, hno]

/-- Event object `i` exists and its particles and other data are those of `ev`. -/
def Holds (w : World K) (i : Nat) (ev : Event K) : Prop :=
  ∃ e, w.ev i = some e ∧ RepE w e ev

theorem holds_iff {w : World K} {s : Values K} (h : Rep w s) (i : Nat) (ev : Event K) :
    Holds w i ev ↔ s i = some ev := by
  constructor
  · rintro ⟨e, he, h1, h2, h3, h4, h5⟩
    obtain ⟨ev', hs, g1, g2, g3, g4, g5⟩ := h.get he
    rw [hs]
    rw [h1] at g1; rw [h2] at g2; rw [h3] at g3; rw [h4] at g4; rw [h5] at g5
    have i1 := List.map_injective_iff.2 (Option.some_injective _) g1
    have i2 := List.map_injective_iff.2 (Option.some_injective _) g2
    cases ev; cases ev'; simp_all
  · intro hs
    obtain ⟨e, ev', he, hs', hr⟩ := live_of_rep h hs
    exact ⟨e, he, hr⟩

/-- **C12**, copies: after any program, copying (by construction, or by
assignment between different events) and then doing anything that does not name
the copy as a target — changing, clearing or destroying the source included —
leaves the copy with the contents the source had at the moment of copying. -/
theorem C12_copy_is_independent [Zero K] (pre later : List (Op K)) (dst src : Nat)
    (hne : dst ≠ src) (op : Op K) (hop : op = .copyCtor dst src ∨ op = .copyAssign dst src)
    (hl : LegalRun (fun _ => none) (pre ++ op :: later)) (ht : ∀ o ∈ later, ¬ Touches o dst)
    (w0 : World K) (h0 : run empty pre = .ok w0) (ev : Event K) (hs : Holds w0 src ev) :
    ∃ w, run empty (pre ++ op :: later) = .ok w ∧ Holds w dst ev := by
  obtain ⟨w0', e0, -, -, -, -, r0⟩ := C12_ownership pre (legalRun_prefix hl)
  rw [h0] at e0; cases e0
  obtain ⟨w, e1, -, -, -, -, r1⟩ := C12_ownership _ hl
  refine ⟨w, e1, (holds_iff r1 dst ev).2 ?_⟩
  rw [List.foldl_append, List.foldl_cons, valueStep_copy _ dst src hne later ht op hop]
  exact (holds_iff r0 src ev).1 hs

/-- **C12** is false for self-assignment: after any program, assigning an event
to itself loses all its particles. -/
theorem C12_self_assignment_fails [Zero K] (pre : List (Op K)) (i : Nat)
    (hl : LegalRun (fun _ => none) (pre ++ [.copyAssign i i]))
    (w0 : World K) (h0 : run empty pre = .ok w0) (ev : Event K) (hs : Holds w0 i ev) :
    ∃ w, run empty (pre ++ [.copyAssign i i]) = .ok w ∧
      Holds w i { ev with initial := [], final := [] } := by
  obtain ⟨w0', e0, -, -, -, -, r0⟩ := C12_ownership pre (legalRun_prefix hl)
  rw [h0] at e0; cases e0
  obtain ⟨w, e1, -, -, -, -, r1⟩ := C12_ownership _ hl
  refine ⟨w, e1, (holds_iff r1 i _).2 ?_⟩
  rw [List.foldl_append]
  simp [valueStep, (holds_iff r0 i ev).1 hs, upd]

/-- A program that copies, modifies the source and destroys it. -/
def sampleProgram : List (Op ℚ) :=
  [.construct 0 ⟨12, 20, 0, 0, 20, 0, 0⟩ ⟨1000180400, 37224, 0, 0, 0, 37224, 0⟩
      ⟨11, 10, 3, 4, 7, 1/2, -1⟩ ⟨1000190400, 37230, -3, -4, 13, 37226, 1⟩ 4 2 ⟨true⟩,
    .copyCtor 1 0, .addFinal 0 ⟨22, 4, 0, 0, 4, 0, 0⟩, .setFinal 0 1 ⟨22, 4, 0, 0, 4, 0, 0⟩,
    .moveCtor 2 0, .copyAssign 0 1, .moveAssign 1 2, .copyAssign 1 1, .destroy 0]

example : LegalRun (fun _ => none) sampleProgram := by
  simp [sampleProgram, LegalRun, Legal, valueStep, upd]

/-- Beside the listed operations: a failed `Event::read` leaks the particle whose
text could not be read, and leaves null pointers in the event. -/
theorem C12_failed_read_leaks [Zero K] (w : World K) (hi : Inv w) (i n : Nat) (e : EvObj K)
    (he : w.ev i = some e) (good : List (Particle K)) (hg : good.length < n) (p : Particle K) :
    ∃ w', readFailing w i n good p = .ok w' ∧
      (∃ a, (w'.mem a).isSome ∧ ∀ j e', w'.ev j = some e' → some a ∉ e'.ini ++ e'.fin) ∧
      ∃ e', w'.ev i = some e' ∧ none ∈ e'.ini := by
  obtain ⟨hf, -⟩ := newAll_spec w hi.fresh good
  set as := (newAll w good).2 with has
  refine ⟨setEv (alloc (newAll w good).1 p).1 i
      { e with ini := as ++ List.replicate (n - good.length) none }, ?_, ?_, ?_⟩
  · simp only [readFailing, get_live he, has]
  · refine ⟨(newAll w good).1.next, by simp [setEv, alloc, upd], ?_⟩
    have old : ∀ j, ∀ q ∈ ptrsOf w j, q ≠ some (newAll w good).1.next := by
      rintro j q hq rfl
      obtain ⟨a, ha, hs⟩ := hi.live j _ hq
      cases ha
      have := hi.fresh _ hs
      have := hf.le
      omega
    intro j e' hj hmem
    by_cases h : j = i
    · subst h
      simp only [setEv, upd_same, Option.some.injEq] at hj
      subst hj
      simp only [List.mem_append, List.mem_replicate, reduceCtorEq, and_false, or_false] at hmem
      rcases hmem with hmem | hmem
      · obtain ⟨a, ha, _, hlt, _⟩ := hf.rng _ hmem
        cases ha; omega
      · exact old j _ (by rw [ptrsOf_live he]; simp only [EvObj.ptrs, List.mem_append]; exact .inr hmem) rfl
    · simp only [setEv, upd_ne _ _ h, alloc, hf.ev] at hj
      exact old j _ (by rw [ptrsOf_live hj]; exact hmem) rfl
  · refine ⟨_, upd_same _ _ _, ?_⟩
    simp only [List.mem_append, List.mem_replicate]
    right; exact ⟨by omega, trivial⟩

example : ∃ w' : World ℚ, readFailing (setEv empty 0 ⟨[], [], 0, 0, ⟨true⟩⟩) 0 2 []
    ⟨22, 4, 0, 0, 4, 0, 0⟩ = .ok w' := by
  obtain ⟨w', h, _⟩ := C12_failed_read_leaks (setEv (empty : World ℚ) 0 ⟨[], [], 0, 0, ⟨true⟩⟩)
    (inv_empty.scalars 0 _ rfl) 0 2 ⟨[], [], 0, 0, ⟨true⟩⟩ rfl [] (by decide)
    ⟨22, 4, 0, 0, 4, 0, 0⟩
  exact ⟨w', h⟩

end Marley.Props
