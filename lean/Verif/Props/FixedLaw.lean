import Verif.Lemmas.MixtureLaw
import Verif.Props.ReactionLaw

/-!
# C131: the law of events for a projectile with fixed energy
-/

set_option autoImplicit false

namespace Marley.Props
open Marley Marley.Sampling Marley.Gen MeasureTheory
open Marley.Rot (V3 Rotator)

/-! ### Specification -/

/-- The reactions of a projectile with an atom. -/
def matching {G : Type} (g : Gen G) (pdg atom : Int) : List (Rx G) :=
  g.reactions.filter fun r => r.atom = atom ∧ r.pdgA = pdg

/-- The generator with a single reaction. -/
def only {G : Type} (g : Gen G) (r : Rx G) : Gen G := { g with reactions := [r] }

/-! ### Lemmas -/

theorem sum_filter_zero {α M : Type} [AddCommMonoid M] (xs : List α) (F : α → M) (q : α → Bool)
    (h : ∀ x ∈ xs, q x = false → F x = 0) : (xs.map F).sum = ((xs.filter q).map F).sum := by
  induction xs with
  | nil => rfl
  | cons x t ih =>
    have ih := ih fun y hy => h y (List.mem_cons_of_mem _ hy)
    rw [List.map_cons, List.sum_cons, ih, List.filter_cons]
    cases hq : q x with
    | true => simp
    | false => simp [h x (by simp) hq]

open Classical in
theorem openReactions_list {G : Type} (pdg : Int) (KE : ℝ) (atom : Int) {s : Rx G → ℝ} :
    ∀ (rs : List (Rx G)) (j : Nat),
      (∀ r ∈ rs, r.atom = atom → r.pdgA = pdg → r.totalXs pdg KE = .ok (s r)) →
      ∃ is : List Nat, openReactions pdg KE atom j rs =
          .ok ((((rs.filter fun r => r.atom = atom ∧ r.pdgA = pdg).filter fun r => 0 < s r).map s).sum,
            is, ((rs.filter fun r => r.atom = atom ∧ r.pdgA = pdg).filter fun r => 0 < s r).map s) ∧
        is.length =
          ((rs.filter fun r => r.atom = atom ∧ r.pdgA = pdg).filter fun r => 0 < s r).length ∧
        ∀ k i : Nat, is[k]? = some i → j ≤ i ∧ rs[i - j]? =
          ((rs.filter fun r => r.atom = atom ∧ r.pdgA = pdg).filter fun r => 0 < s r)[k]? := by
  intro rs
  induction rs with
  | nil => intro j _; exact ⟨[], rfl, rfl, by simp⟩
  | cons r rs ih =>
    intro j h
    obtain ⟨is, h1, h2, h3⟩ := ih (j + 1) fun r' hr' => h r' (List.mem_cons_of_mem _ hr')
    have shift : ∀ k i : Nat, is[k]? = some i → j ≤ i ∧ (r :: rs)[i - j]? =
        ((rs.filter fun r => r.atom = atom ∧ r.pdgA = pdg).filter fun r => 0 < s r)[k]? := by
      intro k i hk
      obtain ⟨k1, k2⟩ := h3 k i hk
      refine ⟨by omega, ?_⟩
      rw [show i - j = (i - (j + 1)) + 1 by omega, List.getElem?_cons_succ]
      exact k2
    rw [openReactions]
    by_cases ha : r.atom = atom
    · rw [if_neg (by simp [ha])]
      by_cases hp : r.pdgA = pdg
      · rw [if_neg (by simp [hp]), h r (by simp) ha hp, h1]
        dsimp only
        rw [List.filter_cons_of_pos (by simp [ha, hp])]
        by_cases hx : 0 < s r
        · rw [if_pos hx, List.filter_cons_of_pos (by simpa using hx)]
          refine ⟨j :: is, by simp, by simp [h2], ?_⟩
          intro k i hk
          cases k with
          | zero =>
            simp only [List.getElem?_cons_zero, Option.some.injEq] at hk
            subst hk
            simp
          | succ k =>
            rw [List.getElem?_cons_succ] at hk ⊢
            exact shift k i hk
        · rw [if_neg hx, List.filter_cons_of_neg (by simpa using hx)]
          exact ⟨is, rfl, h2, shift⟩
      · rw [if_pos (fun hc => hp hc.symm), List.filter_cons_of_neg (by simp [hp])]
        exact ⟨is, h1, h2, shift⟩
    · rw [if_pos (fun hc => ha hc.symm), List.filter_cons_of_neg (by simp [ha])]
      exact ⟨is, h1, h2, shift⟩

section
variable {W : World (List ℝ)} {g : Gen (List ℝ)} {pdg atom : Int} {KE : ℝ} {s : Rx (List ℝ) → ℝ}

open Classical in
/-- The choice is a choice among the open reactions. -/
theorem chooses_open (hE : W.engine = replay)
    (hs : ∀ r ∈ matching g pdg atom, r.totalXs pdg KE = .ok (s r))
    (hpos : 0 < (((matching g pdg atom).filter fun r => 0 < s r).map s).sum)
    (us : List ℝ) (r : Rx (List ℝ)) (eng : List ℝ) :
    ({ g with eng := us } : Gen (List ℝ)).choose W pdg KE atom = .ok (r, eng) ↔
      ∃ i, pickFrom replay (((matching g pdg atom).filter fun r => 0 < s r).map s) us = .ok (i, eng) ∧
        ((matching g pdg atom).filter fun r => 0 < s r)[i]? = some r := by
  obtain ⟨is, h1, h2, h3⟩ := openReactions_list pdg KE atom (s := s) g.reactions 0
    fun r hr ha hp => hs r (by
      unfold matching
      exact List.mem_filter.2 ⟨hr, by simp [ha, hp]⟩)
  have hne : ¬((((matching g pdg atom).filter fun r => 0 < s r).map s).isEmpty = true ∨
      (((matching g pdg atom).filter fun r => 0 < s r).map s).sum ≤ 0) := by
    rintro (h | h)
    · rw [List.isEmpty_iff] at h
      rw [h] at hpos
      simp at hpos
    · exact absurd hpos (not_lt.2 h)
  unfold Gen.choose
  dsimp only
  rw [show openReactions pdg KE atom 0 g.reactions
    = .ok ((((matching g pdg atom).filter fun r => 0 < s r).map s).sum, is,
      ((matching g pdg atom).filter fun r => 0 < s r).map s) from h1]
  dsimp only
  rw [if_neg hne, hE]
  cases hp : pickFrom replay (((matching g pdg atom).filter fun r => 0 < s r).map s) us with
  | error e => simp
  | ok y =>
    obtain ⟨k, eng'⟩ := y
    dsimp only
    cases hk : is[k]? with
    | none =>
      have hlen : ((matching g pdg atom).filter fun r => 0 < s r).length ≤ k := by
        rw [← show is.length = ((matching g pdg atom).filter fun r => 0 < s r).length from h2]
        exact List.getElem?_eq_none_iff.1 hk
      simp only [reduceCtorEq, Except.ok.injEq, Prod.mk.injEq, false_iff]
      rintro ⟨i, ⟨rfl, -⟩, h5⟩
      rw [List.getElem?_eq_none_iff.2 hlen] at h5
      cases h5
    | some j =>
      dsimp only
      have h4 : g.reactions[j]? = ((matching g pdg atom).filter fun r => 0 < s r)[k]? :=
        (h3 k j hk).2
      rw [h4]
      cases hr : ((matching g pdg atom).filter fun r => 0 < s r)[k]? with
      | none =>
        simp only [reduceCtorEq, Except.ok.injEq, Prod.mk.injEq, false_iff]
        rintro ⟨i, ⟨rfl, -⟩, h5⟩
        rw [hr] at h5
        cases h5
      | some r' =>
        simp only [Except.ok.injEq, Prod.mk.injEq]
        constructor
        · rintro ⟨rfl, rfl⟩
          exact ⟨k, ⟨rfl, rfl⟩, hr⟩
        · rintro ⟨i, ⟨rfl, rfl⟩, h5⟩
          rw [hr] at h5
          exact ⟨Option.some.inj h5, rfl⟩

open Classical in
theorem open_sum (h0 : ∀ r ∈ matching g pdg atom, 0 ≤ s r) :
    ((matching g pdg atom).map s).sum
      = (((matching g pdg atom).filter fun r => 0 < s r).map s).sum :=
  sum_filter_zero _ _ _ fun r hr hq =>
    le_antisymm (not_lt.1 (by simpa using hq)) (h0 r hr)

/-- **C131**, reactions: for a projectile with fixed energy and an atom, the reactions of the two
are chosen in proportion to their cross sections. -/
theorem C131_reaction (hE : W.engine = replay)
    (hs : ∀ r ∈ matching g pdg atom, r.totalXs pdg KE = .ok (s r))
    (h0 : ∀ r ∈ matching g pdg atom, 0 ≤ s r) (hpos : 0 < ((matching g pdg atom).map s).sum)
    (p : Rx (List ℝ) → Bool) (rest : List ℝ) :
    unit {u | ∃ r eng, ({ g with eng := u :: rest } : Gen (List ℝ)).choose W pdg KE atom
        = .ok (r, eng) ∧ p r = true}
      = ENNReal.ofReal ((((matching g pdg atom).filter p).map s).sum
          / ((matching g pdg atom).map s).sum) := by
  classical
  have hsum := open_sum h0
  rw [hsum] at hpos
  have hnum : (((matching g pdg atom).filter p).map s).sum
      = ((((matching g pdg atom).filter fun r => 0 < s r).filter p).map s).sum := by
    rw [sum_filter_zero ((matching g pdg atom).filter p) s (fun r => decide (0 < s r))
      (fun r hr hq => le_antisymm (not_lt.1 (by simpa using hq)) (h0 r (List.mem_of_mem_filter hr))),
      List.filter_filter, List.filter_filter]
    congr 2
    exact List.filter_congr fun r _ => Bool.and_comm _ _
  rw [hsum, hnum, ← pickFrom_where _ (fun r hr => (by simpa using (List.mem_filter.1 hr).2 : 0 < s r).le)
    hpos p rest]
  congr 1
  ext u
  simp only [Set.mem_ofPred_eq, chooses_open hE hs hpos]
  constructor
  · rintro ⟨r, eng, ⟨i, h1, h2⟩, h3⟩
    exact ⟨i, r, eng, h1, h2, h3⟩
  · rintro ⟨i, r, eng, h1, h2, h3⟩
    exact ⟨r, eng, ⟨i, h1, h2⟩, h3⟩

theorem only_choose {r : Rx (List ℝ)} (ha : r.atom = atom) (hp : r.pdgA = pdg)
    (hx : r.totalXs pdg KE = .ok (s r)) (h : 0 < s r) (us : List ℝ) :
    ({ only g r with eng := us } : Gen (List ℝ)).choose W pdg KE atom = .ok (r, us) := by
  unfold Gen.choose only
  dsimp only
  rw [openReactions, if_neg (by simp [ha]), if_neg (by simp [hp]), hx, openReactions]
  dsimp only
  rw [if_pos h]
  simp [pickFrom, not_le.2 h]

/-- **C131**, events: if at least two reactions of the projectile with the atom have a positive
cross section, the law of the event is the mixture of the laws of the events of generators
with only one of the reactions, with the cross sections as weights; the numbers after the
first one can have any distribution. -/
theorem C131_event (hE : W.engine = replay)
    (hs : ∀ r ∈ matching g pdg atom, r.totalXs pdg KE = .ok (s r))
    (h0 : ∀ r ∈ matching g pdg atom, 0 ≤ s r) {i j : Nat} {r1 r2 : Rx (List ℝ)} (hij : i ≠ j)
    (hi : (matching g pdg atom)[i]? = some r1) (hj : (matching g pdg atom)[j]? = some r2)
    (hr1 : 0 < s r1) (hr2 : 0 < s r2) {Ω : Type} [MeasurableSpace Ω] (μ : Measure Ω) [SFinite μ]
    (f : Ω → List ℝ) (rot : Rotator) (dir : V3) (S : Set (Event ℝ)) :
    (unit.prod μ) {p | ∃ ev rot' eng, ({ g with eng := p.1 :: f p.2 } : Gen (List ℝ)).createFixed W
        rot pdg KE atom dir = some (.ok (ev, rot', eng)) ∧ ev ∈ S}
      = ((matching g pdg atom).map fun r =>
          ENNReal.ofReal (s r / ((matching g pdg atom).map s).sum) *
          μ {d | ∃ ev rot' eng, ({ only g r with eng := f d } : Gen (List ℝ)).createFixed W
            rot pdg KE atom dir = some (.ok (ev, rot', eng)) ∧ ev ∈ S}).sum := by
  classical
  set L := (matching g pdg atom).filter fun r => 0 < s r with hL
  have hsum : ((matching g pdg atom).map s).sum = (L.map s).sum := open_sum h0
  have hLpos : ∀ r ∈ L, 0 < s r := fun r hr => by simpa using (List.mem_filter.1 hr).2
  have h2 : 2 ≤ L.length := by
    rw [hL, ← List.countP_eq_length_filter]
    obtain ⟨hi1, hi2⟩ := List.getElem?_eq_some_iff.1 hi
    obtain ⟨hj1, hj2⟩ := List.getElem?_eq_some_iff.1 hj
    have key : ∀ (xs : List (Rx (List ℝ))) (i j : Nat) (hi : i < xs.length) (hj : j < xs.length),
        i < j → 0 < s xs[i] → 0 < s xs[j] → 2 ≤ xs.countP fun r => decide (0 < s r) := by
      intro xs i j hi hj hlt p1 p2
      have hsplit : xs = xs.take j ++ xs.drop j := (List.take_append_drop j xs).symm
      rw [hsplit, List.countP_append]
      have c1 : 0 < (xs.take j).countP fun r => decide (0 < s r) :=
        List.countP_pos_iff.2 ⟨xs[i], by
          rw [List.mem_take_iff_getElem]
          exact ⟨i, by omega, rfl⟩, by simpa using p1⟩
      have c2 : 0 < (xs.drop j).countP fun r => decide (0 < s r) :=
        List.countP_pos_iff.2 ⟨xs[j], by
          rw [List.mem_drop_iff_getElem]
          exact ⟨0, by omega, by simp⟩, by simpa using p2⟩
      omega
    rcases Nat.lt_or_gt_of_ne hij with h | h
    · exact key _ i j hi1 hj1 h (by rw [hi2]; exact hr1) (by rw [hj2]; exact hr2)
    · exact key _ j i hj1 hi1 h (by rw [hj2]; exact hr2) (by rw [hi2]; exact hr1)
  have hpos : 0 < (L.map s).sum := by
    refine List.sum_pos _ (fun x hx => ?_) ?_
    · obtain ⟨r, hr, rfl⟩ := List.mem_map.1 hx
      exact hLpos r hr
    · intro hc
      rw [List.map_eq_nil_iff] at hc
      rw [hc] at h2
      simp at h2
  -- what is done with the reaction and the numbers that are left
  let Q : Rx (List ℝ) → List ℝ → Prop := fun r us => ∃ ev rot' eng,
    ({ only g r with eng := us } : Gen (List ℝ)).createFixed W rot pdg KE atom dir
      = some (.ok (ev, rot', eng)) ∧ ev ∈ S
  have hmix := choice_mixture L (fun r hr => (hLpos r hr).le) hpos h2 μ f Q
  have hset : {p : ℝ × Ω | ∃ ev rot' eng, ({ g with eng := p.1 :: f p.2 } : Gen (List ℝ)).createFixed W
        rot pdg KE atom dir = some (.ok (ev, rot', eng)) ∧ ev ∈ S}
      = {p | ∃ i x us, pickFrom replay (L.map s) (p.1 :: f p.2) = .ok (i, us) ∧
        L[i]? = some x ∧ Q x us} := by
    have hmem : ∀ (i : Nat) (r : Rx (List ℝ)), L[i]? = some r →
        r.atom = atom ∧ r.pdgA = pdg ∧ r.totalXs pdg KE = .ok (s r) ∧ 0 < s r := by
      intro i r hr
      have hm : r ∈ L := List.mem_of_getElem? hr
      have hm' : r ∈ matching g pdg atom := (List.mem_filter.1 hm).1
      have := (List.mem_filter.1 hm').2
      simp only [decide_eq_true_eq] at this
      exact ⟨this.1, this.2, hs r hm', hLpos r hm⟩
    have same : ∀ (us vs : List ℝ) (r : Rx (List ℝ)),
        ({ g with eng := us } : Gen (List ℝ)).choose W pdg KE atom = .ok (r, vs) →
        r.atom = atom → r.pdgA = pdg → r.totalXs pdg KE = .ok (s r) → 0 < s r →
        ({ g with eng := us } : Gen (List ℝ)).createFixed W rot pdg KE atom dir
          = ({ only g r with eng := vs } : Gen (List ℝ)).createFixed W rot pdg KE atom dir := by
      intro us vs r hc ha hp hx h
      unfold Gen.createFixed
      rw [hc, only_choose ha hp hx h]
      rfl
    ext p
    constructor
    · rintro ⟨ev, rot', eng, h1, h3⟩
      cases hc : ({ g with eng := p.1 :: f p.2 } : Gen (List ℝ)).choose W pdg KE atom with
      | error e =>
        unfold Gen.createFixed at h1
        rw [hc] at h1
        cases h1
      | ok y =>
        obtain ⟨r, us⟩ := y
        obtain ⟨i, h4, h5⟩ := (chooses_open hE hs hpos _ _ _).1 hc
        obtain ⟨ha, hp, hx, hr⟩ := hmem i r h5
        refine ⟨i, r, us, h4, h5, ev, rot', eng, ?_, h3⟩
        rw [← same _ _ _ hc ha hp hx hr]
        exact h1
    · rintro ⟨i, r, us, h4, h5, ev, rot', eng, h1, h3⟩
      obtain ⟨ha, hp, hx, hr⟩ := hmem i r h5
      refine ⟨ev, rot', eng, ?_, h3⟩
      rw [same _ _ _ ((chooses_open hE hs hpos _ _ _).2 ⟨i, h4, h5⟩) ha hp hx hr]
      exact h1
  rw [hset, hmix, hsum]
  refine (sum_filter_zero (matching g pdg atom) _ (fun r => decide (0 < s r)) fun r hr hq => ?_).symm
  have : s r = 0 := le_antisymm (not_lt.1 (by simpa using hq)) (h0 r hr)
  rw [this]
  simp

/-- **C131**, one reaction: if only one reaction of the projectile with the atom has a positive
cross section, the event is the one of the generator with this reaction alone. -/
theorem C131_single (hE : W.engine = replay)
    (hs : ∀ r ∈ matching g pdg atom, r.totalXs pdg KE = .ok (s r)) {xs ys : List (Rx (List ℝ))}
    {r : Rx (List ℝ)} (hm : matching g pdg atom = xs ++ r :: ys) (hr : 0 < s r)
    (h0 : ∀ x ∈ xs ++ ys, s x ≤ 0) (us : List ℝ) (rot : Rotator) (dir : V3) :
    ({ g with eng := us } : Gen (List ℝ)).createFixed W rot pdg KE atom dir
      = ({ only g r with eng := us } : Gen (List ℝ)).createFixed W rot pdg KE atom dir := by
  classical
  have hL : (matching g pdg atom).filter (fun r => 0 < s r) = [r] := by
    have hnil : ∀ l : List (Rx (List ℝ)), (∀ x ∈ l, s x ≤ 0) →
        l.filter (fun r => decide (0 < s r)) = [] := fun l h => by
      rw [List.filter_eq_nil_iff]
      intro x hx
      simpa using h x hx
    rw [hm, List.filter_append, List.filter_cons_of_pos (by simpa using hr),
      hnil xs fun x hx => h0 x (List.mem_append_left _ hx),
      hnil ys fun x hx => h0 x (List.mem_append_right _ hx)]
    rfl
  have hr' : r ∈ matching g pdg atom := by rw [hm]; simp
  have hrm := (List.mem_filter.1 hr').2
  simp only [decide_eq_true_eq] at hrm
  have hc : ({ g with eng := us } : Gen (List ℝ)).choose W pdg KE atom = .ok (r, us) := by
    refine (chooses_open hE hs (by rw [hL]; simpa using hr) us r us).2 ⟨0, ?_, by rw [hL]; rfl⟩
    rw [hL]
    rfl
  unfold Gen.createFixed
  rw [hc, only_choose hrm.1 hrm.2 (hs r hr') hr]
  rfl

/-! ### An example -/

/-- A reaction with cross section `x` whose events have an excitation energy `c` times a number
drawn. -/
noncomputable def fixedRx (x c : ℝ) : Rx (List ℝ) where
  pdgA := 12
  atom := 1000180400
  totalXs _ _ := .ok x
  create _ E us := some (.ok ({ demoEvent E with Ex := c * (replay.draw us).1 }, us.tail))

/-- Two reactions with an atom, one with another. -/
noncomputable def fixedGen : Gen (List ℝ) :=
  { demoGen [] 2 2 0 with
    reactions := [fixedRx 1 1, { fixedRx 7 1 with atom := 1000060120 }, fixedRx 3 2] }

theorem fixed_create (r : Rx (List ℝ)) (h : r = fixedRx 1 1 ∨ r = fixedRx 3 2) (u : ℝ) :
    ∃ rot' eng, ({ only fixedGen r with eng := [u] } : Gen (List ℝ)).createFixed (demoWorld replay)
      (Rotator.fresh ⟨0, 0, 1⟩) 12 5 1000180400 ⟨0, 0, 1⟩
      = some (.ok ({ demoEvent 5 with Ex := (if r.totalXs 12 5 = .ok 1 then 1 else 2) * u },
          rot', eng)) := by
  have hd : ∃ q, (Rotator.fresh ⟨0, 0, 1⟩).setDirection ⟨0, 0, 1⟩ = .ok q := by
    unfold Rotator.setDirection Rot.normalize
    norm_num
  obtain ⟨q, hq⟩ := hd
  have hm : Kin.momentum (demoProjectile 5) ≤ 0 := by simp [Kin.momentum, demoProjectile]
  have hx : ∃ x c, r = fixedRx x c ∧ 0 < x ∧ c = (if r.totalXs 12 5 = .ok 1 then 1 else 2) := by
    rcases h with rfl | rfl
    · exact ⟨1, 1, rfl, by norm_num, by simp [fixedRx]⟩
    · exact ⟨3, 2, rfl, by norm_num, by norm_num [fixedRx]⟩
  obtain ⟨x, c, rfl, hx0, hc⟩ := hx
  rw [← hc]
  refine ⟨q, [], ?_⟩
  unfold Gen.createFixed
  rw [only_choose (W := demoWorld replay) (g := fixedGen) (pdg := 12) (atom := 1000180400) (KE := 5)
    (s := fun _ => x) (r := fixedRx x c) rfl rfl rfl hx0 [u]]
  simp only [fixedRx, only, fixedGen, demoGen, Bool.false_eq_true, if_false, hq, finish, direction,
    Rotator.process, demoEvent, hm, true_or, if_true]
  simp [replay]

-- three events in four come from the second reaction, and have an energy twice as large
example : (unit.prod unit) {p | ∃ ev rot' eng, ({ fixedGen with eng := [p.1, p.2] } : Gen (List ℝ)).createFixed
      (demoWorld replay) (Rotator.fresh ⟨0, 0, 1⟩) 12 5 1000180400 ⟨0, 0, 1⟩
      = some (.ok (ev, rot', eng)) ∧ ev ∈ {ev : Event ℝ | 1 ≤ ev.Ex}} = ENNReal.ofReal (3 / 8) := by
  have hm : matching fixedGen 12 1000180400 = [fixedRx 1 1, fixedRx 3 2] := by
    simp [matching, fixedGen, fixedRx]
  have h := C131_event (W := demoWorld replay) (g := fixedGen) (pdg := 12) (atom := 1000180400)
    (KE := 5) (s := fun r => match r.totalXs 12 5 with | .ok x => x | .error _ => 0) rfl
    (by rw [hm]; simp [fixedRx]) (by rw [hm]; simp [fixedRx]) (i := 0) (j := 1) (by norm_num)
    (by rw [hm]; rfl) (by rw [hm]; rfl) (by simp [fixedRx]) (by simp [fixedRx]) unit
    (fun u => [u]) (Rotator.fresh ⟨0, 0, 1⟩) ⟨0, 0, 1⟩ {ev : Event ℝ | 1 ≤ ev.Ex}
  rw [h, hm]
  have key : ∀ r, r = fixedRx 1 1 ∨ r = fixedRx 3 2 → ∀ c : ℝ,
      c = (if r.totalXs 12 5 = .ok 1 then 1 else 2) →
      {u : ℝ | ∃ ev rot' eng, ({ only fixedGen r with eng := [u] } : Gen (List ℝ)).createFixed
        (demoWorld replay) (Rotator.fresh ⟨0, 0, 1⟩) 12 5 1000180400 ⟨0, 0, 1⟩
        = some (.ok (ev, rot', eng)) ∧ ev ∈ {ev : Event ℝ | 1 ≤ ev.Ex}} = {u | 1 ≤ c * u} := by
    rintro r hr c rfl
    ext u
    obtain ⟨rot', eng, hu⟩ := fixed_create r hr u
    simp only [Set.mem_ofPred_eq, hu]
    constructor
    · rintro ⟨ev, rot'', eng', h1, h2⟩
      cases h1
      exact h2
    · intro h2
      exact ⟨_, _, _, rfl, h2⟩
  simp only [List.map_cons, List.map_nil, List.sum_cons, List.sum_nil, add_zero]
  rw [key _ (Or.inl rfl) 1 (by simp [fixedRx]), key _ (Or.inr rfl) 2 (by norm_num [fixedRx])]
  have e1 : unit {u : ℝ | 1 ≤ 1 * u} = 0 := by
    rw [unit, Measure.restrict_apply (measurableSet_le measurable_const (by fun_prop))]
    have : {u : ℝ | 1 ≤ 1 * u} ∩ Set.Ico 0 1 = ∅ :=
      Set.eq_empty_of_forall_notMem fun u hu => by
        have h1 : 1 ≤ 1 * u := hu.1
        have h2 := hu.2.2
        linarith
    rw [this, measure_empty]
  have e2 : unit {u : ℝ | 1 ≤ 2 * u} = ENNReal.ofReal (1 / 2) := by
    rw [unit, Measure.restrict_apply (measurableSet_le measurable_const (by fun_prop))]
    have : {u : ℝ | 1 ≤ 2 * u} ∩ Set.Ico 0 1 = Set.Ico (1 / 2) 1 := by
      ext u
      constructor
      · rintro ⟨h1, h2⟩
        have h1 : 1 ≤ 2 * u := h1
        exact ⟨by linarith, h2.2⟩
      · rintro ⟨h1, h2⟩
        exact ⟨show 1 ≤ 2 * u by linarith, by linarith, h2⟩
    rw [this, Real.volume_Ico]
    norm_num
  rw [e1, e2]
  simp only [fixedRx]
  rw [mul_zero, zero_add, ← ENNReal.ofReal_mul (by norm_num)]
  norm_num

-- for carbon there is one reaction
example (us : List ℝ) (rot : Rotator) (dir : V3) :
    ({ fixedGen with eng := us } : Gen (List ℝ)).createFixed (demoWorld replay) rot 12 5 1000060120 dir
      = ({ only fixedGen { fixedRx 7 1 with atom := 1000060120 } with eng := us } :
          Gen (List ℝ)).createFixed (demoWorld replay) rot 12 5 1000060120 dir := by
  have hm : matching fixedGen 12 1000060120 = [] ++ { fixedRx 7 1 with atom := 1000060120 } :: [] := by
    simp [matching, fixedGen, fixedRx]
  exact C131_single (s := fun _ => 7) rfl (by rw [hm]; simp [fixedRx]) hm (by norm_num) (by simp)
    us rot dir

end

end Marley.Props
