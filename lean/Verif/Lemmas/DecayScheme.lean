import Verif.Model.DecayScheme
import Verif.Lemmas.Std
import Verif.Lemmas.Event
import Mathlib.Algebra.Order.Ring.Defs
import Mathlib.Algebra.Order.AbsoluteValue.Basic
import Mathlib.Tactic.Linarith

/-! Helper lemmas for decay schemes. -/

set_option autoImplicit false

namespace Marley.Scheme
open Marley
open Marley.Json (Str natText intText isDigit isSpace)

variable {K : Type}

/-- Energies do not decrease along the vector. -/
def Sorted [LE K] (s : Scheme K) : Prop :=
  s.levels.Pairwise (fun a b => a.2.energy ≤ b.2.energy)

theorem lowerBound_levels [LinearOrder K] {s : Scheme K} (hs : Sorted s) (E : K) :
    ∃ a b, s.levels = a ++ b ∧ (∀ l ∈ a, l.2.energy < E) ∧ (∀ l ∈ b, E ≤ l.2.energy) ∧
      lowerBoundIndex s E = a.length := by
  obtain ⟨a, b, h1, h2, h3, h4⟩ := Std.lowerBound_split
    (fun l : Nat × Level K => decide (l.2.energy < E)) s.levels
    (hs.imp (fun h => by simpa using fun h' => lt_of_le_of_lt h h'))
  refine ⟨a, b, h1, by simpa using h2, by simpa using h3, h4⟩

theorem addLevel_eq [LinearOrder K] {s : Scheme K} (hs : Sorted s) (l : Level K) :
    ∃ a b, s.levels = a ++ b ∧ (∀ m ∈ a, m.2.energy < l.energy) ∧
      (∀ m ∈ b, l.energy ≤ m.2.energy) ∧
      addLevel s l = (⟨s.Z, s.A, a ++ (s.next, l) :: b, s.next + 1⟩, s.next) := by
  obtain ⟨a, b, h1, h2, h3, h4⟩ := lowerBound_levels hs l.energy
  refine ⟨a, b, h1, h2, h3, ?_⟩
  simp only [addLevel, h4]
  rw [h1]; simp

theorem addLevel_sorted [LinearOrder K] {s : Scheme K} (hs : Sorted s) (l : Level K) :
    Sorted (addLevel s l).1 := by
  obtain ⟨a, b, h1, h2, h3, h4⟩ := addLevel_eq hs l
  rw [h4, Sorted]
  rw [Sorted, h1, List.pairwise_append] at hs
  obtain ⟨p1, p2, p3⟩ := hs
  rw [List.pairwise_append]
  refine ⟨p1, List.pairwise_cons.2 ⟨fun m hm => h3 m hm, p2⟩, ?_⟩
  intro x hx y hy
  rcases List.mem_cons.1 hy with rfl | hy
  · exact (h2 x hx).le
  · exact p3 x hx y hy

/-- Addresses are distinct and below the next free one. -/
structure Addressed (s : Scheme K) : Prop where
  nodup : (s.levels.map (·.1)).Nodup
  below : ∀ l ∈ s.levels, l.1 < s.next

theorem addLevel_addressed [LinearOrder K] {s : Scheme K} (hs : Sorted s) (ha : Addressed s)
    (l : Level K) : Addressed (addLevel s l).1 := by
  obtain ⟨a, b, h1, h2, h3, h4⟩ := addLevel_eq hs l
  have hp : (a ++ (s.next, l) :: b).Perm ((s.next, l) :: s.levels) := by
    rw [h1]; exact List.perm_middle
  rw [h4]
  constructor
  · refine (hp.map (·.1)).nodup_iff.2 ?_
    rw [List.map_cons, List.nodup_cons]
    refine ⟨?_, ha.nodup⟩
    intro hm
    obtain ⟨x, hx, e⟩ := List.mem_map.1 hm
    exact absurd (ha.below x hx) (by rw [e]; exact lt_irrefl _)
  · intro x hx
    rcases List.mem_cons.1 (hp.mem_iff.1 hx) with rfl | h
    · exact Nat.lt_succ_self _
    · exact Nat.lt_succ_of_lt (ha.below x h)

theorem addGamma_energy {s : Scheme K} (a : Nat) (g : Gamma K) :
    (addGamma s a g).levels.map (fun l => (l.1, l.2.energy, l.2.twoJ, l.2.parity)) =
      s.levels.map (fun l => (l.1, l.2.energy, l.2.twoJ, l.2.parity)) := by
  simp only [addGamma, List.map_map]
  apply List.map_congr_left
  intro l _
  simp only [Function.comp]
  split_ifs <;> rfl

theorem addGamma_sorted [LinearOrder K] {s : Scheme K} (hs : Sorted s) (a : Nat) (g : Gamma K) :
    Sorted (addGamma s a g) := by
  rw [Sorted, addGamma, List.pairwise_map]
  refine hs.imp ?_
  intro x y h
  split_ifs <;> exact h

theorem addGamma_addressed {s : Scheme K} (hs : Addressed s) (a : Nat) (g : Gamma K) :
    Addressed (addGamma s a g) := by
  constructor
  · have : (addGamma s a g).levels.map (·.1) = s.levels.map (·.1) := by
      simp only [addGamma, List.map_map]
      apply List.map_congr_left
      intro l _
      simp only [Function.comp]; split_ifs <;> rfl
    rw [this]; exact hs.nodup
  · intro l hl
    simp only [addGamma, List.mem_map] at hl
    obtain ⟨m, hm, e⟩ := hl
    have := hs.below m hm
    rw [← e]; split_ifs <;> exact this

theorem levelAt_mem {s : Scheme K} {a : Nat} {l : Level K} (h : levelAt s a = some l) :
    (a, l) ∈ s.levels := by
  simp only [levelAt, Option.map_eq_some_iff] at h
  obtain ⟨x, h1, rfl⟩ := h
  have h2 := List.find?_some h1
  have h3 := List.mem_of_find?_eq_some h1
  simp only [decide_eq_true_eq] at h2
  rw [← h2]; exact h3

theorem levelAt_of_mem {s : Scheme K} (hs : Addressed s) {a : Nat} {l : Level K}
    (h : (a, l) ∈ s.levels) : levelAt s a = some l := by
  have hn := hs.nodup
  simp only [levelAt, Option.map_eq_some_iff]
  generalize s.levels = ls at *
  induction ls with
  | nil => cases h
  | cons x t ih =>
    simp only [List.map_cons, List.nodup_cons] at hn
    rcases List.mem_cons.1 h with rfl | h'
    · exact ⟨(a, l), by simp, rfl⟩
    · have : x.1 ≠ a := fun e => hn.1 (by rw [e]; exact List.mem_map.2 ⟨(a, l), h', rfl⟩)
      rw [List.find?_cons_of_neg (by simpa using this)]
      exact ih h' hn.2

/-! ## Round trip -/

/-- The gamma as it is after the scheme was printed and read with addresses from
`next` on. -/
def reGamma (s : Scheme K) (next : Nat) (g : Gamma K) : Gamma K :=
  { g with dest := some (next + (destIndex s g).toNat) }

/-- Likewise for a level. -/
def reLevel (s : Scheme K) (next : Nat) (l : Level K) : Level K :=
  { l with gammas := l.gammas.map (reGamma s next) }

/-- Likewise for a list of levels, the first of which gets address `k`. -/
def reLevels (s : Scheme K) (next : Nat) : Nat → List (Nat × Level K) → List (Nat × Level K)
  | _, [] => []
  | k, l :: t => (k, reLevel s next l.2) :: reLevels s next (k + 1) t

theorem reLevels_append (s : Scheme K) (next k : Nat) (a b : List (Nat × Level K)) :
    reLevels s next k (a ++ b) = reLevels s next k a ++ reLevels s next (k + a.length) b := by
  induction a generalizing k with
  | nil => simp [reLevels]
  | cons x t ih => simp [reLevels, ih, Nat.add_assoc, Nat.add_comm]

theorem reLevels_length (s : Scheme K) (next k : Nat) (a : List (Nat × Level K)) :
    (reLevels s next k a).length = a.length := by
  induction a generalizing k with
  | nil => rfl
  | cons x t ih => simp [reLevels, ih]

theorem reLevels_get (s : Scheme K) (next k i : Nat) (a : List (Nat × Level K)) :
    (reLevels s next k a)[i]? = (a[i]?).map (fun l => (k + i, reLevel s next l.2)) := by
  induction a generalizing k i with
  | nil => simp [reLevels]
  | cons x t ih =>
    cases i with
    | zero => simp [reLevels]
    | succ i => simp only [reLevels, List.getElem?_cons_succ, ih]; congr 2; funext l; congr 1; omega

theorem reLevels_mem (s : Scheme K) (next k : Nat) (a : List (Nat × Level K)) {x : Nat × Level K}
    (h : x ∈ reLevels s next k a) : k ≤ x.1 ∧ x.1 < k + a.length ∧
      ∃ l ∈ a, x.2 = reLevel s next l.2 := by
  obtain ⟨i, hi⟩ := List.mem_iff_getElem?.1 h
  rw [reLevels_get] at hi
  obtain ⟨l, h1, rfl⟩ := Option.map_eq_some_iff.1 hi
  have := (List.getElem?_eq_some_iff.1 h1).1
  exact ⟨by simp, by simpa using this, l, List.mem_of_getElem? h1, rfl⟩

/-- The `int` fields fit, and every gamma goes to a level at or below position
`i` of the vector. -/
structure LevelOk (s : Scheme K) (i : Nat) (l : Level K) : Prop where
  twoJ : intMin ≤ l.twoJ ∧ l.twoJ ≤ intMax
  count : (l.gammas.length : Int) ≤ intMax
  dest : ∀ g ∈ l.gammas, 0 ≤ destIndex s g ∧ destIndex s g ≤ i

/-- The conditions under which the text of a scheme can be read back. -/
structure Printable [LT K] (s : Scheme K) : Prop where
  Z : intMin ≤ s.Z ∧ s.Z ≤ intMax
  A : intMin ≤ s.A ∧ s.A ≤ intMax
  count : (s.levels.length : Int) ≤ intMax
  increasing : s.levels.Pairwise (fun a b => a.2.energy < b.2.energy)
  level : ∀ i l, s.levels[i]? = some l → LevelOk s i l.2

variable {f : DblFmt K}

theorem exDbl_print [Zero K] (hf : f.Lawful) (x : K) {c : Char} (hc : isSpace c = true) (t : Str)
    (old : Option K) : exDbl f (some (f.print x ++ c :: t)) old = (some (c :: t), some x) := by
  simp only [exDbl, get_print hf x hc]

theorem exDbl_space [Zero K] {c : Char} (hc : isSpace c = true) (t : Str) (old : Option K) :
    exDbl f (some (c :: t)) old = exDbl f (some t) old := by
  simp only [exDbl, get_space f hc, skipBlank_space hc]

theorem exInt_text {n : Int} (h : intMin ≤ n ∧ n ≤ intMax) {c : Char} (hc : isDigit c = false)
    (t : Str) (old : Option Int) : exInt (some (intText n ++ c :: t)) old = (some (c :: t), some n) := by
  simp only [exInt, readInt_intText h hc]

theorem exInt_space {c : Char} (hc : isSpace c = true) (t : Str) (old : Option Int) :
    exInt (some (c :: t)) old = exInt (some t) old := by
  simp only [exInt, readInt_space hc, failedInt, skipBlank_space hc]

theorem natText_intText (n : Nat) : natText n = intText (n : Int) := by simp [intText]

/-- Reading the printed gammas of the last level. -/
theorem readGammas_print [Zero K] (hf : f.Lawful) (s : Scheme K) (next a : Nat) (k : Nat)
    (gs : List (Gamma K)) (hk : (k : Int) ≤ intMax)
    (hg : ∀ g ∈ gs, 0 ≤ destIndex s g ∧ destIndex s g ≤ k) (T : Scheme K) (l : Level K)
    (P : List (Nat × Level K)) (hT : T.levels = P ++ [(a, l)]) (hP : ∀ x ∈ P, x.1 ≠ a)
    (hlen : k < T.levels.length)
    (hadr : ∀ i, i ≤ k → ∃ m, T.levels[i]? = some (next + i, m)) (v : ReadVars K) (t : Str)
    (hv : v.inp = some ('\n' :: (gs.flatMap (printGamma f s) ++ t))) :
    ∃ v', readGammas f a gs.length T v = .ok ({ T with levels :=
        P ++ [(a, { l with gammas := l.gammas ++ gs.map (reGamma s next) })] }, v') ∧
      v'.inp = some ('\n' :: t) ∧ v'.numGammas = v.numGammas := by
  induction gs generalizing T l v with
  | nil =>
    refine ⟨v, ?_, by simpa using hv, rfl⟩
    simp only [List.length_nil, readGammas, List.map_nil, List.append_nil]
    rw [← hT]
  | cons g gs ih =>
    have hg1 := hg g (by simp)
    obtain ⟨n, hn⟩ : ∃ n : Nat, destIndex s g = n := ⟨_, (Int.toNat_of_nonneg hg1.1).symm⟩
    have hnk : n ≤ k := by omega
    obtain ⟨m, hm⟩ := hadr n hnk
    have e1 : exDbl f v.inp v.energy = (some (' ' :: (f.print g.ri ++ ' ' ::
        (intText (destIndex s g) ++ '\n' :: (gs.flatMap (printGamma f s) ++ t)))), some g.energy) := by
      rw [hv]
      simp only [List.flatMap_cons, printGamma, List.append_assoc, List.cons_append]
      rw [exDbl_space nl, exDbl_space sp, exDbl_space sp, exDbl_space sp, exDbl_space sp,
        exDbl_print hf _ sp]
      simp
    have e2 : ∀ u old, exDbl f (some (' ' :: (f.print g.ri ++ ' ' :: u))) old =
        (some (' ' :: u), some g.ri) := by
      intro u old; rw [exDbl_space sp, exDbl_print hf _ sp]
    have e3 : ∀ u old, exInt (some (' ' :: (intText (destIndex s g) ++ '\n' :: u))) old =
        (some ('\n' :: u), some (destIndex s g)) := by
      intro u old
      rw [exInt_space sp, exInt_text ⟨by unfold intMin; omega, by omega⟩ nld]
    have e4 : pointerAt T (destIndex s g) = .ok (next + n) := by
      rw [hn, pointerAt, if_neg (by omega)]
      simp [hm]
    have e5 : (addGamma T a ⟨g.energy, g.ri, some (next + n)⟩).levels =
        P ++ [(a, { l with gammas := l.gammas ++ [reGamma s next g] })] := by
      have hmap : P.map (fun x => if x.1 = a then
          (x.1, ({ x.2 with gammas := x.2.gammas ++ [⟨g.energy, g.ri, some (next + n)⟩] } : Level K))
          else x) = P := by
        conv_rhs => rw [← List.map_id P]
        apply List.map_congr_left
        intro x hx; rw [if_neg (hP x hx)]; rfl
      simp only [addGamma, hT, List.map_append, hmap, List.map_cons, List.map_nil, if_true]
      simp [reGamma, hn]
    simp only [List.length_cons, readGammas]
    rw [e1]; dsimp only
    rw [e2]; dsimp only
    rw [e3]; dsimp only
    rw [e4]; dsimp only
    have hlen2 : (addGamma T a ⟨g.energy, g.ri, some (next + n)⟩).levels.length =
        T.levels.length := by rw [e5, hT]; simp
    obtain ⟨v', h1, h2, h3⟩ := ih (fun g' hg' => hg g' (by simp [hg']))
      (addGamma T a ⟨g.energy, g.ri, some (next + n)⟩)
      { l with gammas := l.gammas ++ [reGamma s next g] } e5 (by rw [hlen2]; exact hlen)
      (by
        intro i hi
        obtain ⟨m', hm'⟩ := hadr i hi
        rw [e5]
        rw [hT] at hm'
        by_cases hiP : i < P.length
        · rw [List.getElem?_append_left hiP] at hm' ⊢; exact ⟨m', hm'⟩
        · rw [List.getElem?_append_right (by omega)] at hm' ⊢
          obtain ⟨hh, he⟩ := List.getElem?_eq_some_iff.1 hm'
          simp only [List.length_singleton] at hh
          have : i - P.length = 0 := by omega
          rw [this] at hm' ⊢
          simp only [List.getElem?_cons_zero, Option.some.injEq, Prod.mk.injEq] at hm' ⊢
          exact ⟨_, hm'.1, rfl⟩)
      { v with inp := some ('\n' :: (gs.flatMap (printGamma f s) ++ t)), energy := some g.energy,
               ri := some g.ri, idx := some (destIndex s g) } rfl
    refine ⟨v', ?_, h2, h3⟩
    rw [h1]
    simp [addGamma]

theorem sorted_of_increasing [LinearOrder K] {s : Scheme K} {next : Nat} {Z A : Int} {n k : Nat}
    {ls : List (Nat × Level K)} (h : ls.Pairwise (fun a b => a.2.energy < b.2.energy)) :
    Sorted (⟨Z, A, reLevels s next k ls, n⟩ : Scheme K) := by
  simp only [Sorted]
  induction ls generalizing k with
  | nil => simp [reLevels]
  | cons x t ih =>
    obtain ⟨h1, h2⟩ := List.pairwise_cons.1 h
    simp only [reLevels]
    refine List.pairwise_cons.2 ⟨?_, ih h2⟩
    intro y hy
    obtain ⟨-, -, l, hl, e⟩ := reLevels_mem s next _ _ hy
    rw [e]; exact (h1 l hl).le

/-- Adding a level above all others puts it at the end. -/
theorem addLevel_last [LinearOrder K] {s : Scheme K} (hs : Sorted s) {l : Level K}
    (h : ∀ m ∈ s.levels, m.2.energy < l.energy) :
    addLevel s l = (⟨s.Z, s.A, s.levels ++ [(s.next, l)], s.next + 1⟩, s.next) := by
  obtain ⟨a, b, h1, h2, h3, h4⟩ := addLevel_eq hs l
  have hb : b = [] := by
    rcases b with _ | ⟨x, t⟩
    · rfl
    · exact absurd (h x (by rw [h1]; simp)) (not_lt.2 (h3 x (by simp)))
  subst hb
  rw [h4, h1]; simp

/-- Reading the printed levels `rem`, the levels `done` having been read. -/
theorem readLevels_print [Zero K] [LinearOrder K] (hf : f.Lawful) (s : Scheme K) (hp : Printable s)
    (next : Nat) (rem : List (Nat × Level K)) (done : List (Nat × Level K))
    (hs : s.levels = done ++ rem) (v : ReadVars K) (t : Str)
    (hv : v.inp = some ('\n' :: (rem.flatMap (fun l => printLevel f s l.2) ++ t))) :
    ∃ v', readLevels f rem.length ⟨s.Z, s.A, reLevels s next next done, next + done.length⟩ v =
        .ok (⟨s.Z, s.A, reLevels s next next s.levels, next + s.levels.length⟩, v') ∧
      v'.inp = some ('\n' :: t) := by
  induction rem generalizing done v with
  | nil =>
    rw [List.append_nil] at hs
    rw [hs]
    exact ⟨v, by simp [readLevels], by simpa using hv⟩
  | cons x rem ih =>
    have hx : s.levels[done.length]? = some x := by rw [hs]; simp
    have ok := hp.level _ _ hx
    have hinc := hp.increasing
    rw [hs, List.pairwise_append] at hinc
    obtain ⟨i1, i2, i3⟩ := hinc
    have hlenI : (done.length : Int) ≤ intMax := by
      have := hp.count
      rw [hs] at this
      simp only [List.length_append, List.length_cons] at this
      omega
    have e1 : exDbl f v.inp v.energy = (some (' ' :: (intText x.2.twoJ ++ ' ' ::
        x.2.parity.toChar :: ' ' :: (natText x.2.gammas.length ++
          '\n' :: (x.2.gammas.flatMap (printGamma f s) ++
            (rem.flatMap (fun l => printLevel f s l.2) ++ t))))), some x.2.energy) := by
      rw [hv]
      simp only [List.flatMap_cons, printLevel, List.append_assoc, List.cons_append]
      rw [exDbl_space nl, exDbl_space sp, exDbl_space sp, exDbl_print hf _ sp]
    have e2 : ∀ u old, exInt (some (' ' :: (intText x.2.twoJ ++ ' ' :: u))) old =
        (some (' ' :: u), some x.2.twoJ) := by
      intro u old; rw [exInt_space sp, exInt_text ok.twoJ spd]
    have e3 : ∀ u old, exParity (some (' ' :: x.2.parity.toChar :: u)) old =
        .ok (some u, x.2.parity) := by
      intro u old; simp only [exParity, parity_read_toChar]
    have e4 : ∀ u old, exInt (some (' ' :: (natText x.2.gammas.length ++ '\n' :: u))) old =
        (some ('\n' :: u), some (x.2.gammas.length : Int)) := by
      intro u old
      rw [exInt_space sp, natText_intText, exInt_text ⟨by unfold intMin; omega, ok.count⟩ nld]
    have e5 : addLevel (⟨s.Z, s.A, reLevels s next next done, next + done.length⟩ : Scheme K)
        ⟨x.2.energy, x.2.twoJ, x.2.parity, []⟩ =
        (⟨s.Z, s.A, reLevels s next next done ++
          [(next + done.length, ⟨x.2.energy, x.2.twoJ, x.2.parity, []⟩)],
          next + done.length + 1⟩, next + done.length) := by
      refine addLevel_last (sorted_of_increasing i1) ?_
      intro m hm
      obtain ⟨-, -, l, hl, e⟩ := reLevels_mem s next _ _ hm
      rw [e]; exact i3 l hl x (by simp)
    obtain ⟨v1, g1, g2, -⟩ := readGammas_print hf s next (next + done.length) done.length x.2.gammas
      hlenI ok.dest
      ⟨s.Z, s.A, reLevels s next next done ++
          [(next + done.length, ⟨x.2.energy, x.2.twoJ, x.2.parity, []⟩)], next + done.length + 1⟩
      ⟨x.2.energy, x.2.twoJ, x.2.parity, []⟩ (reLevels s next next done) rfl
      (by
        intro y hy
        have := (reLevels_mem s next _ _ hy).2.1
        omega)
      (by simp [reLevels_length])
      (by
        intro i hi
        dsimp only
        rcases Nat.lt_or_ge i done.length with h | h
        · rw [List.getElem?_append_left (by rw [reLevels_length]; exact h), reLevels_get,
            List.getElem?_eq_getElem h]
          exact ⟨_, rfl⟩
        · have : i = done.length := by omega
          subst this
          rw [List.getElem?_append_right (by rw [reLevels_length]), reLevels_length]
          simp)
      { v with inp := some ('\n' :: (x.2.gammas.flatMap (printGamma f s) ++
            (rem.flatMap (fun l => printLevel f s l.2) ++ t))), energy := some x.2.energy,
               twoJ := some x.2.twoJ, numGammas := some (x.2.gammas.length : Int),
               pi := x.2.parity }
      (rem.flatMap (fun l => printLevel f s l.2) ++ t) rfl
    simp only [List.length_cons, readLevels]
    rw [e1]; dsimp only
    rw [e2]; dsimp only
    rw [e3]; dsimp only
    rw [e4]; dsimp only
    rw [e5]; dsimp only
    rw [Int.toNat_natCast, g1]; dsimp only
    have e6 : reLevels s next next done ++ [(next + done.length, ({
        energy := x.2.energy, twoJ := x.2.twoJ, parity := x.2.parity,
        gammas := [] ++ x.2.gammas.map (reGamma s next) } : Level K))] =
        reLevels s next next (done ++ [x]) := by
      rw [reLevels_append]; simp [reLevels, reLevel]
    rw [e6]
    have e7 : next + done.length + 1 = next + (done ++ [x]).length := by simp; omega
    rw [e7]
    exact ih (done ++ [x]) (by rw [hs]; simp) v1 g2

theorem read_print [Zero K] [LinearOrder K] (hf : f.Lawful) (s : Scheme K) (hp : Printable s)
    (next : Nat) (t : Str) : read f next (print f s ++ t) =
      .ok (⟨s.Z, s.A, reLevels s next next s.levels, next + s.levels.length⟩, some ('\n' :: t)) := by
  simp only [read, print, List.append_assoc, List.cons_append]
  rw [readInt_intText hp.Z spd]
  dsimp only
  rw [readInt_space sp, readInt_intText hp.A spd]
  dsimp only
  rw [readInt_space sp, readInt_natText hp.count nld]
  dsimp only
  obtain ⟨v', h1, h2⟩ := readLevels_print hf s hp next s.levels [] rfl
    ⟨some ('\n' :: (s.levels.flatMap (fun l => printLevel f s l.2) ++ t)), none, none, none, none,
      none, ⟨true⟩⟩ t rfl
  simp only [reLevels, List.length_nil, Nat.add_zero] at h1
  rw [Int.toNat_natCast, Scheme.empty, h1]
  simp [h2]

/-- Reading one printed level, up to its gammas. -/
theorem readLevels_level [Zero K] [LinearOrder K] (hf : f.Lawful) (s : Scheme K) (l : Level K)
    (hJ : intMin ≤ l.twoJ ∧ l.twoJ ≤ intMax) (hn : (l.gammas.length : Int) ≤ intMax) (n : Nat)
    (T : Scheme K) (v : ReadVars K) (t : Str) (hv : v.inp = some ('\n' :: (printLevel f s l ++ t))) :
    ∃ v', v'.inp = some ('\n' :: (l.gammas.flatMap (printGamma f s) ++ t)) ∧
      readLevels f (n + 1) T v =
      match readGammas f (addLevel T ⟨l.energy, l.twoJ, l.parity, []⟩).2 l.gammas.length
          (addLevel T ⟨l.energy, l.twoJ, l.parity, []⟩).1 v' with
      | .error x => .error x
      | .ok (s', v'') => readLevels f n s' v'' := by
  have e1 : exDbl f v.inp v.energy = (some (' ' :: (intText l.twoJ ++ ' ' ::
      l.parity.toChar :: ' ' :: (natText l.gammas.length ++
        '\n' :: (l.gammas.flatMap (printGamma f s) ++ t)))), some l.energy) := by
    rw [hv]
    simp only [printLevel, List.append_assoc, List.cons_append]
    rw [exDbl_space nl, exDbl_space sp, exDbl_space sp, exDbl_print hf _ sp]
  have e2 : ∀ u old, exInt (some (' ' :: (intText l.twoJ ++ ' ' :: u))) old =
      (some (' ' :: u), some l.twoJ) := by
    intro u old; rw [exInt_space sp, exInt_text hJ spd]
  have e3 : ∀ u old, exParity (some (' ' :: l.parity.toChar :: u)) old =
      .ok (some u, l.parity) := by
    intro u old; simp only [exParity, parity_read_toChar]
  have e4 : ∀ u old, exInt (some (' ' :: (natText l.gammas.length ++ '\n' :: u))) old =
      (some ('\n' :: u), some (l.gammas.length : Int)) := by
    intro u old
    rw [exInt_space sp, natText_intText, exInt_text ⟨by unfold intMin; omega, hn⟩ nld]
  refine ⟨⟨some ('\n' :: (l.gammas.flatMap (printGamma f s) ++ t)), some l.energy, v.ri,
    some l.twoJ, some (l.gammas.length : Int), v.idx, l.parity⟩, rfl, ?_⟩
  simp only [readLevels]
  rw [e1]; dsimp only
  rw [e2]; dsimp only
  rw [e3]; dsimp only
  rw [e4]; dsimp only
  rw [Int.toNat_natCast]
  cases readGammas f (addLevel T ⟨l.energy, l.twoJ, l.parity, []⟩).2 l.gammas.length
    (addLevel T ⟨l.energy, l.twoJ, l.parity, []⟩).1 _ <;> rfl

/-- Reading one printed gamma. -/
theorem readGammas_gamma [Zero K] (hf : f.Lawful) (s : Scheme K) (g : Gamma K)
    (hd : intMin ≤ destIndex s g ∧ destIndex s g ≤ intMax) (n a : Nat)
    (T : Scheme K) (v : ReadVars K) (t : Str) (hv : v.inp = some ('\n' :: (printGamma f s g ++ t))) :
    ∃ v', v'.inp = some ('\n' :: t) ∧ readGammas f a (n + 1) T v =
      match pointerAt T (destIndex s g) with
      | .error x => .error x
      | .ok p => readGammas f a n (addGamma T a ⟨g.energy, g.ri, some p⟩) v' := by
  have e1 : exDbl f v.inp v.energy = (some (' ' :: (f.print g.ri ++ ' ' ::
      (intText (destIndex s g) ++ '\n' :: t))), some g.energy) := by
    rw [hv]
    simp only [printGamma, List.append_assoc, List.cons_append]
    rw [exDbl_space nl, exDbl_space sp, exDbl_space sp, exDbl_space sp, exDbl_space sp,
      exDbl_print hf _ sp]
    simp
  have e2 : ∀ u old, exDbl f (some (' ' :: (f.print g.ri ++ ' ' :: u))) old =
      (some (' ' :: u), some g.ri) := by
    intro u old; rw [exDbl_space sp, exDbl_print hf _ sp]
  have e3 : ∀ u old, exInt (some (' ' :: (intText (destIndex s g) ++ '\n' :: u))) old =
      (some ('\n' :: u), some (destIndex s g)) := by
    intro u old
    rw [exInt_space sp, exInt_text hd nld]
  refine ⟨⟨some ('\n' :: t), some g.energy, some g.ri, v.twoJ, v.numGammas,
    some (destIndex s g), v.pi⟩, rfl, ?_⟩
  simp only [readGammas]
  rw [e1]; dsimp only
  rw [e2]; dsimp only
  rw [e3]; dsimp only
  cases pointerAt T (destIndex s g) <;> rfl

/-- The header of a printed scheme. -/
theorem read_header [Zero K] [LinearOrder K] (s : Scheme K) (hZ : intMin ≤ s.Z ∧ s.Z ≤ intMax)
    (hA : intMin ≤ s.A ∧ s.A ≤ intMax) (hn : (s.levels.length : Int) ≤ intMax) (next : Nat)
    (t : Str) :
    ∃ v, v.inp = some ('\n' :: (s.levels.flatMap (fun l => printLevel f s l.2) ++ t)) ∧
      read f next (print f s ++ t) =
      match readLevels f s.levels.length (Scheme.empty s.Z s.A next) v with
      | .error e => .error e
      | .ok (sch, v) => .ok (sch, v.inp) := by
  refine ⟨⟨some ('\n' :: (s.levels.flatMap (fun l => printLevel f s l.2) ++ t)), none, none, none,
      none, none, ⟨true⟩⟩, rfl, ?_⟩
  simp only [read, print, List.append_assoc, List.cons_append]
  rw [readInt_intText hZ spd]
  dsimp only
  rw [readInt_space sp, readInt_intText hA spd]
  dsimp only
  rw [readInt_space sp, readInt_natText hn nld]
  dsimp only
  rw [Int.toNat_natCast]
  cases readLevels f s.levels.length (Scheme.empty s.Z s.A next) _ <;> rfl

end Marley.Scheme
