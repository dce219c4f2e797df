import Verif.Model.Decayer
import Mathlib.Tactic.Ring
import Mathlib.Tactic.Linarith
import Mathlib.Data.List.Nodup

/-!
# The loops over spins and partial waves
-/

set_option autoImplicit false

namespace Marley.Decay
open Marley

/-- `lo, lo + k + 1, …` up to `hi`. -/
def upTo (k : Nat) (lo hi : Int) : List Int :=
  if lo ≤ hi then lo :: upTo k (lo + (k + 1)) hi else []
termination_by (hi + 1 - lo).toNat

theorem upTo_pos {k : Nat} {lo hi : Int} (h : lo ≤ hi) :
    upTo k lo hi = lo :: upTo k (lo + (k + 1)) hi := by
  rw [upTo, if_pos h]

theorem upTo_neg {k : Nat} {lo hi : Int} (h : ¬ lo ≤ hi) : upTo k lo hi = [] := by
  rw [upTo, if_neg h]

/-- Induction over the passes of a loop. -/
theorem loop_induction (k : Nat) (hi : Int) {p : Int → Prop} (stop : ∀ lo, ¬ lo ≤ hi → p lo)
    (step : ∀ lo, lo ≤ hi → p (lo + (k + 1)) → p lo) (lo : Int) : p lo := by
  by_cases h : lo ≤ hi
  · exact step lo h (loop_induction k hi stop step (lo + (k + 1)))
  · exact stop lo h
termination_by (hi + 1 - lo).toNat

theorem mem_upTo (k : Nat) (lo hi x : Int) :
    x ∈ upTo k lo hi ↔ lo ≤ x ∧ x ≤ hi ∧ (k + 1 : Int) ∣ x - lo := by
  revert x
  refine loop_induction k hi (p := fun lo => ∀ x, x ∈ upTo k lo hi ↔
    lo ≤ x ∧ x ≤ hi ∧ (k + 1 : Int) ∣ x - lo) (fun lo h x => ?_) (fun lo h ih x => ?_) lo
  · rw [upTo_neg h]
    constructor
    · simp
    · rintro ⟨h1, h2, -⟩; omega
  · rw [upTo_pos h, List.mem_cons, ih]
    constructor
    · rintro (rfl | ⟨h1, h2, h3⟩)
      · exact ⟨le_rfl, h, by simp⟩
      · refine ⟨by omega, h2, ?_⟩
        have : x - lo = (x - (lo + (k + 1))) + (k + 1) := by ring
        rw [this]
        exact Dvd.dvd.add h3 (dvd_refl _)
    · rintro ⟨h1, h2, h3⟩
      rcases eq_or_lt_of_le h1 with rfl | h4
      · left; rfl
      · right
        refine ⟨?_, h2, ?_⟩
        · have := Int.le_of_dvd (by omega) h3
          omega
        · have : x - (lo + (k + 1)) = (x - lo) - (k + 1) := by ring
          rw [this]
          exact Dvd.dvd.sub h3 (dvd_refl _)

theorem nodup_upTo (k : Nat) (lo hi : Int) : (upTo k lo hi).Nodup := by
  refine loop_induction k hi (p := fun lo => (upTo k lo hi).Nodup) (fun lo h => ?_)
    (fun lo h ih => ?_) lo
  · rw [upTo_neg h]; exact List.nodup_nil
  · rw [upTo_pos h, List.nodup_cons]
    refine ⟨fun hm => ?_, ih⟩
    have := ((mem_upTo _ _ _ _).1 hm).1
    omega

/-! ## Discrete channels -/

theorem lLoop_eq (Pi : Parity) (term : Int → ℝ) (hi l : Int) (P : Parity) (w : ℝ) :
    lLoop Pi term hi l P w =
      w + (((upTo 0 l hi).filter (fun m => decide (Pi = if 2 ∣ m - l then P else P.flip))).map
        term).sum := by
  revert P w
  refine loop_induction 0 hi (p := fun l => ∀ P w, lLoop Pi term hi l P w =
      w + (((upTo 0 l hi).filter (fun m => decide (Pi = if 2 ∣ m - l then P else P.flip))).map
        term).sum) (fun l h P w => ?_) (fun l h ih P w => ?_) l
  · rw [lLoop, if_neg h, upTo_neg h]; simp
  · have ih' := ih P.flip (if Pi = P then w + term l else w)
    rw [lLoop, if_pos h, upTo_pos h]
    simp only [Nat.cast_zero, zero_add] at ih' ⊢
    rw [ih']
    have : (upTo 0 (l + 1) hi).filter
          (fun m => decide (Pi = if 2 ∣ m - (l + 1) then P.flip else P.flip.flip)) =
        (upTo 0 (l + 1) hi).filter (fun m => decide (Pi = if 2 ∣ m - l then P else P.flip)) := by
      refine List.filter_congr (fun m _ => ?_)
      have hf : P.flip.flip = P := by cases P; simp [Parity.flip]
      rw [hf]
      congr 1
      by_cases h2 : (2 : Int) ∣ m - l
      · rw [if_pos h2, if_neg (by omega)]
      · rw [if_neg h2, if_pos (by omega)]
    rw [this, List.filter_cons]
    by_cases hp : Pi = P
    · simp only [hp, sub_self, dvd_zero, if_true, decide_true]
      simp [add_assoc]
    · simp [hp]

/-- The `l` of a given `j`. -/
def lList (Pi PfPa : Parity) (twoS twoj : Int) : List Int :=
  let l := |twoj - twoS|.tdiv 2
  (upTo 0 l ((twoj + twoS).tdiv 2)).filter (fun m => decide (Pi =
    if 2 ∣ m - l then PfPa.mul (Parity.ofBool !decide (l.tmod 2 ≠ 0))
    else (PfPa.mul (Parity.ofBool !decide (l.tmod 2 ≠ 0))).flip))

/-- The partial waves of the loops. -/
def waves (Pi PfPa : Parity) (twoS lo hi : Int) : List (Int × Int) :=
  (upTo 1 lo hi).flatMap (fun twoj => (lList Pi PfPa twoS twoj).map (·, twoj))

theorem jLoop_eq (Pi PfPa : Parity) (term : Int → Int → ℝ) (twoS hi twoj : Int) (w : ℝ) :
    jLoop Pi PfPa term twoS hi twoj w =
      w + ((waves Pi PfPa twoS twoj hi).map (fun x => term x.2 x.1)).sum := by
  revert w
  refine loop_induction 1 hi (p := fun twoj => ∀ w, jLoop Pi PfPa term twoS hi twoj w =
      w + ((waves Pi PfPa twoS twoj hi).map (fun x => term x.2 x.1)).sum)
    (fun twoj h w => ?_) (fun twoj h ih w => ?_) twoj
  · rw [jLoop, if_neg h, waves, upTo_neg h]; simp
  · rw [jLoop, if_pos h]
    dsimp only
    have e : (twoj + ((1 : Nat) + 1) : Int) = twoj + 2 := by norm_num
    rw [e] at ih
    rw [ih, lLoop_eq]
    simp only [waves]
    rw [upTo_pos h, List.flatMap_cons, e]
    simp only [List.map_append, List.sum_append, List.map_map]
    rw [add_assoc]
    rfl

theorem mpolLoop_eq (term : Int → ℝ) (hi mpol : Int) (w : ℝ) :
    mpolLoop term hi mpol w = w + ((upTo 0 mpol hi).map term).sum := by
  revert w
  refine loop_induction 0 hi (p := fun mpol => ∀ w, mpolLoop term hi mpol w =
      w + ((upTo 0 mpol hi).map term).sum) (fun m h w => ?_) (fun m h ih w => ?_) mpol
  · rw [mpolLoop, if_neg h, upTo_neg h]; simp
  · have e : (m + ((0 : Nat) + 1) : Int) = m + 1 := by norm_num
    rw [e] at ih
    rw [mpolLoop, if_pos h, ih, upTo_pos h, e, List.map_cons, List.sum_cons, add_assoc]

/-! ## Continuum channels -/

theorem fJfLoop_eq (term : Int → ℝ) (Pf : Parity) (hi twoJf : Int) (a : Acc) :
    fJfLoop term Pf hi twoJf a = (a.1 + ((upTo 1 twoJf hi).map term).sum,
      a.2 ++ (upTo 1 twoJf hi).map (fun J => ⟨J, Pf, term J⟩)) := by
  revert a
  refine loop_induction 1 hi (p := fun twoJf => ∀ a, fJfLoop term Pf hi twoJf a =
      (a.1 + ((upTo 1 twoJf hi).map term).sum,
      a.2 ++ (upTo 1 twoJf hi).map (fun J => ⟨J, Pf, term J⟩))) (fun J h a => ?_)
    (fun J h ih a => ?_) twoJf
  · rw [fJfLoop, if_neg h, upTo_neg h]; simp
  · have e : (J + ((1 : Nat) + 1) : Int) = J + 2 := by norm_num
    rw [e] at ih
    rw [fJfLoop, if_pos h, ih, upTo_pos h, e]
    simp [Acc.add, add_assoc]

/-- The pairs of `two_j` and `twoJf`. -/
def spins (twoJi lo hi : Int) : List (Int × Int) :=
  (upTo 1 lo hi).flatMap (fun j => (upTo 1 |twoJi - j| (twoJi + j)).map (j, ·))

theorem fjLoop_eq (term : Int → Int → ℝ) (Pf : Parity) (twoJi hi twoj : Int) (a : Acc) :
    fjLoop term Pf twoJi hi twoj a =
      (a.1 + ((spins twoJi twoj hi).map (fun x => term x.1 x.2)).sum,
      a.2 ++ (spins twoJi twoj hi).map (fun x => ⟨x.2, Pf, term x.1 x.2⟩)) := by
  revert a
  refine loop_induction 1 hi (p := fun twoj => ∀ a, fjLoop term Pf twoJi hi twoj a =
      (a.1 + ((spins twoJi twoj hi).map (fun x => term x.1 x.2)).sum,
      a.2 ++ (spins twoJi twoj hi).map (fun x => ⟨x.2, Pf, term x.1 x.2⟩))) (fun j h a => ?_)
    (fun j h ih a => ?_) twoj
  · rw [fjLoop, if_neg h, spins, upTo_neg h]; simp
  · have e : (j + ((1 : Nat) + 1) : Int) = j + 2 := by norm_num
    rw [e] at ih
    rw [fjLoop, if_pos h, ih, fJfLoop_eq]
    simp only [spins]
    rw [upTo_pos h, e, List.flatMap_cons]
    simp only [List.map_append, List.sum_append, List.map_map, add_assoc, List.append_assoc]
    rfl

/-- The quadruples of `l`, `two_j`, `twoJf` and final parity. -/
def states (twoJi twoS lmax l : Int) (Pf : Parity) : List (Int × Int × Int × Parity) :=
  (upTo 0 l lmax).flatMap (fun m =>
    (spins twoJi |2 * m - twoS| (2 * m + twoS)).map (fun x =>
      (m, x.1, x.2, if 2 ∣ m - l then Pf else Pf.flip)))

theorem flLoop_eq (term : Int → Int → Int → Parity → ℝ) (twoJi twoS lmax l : Int) (Pf : Parity)
    (a : Acc) :
    flLoop term twoJi twoS lmax l Pf a =
      (a.1 + ((states twoJi twoS lmax l Pf).map (fun x => term x.1 x.2.1 x.2.2.1 x.2.2.2)).sum,
      a.2 ++ (states twoJi twoS lmax l Pf).map (fun x =>
        ⟨x.2.2.1, x.2.2.2, term x.1 x.2.1 x.2.2.1 x.2.2.2⟩)) := by
  revert a Pf
  refine loop_induction 0 lmax (p := fun l => ∀ Pf a, flLoop term twoJi twoS lmax l Pf a =
      (a.1 + ((states twoJi twoS lmax l Pf).map (fun x => term x.1 x.2.1 x.2.2.1 x.2.2.2)).sum,
      a.2 ++ (states twoJi twoS lmax l Pf).map (fun x =>
        ⟨x.2.2.1, x.2.2.2, term x.1 x.2.1 x.2.2.1 x.2.2.2⟩))) (fun l h Pf a => ?_)
    (fun l h ih Pf a => ?_) l
  · rw [flLoop, if_neg h, states, upTo_neg h]; simp
  · have e : (l + ((0 : Nat) + 1) : Int) = l + 1 := by norm_num
    rw [e] at ih
    have hs : states twoJi twoS lmax l Pf =
        (spins twoJi |2 * l - twoS| (2 * l + twoS)).map (fun x => (l, x.1, x.2, Pf)) ++
          states twoJi twoS lmax (l + 1) Pf.flip := by
      simp only [states]
      rw [upTo_pos h, e, List.flatMap_cons]
      congr 1
      · simp
      · have : ∀ m : Int, (if 2 ∣ m - l then Pf else Pf.flip) =
            if 2 ∣ m - (l + 1) then Pf.flip else Pf.flip.flip := by
          intro m
          have hf : Pf.flip.flip = Pf := by cases Pf; simp [Parity.flip]
          rw [hf]
          by_cases h2 : (2 : Int) ∣ m - l
          · rw [if_pos h2, if_neg (by omega)]
          · rw [if_neg h2, if_pos (by omega)]
        simp only [this]
    rw [flLoop, if_pos h]
    dsimp only
    rw [ih, fjLoop_eq, hs]
    simp only [List.map_append, List.sum_append, List.map_map, add_assoc, List.append_assoc]
    rfl

theorem gJfLoop_eq (term : Int → Parity → ℝ) (hi twoJf : Int) (a : Acc) :
    gJfLoop term hi twoJf a =
      (a.1 + (((upTo 1 twoJf hi).flatMap (fun J => [(J, ⟨true⟩), (J, ⟨false⟩)])).map
        (fun x : Int × Parity => term x.1 x.2)).sum,
      a.2 ++ ((upTo 1 twoJf hi).flatMap (fun J => [(J, ⟨true⟩), (J, ⟨false⟩)])).map
        (fun x : Int × Parity => ⟨x.1, x.2, term x.1 x.2⟩)) := by
  revert a
  refine loop_induction 1 hi (p := fun twoJf => ∀ a, gJfLoop term hi twoJf a =
      (a.1 + (((upTo 1 twoJf hi).flatMap (fun J => [(J, ⟨true⟩), (J, ⟨false⟩)])).map
        (fun x : Int × Parity => term x.1 x.2)).sum,
      a.2 ++ ((upTo 1 twoJf hi).flatMap (fun J => [(J, ⟨true⟩), (J, ⟨false⟩)])).map
        (fun x : Int × Parity => ⟨x.1, x.2, term x.1 x.2⟩))) (fun J h a => ?_)
    (fun J h ih a => ?_) twoJf
  · rw [gJfLoop, if_neg h, upTo_neg h]; simp
  · have e : (J + ((1 : Nat) + 1) : Int) = J + 2 := by norm_num
    rw [e] at ih
    rw [gJfLoop, if_pos h, ih, upTo_pos h, e]
    simp [Acc.add, add_assoc]

/-- The triples of multipolarity, `twoJf` and final parity. -/
def radStates (twoJi lmax mpol : Int) : List (Int × Int × Parity) :=
  (upTo 0 mpol lmax).flatMap (fun m =>
    ((upTo 1 |twoJi - 2 * m| (twoJi + 2 * m)).flatMap (fun J => [(J, ⟨true⟩), (J, ⟨false⟩)])).map
      (m, ·))

theorem glLoop_eq (term : Int → Int → Parity → ℝ) (twoJi lmax mpol : Int) (a : Acc) :
    glLoop term twoJi lmax mpol a =
      (a.1 + ((radStates twoJi lmax mpol).map (fun x => term x.1 x.2.1 x.2.2)).sum,
      a.2 ++ (radStates twoJi lmax mpol).map (fun x => ⟨x.2.1, x.2.2, term x.1 x.2.1 x.2.2⟩)) := by
  revert a
  refine loop_induction 0 lmax (p := fun mpol => ∀ a, glLoop term twoJi lmax mpol a =
      (a.1 + ((radStates twoJi lmax mpol).map (fun x => term x.1 x.2.1 x.2.2)).sum,
      a.2 ++ (radStates twoJi lmax mpol).map (fun x => ⟨x.2.1, x.2.2, term x.1 x.2.1 x.2.2⟩)))
    (fun m h a => ?_) (fun m h ih a => ?_) mpol
  · rw [glLoop, if_neg h, radStates, upTo_neg h]; simp
  · have e : (m + ((0 : Nat) + 1) : Int) = m + 1 := by norm_num
    rw [e] at ih
    rw [glLoop, if_pos h]
    dsimp only
    rw [ih, gJfLoop_eq]
    simp only [radStates]
    rw [upTo_pos h, e, List.flatMap_cons]
    simp only [List.map_append, List.sum_append, List.map_map, add_assoc, List.append_assoc]
    rfl

/-! ## No repetitions -/

theorem nodup_flatMap_map {α β γ : Type} {l : List α} {f : α → List β} {g : α → β → γ}
    (hl : l.Nodup) (hf : ∀ a ∈ l, (f a).Nodup)
    (hg : ∀ a b x y, g a x = g b y → a = b ∧ x = y) :
    (l.flatMap (fun a => (f a).map (g a))).Nodup := by
  rw [List.nodup_flatMap]
  refine ⟨fun a ha => (hf a ha).map (fun x y h => (hg a a x y h).2), ?_⟩
  refine hl.imp (fun {a b} hab => ?_)
  intro x hx hy
  obtain ⟨u, -, rfl⟩ := List.mem_map.1 hx
  obtain ⟨v, -, h⟩ := List.mem_map.1 hy
  exact hab (hg _ _ _ _ h).1.symm

theorem nodup_waves (Pi PfPa : Parity) (twoS lo hi : Int) : (waves Pi PfPa twoS lo hi).Nodup := by
  refine nodup_flatMap_map (g := fun j l => (l, j)) (nodup_upTo _ _ _)
    (fun a _ => (nodup_upTo _ _ _).filter _) (fun a b x y h => ?_)
  simp only [Prod.mk.injEq] at h
  exact ⟨h.2, h.1⟩

theorem nodup_spins (twoJi lo hi : Int) : (spins twoJi lo hi).Nodup := by
  refine nodup_flatMap_map (g := fun j l => (j, l)) (nodup_upTo _ _ _)
    (fun a _ => nodup_upTo _ _ _) (fun a b x y h => ?_)
  simpa using h

theorem nodup_states (twoJi twoS lmax l : Int) (Pf : Parity) :
    (states twoJi twoS lmax l Pf).Nodup := by
  refine nodup_flatMap_map (f := fun m => spins twoJi |2 * m - twoS| (2 * m + twoS))
    (g := fun m x => (m, x.1, x.2, if 2 ∣ m - l then Pf else Pf.flip)) (nodup_upTo _ _ _)
    (fun a _ => nodup_spins _ _ _) (fun a b x y h => ?_)
  simp only [Prod.mk.injEq] at h
  exact ⟨h.1, Prod.ext h.2.1 h.2.2.1⟩

theorem nodup_both (l : List Int) (h : l.Nodup) :
    (l.flatMap (fun J => [(J, (⟨true⟩ : Parity)), (J, ⟨false⟩)])).Nodup := by
  refine nodup_flatMap_map (f := fun _ => [(⟨true⟩ : Parity), ⟨false⟩]) (g := fun J P => (J, P)) h
    (fun _ _ => by simp) (fun a b x y h => ?_)
  simpa using h

theorem nodup_radStates (twoJi lmax mpol : Int) : (radStates twoJi lmax mpol).Nodup := by
  refine nodup_flatMap_map (g := fun m x => (m, x)) (nodup_upTo _ _ _)
    (fun a _ => nodup_both _ (nodup_upTo _ _ _)) (fun a b x y h => ?_)
  simpa using h

end Marley.Decay
