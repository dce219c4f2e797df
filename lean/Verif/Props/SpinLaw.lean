import Verif.Lemmas.PickLaw
import Verif.Props.NuclearLaw

/-!
# C128: the law of spins of Gamow-Teller transitions to the continuum
-/

set_option autoImplicit false

namespace Marley.Props
open Marley Marley.Reaction Marley.Sampling Marley.Xs MeasureTheory

theorem gtSpins_nodup (twoJ : Int) : (gtSpins twoJ).Nodup := by
  unfold gtSpins
  exact List.Nodup.map (fun i j h => by omega) List.nodup_range

theorem gtSpins_iff {twoJ J : Int} : J ∈ gtSpins twoJ ↔
    |twoJ - 2| ≤ J ∧ J ≤ twoJ + 2 ∧ (J - twoJ) % 2 = 0 := by
  rw [Int.abs_eq_natAbs]
  exact ⟨fun h => gtSpins_mem h, fun h => mem_gtSpins h.1 h.2.1 h.2.2⟩

theorem filter_one {α : Type} [DecidableEq α] {xs : List α} (hn : xs.Nodup) {x : α} (hx : x ∈ xs)
    (wt : α → ℝ) : ((xs.filter fun y => decide (y = x)).map wt).sum = wt x := by
  have h : xs.filter (fun y => decide (y = x)) = [x] := by
    have := hn.filter fun y => decide (y = x)
    have hmem : ∀ y, y ∈ xs.filter (fun y => decide (y = x)) ↔ y = x := by
      intro y
      simp only [List.mem_filter, decide_eq_true_eq]
      exact ⟨fun h => h.2, fun h => ⟨h ▸ hx, h⟩⟩
    exact List.perm_singleton.1 ((List.perm_ext_iff_of_nodup this (by simp)).2 fun y => by
      rw [hmem]; simp)
  rw [h]
  simp

/-- **C128**, spins: after a Gamow-Teller transition to the continuum of a target with spin, the
residue gets one of the spins that differ from that of the target by at most one unit and
are allowed by the triangle rule, each with a probability proportional to the level density of
the residue at its excitation energy; the parity is that of the target.  A spin is found
whatever the number drawn between 0 and 1. -/
theorem C128_spin {E : Env (List ℝ)} (hE : E.engine = replay) {n : Nuc} {m : MatEl}
    (hl : m.level = none) (ht : m.type = 1) {twoJ : Int} (hJ : twoJ ≠ 0) {P : Parity}
    {rho : ℝ → Int → Parity → ℝ} (hrho : E.density n.pdgD = .ok rho)
    (h0 : ∀ J, 0 ≤ rho m.levelEnergy J P) :
    ∃ L : List Int, L.Nodup ∧
      (∀ J, J ∈ L ↔ |twoJ - 2| ≤ J ∧ J ≤ twoJ + 2 ∧ (J - twoJ) % 2 = 0) ∧
      (0 < (L.map fun J => rho m.levelEnergy J P).sum →
        (∀ J ∈ L, ∀ rest, unit {u | ∃ g, spinParity E n m twoJ P (u :: rest) = .ok (J, P, g)}
          = ENNReal.ofReal (rho m.levelEnergy J P / (L.map fun J => rho m.levelEnergy J P).sum)) ∧
        ∀ g, 0 ≤ (replay.draw g).1 → (replay.draw g).1 < 1 →
          ∃ J ∈ L, ∃ g', spinParity E n m twoJ P g = .ok (J, P, g')) := by
  refine ⟨gtSpins twoJ, gtSpins_nodup twoJ, fun J => gtSpins_iff, fun hs => ⟨?_, ?_⟩⟩
  · intro J hJm rest
    have h := pickFrom_where (gtSpins twoJ) (wt := fun J => rho m.levelEnergy J P)
      (fun J _ => h0 J) hs (fun y => decide (y = J)) rest
    rw [filter_one (gtSpins_nodup twoJ) hJm] at h
    rw [← h]
    congr 1
    ext u
    simp only [Set.mem_ofPred_eq, spinParity, hl, ht, hrho, hE, if_neg hJ, one_ne_zero, if_false,
      if_true, decide_eq_true_eq]
    cases h1 : pickFrom replay ((gtSpins twoJ).map fun J => rho m.levelEnergy J P) (u :: rest) with
    | error e => simp
    | ok y =>
      obtain ⟨i, g⟩ := y
      dsimp only
      cases h2 : (gtSpins twoJ)[i]? with
      | none =>
        simp only [reduceCtorEq, exists_false, Except.ok.injEq, Prod.mk.injEq, false_iff]
        rintro ⟨j, x, g', ⟨rfl, -⟩, h4, -⟩
        rw [h2] at h4
        cases h4
      | some z =>
        simp only [Except.ok.injEq, Prod.mk.injEq, true_and]
        constructor
        · rintro ⟨g', rfl, rfl⟩
          exact ⟨i, z, g, ⟨rfl, rfl⟩, h2, rfl⟩
        · rintro ⟨j, x, g', ⟨rfl, rfl⟩, h4, rfl⟩
          rw [h2] at h4
          cases h4
          exact ⟨g, rfl, rfl⟩
  · intro g hg0 hg1
    have hw : ∀ x ∈ (gtSpins twoJ).map (fun J => rho m.levelEnergy J P), 0 ≤ x := by
      intro x hx
      obtain ⟨J, -, rfl⟩ := List.mem_map.1 hx
      exact h0 J
    have hlen : 0 < (gtSpins twoJ).length := by
      by_contra hc
      have : gtSpins twoJ = [] := List.length_eq_zero_iff.1 (by omega)
      rw [this] at hs
      simp at hs
    have hfound : ∃ i g', i < (gtSpins twoJ).length ∧
        pickFrom replay ((gtSpins twoJ).map fun J => rho m.levelEnergy J P) g = .ok (i, g') := by
      unfold pickFrom
      by_cases h2 : ((gtSpins twoJ).map fun J => rho m.levelEnergy J P).length < 2
      · rw [if_pos h2]
        exact ⟨0, g, hlen, rfl⟩
      · rw [if_neg h2]
        obtain ⟨i, hi⟩ := pick_total hw hs (replay.draw g).1
        rw [hi]
        refine ⟨i, _, ?_, rfl⟩
        have := pick_lt ⟨hg0, hg1⟩ hi (by simpa using List.length_pos_iff.1 hlen)
        simpa using this
    obtain ⟨i, g', hi, h1⟩ := hfound
    refine ⟨(gtSpins twoJ)[i], List.getElem_mem hi, g', ?_⟩
    simp only [spinParity, hl, ht, hrho, hE, if_neg hJ, one_ne_zero, if_false, if_true, h1,
      List.getElem?_eq_getElem hi]

/-- The hypothesis of `C128_event` on spins holds for such transitions. -/
example {E : Env (List ℝ)} (hE : E.engine = replay) {n : Nuc} {m : MatEl}
    (hl : m.level = none) (ht : m.type = 1) {twoJ : Int} (hJ : 0 < twoJ) {P : Parity}
    {rho : ℝ → Int → Parity → ℝ} (hrho : E.density n.pdgD = .ok rho)
    (h0 : ∀ J, 0 < rho m.levelEnergy J P) :
    ∀ g, 0 ≤ (replay.draw g).1 → (replay.draw g).1 < 1 →
      ∃ J' P' g', spinParity E n m twoJ P g = .ok (J', P', g') := by
  obtain ⟨L, -, hL, h⟩ := C128_spin hE (n := n) hl ht hJ.ne' hrho fun J => (h0 J).le
  have hpos : 0 < (L.map fun J => rho m.levelEnergy J P).sum := by
    refine List.sum_pos _ (fun x hx => ?_) ?_
    · obtain ⟨J, -, rfl⟩ := List.mem_map.1 hx
      exact h0 J
    · have : twoJ + 2 ∈ L ∨ |twoJ - 2| ∈ L := by
        rw [hL, hL]
        rcases abs_cases (twoJ - 2) with h | h <;> omega
      intro hc
      rw [List.map_eq_nil_iff] at hc
      simp [hc] at this
  intro g hg0 hg1
  obtain ⟨J, -, g', h'⟩ := (h hpos).2 g hg0 hg1
  exact ⟨J, P, g', h'⟩

/-- A target of spin 3/2 and a level density that grows with the spin: spins 1/2, 3/2 and 5/2 come
as 1 to 3 to 5. -/
example : ∃ E : Env (List ℝ), E.engine = replay ∧ ∃ n : Nuc, ∀ rest,
    unit {u | ∃ g, spinParity E n ⟨7, 1, 1, none⟩ 3 ⟨true⟩ (u :: rest) = .ok (5, ⟨true⟩, g)}
      = ENNReal.ofReal (5 / 9) := by
  refine ⟨⟨exact, replay, 5, fun _ _ => .num 1, fun _ => .ok (3, ⟨true⟩),
    fun _ => .ok fun _ J _ => max 0 (J : ℝ)⟩, rfl, exNuc exElements, fun rest => ?_⟩
  obtain ⟨L, h1, h2, h3⟩ := C128_spin (E := ⟨exact, replay, 5, fun _ _ => .num 1,
    fun _ => .ok (3, ⟨true⟩), fun _ => .ok fun _ J _ => max 0 (J : ℝ)⟩) rfl (n := exNuc exElements)
    (m := ⟨7, 1, 1, none⟩) rfl rfl (twoJ := 3) (by norm_num) (P := ⟨true⟩)
    (rho := fun _ J _ => max 0 (J : ℝ)) rfl (fun J => le_max_left _ _)
  have hL : L.Perm [1, 3, 5] := by
    refine (List.perm_ext_iff_of_nodup h1 (by decide)).2 fun J => ?_
    rw [h2]
    simp only [List.mem_cons, List.not_mem_nil, or_false]
    norm_num
    omega
  have hsum : (L.map fun J : Int => max 0 (J : ℝ)).sum = 9 := by
    rw [(hL.map _).sum_eq]
    norm_num
  obtain ⟨h4, -⟩ := h3 (by rw [hsum]; norm_num)
  rw [h4 5 (hL.mem_iff.2 (by simp)) rest, hsum]
  norm_num

end Marley.Props
