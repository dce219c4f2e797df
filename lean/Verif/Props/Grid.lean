import Verif.Lemmas.Grid
import Mathlib.Tactic.NormNum
import Mathlib.Tactic.FieldSimp
import Mathlib.Tactic.Ring

/-!
# C13 to C15: interpolation grids

Specification.  `Increasing l`/`Sorted l` (abscissae strictly increase / do not
decrease) are defined in `Verif.Lemmas.Grid`.  An interpolation rule is given,
as in the ENDF-6 manual, by the scales on which the function is a straight line
between two neighbouring points: `scaleX` and `scaleY` are the identity or the
logarithm.
-/

set_option autoImplicit false

namespace Marley.Props
open Marley Marley.Grid

/-- Scale of the abscissa for each rule (ENDF-6 laws 2 to 5: linear-log means
"y is linear in ln x"). -/
noncomputable def scaleX : Interp → ℝ → ℝ
  | .linearLog, x => Real.log x
  | .logLog, x => Real.log x
  | _, x => x

/-- Scale of the ordinate for each rule. -/
noncomputable def scaleY : Interp → ℝ → ℝ
  | .logLinear, y => Real.log y
  | .logLog, y => Real.log y
  | _, y => y

/-- The data of the grid can be put on the scales of the rule. -/
def Representable (m : Interp) (l : Points) : Prop :=
  (m = .linearLog ∨ m = .logLog → ∀ p ∈ l, 0 < p.1) ∧
  (m = .logLinear ∨ m = .logLog → ∀ p ∈ l, 0 < p.2)

/-- `v` is the ordinate at `x` of the straight line, on the scales of the rule,
through two points. -/
def OnLine (m : Interp) (p1 p2 : ℝ × ℝ) (x v : ℝ) : Prop :=
  (scaleY m v - scaleY m p1.2) * (scaleX m p2.1 - scaleX m p1.1) =
    (scaleY m p2.2 - scaleY m p1.2) * (scaleX m x - scaleX m p1.1)

theorem scaleX_lt {m : Interp} {a b : ℝ} (h : a < b) (ha : m = .linearLog ∨ m = .logLog → 0 < a) :
    scaleX m a < scaleX m b := by
  cases m <;> simp only [scaleX] <;> try exact h
  · exact Real.log_lt_log (ha (.inl rfl)) h
  · exact Real.log_lt_log (ha (.inr rfl)) h

/-- The formula of the code gives the point on the line. -/
theorem formula_spec {m : Interp} (hm : m ≠ .constant) {l : Points} (hr : Representable m l)
    {p1 p2 : ℝ × ℝ} (h1 : p1 ∈ l) (h2 : p2 ∈ l) (hlt : p1.1 < p2.1) {x : ℝ}
    (hx : m = .linearLog ∨ m = .logLog → 0 < x) :
    ∃ v, formula m p1 p2 x = some v ∧ OnLine m p1 p2 x v ∧
      scaleY m v = scaleY m p1.2 + (scaleY m p2.2 - scaleY m p1.2) *
        ((scaleX m x - scaleX m p1.1) / (scaleX m p2.1 - scaleX m p1.1)) := by
  have hs := scaleX_lt (m := m) hlt (fun h => hr.1 h p1 h1)
  have hne : scaleX m p2.1 - scaleX m p1.1 ≠ 0 := by linarith
  have key : ∀ v : ℝ, scaleY m v = scaleY m p1.2 + (scaleY m p2.2 - scaleY m p1.2) *
        ((scaleX m x - scaleX m p1.1) / (scaleX m p2.1 - scaleX m p1.1)) → OnLine m p1 p2 x v := by
    intro v hv
    rw [OnLine, hv]; field_simp; ring
  have fl : ∀ {z : ℝ}, 0 < z → flog z = some (Real.log z) := fun hz => by rw [flog, if_pos hz]
  cases m with
  | constant => exact absurd rfl hm
  | linearLinear =>
    simp only [scaleX, scaleY] at *
    refine ⟨p1.2 + ((p2.2 - p1.2) / (p2.1 - p1.1)) * (x - p1.1), ?_, key _ ?_, ?_⟩
    · simp [formula, logX, logY, hne]
    · field_simp
    · field_simp
  | linearLog =>
    have a1 := hr.1 (.inl rfl) p1 h1
    have a2 := hr.1 (.inl rfl) p2 h2
    have a3 := hx (.inl rfl)
    simp only [scaleX, scaleY] at *
    refine ⟨p1.2 + ((p2.2 - p1.2) / (Real.log p2.1 - Real.log p1.1)) *
      (Real.log x - Real.log p1.1), ?_, key _ ?_, ?_⟩
    · simp [formula, logX, logY, hne, fl a1, fl a2, fl a3]
    · field_simp
    · field_simp
  | logLinear =>
    have a1 := hr.2 (.inl rfl) p1 h1
    have a2 := hr.2 (.inl rfl) p2 h2
    simp only [scaleX, scaleY] at *
    refine ⟨Real.exp (Real.log p1.2 + ((Real.log p2.2 - Real.log p1.2) / (p2.1 - p1.1)) *
      (x - p1.1)), ?_, key _ ?_, ?_⟩
    · simp [formula, logX, logY, hne, fl a1, fl a2]
    · rw [Real.log_exp]; field_simp
    · rw [Real.log_exp]; field_simp
  | logLog =>
    have a1 := hr.1 (.inr rfl) p1 h1
    have a2 := hr.1 (.inr rfl) p2 h2
    have a3 := hx (.inr rfl)
    have b1 := hr.2 (.inr rfl) p1 h1
    have b2 := hr.2 (.inr rfl) p2 h2
    simp only [scaleX, scaleY] at *
    refine ⟨Real.exp (Real.log p1.2 + ((Real.log p2.2 - Real.log p1.2) /
      (Real.log p2.1 - Real.log p1.1)) * (Real.log x - Real.log p1.1)), ?_, key _ ?_, ?_⟩
    · simp [formula, logX, logY, hne, fl a1, fl a2, fl a3, fl b1, fl b2]
    · rw [Real.log_exp]; field_simp
    · rw [Real.log_exp]; field_simp

/-- The formula at the ends of its bin. -/
theorem formula_ends {m : Interp} (hm : m ≠ .constant) {l : Points} (hr : Representable m l)
    {p1 p2 : ℝ × ℝ} (h1 : p1 ∈ l) (h2 : p2 ∈ l) (hlt : p1.1 < p2.1) :
    formula m p1 p2 p1.1 = some p1.2 ∧ formula m p1 p2 p2.1 = some p2.2 := by
  have hs := scaleX_lt (m := m) hlt (fun h => hr.1 h p1 h1)
  have hne : scaleX m p2.1 - scaleX m p1.1 ≠ 0 := by linarith
  have fl : ∀ {z : ℝ}, 0 < z → flog z = some (Real.log z) := fun hz => by rw [flog, if_pos hz]
  cases m with
  | constant => exact absurd rfl hm
  | linearLinear =>
    simp only [scaleX] at hne
    simp [formula, logX, logY, hne]
  | linearLog =>
    simp only [scaleX] at hne
    simp [formula, logX, logY, hne, fl (hr.1 (.inl rfl) p1 h1), fl (hr.1 (.inl rfl) p2 h2)]
  | logLinear =>
    simp only [scaleX] at hne
    simp [formula, logX, logY, hne, fl (hr.2 (.inl rfl) p1 h1), fl (hr.2 (.inl rfl) p2 h2),
      Real.exp_log (hr.2 (.inl rfl) p1 h1), Real.exp_log (hr.2 (.inl rfl) p2 h2)]
  | logLog =>
    simp only [scaleX] at hne
    simp [formula, logX, logY, hne, fl (hr.1 (.inr rfl) p1 h1), fl (hr.1 (.inr rfl) p2 h2),
      fl (hr.2 (.inr rfl) p1 h1), fl (hr.2 (.inr rfl) p2 h2),
      Real.exp_log (hr.2 (.inr rfl) p1 h1), Real.exp_log (hr.2 (.inr rfl) p2 h2)]

/-- Result of `interpolate` once the bin inside the grid is known. -/
theorem interpolate_inside {g : Marley.Grid.Grid} {x : ℝ} {i : Nat} {p1 p2 : ℝ × ℝ}
    (h : findBinLimits g.points x = .ok (false, i)) (h1 : g.points[i]? = some p1)
    (h2 : g.points[i + 1]? = some p2) :
    interpolate g x = .ok (inBin g.interp false p1 p2 x) := by
  simp [interpolate, h, h1, h2]

/-! ## C13 -/

/-- C13 (grid points), for the four rules other than the constant one: the
tabulated ordinate is returned at every grid abscissa.  Missing: the constant
rule, see `C13_constant_rule_fails`. -/
theorem C13_grid_points_partial (g : Marley.Grid.Grid) (hm : g.interp ≠ .constant)
    (hi : Increasing g.points) (h2 : 2 ≤ g.points.length) (hr : Representable g.interp g.points)
    (p : ℝ × ℝ) (hp : p ∈ g.points) : interpolate g p.1 = .ok (some p.2) := by
  obtain ⟨k, hk⟩ := List.mem_iff_getElem?.1 hp
  have hkl := (List.getElem?_eq_some_iff.1 hk).1
  have inside : ∀ p1 p2 x, inBin g.interp false p1 p2 x = formula g.interp p1 p2 x := by
    intro p1 p2 x; rw [inBin, if_neg hm]
  cases k with
  | zero =>
    obtain ⟨q, hq⟩ : ∃ q, g.points[0 + 1]? = some q := ⟨_, List.getElem?_eq_getElem (by omega)⟩
    have hlt := hi.lt hk hq (by omega)
    rcases bin_between hi hk hq (le_refl _) (le_of_lt hlt) with ⟨a, -⟩ | ⟨a, -⟩
    · rw [interpolate_inside a hk hq, inside,
        (formula_ends hm hr hp (List.mem_of_getElem? hq) hlt).1]
    · omega
  | succ k =>
    obtain ⟨q, hq⟩ : ∃ q, g.points[k]? = some q := ⟨_, List.getElem?_eq_getElem (by omega)⟩
    have hlt := hi.lt hq hk (by omega)
    rcases bin_between hi hq hk (le_of_lt hlt) (le_refl _) with ⟨a, -⟩ | ⟨-, a, -⟩
    · rw [interpolate_inside a hq hk, inside,
        (formula_ends hm hr (List.mem_of_getElem? hq) hp hlt).2]
    · linarith

/-- C13 (rules): between two neighbouring points every rule other than the
constant one returns the point of the straight line on the rule's scales. -/
theorem C13_rule_between_points (g : Marley.Grid.Grid) (hm : g.interp ≠ .constant)
    (hi : Increasing g.points) (hr : Representable g.interp g.points) (i : Nat) (p1 p2 : ℝ × ℝ)
    (h1 : g.points[i]? = some p1) (h2 : g.points[i + 1]? = some p2) (x : ℝ)
    (hx1 : p1.1 ≤ x) (hx2 : x ≤ p2.1) :
    ∃ v, interpolate g x = .ok (some v) ∧ OnLine g.interp p1 p2 x v := by
  have m1 := List.mem_of_getElem? h1
  have m2 := List.mem_of_getElem? h2
  have hlt := hi.lt h1 h2 (by omega)
  rcases bin_between hi h1 h2 hx1 hx2 with ⟨a, -⟩ | ⟨-, rfl, -⟩
  · have hx : g.interp = .linearLog ∨ g.interp = .logLog → 0 < x := fun h =>
      lt_of_lt_of_le (hr.1 h p1 m1) hx1
    obtain ⟨v, e1, e2, -⟩ := formula_spec hm hr m1 m2 hlt hx
    exact ⟨v, by rw [interpolate_inside a h1 h2, inBin, if_neg hm, e1], e2⟩
  · refine ⟨p1.2, C13_grid_points_partial g hm hi ?_ hr p1 m1, by simp [OnLine]⟩
    have := (List.getElem?_eq_some_iff.1 h2).1
    omega

/-- C13 (linear rule): the value lies between the ordinates of the neighbours. -/
theorem C13_linear_between_neighbours (g : Marley.Grid.Grid) (hm : g.interp = .linearLinear)
    (hi : Increasing g.points) (i : Nat) (p1 p2 : ℝ × ℝ)
    (h1 : g.points[i]? = some p1) (h2 : g.points[i + 1]? = some p2) (x : ℝ)
    (hx1 : p1.1 ≤ x) (hx2 : x ≤ p2.1) :
    ∃ v, interpolate g x = .ok (some v) ∧ min p1.2 p2.2 ≤ v ∧ v ≤ max p1.2 p2.2 ∧
      v = p1.2 + (p2.2 - p1.2) / (p2.1 - p1.1) * (x - p1.1) := by
  have hr : Representable g.interp g.points := by rw [hm]; constructor <;> simp
  obtain ⟨v, e, hv⟩ := C13_rule_between_points g (by rw [hm]; simp) hi hr i p1 p2 h1 h2 x hx1 hx2
  have hlt := hi.lt h1 h2 (by omega)
  have hd : 0 < p2.1 - p1.1 := by linarith
  simp only [OnLine, hm, scaleX, scaleY] at hv
  have hve : v = p1.2 + (p2.2 - p1.2) / (p2.1 - p1.1) * (x - p1.1) := by
    field_simp
    linarith
  refine ⟨v, e, ?_, ?_, hve⟩
  · rcases le_total p1.2 p2.2 with h | h
    · rw [min_eq_left h]; nlinarith
    · rw [min_eq_right h]; nlinarith
  · rcases le_total p1.2 p2.2 with h | h
    · rw [max_eq_right h]; nlinarith
    · rw [max_eq_left h]; nlinarith

/-- A grid for the examples. -/
noncomputable def sampleGrid (m : Interp) (e : Extrap) : Marley.Grid.Grid :=
  ⟨m, e, [(1, 5), (2, 7), (4, 3)]⟩

theorem sampleGrid_increasing (m : Interp) (e : Extrap) : Increasing (sampleGrid m e).points := by
  simp [sampleGrid, Increasing]; norm_num

theorem sampleGrid_representable (m : Interp) (e : Extrap) :
    Representable m (sampleGrid m e).points := by
  constructor <;> intro _ <;> simp [sampleGrid]

/-- The hypotheses of the theorems above hold for a three-point grid and every
rule; interpolation with the log-log rule at its second point. -/
example : interpolate (sampleGrid .logLog .throw) 2 = .ok (some 7) :=
  C13_grid_points_partial (sampleGrid .logLog .throw) (by simp [sampleGrid])
    (sampleGrid_increasing _ _) (by simp [sampleGrid]) (sampleGrid_representable _ _) (2, 7)
    (by simp [sampleGrid])

example : ∃ v, interpolate (sampleGrid .linearLinear .throw) 3 = .ok (some v) ∧
    min 7 3 ≤ v ∧ v ≤ max 7 3 ∧ v = 7 + (3 - 7) / (4 - 2) * (3 - 2) :=
  C13_linear_between_neighbours (sampleGrid .linearLinear .throw) rfl (sampleGrid_increasing _ _)
    1 (2, 7) (4, 3) (by simp [sampleGrid]) (by simp [sampleGrid]) 3 (by norm_num) (by norm_num)

/-- C13 with the constant rule: the ordinate of the left neighbour is returned
strictly between two points, and also at the right one of them. -/
theorem C13_constant_rule (g : Marley.Grid.Grid) (hm : g.interp = .constant)
    (hi : Increasing g.points) (i : Nat) (p1 p2 : ℝ × ℝ)
    (h1 : g.points[i]? = some p1) (h2 : g.points[i + 1]? = some p2) (x : ℝ)
    (hx1 : p1.1 < x ∨ i = 0 ∧ p1.1 = x) (hx2 : x ≤ p2.1) : interpolate g x = .ok (some p1.2) := by
  have hle : p1.1 ≤ x := by rcases hx1 with h | ⟨-, h⟩ <;> linarith
  rcases bin_between hi h1 h2 hle hx2 with ⟨a, -⟩ | ⟨a, b, -⟩
  · rw [interpolate_inside a h1 h2]; simp [inBin, hm]
  · rcases hx1 with h | ⟨h, -⟩
    · linarith
    · omega

/-- C13 fails with the constant rule: at every grid abscissa but the first, the
ordinate of the point before it is returned. -/
theorem C13_constant_rule_fails (g : Marley.Grid.Grid) (hm : g.interp = .constant)
    (hi : Increasing g.points) (i : Nat) (p1 p2 : ℝ × ℝ)
    (h1 : g.points[i]? = some p1) (h2 : g.points[i + 1]? = some p2) (hne : p1.2 ≠ p2.2) :
    interpolate g p2.1 ≠ .ok (some p2.2) := by
  rw [C13_constant_rule g hm hi i p1 p2 h1 h2 p2.1 (.inl (hi.lt h1 h2 (by omega))) (le_refl _)]
  intro h; exact hne (by simpa using h)

example : interpolate (sampleGrid .constant .throw) 2 ≠ .ok (some 7) :=
  C13_constant_rule_fails (sampleGrid .constant .throw) rfl (sampleGrid_increasing _ _) 0 (1, 5)
    (2, 7) (by simp [sampleGrid]) (by simp [sampleGrid]) (by norm_num)

/-! ## C14 -/

/-- What the property prescribes outside the range, for a point on the side of
the bin `p1`, `p2` and the endpoint ordinate `yEnd`; `none` is an exception. -/
noncomputable def outsideSpec (e : Extrap) (yEnd : ℝ) (cont : Option ℝ) : Res (Option ℝ) :=
  match e with
  | .zero => .ok (some 0)
  | .endpoint => .ok (some yEnd)
  | .throw => .error .marleyError
  | .continue => .ok cont

/-- C14, left of the range.  With the Continue rule the line of the first bin is
extended (the constant rule keeps the first ordinate). -/
theorem C14_left_of_range (g : Marley.Grid.Grid) (hs : Sorted g.points) (p1 p2 : ℝ × ℝ)
    (h1 : g.points[0]? = some p1) (h2 : g.points[1]? = some p2) (x : ℝ) (hx : x < p1.1) :
    (g.extrap ≠ .continue → interpolate g x = outsideSpec g.extrap p1.2 none) ∧
    (g.extrap = .continue → g.interp = .constant → interpolate g x = .ok (some p1.2)) ∧
    (g.extrap = .continue → g.interp ≠ .constant → Representable g.interp g.points →
      (g.interp = .linearLog ∨ g.interp = .logLog → 0 < x) → p1.1 < p2.1 →
      ∃ v, interpolate g x = .ok (some v) ∧ OnLine g.interp p1 p2 x v) := by
  have hlen : 1 < g.points.length := (List.getElem?_eq_some_iff.1 h2).1
  obtain ⟨ex, i, q1, q2, e, g1, g2, hc⟩ := bin_spec hs (by omega) x
  have hb : ex = true ∧ i = 0 := by
    rcases hc with ⟨-, a, -⟩ | ⟨a, b, -⟩ | ⟨-, a, b⟩
    · exfalso; have := hs.le h1 g1 (by omega); linarith
    · exact ⟨a, b⟩
    · exfalso; have := hs.le h1 g2 (by omega); linarith
  obtain ⟨rfl, rfl⟩ := hb
  rw [h1] at g1; cases g1
  rw [h2] at g2; cases g2
  refine ⟨?_, ?_, ?_⟩
  · intro hne
    cases hE : g.extrap <;> simp [interpolate, e, h1, h2, hE, outsideSpec, hx]
    exact absurd hE hne
  · intro hE hm
    simp [interpolate, e, h1, h2, hE, hm, inBin, hx]
  · intro hE hm hr hpos hlt
    obtain ⟨v, e1, e2, -⟩ := formula_spec hm hr (List.mem_of_getElem? h1)
      (List.mem_of_getElem? h2) hlt hpos
    exact ⟨v, by simp [interpolate, e, h1, h2, hE, hm, inBin, e1], e2⟩

/-- C14, right of the range.  With the Continue rule the line of the last bin is
extended (the constant rule keeps the last ordinate). -/
theorem C14_right_of_range (g : Marley.Grid.Grid) (hs : Sorted g.points) (k : Nat) (p1 p2 : ℝ × ℝ)
    (hk : k + 2 = g.points.length) (h1 : g.points[k]? = some p1) (h2 : g.points[k + 1]? = some p2)
    (x : ℝ) (hx : p2.1 < x) :
    (g.extrap ≠ .continue → interpolate g x = outsideSpec g.extrap p2.2 none) ∧
    (g.extrap = .continue → g.interp = .constant → interpolate g x = .ok (some p2.2)) ∧
    (g.extrap = .continue → g.interp ≠ .constant → Representable g.interp g.points →
      p1.1 < p2.1 →
      ∃ v, interpolate g x = .ok (some v) ∧ OnLine g.interp p1 p2 x v) := by
  obtain ⟨ex, i, q1, q2, e, g1, g2, hc⟩ := bin_spec hs (by omega) x
  have hle : p1.1 ≤ p2.1 := hs.le h1 h2 (by omega)
  have hb : ex = true ∧ i = k := by
    have hi := (List.getElem?_eq_some_iff.1 g2).1
    rcases hc with ⟨-, a, b, -⟩ | ⟨a, b, c⟩ | ⟨a, b, c⟩
    · exfalso; have := hs.le g2 h2 (by omega); linarith
    · exfalso; have := hs.le g1 h2 (by omega); linarith
    · exact ⟨a, by omega⟩
  obtain ⟨rfl, rfl⟩ := hb
  rw [h1] at g1; cases g1
  rw [h2] at g2; cases g2
  have hn : ¬ x < p1.1 := by linarith
  refine ⟨?_, ?_, ?_⟩
  · intro hne
    cases hE : g.extrap <;> simp [interpolate, e, h1, h2, hE, outsideSpec, hn]
    exact absurd hE hne
  · intro hE hm
    simp [interpolate, e, h1, h2, hE, hm, inBin, hn]
  · intro hE hm hr hlt
    have hpos : g.interp = .linearLog ∨ g.interp = .logLog → 0 < x := fun h =>
      lt_trans (hr.1 h p2 (List.mem_of_getElem? h2)) hx
    obtain ⟨v, e1, e2, -⟩ := formula_spec hm hr (List.mem_of_getElem? h1)
      (List.mem_of_getElem? h2) hlt hpos
    exact ⟨v, by simp [interpolate, e, h1, h2, hE, hm, inBin, e1], e2⟩

/-- C14, inside the range: the extrapolation rule has no influence. -/
theorem C14_inside_range (m : Interp) (e e' : Extrap) (l : Points) (hs : Sorted l) (k : Nat)
    (p q : ℝ × ℝ) (hk : k + 1 = l.length) (hp : l[0]? = some p) (hq : l[k]? = some q)
    (x : ℝ) (hx1 : p.1 ≤ x) (hx2 : x ≤ q.1) :
    interpolate ⟨m, e, l⟩ x = interpolate ⟨m, e', l⟩ x := by
  by_cases h2 : 2 ≤ l.length
  · obtain ⟨ex, i, q1, q2, h, g1, g2, hc⟩ := bin_spec hs h2 x
    have hi := (List.getElem?_eq_some_iff.1 g2).1
    have hb : ex = false := by
      rcases hc with ⟨a, -⟩ | ⟨-, rfl, c⟩ | ⟨-, b, c⟩
      · exact a
      · rw [g1] at hp; cases hp; exact absurd hx1 (not_le.2 c)
      · rw [show i + 1 = k by omega, hq] at g2; cases g2; exact absurd hx2 (not_le.2 c)
    subst hb
    rw [interpolate_inside (g := ⟨m, e, l⟩) h g1 g2, interpolate_inside (g := ⟨m, e', l⟩) h g1 g2]
  · simp [interpolate, findBinLimits, show l.length < 2 by omega]

/-- C14: fewer than two points is an error whatever the rules. -/
theorem C14_too_few_points (g : Marley.Grid.Grid) (h : g.points.length < 2) (x : ℝ) :
    interpolate g x = .error .marleyError := by
  simp [interpolate, findBinLimits, h]

theorem sampleGrid_sorted (m : Interp) (e : Extrap) : Sorted (sampleGrid m e).points :=
  (sampleGrid_increasing m e).sorted

example : interpolate (sampleGrid .logLog .endpoint) 9 = .ok (some 3) :=
  (C14_right_of_range (sampleGrid .logLog .endpoint) (sampleGrid_sorted _ _) 1 (2, 7) (4, 3)
    (by simp [sampleGrid]) (by simp [sampleGrid]) (by simp [sampleGrid]) 9 (by norm_num)).1
    (by simp [sampleGrid])

example : interpolate (sampleGrid .linearLinear .throw) 0 = .error .marleyError :=
  (C14_left_of_range (sampleGrid .linearLinear .throw) (sampleGrid_sorted _ _) (1, 5) (2, 7)
    (by simp [sampleGrid]) (by simp [sampleGrid]) 0 (by norm_num)).1 (by simp [sampleGrid])

example : ∃ v, interpolate (sampleGrid .linearLinear .continue) 0 = .ok (some v) ∧
    OnLine .linearLinear (1, 5) (2, 7) 0 v :=
  (C14_left_of_range (sampleGrid .linearLinear .continue) (sampleGrid_sorted _ _) (1, 5) (2, 7)
    (by simp [sampleGrid]) (by simp [sampleGrid]) 0 (by norm_num)).2.2 rfl (by simp [sampleGrid])
    (sampleGrid_representable _ _) (by simp [sampleGrid]) (by norm_num)

example : interpolate (sampleGrid .logLog .zero) 3 = interpolate (sampleGrid .logLog .throw) 3 :=
  C14_inside_range .logLog .zero .throw [(1, 5), (2, 7), (4, 3)] (sampleGrid_sorted .logLog .zero)
    2 (1, 5) (4, 3) (by simp) (by simp) (by simp) 3 (by norm_num) (by norm_num)

/-- Departure from the documentation (InterpolationGrid.hh:74-94): with the
constant and the Continue rules the value right of the range is the last
ordinate, not the constant of the last bin. -/
theorem C14_continue_constant_right_fails (g : Marley.Grid.Grid) (hs : Sorted g.points) (k : Nat)
    (p1 p2 : ℝ × ℝ) (hk : k + 2 = g.points.length) (h1 : g.points[k]? = some p1)
    (h2 : g.points[k + 1]? = some p2) (hE : g.extrap = .continue) (hm : g.interp = .constant)
    (hne : p1.2 ≠ p2.2) (x : ℝ) (hx : p2.1 < x) : interpolate g x ≠ .ok (some p1.2) := by
  rw [(C14_right_of_range g hs k p1 p2 hk h1 h2 x hx).2.1 hE hm]
  intro h; exact hne (by simpa using h.symm)

example : interpolate (sampleGrid .constant .continue) 9 ≠ .ok (some 7) :=
  C14_continue_constant_right_fails (sampleGrid .constant .continue) (sampleGrid_sorted _ _) 1
    (2, 7) (4, 3) (by simp [sampleGrid]) (by simp [sampleGrid]) (by simp [sampleGrid]) rfl rfl
    (by norm_num) 9 (by norm_num)

/-! ## C15 -/

/-- C15 as stated, for the constructor from vectors. -/
def ConstructorChecksOrder : Prop :=
  ∀ (xs ys : List ℝ) (i : Interp) (e : Extrap),
    (¬ (xs.length = ys.length ∧ xs.Pairwise (· < ·))) → ofVectors xs ys i e = .error .marleyError

theorem ofVectorsLoop_none (xs ys : List ℝ) (h : xs.length = ys.length) :
    ofVectorsLoop none xs ys = .ok (xs.zip ys) := by
  induction xs generalizing ys with
  | nil => simp [ofVectorsLoop]
  | cons x xs ih =>
    cases ys with
    | nil => simp at h
    | cons y ys => simp [ofVectorsLoop, ih ys (by simpa using h)]

/-- C15 (constructor), the part that holds: vectors of unequal lengths are
rejected; vectors of equal lengths give the grid of their pairs in the given
order. -/
theorem C15_constructor_partial (xs ys : List ℝ) (i : Interp) (e : Extrap) :
    (xs.length ≠ ys.length → ofVectors xs ys i e = .error .marleyError) ∧
    (xs.length = ys.length → ofVectors xs ys i e = .ok ⟨i, e, xs.zip ys⟩) := by
  constructor
  · intro h; rw [ofVectors, if_pos h]
  · intro h; rw [ofVectors, if_neg (by simpa using h), ofVectorsLoop_none xs ys h]

/-- C15 fails: unordered abscissae are accepted. -/
theorem C15_constructor_unordered_fails : ¬ ConstructorChecksOrder ∧
    ofVectors [2, 1] [0, 0] .linearLinear .zero = .ok ⟨.linearLinear, .zero, [(2, 0), (1, 0)]⟩ := by
  have h : ofVectors [2, 1] [0, 0] .linearLinear .zero =
      .ok ⟨.linearLinear, .zero, [(2, 0), (1, 0)]⟩ := (C15_constructor_partial _ _ _ _).2 rfl
  refine ⟨fun H => ?_, h⟩
  have := H [2, 1] [0, 0] .linearLinear .zero (by simp)
  rw [h] at this; cases this

theorem insert_spec {l : Points} (hs : Sorted l) (x y : ℝ) :
    ∃ a b, l = a ++ b ∧ Marley.Grid.insert l x y = a ++ (x, y) :: b ∧ (∀ p ∈ a, p.1 ≤ x) ∧
      (∀ p ∈ b, x < p.1) := by
  obtain ⟨a, b, e, ha, hb, hk⟩ := Std.lowerBound_split (fun p : ℝ × ℝ => !decide (x < p.1)) l
    (hs.imp (fun {p q} hpq h => by
      simp only [Bool.not_eq_true', decide_eq_false_iff_not, not_lt] at h ⊢
      exact le_trans hpq h))
  simp only [Bool.not_eq_true', decide_eq_false_iff_not, not_lt] at ha
  simp only [Bool.not_eq_false', decide_eq_true_eq] at hb
  refine ⟨a, b, e, ?_, ha, hb⟩
  rw [Marley.Grid.insert, show Std.upperBound (fun p : ℝ × ℝ => decide (x < p.1)) l = a.length
    from hk, e]
  clear hk ha e
  induction a with
  | nil => simp
  | cons c a ih => simp [ih]

/-- C15 (insertion): one insertion keeps a sorted grid sorted, adds exactly the
new point and puts it after the points with the same abscissa. -/
theorem C15_insert (l : Points) (hs : Sorted l) (x y : ℝ) :
    Sorted (Marley.Grid.insert l x y) ∧ (Marley.Grid.insert l x y).Perm ((x, y) :: l) ∧
    ((Marley.Grid.insert l x y).filter (fun p => decide (p.1 = x))) =
      l.filter (fun p => decide (p.1 = x)) ++ [(x, y)] := by
  obtain ⟨a, b, e, e2, ha, hb⟩ := insert_spec hs x y
  rw [e2]
  refine ⟨?_, ?_, ?_⟩
  · rw [e] at hs
    obtain ⟨h1, h2, h3⟩ := List.pairwise_append.1 hs
    refine List.pairwise_append.2 ⟨h1, List.pairwise_cons.2 ⟨fun q hq => le_of_lt (hb q hq), h2⟩, ?_⟩
    intro p hp q hq
    rcases List.mem_cons.1 hq with rfl | hq
    · exact ha p hp
    · exact h3 p hp q hq
  · rw [e]; exact List.perm_middle
  · have : b.filter (fun p => decide (p.1 = x)) = [] := by
      rw [List.filter_eq_nil_iff]
      intro p hp
      have := hb p hp
      simp; intro h; linarith
    rw [e]; simp [List.filter_append, this]

/-- C15 (insertion): whatever the order of insertion, the grid is sorted by
abscissa and holds exactly the inserted points. -/
theorem C15_insert_all (ps : Points) : Sorted (insertAll ps) ∧ (insertAll ps).Perm ps := by
  have : ∀ (ps l : Points), Sorted l →
      Sorted (ps.foldl (fun l p => Marley.Grid.insert l p.1 p.2) l) ∧
      (ps.foldl (fun l p => Marley.Grid.insert l p.1 p.2) l).Perm (l ++ ps) := by
    intro ps
    induction ps with
    | nil => intro l h; simp [h]
    | cons p ps ih =>
      intro l h
      obtain ⟨i1, i2, -⟩ := C15_insert l h p.1 p.2
      obtain ⟨j1, j2⟩ := ih _ i1
      exact ⟨j1, j2.trans ((i2.append_right ps).trans List.perm_middle.symm)⟩
  have h := this ps [] List.Pairwise.nil
  exact ⟨h.1, by simpa [insertAll] using h.2⟩

example : Sorted [((1 : ℝ), (5 : ℝ)), (3, 4)] ∧ (insertAll [(3, 4), (1, 5), (3, 6)]).length = 3 := by
  refine ⟨by simp [Sorted], ?_⟩
  exact (C15_insert_all _).2.length_eq

end Marley.Props
