import Verif.Spec.Rotation
import Mathlib.Tactic.FieldSimp
import Mathlib.Tactic.LinearCombination
import Mathlib.Tactic.Linarith

/-! Helper lemmas for rotation matrices. -/

set_option autoImplicit false

namespace Marley.Rot
open Marley Marley.Kin

theorem generic_isRotation {a b : V3} (ha : dot a a = 1) (hb : dot b b = 1)
    (h : 1 + dot a b ≠ 0) : IsRotation (genericMatrix a b) := by
  have hw : dot (cross a b) (cross a b) = 1 - dot a b ^ 2 := by
    simp only [dot, cross] at *
    linear_combination (b.x * b.x + b.y * b.y + b.z * b.z) * ha + hb
  simp only [genericMatrix]
  generalize hE : dot a b = e at *
  generalize cross a b = w at *
  have hh : 1 / (1 + e) * (1 + e) = 1 := by field_simp
  generalize 1 / (1 + e) = g at *
  have hg : g * dot w w = 1 - e := by
    rw [hw]; linear_combination (1 - e) * hh
  obtain ⟨wx, wy, wz⟩ := w
  simp only [dot] at hw hg
  constructor
  · intro v u
    simp only [rotate, dot]
    have k : g * (g * (wx * wx + wy * wy + wz * wz)) + 2 * e * g - 1 = 0 := by
      rw [hg]; linear_combination hh
    linear_combination (v.x * u.x + v.y * u.y + v.z * u.z) * hw +
      (wx * v.x + wy * v.y + wz * v.z) * (wx * u.x + wy * u.y + wz * u.z) * k
  · simp only [det, dot, cross]
    linear_combination (e + g * (wx * wx + wy * wy + wz * wz)) * hw + hg

theorem generic_maps {a b : V3} (ha : dot a a = 1) : rotate (genericMatrix a b) a = b := by
  simp only [genericMatrix]
  generalize 1 / (1 + dot a b) = g
  simp only [rotate, dot, cross] at *
  ext
  · dsimp only; linear_combination b.x * ha
  · dsimp only; linear_combination b.y * ha
  · dsimp only; linear_combination b.z * ha

/-- Reflection along `u`. -/
noncomputable def reflect (u v : V3) : V3 :=
  let k := 2 / dot u u * dot u v
  ⟨v.x - k * u.x, v.y - k * u.y, v.z - k * u.z⟩

theorem dot_self_pos {u : V3} (h : dot u u ≠ 0) : 0 < dot u u :=
  lt_of_le_of_ne (by simp only [dot]; nlinarith [sq_nonneg u.x, sq_nonneg u.y, sq_nonneg u.z])
    h.symm

theorem reflect_dot {u : V3} (h : dot u u ≠ 0) (v w : V3) :
    dot (reflect u v) (reflect u w) = dot v w := by
  have h2 : 2 / dot u u * dot u u = 2 := by field_simp
  simp only [reflect]
  generalize 2 / dot u u = c at *
  simp only [dot] at *
  linear_combination (c * (u.x * v.x + u.y * v.y + u.z * v.z) *
    (u.x * w.x + u.y * w.y + u.z * w.z)) * h2

/-- Reflection along the difference of two unit vectors exchanges them. -/
theorem reflect_sub {x a : V3} (hx : dot x x = 1) (ha : dot a a = 1)
    (h : dot (sub x a) (sub x a) ≠ 0) : reflect (sub x a) a = x ∧ reflect (sub x a) x = a := by
  have e1 : dot (sub x a) (sub x a) = 2 - 2 * dot x a := by
    simp only [dot, sub] at *; linear_combination hx + ha
  have e2 : dot (sub x a) a = -(dot (sub x a) (sub x a)) / 2 := by
    rw [e1]; simp only [dot, sub] at *; linear_combination -ha
  have e3 : dot (sub x a) x = dot (sub x a) (sub x a) / 2 := by
    rw [e1]; simp only [dot, sub] at *; linear_combination hx
  simp only [reflect]
  rw [e2, e3]
  generalize dot (sub x a) (sub x a) = d at *
  have k1 : 2 / d * (-d / 2) = -1 := by field_simp
  have k2 : 2 / d * (d / 2) = 1 := by field_simp
  rw [k1, k2]
  simp only [sub]
  constructor <;> ext <;> dsimp only <;> ring

theorem near_eq_reflect (a b v : V3) :
    rotate (nearMatrix a b) v = reflect (sub (axis a) b) (reflect (sub (axis a) a) v) := by
  simp only [nearMatrix, reflect]
  generalize sub (axis a) a = u
  generalize sub (axis a) b = w
  generalize 2 / dot u u = c1
  generalize 2 / dot w w = c2
  simp only [rotate, nearEntry, dot]
  ext <;> dsimp only <;> ring

theorem axis_unit (a : V3) : dot (axis a) (axis a) = 1 := by
  simp only [axis]
  split_ifs <;> simp [dot]

/-- The chosen axis is far from `a`. -/
theorem axis_dot {a : V3} (ha : dot a a = 1) : dot (axis a) a ^ 2 * 3 ≤ 1 := by
  simp only [dot] at ha
  simp only [axis]
  have q : ∀ x y : ℝ, |x| ≤ |y| → x ^ 2 ≤ y ^ 2 := fun x y h => sq_le_sq.2 h
  split_ifs with h1 h2 h2 <;> simp only [dot]
  · have := q _ _ h1.le; have := q _ _ h2.le; nlinarith
  · have := q _ _ (not_lt.1 h2); have := q _ _ ((not_lt.1 h2).trans h1.le); nlinarith
  · have := q _ _ h2.le; have := q _ _ (not_lt.1 h1); nlinarith
  · have := q _ _ (not_lt.1 h2); have := q _ _ ((not_lt.1 h2).trans (not_lt.1 h1)); nlinarith

theorem axis_sub_ne {a : V3} (ha : dot a a = 1) :
    dot (sub (axis a) a) (sub (axis a) a) ≠ 0 := by
  have h1 := axis_dot ha
  have h2 := axis_unit a
  have e1 : dot (sub (axis a) a) (sub (axis a) a) = 2 - 2 * dot (axis a) a := by
    simp only [dot, sub] at *; linear_combination h2 + ha
  rw [e1]; intro h; nlinarith

theorem eq_of_sub_zero {x b : V3} (h : dot (sub x b) (sub x b) = 0) : x = b := by
  simp only [dot, sub] at h
  ext <;> nlinarith [sq_nonneg (x.x - b.x), sq_nonneg (x.y - b.y), sq_nonneg (x.z - b.z)]

theorem axis_sub_ne' {a b : V3} (ha : dot a a = 1)
    (h : |dot a b| > 1 - 1 / 1000000) : dot (sub (axis a) b) (sub (axis a) b) ≠ 0 := by
  intro h0
  have h1 := axis_dot ha
  rw [← eq_of_sub_zero h0] at h
  have h2 : dot a (axis a) = dot (axis a) a := by simp only [dot]; ring
  rw [h2] at h
  rcases abs_cases (dot (axis a) a) with ⟨e, _⟩ | ⟨e, _⟩ <;> rw [e] at h <;> nlinarith

theorem near_maps {a b : V3} (ha : dot a a = 1) (hb : dot b b = 1)
    (h : |dot a b| > 1 - 1 / 1000000) : rotate (nearMatrix a b) a = b := by
  rw [near_eq_reflect, (reflect_sub (axis_unit a) ha (axis_sub_ne ha)).1,
    (reflect_sub (axis_unit a) hb (axis_sub_ne' ha h)).2]

theorem near_isRotation {a b : V3} (ha : dot a a = 1)
    (h : |dot a b| > 1 - 1 / 1000000) : IsRotation (nearMatrix a b) := by
  constructor
  · intro v w
    rw [near_eq_reflect, near_eq_reflect, reflect_dot (axis_sub_ne' ha h),
      reflect_dot (axis_sub_ne ha)]
  · have h1 := axis_sub_ne ha
    have h2 := axis_sub_ne' ha h
    simp only [nearMatrix]
    generalize sub (axis a) a = u at *
    generalize sub (axis a) b = w at *
    have k1 : 2 / dot u u * dot u u = 2 := by field_simp
    have k2 : 2 / dot w w * dot w w = 2 := by field_simp
    generalize 2 / dot u u = c1 at *
    generalize 2 / dot w w = c2 at *
    simp only [det, dot, cross, nearEntry] at *
    linear_combination (-(1 : ℝ)) * k1 + k2 +
      (c2 * (w.x * w.x + w.y * w.y + w.z * w.z)) * k1

theorem normalize_ok {v : V3} (h : ¬(v.x = 0 ∧ v.y = 0 ∧ v.z = 0)) :
    ∃ n : ℝ, 0 < n ∧ n ^ 2 = dot v v ∧ normalize v = .ok ⟨1 / n * v.x, 1 / n * v.y, 1 / n * v.z⟩ := by
  have h2 : 0 < v.x ^ 2 + v.y ^ 2 + v.z ^ 2 := by
    by_contra hn
    apply h
    refine ⟨?_, ?_, ?_⟩ <;> nlinarith [sq_nonneg v.x, sq_nonneg v.y, sq_nonneg v.z]
  have h3 : 0 < Real.sqrt (v.x ^ 2 + v.y ^ 2 + v.z ^ 2) := Real.sqrt_pos.2 h2
  refine ⟨_, h3, ?_, ?_⟩
  · rw [Real.sq_sqrt h2.le]; simp only [dot]; ring
  · simp only [normalize]; rw [if_neg (not_le.2 h3)]

theorem unit_of_scaled {v : V3} {n : ℝ} (h : 0 < n) (hn : n ^ 2 = dot v v) :
    dot (⟨1 / n * v.x, 1 / n * v.y, 1 / n * v.z⟩ : V3) ⟨1 / n * v.x, 1 / n * v.y, 1 / n * v.z⟩ = 1 := by
  simp only [dot] at *
  field_simp
  linarith

theorem rotate_scale (m : Mat) (k : ℝ) (v : V3) :
    rotate m ⟨k * v.x, k * v.y, k * v.z⟩ =
      ⟨k * (rotate m v).x, k * (rotate m v).y, k * (rotate m v).z⟩ := by
  simp only [rotate, dot]; ext <;> dsimp only <;> ring

end Marley.Rot
