import Verif.Lemmas.Points
import Verif.Model.Utils
import Verif.Spec.ExactEnv
import Mathlib.Tactic.Linarith
import Mathlib.Tactic.LinearCombination
import Mathlib.Tactic.Positivity
import Mathlib.Tactic.FieldSimp
import Mathlib.Analysis.Real.Sqrt

/-! Euclidean geometry of `V3 ℝ`. -/

namespace Geom3d

section
variable {K : Type} [Field K]

theorem V3.dot_comm (a b : V3 K) : a.dot b = b.dot a := by simp only [V3.dot]; ring
theorem V3.dot_add (a b c : V3 K) : a.dot (b + c) = a.dot b + a.dot c := by simp [V3.dot]; ring
theorem V3.add_dot (a b c : V3 K) : (a + b).dot c = a.dot c + b.dot c := by simp [V3.dot]; ring
theorem V3.dot_sub (a b c : V3 K) : a.dot (b - c) = a.dot b - a.dot c := by simp [V3.dot]; ring
theorem V3.sub_dot (a b c : V3 K) : (a - b).dot c = a.dot c - b.dot c := by simp [V3.dot]; ring
theorem V3.smul_dot (s : K) (a b : V3 K) : (s • a).dot b = s * a.dot b := by simp [V3.dot]; ring
theorem V3.dot_smul (s : K) (a b : V3 K) : a.dot (s • b) = s * a.dot b := by simp [V3.dot]; ring
theorem V3.neg_dot (a b : V3 K) : (-a).dot b = -a.dot b := by simp [V3.dot]; ring
theorem V3.dot_neg (a b : V3 K) : a.dot (-b) = -a.dot b := by simp [V3.dot]; ring
theorem V3.rmul_eq (a : V3 K) (s : K) : a * s = s • a := LawfulPoint.right (K := K) a s
theorem V3.lmul_eq (a : V3 K) (s : K) : s * a = s • a := rfl
theorem V3.zero_dot (a : V3 K) : (0 : V3 K).dot a = 0 := by simp [V3.dot]
theorem V3.dot_zero (a : V3 K) : a.dot 0 = 0 := by simp [V3.dot]

/-- Lagrange's identity. -/
theorem V3.lagrange (a b : V3 K) : (a.cross b).dot (a.cross b) = a.dot a * b.dot b - a.dot b ^ 2 := by
  simp only [V3.dot, V3.cross]; ring
theorem V3.dot_cross_left (a b : V3 K) : a.dot (a.cross b) = 0 := by simp only [V3.dot, V3.cross]; ring
theorem V3.dot_cross_right (a b : V3 K) : b.dot (a.cross b) = 0 := by simp only [V3.dot, V3.cross]; ring
end

section
variable {K : Type} [Field K] [LinearOrder K] [IsStrictOrderedRing K]

theorem V3.dot_self_nonneg (a : V3 K) : 0 ≤ a.dot a := by
  simp only [V3.dot]; nlinarith [mul_self_nonneg a.x, mul_self_nonneg a.y, mul_self_nonneg a.z]

theorem V3.dot_self_eq_zero {a : V3 K} (h : a.dot a = 0) : a = 0 := by
  simp only [V3.dot] at h
  have hx := mul_self_nonneg a.x
  have hy := mul_self_nonneg a.y
  have hz := mul_self_nonneg a.z
  ext
  · exact mul_self_eq_zero.1 (by linarith)
  · exact mul_self_eq_zero.1 (by linarith)
  · exact mul_self_eq_zero.1 (by linarith)

theorem V3.dot_self_pos {a : V3 K} (h : a ≠ 0) : 0 < a.dot a :=
  lt_of_le_of_ne (V3.dot_self_nonneg a) (fun h' => h (V3.dot_self_eq_zero h'.symm))

/-- Cauchy–Schwarz. -/
theorem V3.cauchy (a b : V3 K) : a.dot b ^ 2 ≤ a.dot a * b.dot b := by
  have := V3.dot_self_nonneg (a.cross b)
  rw [V3.lagrange] at this
  linarith
end

theorem V3.length_eq (a : V3 ℝ) : a.length = Real.sqrt (a.dot a) := rfl
theorem V3.length_nonneg (a : V3 ℝ) : 0 ≤ a.length := Real.sqrt_nonneg _
theorem V3.length_sq (a : V3 ℝ) : a.length ^ 2 = a.dot a := Real.sq_sqrt (V3.dot_self_nonneg a)
theorem V3.length_mul_self (a : V3 ℝ) : a.length * a.length = a.dot a := Real.mul_self_sqrt (V3.dot_self_nonneg a)

theorem V3.length_zero : (0 : V3 ℝ).length = 0 := by rw [V3.length_eq, V3.zero_dot, Real.sqrt_zero]

theorem V3.length_eq_zero {a : V3 ℝ} (h : a.length = 0) : a = 0 := by
  apply V3.dot_self_eq_zero
  rw [← V3.length_mul_self, h, zero_mul]

theorem V3.length_pos {a : V3 ℝ} (h : a ≠ 0) : 0 < a.length :=
  lt_of_le_of_ne (V3.length_nonneg a) (fun h' => h (V3.length_eq_zero h'.symm))

theorem V3.length_smul (s : ℝ) (a : V3 ℝ) : (s • a).length = |s| * a.length := by
  rw [V3.length_eq, V3.length_eq, V3.smul_dot, V3.dot_smul, ← mul_assoc, Real.sqrt_mul (mul_self_nonneg s),
    Real.sqrt_mul_self_eq_abs]

theorem V3.length_le_iff {a b : V3 ℝ} : a.length ≤ b.length ↔ a.dot a ≤ b.dot b := by
  rw [V3.length_eq, V3.length_eq, Real.sqrt_le_sqrt_iff (V3.dot_self_nonneg b)]

theorem V3.dot_le (a b : V3 ℝ) : a.dot b ≤ a.length * b.length := by
  apply le_of_sq_le_sq _ (mul_nonneg (V3.length_nonneg a) (V3.length_nonneg b))
  rw [mul_pow, V3.length_sq, V3.length_sq]
  exact V3.cauchy a b

theorem V3.length_add_le (a b : V3 ℝ) : (a + b).length ≤ a.length + b.length := by
  apply le_of_sq_le_sq _ (add_nonneg (V3.length_nonneg a) (V3.length_nonneg b))
  rw [V3.length_sq]
  have := V3.dot_le a b
  have h1 := V3.length_sq a
  have h2 := V3.length_sq b
  have : (a + b).dot (a + b) = a.dot a + 2 * a.dot b + b.dot b := by simp only [V3.dot, V3.add_x, V3.add_y, V3.add_z]; ring
  nlinarith

theorem V3.length_neg (a : V3 ℝ) : (-a).length = a.length := by
  rw [V3.length_eq, V3.length_eq, V3.neg_dot, V3.dot_neg, neg_neg]

theorem V3.distance_comm (a b : V3 ℝ) : a.distance b = b.distance a := by
  unfold V3.distance
  rw [← V3.length_neg, neg_sub]

theorem V3.distance_triangle (a b c : V3 ℝ) : a.distance c ≤ a.distance b + b.distance c := by
  unfold V3.distance
  have := V3.length_add_le (a - b) (b - c)
  rwa [sub_add_sub_cancel] at this

theorem V3.distance_nonneg (a b : V3 ℝ) : 0 ≤ a.distance b := V3.length_nonneg _
theorem V3.distance_self (a : V3 ℝ) : a.distance a = 0 := by unfold V3.distance; rw [sub_self, V3.length_zero]

end Geom3d
