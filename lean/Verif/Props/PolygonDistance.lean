import Verif.Props.PatchDeviation
import Verif.Props.Float
import Mathlib.Tactic.IntervalCases

/-! # C153: how far a Bézier curve is from its control polygon -/

set_option linter.unusedSectionVars false

namespace Geom3d
open Spec F64 Deviation

/-- The point of the control polygon at `k + r`: on the leg from control point `k` to control point `k + 1`. -/
noncomputable def Spec.legPoint (P : Nat → V3 ℝ) (k : Nat) (r : ℝ) : V3 ℝ := P k + r • (P (k + 1) - P k)

/-- The distance of a parabola of second difference 1 from its control polygon. -/
noncomputable def Spec.polygonGap (n : Nat) (u r : ℝ) : ℝ := (n * u * (1 - u) - r * (1 - r)) / 2

namespace Legs

theorem forward {Q : Nat → V3 ℝ} {A : ℝ} {m : Nat} (h : ∀ j, j + 2 ≤ m → (Q (j + 2) - (2 : ℝ) • Q (j + 1) + Q j).length ≤ A)
    (j : Nat) (hj : j + 1 ≤ m) :
    (Q (j + 1) - Q j - (Q 1 - Q 0)).length ≤ A * j ∧ (Q j - (Q 0 + (j : ℝ) • (Q 1 - Q 0))).length ≤ A / 2 * (j * (j - 1)) := by
  induction j with
  | zero =>
    constructor
    · rw [zero_add, sub_self, V3.length_eq]; simp [V3.dot]
    · rw [Nat.cast_zero, zero_smul, add_zero, sub_self, V3.length_eq]; simp [V3.dot]
  | succ j ih =>
    obtain ⟨h1, h2⟩ := ih (by omega)
    constructor
    · have := V3.length_add_le (Q (j + 2) - (2 : ℝ) • Q (j + 1) + Q j) (Q (j + 1) - Q j - (Q 1 - Q 0))
      rw [show Q (j + 2) - (2 : ℝ) • Q (j + 1) + Q j + (Q (j + 1) - Q j - (Q 1 - Q 0)) = Q (j + 1 + 1) - Q (j + 1) - (Q 1 - Q 0) by
        module] at this
      have := h j (by omega)
      push_cast
      linarith
    · have := V3.length_add_le (Q j - (Q 0 + (j : ℝ) • (Q 1 - Q 0))) (Q (j + 1) - Q j - (Q 1 - Q 0))
      rw [show Q j - (Q 0 + (j : ℝ) • (Q 1 - Q 0)) + (Q (j + 1) - Q j - (Q 1 - Q 0)) =
        Q (j + 1) - (Q 0 + ((j : ℝ) + 1) • (Q 1 - Q 0)) by module] at this
      push_cast
      nlinarith

theorem forward_last {Q : Nat → V3 ℝ} {A : ℝ} {m : Nat}
    (h : ∀ j, j + 2 ≤ m → (Q (j + 2) - (2 : ℝ) • Q (j + 1) + Q j).length ≤ A) (j : Nat) (hj : j ≤ m) :
    (Q j - (Q 0 + (j : ℝ) • (Q 1 - Q 0))).length ≤ A / 2 * (j * (j - 1)) := by
  cases j with
  | zero => rw [Nat.cast_zero, zero_smul, add_zero, sub_self, V3.length_eq]; simp [V3.dot]
  | succ j =>
    obtain ⟨h1, h2⟩ := forward h j hj
    have := V3.length_add_le (Q j - (Q 0 + (j : ℝ) • (Q 1 - Q 0))) (Q (j + 1) - Q j - (Q 1 - Q 0))
    rw [show Q j - (Q 0 + (j : ℝ) • (Q 1 - Q 0)) + (Q (j + 1) - Q j - (Q 1 - Q 0)) =
      Q (j + 1) - (Q 0 + ((j : ℝ) + 1) • (Q 1 - Q 0)) by module] at this
    push_cast
    nlinarith

/-- The control points and the straight line through one leg. -/
theorem off_line {P : Nat → V3 ℝ} {A : ℝ} {n : Nat} (h : ∀ i, i + 2 ≤ n → (P (i + 2) - (2 : ℝ) • P (i + 1) + P i).length ≤ A)
    {k i : Nat} (hk : k + 1 ≤ n) (hi : i ≤ n) :
    (P i - legPoint P k (i - k)).length ≤ A / 2 * ((i - k) * (i - k - 1)) := by
  unfold legPoint
  rcases Nat.lt_or_ge i (k + 1) with hlt | hge
  · have := forward_last (Q := fun j => P (k + 1 - j)) (A := A) (m := k + 1) (by
      intro l hl
      have := h (k + 1 - (l + 2)) (by omega)
      rw [show k + 1 - (l + 2) + 2 = k + 1 - l by omega, show k + 1 - (l + 2) + 1 = k + 1 - (l + 1) by omega] at this
      rw [show P (k + 1 - (l + 2)) - (2 : ℝ) • P (k + 1 - (l + 1)) + P (k + 1 - l) =
        P (k + 1 - l) - (2 : ℝ) • P (k + 1 - (l + 1)) + P (k + 1 - (l + 2)) by module]
      exact this) (k + 1 - i) (by omega)
    simp only [Nat.sub_zero, show k + 1 - (k + 1 - i) = i by omega, Nat.add_sub_cancel] at this
    rw [Nat.cast_sub (by omega)] at this
    push_cast at this
    rw [show P k + ((i : ℝ) - k) • (P (k + 1) - P k) = P (k + 1) + ((k : ℝ) + 1 - i) • (P k - P (k + 1)) by module]
    refine this.trans (le_of_eq (by ring))
  · obtain ⟨j, rfl⟩ : ∃ j, i = k + j := ⟨i - k, by omega⟩
    have := forward_last (Q := fun j => P (k + j)) (A := A) (m := n - k) (fun l hl => h (k + l) (by omega)) j (by omega)
    simp only [add_zero] at this
    push_cast
    rw [show ((k : ℝ) + j - k) = j by ring]
    exact this

theorem variance (n : Nat) (u : ℝ) :
    ∑ i ∈ Finset.range (n + 1), bernsteinPoly n i u * (n * u - i) ^ 2 = n * u * (1 - u) := by
  have := congrArg (Polynomial.eval u) (bernsteinPolynomial.variance (R := ℝ) n)
  simp only [Polynomial.eval_finsetSum, Polynomial.eval_mul, Polynomial.eval_pow, Polynomial.eval_sub, Polynomial.eval_natCast,
    nsmul_eq_mul, Polynomial.eval_X, Polynomial.eval_one] at this
  rw [← this]
  exact Finset.sum_congr rfl fun i _ => by rw [bernsteinPoly_eval]; ring

theorem mean (n : Nat) (u : ℝ) : ∑ i ∈ Finset.range (n + 1), bernsteinPoly n i u * (i : ℝ) = n * u := by
  have := congrArg (Polynomial.eval u) (bernsteinPolynomial.sum_smul (R := ℝ) n)
  simp only [Polynomial.eval_finsetSum, Polynomial.eval_mul, Polynomial.eval_natCast, nsmul_eq_mul, Polynomial.eval_X] at this
  rw [← this]
  exact Finset.sum_congr rfl fun i _ => by rw [bernsteinPoly_eval]; ring

theorem gap_sum {n k : Nat} {u r : ℝ} (hu : (k : ℝ) + r = n * u) :
    ∑ i ∈ Finset.range (n + 1), bernsteinPoly n i u * ((i - k) * (i - k - 1) / 2) = polygonGap n u r := by
  have e : ∀ i : Nat, bernsteinPoly n i u * (((i : ℝ) - k) * (i - k - 1) / 2) =
      1 / 2 * (bernsteinPoly n i u * (n * u - i) ^ 2) + (r - 1 / 2) * (bernsteinPoly n i u * i) +
        (((k : ℝ) ^ 2 + k - (n * u) ^ 2) / 2) * bernsteinPoly n i u := by
    intro i
    rw [← hu]
    ring
  simp only [e, Finset.sum_add_distrib, ← Finset.mul_sum, variance, mean, bern_sum_one]
  unfold polygonGap
  rw [← hu]
  ring

/-- The curve and the leg, as a sum over the control points. -/
theorem sub_leg (P : Nat → V3 ℝ) {n k : Nat} {u r : ℝ} (hu : (k : ℝ) + r = n * u) :
    (∑ i ∈ Finset.range (n + 1), bernsteinPoly n i u • P i) - legPoint P k r =
      ∑ i ∈ Finset.range (n + 1), bernsteinPoly n i u • (P i - legPoint P k (i - k)) := by
  have e : ∀ i : Nat, bernsteinPoly n i u • (P i - legPoint P k (i - k)) =
      bernsteinPoly n i u • P i - (bernsteinPoly n i u • (P k - (k : ℝ) • (P (k + 1) - P k)) +
        (bernsteinPoly n i u * i) • (P (k + 1) - P k)) := by
    intro i
    unfold legPoint
    module
  simp only [e, Finset.sum_sub_distrib, Finset.sum_add_distrib, ← Finset.sum_smul, mean, bern_sum_one]
  unfold legPoint
  rw [← hu]
  module

theorem length_sum_le (s : Finset Nat) (f : Nat → V3 ℝ) : (∑ i ∈ s, f i).length ≤ ∑ i ∈ s, (f i).length := by
  classical
  induction s using Finset.induction_on with
  | empty => rw [Finset.sum_empty, Finset.sum_empty, V3.length_eq]; simp [V3.dot]
  | insert a s ha ih =>
    rw [Finset.sum_insert ha, Finset.sum_insert ha]
    exact (V3.length_add_le _ _).trans (by linarith)

theorem gap_le {n : Nat} {u r : ℝ} (hr0 : 0 ≤ r) (hr1 : r ≤ 1) : polygonGap n u r ≤ n / 8 := by
  unfold polygonGap
  have : (0 : ℝ) ≤ n := Nat.cast_nonneg n
  have h1 : 0 ≤ r * (1 - r) := mul_nonneg hr0 (by linarith)
  nlinarith [mul_nonneg this (sq_nonneg (u - 1 / 2))]

end Legs

open Legs

/-- **C153** The point of a Bézier curve at `u` is within `A (n u (1 - u) - r (1 - r)) / 2` of the point of the control polygon
at `n u = k + r`, `A` a bound of the second differences of the control points; that is at most `n A / 8`. As `k + r` runs
through the polygon `u` runs through `[0, 1]`: no point of the curve is farther from the polygon, no point of the polygon
farther from the curve. -/
theorem C153_polygon {c : BezierCurve (V3 ℝ)} {n : Nat} (hl : c.controlPoints.length = n + 1) {A : ℝ} (hA : 0 ≤ A)
    (h : ∀ i, i + 2 ≤ n →
      (cp c.controlPoints (i + 2) - (2 : ℝ) • cp c.controlPoints (i + 1) + cp c.controlPoints i).length ≤ A)
    {k : Nat} (hk : k + 1 ≤ n) {u r : ℝ} (hr0 : 0 ≤ r) (hr1 : r ≤ 1) (hu : (k : ℝ) + r = n * u) :
    ∃ x, c.getPoint u = .ok x ∧ x.distance (legPoint (cp c.controlPoints) k r) ≤ A * polygonGap n u r ∧
      A * polygonGap n u r ≤ n * A / 8 := by
  have hn : (0 : ℝ) < n := by exact_mod_cast (show 0 < n by omega)
  have hk' : (k : ℝ) + 1 ≤ n := by exact_mod_cast hk
  have hu0 : 0 ≤ u := by
    by_contra hlt
    have : (n : ℝ) * u < 0 := mul_neg_of_pos_of_neg hn (not_le.mp hlt)
    have : (0 : ℝ) ≤ k := Nat.cast_nonneg k
    linarith
  have hu1 : u ≤ 1 := by
    by_contra hlt
    have := mul_lt_mul_of_pos_left (not_le.mp hlt) hn
    linarith
  refine ⟨_, bezier_getPoint c (by omega) u, ?_, ?_⟩
  · rw [hl, Nat.add_sub_cancel]
    unfold V3.distance
    rw [sub_leg _ hu]
    refine (length_sum_le _ _).trans ?_
    rw [← gap_sum hu, Finset.mul_sum]
    apply Finset.sum_le_sum
    intro i hi
    have hi' : i ≤ n := by simpa [Nat.lt_succ_iff] using hi
    have hb : 0 ≤ bernsteinPoly n i u := by
      unfold bernsteinPoly
      have : 0 ≤ 1 - u := by linarith
      positivity
    rw [V3.length_smul, abs_of_nonneg hb]
    have := mul_le_mul_of_nonneg_left (off_line h hk hi') hb
    refine this.trans (le_of_eq (by ring))
  · have := mul_le_mul_of_nonneg_left (gap_le (n := n) (u := u) hr0 hr1) hA
    linarith

/-- **C153** Every point of the curve over the unit interval has such a point of the polygon. -/
theorem C153_curve {c : BezierCurve (V3 ℝ)} {n : Nat} (hl : c.controlPoints.length = n + 1) (hn : 1 ≤ n) {A : ℝ} (hA : 0 ≤ A)
    (h : ∀ i, i + 2 ≤ n →
      (cp c.controlPoints (i + 2) - (2 : ℝ) • cp c.controlPoints (i + 1) + cp c.controlPoints i).length ≤ A)
    {u : ℝ} (hu0 : 0 ≤ u) (hu1 : u ≤ 1) :
    ∃ x k r, c.getPoint u = .ok x ∧ k + 1 ≤ n ∧ 0 ≤ r ∧ r ≤ 1 ∧ (k : ℝ) + r = n * u ∧
      x.distance (legPoint (cp c.controlPoints) k r) ≤ n * A / 8 := by
  have hn' : (0 : ℝ) < n := by exact_mod_cast hn
  have main : ∀ (k : Nat) (r : ℝ), k + 1 ≤ n → 0 ≤ r → r ≤ 1 → (k : ℝ) + r = n * u → ∃ x k r, c.getPoint u = .ok x ∧ k + 1 ≤ n ∧
      0 ≤ r ∧ r ≤ 1 ∧ (k : ℝ) + r = n * u ∧ x.distance (legPoint (cp c.controlPoints) k r) ≤ n * A / 8 := by
    intro k r hk h0 h1 hu
    obtain ⟨x, hx, h2, h3⟩ := C153_polygon hl hA h hk h0 h1 hu
    exact ⟨x, k, r, hx, hk, h0, h1, hu, h2.trans h3⟩
  rcases hu1.lt_or_eq with hlt | rfl
  · have hnn : 0 ≤ (n : ℝ) * u := by positivity
    have hf := Nat.floor_le hnn
    have hf' := Nat.lt_floor_add_one ((n : ℝ) * u)
    refine main ⌊(n : ℝ) * u⌋₊ (n * u - ⌊(n : ℝ) * u⌋₊) ?_ (by linarith) (by linarith) (by ring)
    have : (n : ℝ) * u < n := by nlinarith
    exact (Nat.floor_lt hnn).mpr this
  · refine main (n - 1) 1 (by omega) (by norm_num) (le_refl _) ?_
    rw [Nat.cast_sub hn]; simp

/-- **C153** The bound is attained: if all second differences are the same vector, the two points differ by that vector times
`(n u (1 - u) - r (1 - r)) / 2`. -/
theorem C153_sharp {c : BezierCurve (V3 ℝ)} {n : Nat} (hl : c.controlPoints.length = n + 1) {p q w : V3 ℝ}
    (h : ∀ i, i ≤ n → cp c.controlPoints i = p + (i : ℝ) • q + ((i : ℝ) ^ 2 / 2) • w)
    {k : Nat} (hk : k + 1 ≤ n) {u r : ℝ} (hu : (k : ℝ) + r = n * u) :
    c.getPoint u = .ok (legPoint (cp c.controlPoints) k r + polygonGap n u r • w) := by
  rw [bezier_getPoint c (by omega) u, hl, Nat.add_sub_cancel]
  congr 1
  rw [← sub_eq_iff_eq_add', sub_leg _ hu, ← gap_sum hu, Finset.sum_smul]
  apply Finset.sum_congr rfl
  intro i hi
  have hi' : i ≤ n := by simpa [Nat.lt_succ_iff] using hi
  unfold legPoint
  rw [h i hi', h k (by omega), h (k + 1) hk]
  push_cast
  module

/-- **C153**, an example: the parabola on the control points (0, 0, 0), (1, 0, 0), (2, 2, 0) passes its middle control point
at a quarter of the second difference. -/
theorem C153_example : (BezierCurve.mk [⟨0, 0, 0⟩, ⟨1, 0, 0⟩, ⟨2, 2, 0⟩] : BezierCurve (V3 ℝ)).getPoint (1 / 2 : ℝ) =
    .ok (⟨1, 0, 0⟩ + (1 / 4 : ℝ) • ⟨0, 2, 0⟩) := by
  have := C153_sharp (c := (BezierCurve.mk [⟨0, 0, 0⟩, ⟨1, 0, 0⟩, ⟨2, 2, 0⟩] : BezierCurve (V3 ℝ))) (n := 2) rfl
    (p := ⟨0, 0, 0⟩) (q := ⟨1, -1, 0⟩) (w := ⟨0, 2, 0⟩) (by
      intro i hi
      interval_cases i <;> ext <;> simp [cp] <;> norm_num) (k := 1) (by norm_num) (u := 1 / 2) (r := 0) (by norm_num)
  rw [this]
  congr 1
  ext <;> simp [legPoint, polygonGap, cp] <;> norm_num

/-- **C153** In binary64: the computed point is within `n A / 8` and the rounding error of C92 of the polygon. -/
theorem C153_float (c : BezierCurve (V3 Float)) {n : Nat} (hl : c.controlPoints.length = n + 1) (hn : 1 ≤ n)
    (hc : n + 1 ≤ 2 ^ 40) {u : Float} (h0 : 0 ≤ u) (h1 : u ≤ 1) {M A : ℝ} (hM : M ≤ 2 ^ (1022 : Int))
    (hp : ∀ p ∈ c.controlPoints, Bounded M p) (hA : 0 ≤ A)
    (h : ∀ i, i + 2 ≤ n → (cp (c.controlPoints.map toReal) (i + 2) - (2 : ℝ) • cp (c.controlPoints.map toReal) (i + 1) +
      cp (c.controlPoints.map toReal) i).length ≤ A) :
    ∃ x y k r, c.getPoint u = .ok x ∧ Near ((n + 1) * 2 ^ (-50 : Int) * M + (n + 1) * 2 ^ (-1073 : Int)) x y ∧
      k + 1 ≤ n ∧ 0 ≤ r ∧ r ≤ 1 ∧ (k : ℝ) + r = n * val u ∧
      y.distance (legPoint (cp (c.controlPoints.map toReal)) k r) ≤ n * A / 8 := by
  obtain ⟨-, hu0, hu1⟩ := unit_float h0 h1
  obtain ⟨x, y, hx, hy, hnear⟩ := C92_error c (by omega) (by omega) u h0 h1 M hM hp
  obtain ⟨y', k, r, hy', hk, hr0, hr1, hur, hd⟩ := C153_curve (c := BezierCurve.mk (c.controlPoints.map toReal)) (n := n)
    (by simpa using hl) hn hA h hu0 hu1
  rw [hy] at hy'
  cases hy'
  refine ⟨x, y, k, r, hx, ?_, hk, hr0, hr1, hur, hd⟩
  rw [hl] at hnear
  push_cast at hnear
  exact hnear

end Geom3d
