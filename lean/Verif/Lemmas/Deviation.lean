import Verif.Spec.Bernstein
import Verif.Lemmas.Bernstein
import Mathlib.Analysis.Convex.Deriv
import Mathlib.Analysis.Calculus.Deriv.Polynomial
import Mathlib.Tactic.IntervalCases
import Mathlib.Analysis.Convex.Jensen
import Mathlib.RingTheory.Polynomial.Bernstein
import Mathlib.Tactic.Linarith
import Mathlib.Tactic.Positivity
import Mathlib.Tactic.FieldSimp
import Mathlib.Tactic.LinearCombination

/-! How far a tensor product of Bernstein polynomials is from its values at the corners of a cell: second derivatives,
and the comparison with a paraboloid. -/

namespace Geom3d
namespace Deviation
open Spec

/-- The tensor product polynomial with coefficients `c`. -/
noncomputable def tens (n m : Nat) (c : Nat → Nat → ℝ) (u v : ℝ) : ℝ :=
  ∑ i ∈ Finset.range (n + 1), ∑ j ∈ Finset.range (m + 1), bernsteinPoly n i u * bernsteinPoly m j v * c i j

theorem bernsteinPoly_eval (n i : Nat) (u : ℝ) : bernsteinPoly n i u = (bernsteinPolynomial ℝ n i).eval u := by
  simp [bernsteinPoly, bernsteinPolynomial]

/-- The derivative of a Bernstein polynomial. -/
noncomputable def slope (n i : Nat) (u : ℝ) : ℝ := (Polynomial.derivative (bernsteinPolynomial ℝ n i)).eval u

theorem hasDerivAt_bern (n i : Nat) (u : ℝ) : HasDerivAt (bernsteinPoly n i) (slope n i u) u := by
  have e : (bernsteinPoly n i : ℝ → ℝ) = fun u => (bernsteinPolynomial ℝ n i).eval u := by
    funext u; exact bernsteinPoly_eval n i u
  rw [e]
  exact Polynomial.hasDerivAt _ u

theorem slope_zero (n : Nat) (u : ℝ) : slope n 0 u = -(n * bernsteinPoly (n - 1) 0 u) := by
  rw [slope, bernsteinPolynomial.derivative_zero, bernsteinPoly_eval]
  simp

theorem slope_succ (n i : Nat) (u : ℝ) :
    slope n (i + 1) u = n * (bernsteinPoly (n - 1) i u - bernsteinPoly (n - 1) (i + 1) u) := by
  rw [slope, bernsteinPolynomial.derivative_succ, bernsteinPoly_eval, bernsteinPoly_eval]
  simp

/-- The derivative of a sum of Bernstein polynomials, by the differences of the coefficients. -/
theorem sum_slope (n : Nat) (c : Nat → ℝ) (u : ℝ) : ∑ i ∈ Finset.range (n + 1), slope n i u * c i =
    n * ∑ i ∈ Finset.range (n - 1 + 1), bernsteinPoly (n - 1) i u * (c (i + 1) - c i) := by
  cases n with
  | zero => simp [slope_zero]
  | succ k =>
    rw [Finset.sum_range_succ']
    simp only [slope_succ, slope_zero, Nat.add_sub_cancel]
    have h1 : ∑ i ∈ Finset.range (k + 1), bernsteinPoly k (i + 1) u * c (i + 1) =
        ∑ i ∈ Finset.range (k + 1), bernsteinPoly k i u * c i - bernsteinPoly k 0 u * c 0 := by
      have := Finset.sum_range_succ' (fun i => bernsteinPoly k i u * c i) (k + 1)
      rw [Finset.sum_range_succ, bernsteinPoly_of_lt (Nat.lt_succ_self k), zero_mul, add_zero] at this
      linarith
    have h2 : ∑ i ∈ Finset.range (k + 1), ((k + 1 : ℕ) : ℝ) * (bernsteinPoly k i u - bernsteinPoly k (i + 1) u) * c (i + 1)
        = ((k + 1 : ℕ) : ℝ) * (∑ i ∈ Finset.range (k + 1), bernsteinPoly k i u * c (i + 1) -
          ∑ i ∈ Finset.range (k + 1), bernsteinPoly k (i + 1) u * c (i + 1)) := by
      rw [← Finset.sum_sub_distrib, Finset.mul_sum]
      apply Finset.sum_congr rfl
      intro i _
      ring
    rw [h2, h1]
    simp only [mul_sub, Finset.sum_sub_distrib]
    ring

/-- Differences of the coefficients. -/
def du (c : Nat → Nat → ℝ) (i j : Nat) : ℝ := c (i + 1) j - c i j
def dv (c : Nat → Nat → ℝ) (i j : Nat) : ℝ := c i (j + 1) - c i j

/-- The derivative along a line. -/
theorem hasDerivAt_tens (n m : Nat) (c : Nat → Nat → ℝ) (a b d e t : ℝ) :
    HasDerivAt (fun t => tens n m c (a + t * d) (b + t * e))
      (d * (n * tens (n - 1) m (du c) (a + t * d) (b + t * e)) +
        e * (m * tens n (m - 1) (dv c) (a + t * d) (b + t * e))) t := by
  set u := a + t * d with hu
  set v := b + t * e with hv
  have hU : HasDerivAt (fun t : ℝ => a + t * d) d t := by
    simpa using ((hasDerivAt_id t).mul_const d).const_add a
  have hV : HasDerivAt (fun t : ℝ => b + t * e) e t := by
    simpa using ((hasDerivAt_id t).mul_const e).const_add b
  have h : HasDerivAt (fun t => tens n m c (a + t * d) (b + t * e))
      (∑ i ∈ Finset.range (n + 1), ∑ j ∈ Finset.range (m + 1),
        (slope n i u * d * bernsteinPoly m j v + bernsteinPoly n i u * (slope m j v * e)) * c i j) t := by
    unfold tens
    apply HasDerivAt.fun_sum
    intro i _
    apply HasDerivAt.fun_sum
    intro j _
    exact (((hasDerivAt_bern n i u).comp t hU).mul ((hasDerivAt_bern m j v).comp t hV)).mul_const _
  convert h using 1
  have e1 : ∑ i ∈ Finset.range (n + 1), ∑ j ∈ Finset.range (m + 1), slope n i u * bernsteinPoly m j v * c i j =
      n * tens (n - 1) m (du c) u v := by
    rw [Finset.sum_comm]
    unfold tens
    conv_rhs => rw [Finset.sum_comm, Finset.mul_sum]
    apply Finset.sum_congr rfl
    intro j _
    have := sum_slope n (fun i => c i j) u
    calc ∑ i ∈ Finset.range (n + 1), slope n i u * bernsteinPoly m j v * c i j
        = bernsteinPoly m j v * ∑ i ∈ Finset.range (n + 1), slope n i u * c i j := by
          rw [Finset.mul_sum]; exact Finset.sum_congr rfl fun i _ => by ring
      _ = _ := by
          rw [this, Finset.mul_sum, Finset.mul_sum, Finset.mul_sum]
          exact Finset.sum_congr rfl fun i _ => by simp only [du]; ring
  have e2 : ∑ i ∈ Finset.range (n + 1), ∑ j ∈ Finset.range (m + 1), bernsteinPoly n i u * slope m j v * c i j =
      m * tens n (m - 1) (dv c) u v := by
    unfold tens
    rw [Finset.mul_sum]
    apply Finset.sum_congr rfl
    intro i _
    have := sum_slope m (fun j => c i j) v
    calc ∑ j ∈ Finset.range (m + 1), bernsteinPoly n i u * slope m j v * c i j
        = bernsteinPoly n i u * ∑ j ∈ Finset.range (m + 1), slope m j v * c i j := by
          rw [Finset.mul_sum]; exact Finset.sum_congr rfl fun j _ => by ring
      _ = _ := by
          rw [this, Finset.mul_sum, Finset.mul_sum, Finset.mul_sum]
          exact Finset.sum_congr rfl fun j _ => by simp only [dv]; ring
  rw [← e1, ← e2, Finset.mul_sum, Finset.mul_sum, ← Finset.sum_add_distrib]
  apply Finset.sum_congr rfl
  intro i _
  rw [Finset.mul_sum, Finset.mul_sum, ← Finset.sum_add_distrib]
  exact Finset.sum_congr rfl fun j _ => by ring

theorem bern_sum_one (n : Nat) (u : ℝ) : ∑ i ∈ Finset.range (n + 1), bernsteinPoly n i u = 1 := by
  have h := congrArg (Polynomial.eval u) (bernsteinPolynomial.sum ℝ n)
  rw [Polynomial.eval_finsetSum, Polynomial.eval_one] at h
  rw [← h]
  exact Finset.sum_congr rfl fun i _ => bernsteinPoly_eval n i u

/-- On the unit square the polynomial is not larger than its coefficients. -/
theorem abs_tens_le {n m : Nat} {c : Nat → Nat → ℝ} {M : ℝ} (h : ∀ i j, i ≤ n → j ≤ m → |c i j| ≤ M) {u v : ℝ}
    (hu0 : 0 ≤ u) (hu1 : u ≤ 1) (hv0 : 0 ≤ v) (hv1 : v ≤ 1) : |tens n m c u v| ≤ M := by
  have hb : ∀ n i (u : ℝ), 0 ≤ u → u ≤ 1 → 0 ≤ bernsteinPoly n i u := by
    intro n i u h0 h1
    unfold bernsteinPoly
    have : 0 ≤ 1 - u := by linarith
    positivity
  calc |tens n m c u v| ≤ ∑ i ∈ Finset.range (n + 1), ∑ j ∈ Finset.range (m + 1),
        bernsteinPoly n i u * bernsteinPoly m j v * M := by
        unfold tens
        refine (Finset.abs_sum_le_sum_abs _ _).trans (Finset.sum_le_sum fun i hi => ?_)
        refine (Finset.abs_sum_le_sum_abs _ _).trans (Finset.sum_le_sum fun j hj => ?_)
        have h0 := mul_nonneg (hb n i u hu0 hu1) (hb m j v hv0 hv1)
        rw [abs_mul, abs_of_nonneg h0]
        exact mul_le_mul_of_nonneg_left
          (h i j (by simpa [Nat.lt_succ_iff] using hi) (by simpa [Nat.lt_succ_iff] using hj)) h0
    _ = M := by
        simp only [← Finset.mul_sum, ← Finset.sum_mul, bern_sum_one, mul_one, one_mul]

/-- The bounds of the second differences: what the second derivatives can be at most. -/
structure Bends (n m : Nat) (c : Nat → Nat → ℝ) (A B C : ℝ) : Prop where
  uu : ∀ i j, i + 2 ≤ n → j ≤ m → |c (i + 2) j - 2 * c (i + 1) j + c i j| ≤ A
  uv : ∀ i j, i + 1 ≤ n → j + 1 ≤ m → |c (i + 1) (j + 1) - c (i + 1) j - c i (j + 1) + c i j| ≤ B
  vv : ∀ i j, i ≤ n → j + 2 ≤ m → |c i (j + 2) - 2 * c i (j + 1) + c i j| ≤ C

variable {n m : Nat} {c : Nat → Nat → ℝ} {A B C : ℝ}

/-- The second derivative along `(d, e)`. -/
noncomputable def second (n m : Nat) (c : Nat → Nat → ℝ) (d e u v : ℝ) : ℝ :=
  d * (n * (d * (((n - 1 : ℕ) : ℝ) * tens (n - 1 - 1) m (du (du c)) u v) + e * (m * tens (n - 1) (m - 1) (dv (du c)) u v))) +
  e * (m * (d * (n * tens (n - 1) (m - 1) (du (dv c)) u v) + e * (((m - 1 : ℕ) : ℝ) * tens n (m - 1 - 1) (dv (dv c)) u v)))

theorem abs_second_le (h : Bends n m c A B C) (d e : ℝ) {u v : ℝ} (hu0 : 0 ≤ u) (hu1 : u ≤ 1) (hv0 : 0 ≤ v)
    (hv1 : v ≤ 1) : |second n m c d e u v| ≤ (n * (n - 1 : ℕ) * A) * d ^ 2 + 2 * (n * m * B) * |d * e| +
      (m * (m - 1 : ℕ) * C) * e ^ 2 := by
  have h1 : |(n : ℝ) * (n - 1 : ℕ) * tens (n - 1 - 1) m (du (du c)) u v| ≤ n * (n - 1 : ℕ) * A := by
    rcases Nat.lt_or_ge n 2 with hn | hn
    · have : (n : ℝ) * (n - 1 : ℕ) = 0 := by
        interval_cases n <;> simp
      simp [this]
    · rw [abs_mul, abs_of_nonneg (by positivity)]
      refine mul_le_mul_of_nonneg_left (abs_tens_le (fun i j hi hj => ?_) hu0 hu1 hv0 hv1) (by positivity)
      have := h.uu i j (by omega) hj
      simp only [du]
      rwa [show c (i + 1 + 1) j - c (i + 1) j - (c (i + 1) j - c i j) = c (i + 2) j - 2 * c (i + 1) j + c i j by ring]
  have h3 : |(m : ℝ) * (m - 1 : ℕ) * tens n (m - 1 - 1) (dv (dv c)) u v| ≤ m * (m - 1 : ℕ) * C := by
    rcases Nat.lt_or_ge m 2 with hn | hn
    · have : (m : ℝ) * (m - 1 : ℕ) = 0 := by
        interval_cases m <;> simp
      simp [this]
    · rw [abs_mul, abs_of_nonneg (by positivity)]
      refine mul_le_mul_of_nonneg_left (abs_tens_le (fun i j hi hj => ?_) hu0 hu1 hv0 hv1) (by positivity)
      have := h.vv i j hi (by omega)
      simp only [dv]
      rwa [show c i (j + 1 + 1) - c i (j + 1) - (c i (j + 1) - c i j) = c i (j + 2) - 2 * c i (j + 1) + c i j by ring]
  have h2 : |(n : ℝ) * m * tens (n - 1) (m - 1) (dv (du c)) u v| ≤ n * m * B := by
    rcases Nat.eq_zero_or_pos n with hn | hn
    · simp [hn]
    rcases Nat.eq_zero_or_pos m with hm | hm
    · simp [hm]
    rw [abs_mul, abs_of_nonneg (by positivity)]
    refine mul_le_mul_of_nonneg_left (abs_tens_le (fun i j hi hj => ?_) hu0 hu1 hv0 hv1) (by positivity)
    have := h.uv i j (by omega) (by omega)
    simp only [dv, du]
    rwa [show c (i + 1) (j + 1) - c i (j + 1) - (c (i + 1) j - c i j) = c (i + 1) (j + 1) - c (i + 1) j - c i (j + 1) + c i j by ring]
  have hc : du (dv c) = dv (du c) := by funext i j; simp only [du, dv]; ring
  have e0 : second n m c d e u v = ((n : ℝ) * (n - 1 : ℕ) * tens (n - 1 - 1) m (du (du c)) u v) * d ^ 2 +
      2 * ((n : ℝ) * m * tens (n - 1) (m - 1) (dv (du c)) u v) * (d * e) +
      ((m : ℝ) * (m - 1 : ℕ) * tens n (m - 1 - 1) (dv (dv c)) u v) * e ^ 2 := by
    unfold second; rw [hc]; ring
  rw [e0]
  refine (abs_add_three _ _ _).trans ?_
  rw [abs_mul, abs_mul _ (d * e), abs_mul 2, abs_mul _ (e ^ 2), abs_of_nonneg (sq_nonneg d), abs_of_nonneg (sq_nonneg e),
    abs_of_nonneg (show (0 : ℝ) ≤ 2 by norm_num)]
  have a1 := mul_le_mul_of_nonneg_right h1 (sq_nonneg d)
  have a2 := mul_le_mul_of_nonneg_right h2 (abs_nonneg (d * e))
  have a3 := mul_le_mul_of_nonneg_right h3 (sq_nonneg e)
  linarith

/-- The paraboloid over the cell with corner `(a, b)` and sides `g`, `h`. -/
noncomputable def bowl (D E a b g h u v : ℝ) : ℝ := D / 2 * ((u - a) * (a + g - u)) + E / 2 * ((v - b) * (b + h - v))

/-- Subtracting the paraboloid makes the polynomial convex on the cell. -/
theorem convex_tens (hB : Bends n m c A B C) {a b g h : ℝ} (hg : 0 < g) (hh : 0 < h) (ha0 : 0 ≤ a) (ha1 : a + g ≤ 1)
    (hb0 : 0 ≤ b) (hb1 : b + h ≤ 1) (hB0 : 0 ≤ B) :
    ConvexOn ℝ (Set.Icc a (a + g) ×ˢ Set.Icc b (b + h)) fun x : ℝ × ℝ => tens n m c x.1 x.2 -
      bowl (n * (n - 1 : ℕ) * A + n * m * B * (h / g)) (m * (m - 1 : ℕ) * C + n * m * B * (g / h)) a b g h x.1 x.2 := by
  set D := n * (n - 1 : ℕ) * A + n * m * B * (h / g) with hD
  set E := m * (m - 1 : ℕ) * C + n * m * B * (g / h) with hE
  have hconv : Convex ℝ (Set.Icc a (a + g) ×ˢ Set.Icc b (b + h)) := (convex_Icc _ _).prod (convex_Icc _ _)
  refine ⟨hconv, ?_⟩
  intro x hx y hy s t hs ht hst
  obtain ⟨⟨hx1, hx2⟩, hx3, hx4⟩ := hx
  obtain ⟨⟨hy1, hy2⟩, hy3, hy4⟩ := hy
  set d := y.1 - x.1 with hd
  set e := y.2 - x.2 with he
  let f : ℝ → ℝ := fun r => tens n m c (x.1 + r * d) (x.2 + r * e) - bowl D E a b g h (x.1 + r * d) (x.2 + r * e)
  let f' : ℝ → ℝ := fun r => (d * (n * tens (n - 1) m (du c) (x.1 + r * d) (x.2 + r * e)) +
        e * (m * tens n (m - 1) (dv c) (x.1 + r * d) (x.2 + r * e))) -
      (D / 2 * (d * (2 * a + g - 2 * (x.1 + r * d))) + E / 2 * (e * (2 * b + h - 2 * (x.2 + r * e))))
  let f'' : ℝ → ℝ := fun r => second n m c d e (x.1 + r * d) (x.2 + r * e) + D * d ^ 2 + E * e ^ 2
  have lin : ∀ p q r : ℝ, HasDerivAt (fun r : ℝ => p + r * q) q r := by
    intro p q r
    simpa using ((hasDerivAt_id r).mul_const q).const_add p
  have hf1 : ∀ r, HasDerivAt f (f' r) r := by
    intro r
    have q1 : HasDerivAt (fun r => bowl D E a b g h (x.1 + r * d) (x.2 + r * e))
        (D / 2 * (d * (2 * a + g - 2 * (x.1 + r * d))) + E / 2 * (e * (2 * b + h - 2 * (x.2 + r * e)))) r := by
      have k1 := (((lin x.1 d r).sub_const a).mul ((lin x.1 d r).const_sub (a + g))).const_mul (D / 2)
      have k2 := (((lin x.2 e r).sub_const b).mul ((lin x.2 e r).const_sub (b + h))).const_mul (E / 2)
      exact (k1.add k2).congr_deriv (by ring)
    exact (hasDerivAt_tens n m c x.1 x.2 d e r).sub q1
  have hf2 : ∀ r, HasDerivAt f' (f'' r) r := by
    intro r
    have k1 := (((hasDerivAt_tens (n - 1) m (du c) x.1 x.2 d e r).const_mul (n : ℝ)).const_mul d).add
      (((hasDerivAt_tens n (m - 1) (dv c) x.1 x.2 d e r).const_mul (m : ℝ)).const_mul e)
    have k2 := (((((lin x.1 d r).const_mul 2).const_sub (2 * a + g)).const_mul d).const_mul (D / 2)).add
      (((((lin x.2 e r).const_mul 2).const_sub (2 * b + h)).const_mul e).const_mul (E / 2))
    exact (k1.sub k2).congr_deriv (by simp only [f'', second]; ring)
  have hpos : ∀ r, 0 ≤ r → r ≤ 1 → 0 ≤ f'' r := by
    intro r r0 r1
    have i1 : a ≤ x.1 + r * d ∧ x.1 + r * d ≤ a + g := by
      rw [hd]; constructor <;> nlinarith
    have i2 : b ≤ x.2 + r * e ∧ x.2 + r * e ≤ b + h := by
      rw [he]; constructor <;> nlinarith
    have k := abs_second_le hB d e (u := x.1 + r * d) (v := x.2 + r * e) (by linarith) (by linarith) (by linarith)
      (by linarith)
    have k' := neg_abs_le (second n m c d e (x.1 + r * d) (x.2 + r * e))
    have amgm : 2 * |d * e| ≤ h / g * d ^ 2 + g / h * e ^ 2 := by
      have : h / g * d ^ 2 + g / h * e ^ 2 - 2 * |d * e| = (h * |d| - g * |e|) ^ 2 / (g * h) := by
        rw [abs_mul]
        field_simp
        rw [← sq_abs d, ← sq_abs e]
        ring
      have : 0 ≤ (h * |d| - g * |e|) ^ 2 / (g * h) := by positivity
      linarith
    have k2 : (n * m * B) * (2 * |d * e|) ≤ (n * m * B) * (h / g * d ^ 2 + g / h * e ^ 2) :=
      mul_le_mul_of_nonneg_left amgm (by positivity)
    simp only [f'']
    rw [hD, hE]
    nlinarith
  have hcv : ConvexOn ℝ (Set.Icc (0 : ℝ) 1) f := by
    refine convexOn_of_hasDerivWithinAt2_nonneg (f' := f') (f'' := f'') (convex_Icc 0 1)
      (fun r _ => (hf1 r).continuousAt.continuousWithinAt) (fun r _ => (hf1 r).hasDerivWithinAt)
      (fun r _ => (hf2 r).hasDerivWithinAt) ?_
    intro r hr
    have := interior_subset hr
    exact hpos r this.1 this.2
  have key := hcv.2 (x := 0) (by simp) (y := 1) (by simp) hs ht hst
  have hs' : s = 1 - t := by linarith
  have ex : s * x.1 + t * y.1 = x.1 + t * d := by rw [hs', hd]; ring
  have ey : s * x.2 + t * y.2 = x.2 + t * e := by rw [hs', he]; ring
  have f0 : f 0 = tens n m c x.1 x.2 - bowl D E a b g h x.1 x.2 := by simp [f]
  have f1 : f 1 = tens n m c y.1 y.2 - bowl D E a b g h y.1 y.2 := by simp [f, hd, he]
  simp only [smul_eq_mul, mul_zero, mul_one, zero_add, f0, f1] at key
  simp only [Prod.fst_add, Prod.smul_fst, smul_eq_mul, Prod.snd_add, Prod.smul_snd, ex, ey]
  exact key

theorem bowl_le {D E a b g h u v : ℝ} (hD : 0 ≤ D) (hE : 0 ≤ E) :
    bowl D E a b g h u v ≤ (D * g ^ 2 + E * h ^ 2) / 8 := by
  unfold bowl
  have h1 : (u - a) * (a + g - u) ≤ g ^ 2 / 4 := by nlinarith [sq_nonneg (u - a - (a + g - u))]
  have h2 : (v - b) * (b + h - v) ≤ h ^ 2 / 4 := by nlinarith [sq_nonneg (v - b - (b + h - v))]
  have := mul_le_mul_of_nonneg_left h1 (show 0 ≤ D / 2 by linarith)
  have := mul_le_mul_of_nonneg_left h2 (show 0 ≤ E / 2 by linarith)
  linarith

/-- A corner of the cell. -/
def Corner (a b g h : ℝ) (x : ℝ × ℝ) : Prop := (x.1 = a ∨ x.1 = a + g) ∧ (x.2 = b ∨ x.2 = b + h)

theorem tens_le (hB : Bends n m c A B C) {a b g h : ℝ} (hg : 0 < g) (hh : 0 < h) (ha0 : 0 ≤ a) (ha1 : a + g ≤ 1)
    (hb0 : 0 ≤ b) (hb1 : b + h ≤ 1) (hA0 : 0 ≤ A) (hB0 : 0 ≤ B) (hC0 : 0 ≤ C) {x y z : ℝ × ℝ} (hx : Corner a b g h x)
    (hy : Corner a b g h y) (hz : Corner a b g h z) {r s t : ℝ} (hr : 0 ≤ r) (hs : 0 ≤ s) (ht : 0 ≤ t)
    (h1 : r + s + t = 1) :
    tens n m c (r * x.1 + s * y.1 + t * z.1) (r * x.2 + s * y.2 + t * z.2) -
      (r * tens n m c x.1 x.2 + s * tens n m c y.1 y.2 + t * tens n m c z.1 z.2) ≤
    (n * (n - 1 : ℕ) * A * g ^ 2 + 2 * (n * m * B) * (g * h) + m * (m - 1 : ℕ) * C * h ^ 2) / 8 := by
  have hcv := convex_tens hB hg hh ha0 ha1 hb0 hb1 hB0
  set D := n * (n - 1 : ℕ) * A + n * m * B * (h / g) with hD
  set E := m * (m - 1 : ℕ) * C + n * m * B * (g / h) with hE
  have hmem : ∀ x, Corner a b g h x → x ∈ Set.Icc a (a + g) ×ˢ Set.Icc b (b + h) := by
    rintro ⟨u, v⟩ ⟨hu, hv⟩
    simp only [Set.mem_prod, Set.mem_Icc] at *
    refine ⟨?_, ?_⟩
    · rcases hu with rfl | rfl <;> constructor <;> linarith
    · rcases hv with rfl | rfl <;> constructor <;> linarith
  have hzero : ∀ x, Corner a b g h x → bowl D E a b g h x.1 x.2 = 0 := by
    rintro ⟨u, v⟩ ⟨hu, hv⟩
    simp only [] at hu hv
    unfold bowl
    rcases hu with rfl | rfl <;> rcases hv with rfl | rfl <;> simp
  have key := hcv.map_sum_le (t := Finset.univ) (w := ![r, s, t]) (p := ![x, y, z])
    (by intro i _; fin_cases i <;> simp [hr, hs, ht]) (by simp [Fin.sum_univ_three, h1])
    (by intro i _; fin_cases i <;> simp only [] <;> first | exact hmem _ hx | exact hmem _ hy | exact hmem _ hz)
  simp only [Fin.sum_univ_three, Matrix.cons_val_zero, Matrix.cons_val_one, Matrix.cons_val, smul_eq_mul, Prod.fst_add,
    Prod.snd_add, Prod.smul_fst, Prod.smul_snd, hzero _ hx, hzero _ hy, hzero _ hz, sub_zero] at key
  have hD0 : 0 ≤ D := by rw [hD]; positivity
  have hE0 : 0 ≤ E := by rw [hE]; positivity
  have hb := bowl_le (a := a) (b := b) (g := g) (h := h) (u := r * x.1 + s * y.1 + t * z.1)
    (v := r * x.2 + s * y.2 + t * z.2) hD0 hE0
  have e : D * g ^ 2 + E * h ^ 2 =
      n * (n - 1 : ℕ) * A * g ^ 2 + 2 * (n * m * B) * (g * h) + m * (m - 1 : ℕ) * C * h ^ 2 := by
    rw [hD, hE]; field_simp; ring
  rw [e] at hb
  linarith

theorem Bends.neg (h : Bends n m c A B C) : Bends n m (fun i j => -c i j) A B C := by
  constructor
  · intro i j hi hj
    rw [← abs_neg, show -(-c (i + 2) j - 2 * -c (i + 1) j + -c i j) = c (i + 2) j - 2 * c (i + 1) j + c i j by ring]
    exact h.uu i j hi hj
  · intro i j hi hj
    rw [← abs_neg, show -(-c (i + 1) (j + 1) - -c (i + 1) j - -c i (j + 1) + -c i j) =
      c (i + 1) (j + 1) - c (i + 1) j - c i (j + 1) + c i j by ring]
    exact h.uv i j hi hj
  · intro i j hi hj
    rw [← abs_neg, show -(-c i (j + 2) - 2 * -c i (j + 1) + -c i j) = c i (j + 2) - 2 * c i (j + 1) + c i j by ring]
    exact h.vv i j hi hj

theorem tens_neg (u v : ℝ) : tens n m (fun i j => -c i j) u v = -tens n m c u v := by
  unfold tens
  simp only [mul_neg, Finset.sum_neg_distrib]

/-- Within a cell the polynomial differs from the linear interpolation of its values at three corners by at most the
bound of the second derivatives. -/
theorem abs_tens_sub_le (hB : Bends n m c A B C) {a b g h : ℝ} (hg : 0 < g) (hh : 0 < h) (ha0 : 0 ≤ a)
    (ha1 : a + g ≤ 1) (hb0 : 0 ≤ b) (hb1 : b + h ≤ 1) (hA0 : 0 ≤ A) (hB0 : 0 ≤ B) (hC0 : 0 ≤ C) {x y z : ℝ × ℝ}
    (hx : Corner a b g h x) (hy : Corner a b g h y) (hz : Corner a b g h z) {r s t : ℝ} (hr : 0 ≤ r) (hs : 0 ≤ s)
    (ht : 0 ≤ t) (h1 : r + s + t = 1) :
    |tens n m c (r * x.1 + s * y.1 + t * z.1) (r * x.2 + s * y.2 + t * z.2) -
      (r * tens n m c x.1 x.2 + s * tens n m c y.1 y.2 + t * tens n m c z.1 z.2)| ≤
    (n * (n - 1 : ℕ) * A * g ^ 2 + 2 * (n * m * B) * (g * h) + m * (m - 1 : ℕ) * C * h ^ 2) / 8 := by
  rw [abs_le]
  have k1 := tens_le hB hg hh ha0 ha1 hb0 hb1 hA0 hB0 hC0 hx hy hz hr hs ht h1
  have k2 := tens_le hB.neg hg hh ha0 ha1 hb0 hb1 hA0 hB0 hC0 hx hy hz hr hs ht h1
  simp only [tens_neg] at k2
  constructor <;> linarith

end Deviation
end Geom3d
