import Verif.Lemmas.Piecewise
import Mathlib.Analysis.Calculus.Deriv.Mul
import Mathlib.Analysis.Calculus.Deriv.Add
import Mathlib.Tactic.FieldSimp
import Mathlib.Topology.Order.OrderClosed

/-! Derivatives of the polynomial pieces of B-spline curves. -/

set_option linter.unusedSectionVars false

namespace Geom3d
open Spec

/-- Derivative of a basis function piece. -/
theorem piece_hasDerivAt {t : Nat → ℝ} {n : Nat} (hm : ∀ i j, i ≤ j → j ≤ n → t i ≤ t j) (s k i : Nat)
    (hik : i + k + 2 ≤ n) (u : ℝ) :
    HasDerivAt (piece t s (k + 1) i)
      (((k + 1 : Nat) : ℝ) * (piece t s k i u / (t (i + k + 1) - t i)
        - piece t s k (i + 1) u / (t (i + k + 2) - t (i + 1)))) u := by
  induction k generalizing i with
  | zero =>
    have h1 : HasDerivAt (fun u => (u - t i) / (t (i + 0 + 1) - t i) * piece t s 0 i u
        + (t (i + 0 + 2) - u) / (t (i + 0 + 2) - t (i + 1)) * piece t s 0 (i + 1) u)
        ((1 / (t (i + 0 + 1) - t i)) * piece t s 0 i u
          + (-1 / (t (i + 0 + 2) - t (i + 1))) * piece t s 0 (i + 1) u) u := by
      have e1 := (((hasDerivAt_id u).sub_const (t i)).div_const (t (i + 0 + 1) - t i)).mul_const
        (piece t s 0 i u)
      have e2 := (((hasDerivAt_id u).const_sub (t (i + 0 + 2))).div_const (t (i + 0 + 2) - t (i + 1))).mul_const
        (piece t s 0 (i + 1) u)
      exact e1.add e2
    have e : piece t s (0 + 1) i = fun u => (u - t i) / (t (i + 0 + 1) - t i) * piece t s 0 i u
        + (t (i + 0 + 2) - u) / (t (i + 0 + 2) - t (i + 1)) * piece t s 0 (i + 1) u := rfl
    rw [e]
    convert h1 using 1
    push_cast
    ring
  | succ k ih =>
    have i1 := ih i (by omega)
    have i2 := ih (i + 1) (by omega)
    have e1 := (((hasDerivAt_id u).sub_const (t i)).div_const (t (i + (k + 1) + 1) - t i)).mul i1
    have e2 := (((hasDerivAt_id u).const_sub (t (i + (k + 1) + 2))).div_const
      (t (i + (k + 1) + 2) - t (i + 1))).mul i2
    have e3 := e1.add e2
    have e : piece t s (k + 1 + 1) i = (fun u => (id u - t i) / (t (i + (k + 1) + 1) - t i)) * piece t s (k + 1) i
        + (fun u => (t (i + (k + 1) + 2) - id u) / (t (i + (k + 1) + 2) - t (i + 1)))
          * piece t s (k + 1) (i + 1) := rfl
    rw [e]
    refine e3.congr_deriv ?_
    have m1 := hm (i + 1) (i + k + 2) (by omega) (by omega)
    have m2 := hm i (i + 1) (by omega) (by omega)
    have m3 := hm (i + k + 2) (i + k + 3) (by omega) (by omega)
    simp only [piece, id]
    have s1 : i + (k + 1) + 1 = i + k + 2 := by omega
    have s2 : i + (k + 1) + 2 = i + k + 3 := by omega
    have s3 : i + 1 + k + 1 = i + k + 2 := by omega
    have s4 : i + 1 + k + 2 = i + k + 3 := by omega
    have s5 : i + 1 + 1 = i + 2 := by omega
    simp only [s1, s2, s3, s4, s5]
    generalize piece t s k i u = A
    generalize piece t s k (i + 1) u = B
    generalize piece t s k (i + 2) u = C
    rcases eq_or_lt_of_le m1 with h | h
    · rw [← h]; push_cast; simp; ring
    · have ha : t (i + k + 2) - t i ≠ 0 := by intro h0; linarith
      have hb : t (i + k + 3) - t (i + 1) ≠ 0 := by intro h0; linarith
      have hb1 : t (i + k + 2) - t (i + 1) ≠ 0 := by intro h0; linarith
      push_cast
      generalize t (i + k + 1) - t i = a0
      generalize hc1 : t (i + k + 3) - t (i + 2) = c1
      have key : B / (t (i + k + 2) - t (i + 1)) * ((t (i + k + 2) - t i) / (t (i + k + 2) - t i)
          - (t (i + k + 3) - t (i + 1)) / (t (i + k + 3) - t (i + 1))) = 0 := by
        rw [div_self ha, div_self hb]; ring
      have expand : ((k : ℝ) + 1 + 1) *
          (((u - t i) / a0 * A + (t (i + k + 2) - u) / (t (i + k + 2) - t (i + 1)) * B) / (t (i + k + 2) - t i)
          - ((u - t (i + 1)) / (t (i + k + 2) - t (i + 1)) * B + (t (i + k + 3) - u) / c1 * C)
            / (t (i + k + 3) - t (i + 1)))
          - (1 / (t (i + k + 2) - t i) * ((u - t i) / a0 * A
              + (t (i + k + 2) - u) / (t (i + k + 2) - t (i + 1)) * B)
            + (u - t i) / (t (i + k + 2) - t i) * (((k : ℝ) + 1) * (A / a0 - B / (t (i + k + 2) - t (i + 1))))
            + (-1 / (t (i + k + 3) - t (i + 1)) * ((u - t (i + 1)) / (t (i + k + 2) - t (i + 1)) * B
              + (t (i + k + 3) - u) / c1 * C)
            + (t (i + k + 3) - u) / (t (i + k + 3) - t (i + 1))
              * (((k : ℝ) + 1) * (B / (t (i + k + 2) - t (i + 1)) - C / c1))))
          = ((k : ℝ) + 1) * (B / (t (i + k + 2) - t (i + 1)) * ((t (i + k + 2) - t i) / (t (i + k + 2) - t i)
            - (t (i + k + 3) - t (i + 1)) / (t (i + k + 3) - t (i + 1)))) := by
        ring
      rw [key, mul_zero] at expand
      linarith [expand]

/-- Derivative of a spline piece in differences of coefficients. -/
theorem pieceSum_hasDerivAt {t : Nat → ℝ} {N k : Nat} (hm : ∀ i j, i ≤ j → j ≤ N + k + 1 → t i ≤ t j)
    (s : Nat) (hs1 : k + 1 ≤ s) (hs2 : s < N) (g : Nat → ℝ) (u : ℝ) :
    HasDerivAt (fun u => ∑ i ∈ Finset.range N, piece t s (k + 1) i u * g i)
      (∑ i ∈ Finset.range (N - 1), piece t s k (i + 1) u
        * (((k + 1 : Nat) : ℝ) / (t (i + k + 2) - t (i + 1)) * (g (i + 1) - g i))) u := by
  have h1 : HasDerivAt (fun u => ∑ i ∈ Finset.range N, piece t s (k + 1) i u * g i)
      (∑ i ∈ Finset.range N, (((k + 1 : Nat) : ℝ) * (piece t s k i u / (t (i + k + 1) - t i)
        - piece t s k (i + 1) u / (t (i + k + 2) - t (i + 1)))) * g i) u := by
    apply HasDerivAt.fun_sum
    intro i hi
    rw [Finset.mem_range] at hi
    exact (piece_hasDerivAt hm s k i (by omega) u).mul_const _
  convert h1 using 1
  obtain ⟨M, rfl⟩ : ∃ M, N = M + 1 := ⟨N - 1, by omega⟩
  rw [Nat.add_sub_cancel]
  have e : ∀ i, (((k + 1 : Nat) : ℝ) * (piece t s k i u / (t (i + k + 1) - t i)
        - piece t s k (i + 1) u / (t (i + k + 2) - t (i + 1)))) * g i
      = ((k + 1 : Nat) : ℝ) * (piece t s k i u / (t (i + k + 1) - t i)) * g i
        - ((k + 1 : Nat) : ℝ) * (piece t s k (i + 1) u / (t (i + k + 2) - t (i + 1))) * g i := by
    intro i; ring
  simp only [e]
  rw [Finset.sum_sub_distrib, Finset.sum_range_succ', Finset.sum_range_succ (n := M)]
  rw [piece_eq_zero t s k 0 u (Or.inr (by omega)), piece_eq_zero t s k (M + 1) u (Or.inl (by omega))]
  simp only [zero_div, mul_zero, zero_mul, add_zero]
  rw [← Finset.sum_sub_distrib]
  apply Finset.sum_congr rfl
  intro i _
  rw [show i + 1 + k + 1 = i + k + 2 by omega]
  ring

section
variable {P : Type} [AddCommGroup P] [Module ℝ P] [HMul ℝ P P] [HMul P ℝ P] [LawfulPoint ℝ P]

theorem pairs_length {α : Type} (l : List α) : (pairs l).length = l.length - 1 := by
  unfold pairs; simp

theorem pairs_getElem? {α : Type} (l : List α) (i : Nat) (h : i + 1 < l.length) :
    (pairs l)[i]? = some (l[i], l[i + 1]) := by
  unfold pairs
  rw [List.getElem?_zip_eq_some]
  simp

/-- The code of `BSplineCurve::derivative`. -/
theorem derivative_eq {c : BSplineCurve ℝ P} (hl : c.knots.length = c.controlPoints.length + c.degree + 1)
    (hp : 1 ≤ c.degree) (hN : 1 ≤ c.controlPoints.length) (hr : Resolved c.knots) :
    c.derivative = .ok ⟨tab (c.controlPoints.length - 1) (fun i =>
        ((c.degree : ℝ) / (knot c.knots (i + c.degree + 1) - knot c.knots (i + 1)))
          • (cp c.controlPoints (i + 1) - cp c.controlPoints i)),
      (c.knots.take (c.knots.length - 1)).drop 1, c.degree - 1⟩ := by
  have hk' : ∀ j, j < c.controlPoints.length + c.degree - 1 →
      knot ((c.knots.take (c.knots.length - 1)).drop 1) j = knot c.knots (j + 1) := by
    intro j hj
    unfold knot
    simp only [List.getD_eq_getElem?_getD]
    rw [List.getElem?_drop, List.getElem?_take, if_pos (by omega), Nat.add_comm]
  unfold BSplineCurve.derivative
  have e1 : KnotVector.shrink c.knots = .ok ((c.knots.take (c.knots.length - 1)).drop 1) := by
    unfold KnotVector.shrink
    rw [usub_ok (by omega)]
    simp only [ok_bind]
    rw [if_pos (by omega)]
    rfl
  rw [e1]
  simp only [ok_bind]
  rw [C10_spans]
  simp only [ok_bind]
  rw [usub_ok hp]
  simp only [ok_bind, pure_eq_ok]
  congr 2
  have hlen : ((c.knots.take (c.knots.length - 1)).drop 1).length - c.degree = c.controlPoints.length - 1 := by
    simp; omega
  rw [hlen]
  apply List.ext_getElem?
  intro i
  rw [tab_getElem?, List.getElem?_map]
  by_cases hi : i < c.controlPoints.length - 1
  · rw [if_pos hi]
    have : ((pairs c.controlPoints).zip (tab (c.controlPoints.length - 1)
        (fun i => knot ((c.knots.take (c.knots.length - 1)).drop 1) (i + c.degree)
          - knot ((c.knots.take (c.knots.length - 1)).drop 1) i)))[i]?
        = some ((c.controlPoints[i], c.controlPoints[i + 1]), knot c.knots (i + c.degree + 1) - knot c.knots (i + 1)) := by
      rw [List.getElem?_zip_eq_some]
      refine ⟨pairs_getElem? _ _ (by omega), ?_⟩
      rw [tab_getElem?, if_pos hi, hk' _ (by omega), hk' _ (by omega)]
    rw [this]
    simp only [Option.map_some, Option.some.injEq]
    rw [LawfulPoint.right (K := ℝ), LawfulPoint.right (K := ℝ), invOrZero_knots hr (by omega) (by omega),
      smul_smul, cp_getElem, cp_getElem]
    congr 1
    rw [one_div, div_eq_mul_inv, mul_comm]
  · rw [if_neg hi, List.getElem?_eq_none]
    · rfl
    · rw [List.length_zip, pairs_length, tab_length]; omega

/-- Value of a computation that is known to succeed. -/
noncomputable def valOf (r : Res P) : P := match r with
  | .ok p => p
  | .error _ => 0

/-- The derivative curve at a parameter strictly inside a span of the valid domain. -/
theorem derivative_spec {c : BSplineCurve ℝ P} (hv : c.Valid) (hp : 1 ≤ c.degree) :
    ∃ c', c.derivative = .ok c' ∧ c'.degree + 1 = c.degree ∧
      c'.controlPoints.length + 1 = c.controlPoints.length ∧
      c'.knots.length + 2 = c.knots.length ∧
      ∀ s u, c.degree ≤ s → s < c.controlPoints.length → knot c.knots s < u → u < knot c.knots (s + 1) →
        ∃ d, c'.getPoint u = .ok d ∧ ∀ f : P →ₗ[ℝ] ℝ,
          HasDerivAt (fun v => f (valOf (c.getPoint v))) (f d) u := by
  have hl := hv.len
  have hN := hv.pts
  refine ⟨_, derivative_eq hl hp hN hv.resolved, by simp only []; omega, by simp; omega, by simp; omega, ?_⟩
  intro s u hs1 hs2 hu1 hu2
  set c' : BSplineCurve ℝ P := ⟨tab (c.controlPoints.length - 1) (fun i =>
        ((c.degree : ℝ) / (knot c.knots (i + c.degree + 1) - knot c.knots (i + 1)))
          • (cp c.controlPoints (i + 1) - cp c.controlPoints i)),
      (c.knots.take (c.knots.length - 1)).drop 1, c.degree - 1⟩ with hc'
  have hk' : ∀ j, j < c.controlPoints.length + c.degree - 1 → knot c'.knots j = knot c.knots (j + 1) := by
    intro j hj
    rw [hc']
    unfold knot
    simp only [List.getD_eq_getElem?_getD]
    rw [List.getElem?_drop, List.getElem?_take, if_pos (by omega), Nat.add_comm]
  have hc'l : c'.controlPoints.length = c.controlPoints.length - 1 := by rw [hc']; simp
  have hc'd : c'.degree = c.degree - 1 := rfl
  have hcont : Contains (knot c'.knots) (c'.controlPoints.length + c'.degree) (s - 1) u := by
    refine ⟨by omega, ?_, ?_, ?_⟩
    · rw [hk' _ (by omega), hk' _ (by omega), Nat.sub_add_cancel (by omega)]; exact lt_trans hu1 hu2
    · rw [hk' _ (by omega), Nat.sub_add_cancel (by omega)]; exact le_of_lt hu1
    · left; rw [hk' _ (by omega), Nat.sub_add_cancel (by omega)]; exact hu2
  have hv' : c'.Valid := by
    refine ⟨?_, ?_, ?_, ?_, by omega⟩
    · rw [hc'l, hc'd, hc']; simp; omega
    · exact sorted_drop (sorted_take hv.sorted _) _
    · exact hv.resolved.mono (fun x hx => List.mem_of_mem_take (List.mem_of_mem_drop hx))
    · rw [hk' _ (by omega), hk' _ (by omega)]
      exact lt_of_le_of_lt (hv.mono _ s (by omega) (by omega))
        (lt_of_lt_of_le (lt_trans hu1 hu2) (hv.mono (s + 1) _ (by omega) (by omega)))
  refine ⟨_, getPoint_of_contains hv' hcont, ?_⟩
  intro f
  obtain ⟨k, hk⟩ : ∃ k, c.degree = k + 1 := ⟨c.degree - 1, by omega⟩
  have hmono := hv.mono
  have hD := pieceSum_hasDerivAt (t := knot c.knots) (N := c.controlPoints.length) (k := k)
    (fun i j h1 h2 => hmono i j h1 (by omega)) s (by omega) hs2 (fun i => f (cp c.controlPoints i)) u
  have e1 : f (c'.pieceSum (s - 1) u) = ∑ i ∈ Finset.range (c.controlPoints.length - 1),
      piece (knot c.knots) s k (i + 1) u * (((k + 1 : Nat) : ℝ)
        / (knot c.knots (i + k + 2) - knot c.knots (i + 1))
          * (f (cp c.controlPoints (i + 1)) - f (cp c.controlPoints i))) := by
    unfold BSplineCurve.pieceSum
    rw [map_sum, hc'l, hc'd]
    apply Finset.sum_congr rfl
    intro i hi
    rw [Finset.mem_range] at hi
    rw [map_smul, smul_eq_mul, hk, Nat.add_sub_cancel]
    congr 1
    · have : piece (knot c'.knots) (s - 1) k i u = piece (fun j => knot c.knots (j + 1)) (s - 1) k i u := by
        apply piece_congr
        intro j _ hj
        exact hk' j (by omega)
      rw [this, piece_shift, Nat.sub_add_cancel (by omega)]
    · have : cp c'.controlPoints i = ((c.degree : ℝ) / (knot c.knots (i + c.degree + 1) - knot c.knots (i + 1)))
          • (cp c.controlPoints (i + 1) - cp c.controlPoints i) := by
        rw [← cp_getElem (by omega)]
        simp [hc']
      rw [this, map_smul, map_sub, smul_eq_mul, hk]
      rfl
  rw [e1]
  refine hD.congr_of_eventuallyEq ?_
  have hmem : ∀ᶠ v in nhds u, knot c.knots s < v ∧ v < knot c.knots (s + 1) :=
    (eventually_gt_nhds hu1).and (eventually_lt_nhds hu2)
  filter_upwards [hmem] with v hv2
  have : Contains (knot c.knots) (c.controlPoints.length + c.degree) s v :=
    ⟨by omega, lt_trans hv2.1 hv2.2, le_of_lt hv2.1, Or.inl hv2.2⟩
  rw [getPoint_of_contains hv this]
  show f (c.pieceSum s v) = _
  unfold BSplineCurve.pieceSum
  rw [map_sum, hk]
  simp only [map_smul, smul_eq_mul]

/-- The code of `BezierCurve::derivative`. -/
theorem bezier_derivative_eq (b : BezierCurve P) (h : 1 ≤ b.controlPoints.length) :
    b.derivative (F := ℝ) = .ok ⟨tab (b.controlPoints.length - 1) (fun i =>
      ((b.controlPoints.length - 1 : Nat) : ℝ) • (cp b.controlPoints (i + 1) - cp b.controlPoints i))⟩ := by
  unfold BezierCurve.derivative BezierCurve.degree
  rw [usub_ok h]
  simp only [ok_bind, pure_eq_ok]
  congr 2
  apply List.ext_getElem?
  intro i
  rw [tab_getElem?, List.getElem?_map]
  by_cases hi : i < b.controlPoints.length - 1
  · rw [if_pos hi, pairs_getElem? _ _ (by omega)]
    simp only [Option.map_some, Option.some.injEq]
    rw [LawfulPoint.right (K := ℝ), cp_getElem, cp_getElem]
  · rw [if_neg hi, List.getElem?_eq_none (by rw [pairs_length]; omega)]
    rfl

theorem bezier_derivative_spec (b : BezierCurve P) (h : 2 ≤ b.controlPoints.length) :
    ∃ b', b.derivative (F := ℝ) = .ok b' ∧ b'.controlPoints.length + 1 = b.controlPoints.length ∧
      ∀ u : ℝ, ∃ d, b'.getPoint u = .ok d ∧ ∀ f : P →ₗ[ℝ] ℝ,
        HasDerivAt (fun v => f (valOf (b.getPoint v))) (f d) u := by
  refine ⟨_, bezier_derivative_eq b (by omega), by simp; omega, ?_⟩
  intro u
  obtain ⟨k, hk⟩ : ∃ k, b.controlPoints.length = k + 2 := ⟨b.controlPoints.length - 2, by omega⟩
  refine ⟨_, bezier_getPoint _ (by simp; omega) u, ?_⟩
  intro f
  set t : Nat → ℝ := knot (KnotVector.bezierKnot (k + 1)) with ht
  have hm : ∀ i j, i ≤ j → j ≤ k + 2 + k + 1 → t i ≤ t j := fun i j h1 h2 =>
    (bezierKnot_sorted (K := ℝ) (k + 1)).knot_le h1 (by rw [bezierKnot_length]; omega)
  have hD := pieceSum_hasDerivAt (t := t) (N := k + 2) (k := k) hm (k + 1) (le_refl _) (by omega)
    (fun i => f (cp b.controlPoints i)) u
  have e : (fun v : ℝ => f (valOf (b.getPoint v))) = fun u => ∑ i ∈ Finset.range (k + 2),
      piece t (k + 1) (k + 1) i u * f (cp b.controlPoints i) := by
    funext v
    rw [bezier_getPoint _ (by omega)]
    show f (∑ i ∈ Finset.range b.controlPoints.length, _) = _
    rw [map_sum, hk]
    apply Finset.sum_congr rfl
    intro i hi
    rw [Finset.mem_range] at hi
    rw [map_smul, smul_eq_mul, ht]
    have := piece_bezier (k + 1) v (k + 1) i (le_refl _) (by omega)
    rw [Nat.sub_self, Nat.zero_add] at this
    rw [this]
    rfl
  rw [e]
  convert hD using 1
  rw [map_sum]
  simp only [tab_length, hk]
  show ∑ i ∈ Finset.range (k + 1), _ = ∑ i ∈ Finset.range (k + 1), _
  apply Finset.sum_congr rfl
  intro i hi
  rw [Finset.mem_range] at hi
  rw [map_smul, smul_eq_mul, ht]
  have := piece_bezier (k + 1) u k i (by omega) (by omega)
  rw [show k + 1 - k + i = i + 1 by omega] at this
  rw [this, knot_bezier _ _ (by omega), knot_bezier _ _ (by omega), if_neg (by omega), if_pos (by omega)]
  have e2 : cp (tab (k + 2 - 1) (fun i => ((k + 2 - 1 : Nat) : ℝ)
      • (cp b.controlPoints (i + 1) - cp b.controlPoints i))) i
      = ((k + 1 : Nat) : ℝ) • (cp b.controlPoints (i + 1) - cp b.controlPoints i) := by
    rw [← cp_getElem (by simp; omega)]
    simp
  rw [e2, map_smul, map_sub, smul_eq_mul]
  simp

end

end Geom3d
