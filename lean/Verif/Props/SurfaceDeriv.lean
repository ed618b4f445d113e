import Verif.Props.Surfaces
import Mathlib.Analysis.Calculus.Deriv.Add
import Mathlib.Analysis.Calculus.Deriv.Mul

/-! # C60: partial derivatives of B-spline surfaces -/

set_option linter.unusedSectionVars false

namespace Geom3d
open Spec

section
variable {P : Type} [AddCommGroup P] [Module ℝ P] [HMul ℝ P P] [HMul P ℝ P] [LawfulPoint ℝ P]

/-- The knot vector without its first and last knot. -/
theorem shrink_eq {knots : List ℝ} (h : 2 ≤ knots.length) :
    KnotVector.shrink knots = .ok ((knots.take (knots.length - 1)).drop 1) := by
  unfold KnotVector.shrink
  rw [usub_ok (by omega)]
  simp only [ok_bind]
  rw [if_pos (by omega)]
  rfl

theorem knot_shrink {knots : List ℝ} {j : Nat} (hj : j + 2 < knots.length) :
    knot ((knots.take (knots.length - 1)).drop 1) j = knot knots (j + 1) := by
  unfold knot
  simp only [List.getD_eq_getElem?_getD]
  rw [List.getElem?_drop, List.getElem?_take, if_pos (by omega), Nat.add_comm]

theorem spans_idx {knots : List ℝ} {N p i : Nat} (hlen : knots.length = N + p + 1) (hp : 1 ≤ p) (hi : i + 1 < N) :
    ∃ w, KnotVector.spans ((knots.take (knots.length - 1)).drop 1) p = .ok w ∧
      idx w i = .ok (knot knots (i + p + 1) - knot knots (i + 1)) := by
  rw [C10_spans]
  refine ⟨_, rfl, ?_⟩
  rw [idx_tab (by simp; omega), knot_shrink (by omega), knot_shrink (by omega)]

/-- The code of `derivative_u`. -/
theorem derivativeU_eq {s : BSplineSurface ℝ P} (hg : NetOk s.controlPoints)
    (hu : s.knots.1.length = s.controlPoints.rows + s.degree.1 + 1) (hp : 1 ≤ s.degree.1)
    (hr : 2 ≤ s.controlPoints.rows) (hc : 0 < s.controlPoints.cols) (hres : Resolved s.knots.1) :
    s.derivativeU = .ok ⟨⟨netTab (s.controlPoints.rows - 1) s.controlPoints.cols (fun i j =>
        ((s.degree.1 : ℝ) / (knot s.knots.1 (i + s.degree.1 + 1) - knot s.knots.1 (i + 1)))
          • (entry s.controlPoints (i + 1) j - entry s.controlPoints i j)), s.controlPoints.rows - 1, s.controlPoints.cols⟩,
      ((s.knots.1.take (s.knots.1.length - 1)).drop 1, s.knots.2), (s.degree.1 - 1, s.degree.2)⟩ := by
  unfold BSplineSurface.derivativeU
  rw [if_neg (by omega), usub_ok hp, shrink_eq (by omega)]
  simp only [ok_bind]
  obtain ⟨w, hw, _⟩ := spans_idx (i := 0) hu hp (by omega)
  have hw' : ∀ i, i < s.controlPoints.rows - 1 →
      idx w i = .ok (knot s.knots.1 (i + s.degree.1 + 1) - knot s.knots.1 (i + 1)) := by
    intro i hi
    obtain ⟨w', e1, e2⟩ := spans_idx (i := i) hu hp (by omega)
    rw [hw] at e1
    cases e1
    exact e2
  rw [hw, usub_ok (by omega)]
  simp only [ok_bind]
  rw [netTab_loop (f := fun i j => ((s.degree.1 : ℝ) / (knot s.knots.1 (i + s.degree.1 + 1) - knot s.knots.1 (i + 1)))
          • (entry s.controlPoints (i + 1) j - entry s.controlPoints i j))]
  · simp only [ok_bind]
    rw [fromVec_netTab (by omega) hc]
    rfl
  · intro pts i j hi hj
    rw [grid_at_entry hg (by omega) hj, grid_at_entry hg (by omega) hj, hw' i hi]
    simp only [ok_bind, pure_eq_ok]
    rw [LawfulPoint.right (K := ℝ), LawfulPoint.right (K := ℝ), invOrZero_knots hres (by omega) (by omega), smul_smul,
      one_div, div_eq_mul_inv, mul_comm]

/-- The code of `derivative_v`. -/
theorem derivativeV_eq {s : BSplineSurface ℝ P} (hg : NetOk s.controlPoints)
    (hv : s.knots.2.length = s.controlPoints.cols + s.degree.2 + 1) (hp : 1 ≤ s.degree.2)
    (hc : 2 ≤ s.controlPoints.cols) (hr : 0 < s.controlPoints.rows) (hres : Resolved s.knots.2) :
    s.derivativeV = .ok ⟨⟨netTab s.controlPoints.rows (s.controlPoints.cols - 1) (fun i j =>
        ((s.degree.2 : ℝ) / (knot s.knots.2 (j + s.degree.2 + 1) - knot s.knots.2 (j + 1)))
          • (entry s.controlPoints i (j + 1) - entry s.controlPoints i j)), s.controlPoints.rows, s.controlPoints.cols - 1⟩,
      (s.knots.1, (s.knots.2.take (s.knots.2.length - 1)).drop 1), (s.degree.1, s.degree.2 - 1)⟩ := by
  unfold BSplineSurface.derivativeV
  rw [if_neg (by omega), usub_ok hp, shrink_eq (by omega)]
  simp only [ok_bind]
  obtain ⟨w, hw, _⟩ := spans_idx (i := 0) hv hp (by omega)
  have hw' : ∀ i, i < s.controlPoints.cols - 1 →
      idx w i = .ok (knot s.knots.2 (i + s.degree.2 + 1) - knot s.knots.2 (i + 1)) := by
    intro i hi
    obtain ⟨w', e1, e2⟩ := spans_idx (i := i) hv hp (by omega)
    rw [hw] at e1
    cases e1
    exact e2
  rw [hw, usub_ok (by omega)]
  simp only [ok_bind]
  rw [netTab_loop (f := fun i j => ((s.degree.2 : ℝ) / (knot s.knots.2 (j + s.degree.2 + 1) - knot s.knots.2 (j + 1)))
          • (entry s.controlPoints i (j + 1) - entry s.controlPoints i j))]
  · simp only [ok_bind]
    rw [fromVec_netTab hr (by omega)]
    rfl
  · intro pts i j hi hj
    rw [grid_at_entry hg hi (by omega), grid_at_entry hg hi (by omega), hw' j hj]
    simp only [ok_bind, pure_eq_ok]
    rw [LawfulPoint.right (K := ℝ), LawfulPoint.right (K := ℝ), invOrZero_knots hres (by omega) (by omega), smul_smul,
      one_div, div_eq_mul_inv, mul_comm]

/-- Columns of the differentiated net are the control points of the differentiated column curves. -/
theorem derivativeU_column {s : BSplineSurface ℝ P} 
    (hu : s.knots.1.length = s.controlPoints.rows + s.degree.1 + 1) (hp : 1 ≤ s.degree.1)
    (hr : 2 ≤ s.controlPoints.rows) (hres : Resolved s.knots.1) {j : Nat} (hj : j < s.controlPoints.cols)
    {s' : BSplineSurface ℝ P} (hs' : s' = ⟨⟨netTab (s.controlPoints.rows - 1) s.controlPoints.cols (fun i j =>
        ((s.degree.1 : ℝ) / (knot s.knots.1 (i + s.degree.1 + 1) - knot s.knots.1 (i + 1)))
          • (entry s.controlPoints (i + 1) j - entry s.controlPoints i j)), s.controlPoints.rows - 1, s.controlPoints.cols⟩,
      ((s.knots.1.take (s.knots.1.length - 1)).drop 1, s.knots.2), (s.degree.1 - 1, s.degree.2)⟩) :
    (BSplineCurve.mk (column s.controlPoints j) s.knots.1 s.degree.1).derivative
      = .ok ⟨column s'.controlPoints j, s'.knots.1, s'.degree.1⟩ := by
  rw [derivative_eq (by simpa [column_length] using hu) hp (by rw [column_length]; omega) hres]
  subst hs'
  congr 2
  simp only [column_length]
  unfold column
  simp only []
  apply List.ext_getElem?
  intro i
  rw [tab_getElem?, List.getElem?_map]
  by_cases hi : i < s.controlPoints.rows - 1
  · rw [if_pos hi, List.getElem?_range hi, Option.map_some, entry_netTab _ hi hj]
    have e1 := cp_column (g := s.controlPoints) (i := i + 1) (j := j) (by omega)
    have e2 := cp_column (g := s.controlPoints) (i := i) (j := j) (by omega)
    unfold column at e1 e2
    rw [e1, e2]
  · rw [if_neg hi, List.getElem?_eq_none (by simpa using hi)]
    rfl

theorem derivativeV_row {s : BSplineSurface ℝ P} 
    (hv : s.knots.2.length = s.controlPoints.cols + s.degree.2 + 1) (hp : 1 ≤ s.degree.2)
    (hc : 2 ≤ s.controlPoints.cols) (hres : Resolved s.knots.2) {i : Nat} (hi : i < s.controlPoints.rows)
    {s' : BSplineSurface ℝ P} (hs' : s' = ⟨⟨netTab s.controlPoints.rows (s.controlPoints.cols - 1) (fun i j =>
        ((s.degree.2 : ℝ) / (knot s.knots.2 (j + s.degree.2 + 1) - knot s.knots.2 (j + 1)))
          • (entry s.controlPoints i (j + 1) - entry s.controlPoints i j)), s.controlPoints.rows, s.controlPoints.cols - 1⟩,
      (s.knots.1, (s.knots.2.take (s.knots.2.length - 1)).drop 1), (s.degree.1, s.degree.2 - 1)⟩) :
    (BSplineCurve.mk (row s.controlPoints i) s.knots.2 s.degree.2).derivative
      = .ok ⟨row s'.controlPoints i, s'.knots.2, s'.degree.2⟩ := by
  rw [derivative_eq (by simpa [row_length] using hv) hp (by rw [row_length]; omega) hres]
  subst hs'
  congr 2
  simp only [row_length]
  unfold row
  simp only []
  apply List.ext_getElem?
  intro j
  rw [tab_getElem?, List.getElem?_map]
  by_cases hj : j < s.controlPoints.cols - 1
  · rw [if_pos hj, List.getElem?_range hj, Option.map_some, entry_netTab _ hi hj]
    have e1 := cp_row (g := s.controlPoints) (i := i) (j := j + 1) (by omega)
    have e2 := cp_row (g := s.controlPoints) (i := i) (j := j) (by omega)
    unfold row at e1 e2
    rw [e1, e2]
  · rw [if_neg hj, List.getElem?_eq_none (by simpa using hj)]
    rfl

/-- Surface points as combinations of column curve points. -/
theorem valOf_columns {s : BSplineSurface ℝ P} (hg : NetOk s.controlPoints)
    (hu : s.knots.1.length = s.controlPoints.rows + s.degree.1 + 1)
    (hv : s.knots.2.length = s.controlPoints.cols + s.degree.2 + 1) {x v : ℝ} {bv : List ℝ}
    (hbv : KnotVector.bsplineBasis s.knots.2 s.degree.2 v = .ok bv) {bu : List ℝ}
    (hbu : KnotVector.bsplineBasis s.knots.1 s.degree.1 x = .ok bu) :
    s.getPoint x v = .ok (∑ j ∈ Finset.range s.controlPoints.cols, bv.getD j 0 •
      valOf ((BSplineCurve.mk (column s.controlPoints j) s.knots.1 s.degree.1).getPoint x)) := by
  rw [bsplineSurface_netSum hg hu hv hbu hbv, tensor_columns]
  congr 1
  apply Finset.sum_congr rfl
  intro j hj
  rw [bspline_linComb hbu, show s.knots.1.length - 1 - s.degree.1 = s.controlPoints.rows by omega]
  congr 1
  apply Finset.sum_congr rfl
  intro i hi
  rw [cp_column (Finset.mem_range.1 hi)]

theorem valOf_rows {s : BSplineSurface ℝ P} (hg : NetOk s.controlPoints)
    (hu : s.knots.1.length = s.controlPoints.rows + s.degree.1 + 1)
    (hv : s.knots.2.length = s.controlPoints.cols + s.degree.2 + 1) {x v : ℝ} {bv : List ℝ}
    (hbv : KnotVector.bsplineBasis s.knots.2 s.degree.2 v = .ok bv) {bu : List ℝ}
    (hbu : KnotVector.bsplineBasis s.knots.1 s.degree.1 x = .ok bu) :
    s.getPoint x v = .ok (∑ i ∈ Finset.range s.controlPoints.rows, bu.getD i 0 •
      valOf ((BSplineCurve.mk (row s.controlPoints i) s.knots.2 s.degree.2).getPoint v)) := by
  rw [bsplineSurface_netSum hg hu hv hbu hbv, tensor_rows]
  congr 1
  apply Finset.sum_congr rfl
  intro i hi
  rw [bspline_linComb hbv, show s.knots.2.length - 1 - s.degree.2 = s.controlPoints.cols by omega]
  congr 1
  apply Finset.sum_congr rfl
  intro j hj
  rw [cp_row (Finset.mem_range.1 hj)]

theorem hasDerivAt_comb (n : Nat) (w : Nat → ℝ) (g : Nat → ℝ → ℝ) (d : Nat → ℝ) (u : ℝ)
    (h : ∀ j, j < n → HasDerivAt (g j) (d j) u) :
    HasDerivAt (fun x => ∑ j ∈ Finset.range n, w j * g j x) (∑ j ∈ Finset.range n, w j * d j) u := by
  apply HasDerivAt.fun_sum
  intro j hj
  exact (h j (Finset.mem_range.1 hj)).const_mul _

/-- **C60**, `derivative_u`: for a parameter strictly inside a span of the valid domain (and any `v` from the first
knot on) its value is the partial derivative of `get_point` in `u`, for every linear functional. -/
theorem C60_derivativeU {s : BSplineSurface ℝ P} (hs : s.Valid) (hp : 1 ≤ s.degree.1)
    (hpr : s.degree.1 < s.controlPoints.rows) :
    ∃ s', s.derivativeU = .ok s' ∧ s'.degree = (s.degree.1 - 1, s.degree.2) ∧
      s'.controlPoints.rows = s.controlPoints.rows - 1 ∧ s'.controlPoints.cols = s.controlPoints.cols ∧
      ∀ a u v, s.degree.1 ≤ a → a < s.controlPoints.rows → knot s.knots.1 a < u → u < knot s.knots.1 (a + 1) →
        knot s.knots.2 0 ≤ v →
        ∃ d, s'.getPoint u v = .ok d ∧ ∀ f : P →ₗ[ℝ] ℝ, HasDerivAt (fun x => f (valOf (s.getPoint x v))) (f d) u := by
  have hc := hs.cols
  refine ⟨_, derivativeU_eq hs.net hs.lenU hp (by omega) hc hs.resolvedU, rfl, rfl, rfl, ?_⟩
  intro a u v ha1 ha2 hu1 hu2 hv
  generalize hs' : (BSplineSurface.mk _ _ _ : BSplineSurface ℝ P) = s'
  have hcol := fun j (hj : j < s.controlPoints.cols) =>
    derivativeU_column hs.lenU hp (by omega) hs.resolvedU hj hs'.symm
  obtain ⟨b, _, _, hb⟩ := exists_contains hs.lenV hs.sortedV hs.resolvedV hs.nonconstV hv
  have hbv := basis_of_contains (p := s.degree.2) hs.lenV hs.sortedV hs.resolvedV (by omega) hs.nonconstV hb
  -- the derivative of every column curve
  have hder : ∀ j, j < s.controlPoints.cols → ∃ d,
      (BSplineCurve.mk (column s'.controlPoints j) s'.knots.1 s'.degree.1).getPoint u = .ok d ∧ ∀ f : P →ₗ[ℝ] ℝ,
        HasDerivAt (fun x => f (valOf ((BSplineCurve.mk (column s.controlPoints j) s.knots.1 s.degree.1).getPoint x)))
          (f d) u := by
    intro j hj
    obtain ⟨c', e1, -, -, -, e2⟩ := derivative_spec (hs.curveU (column_length s.controlPoints j)) hp
    rw [hcol j hj] at e1
    cases e1
    exact e2 a u ha1 (by simpa [column_length] using ha2) hu1 hu2
  choose! d hd1 hd2 using hder
  have hk1 : s'.knots.1.length = s'.controlPoints.rows + s'.degree.1 + 1 := by
    rw [← hs']; simp; have := hs.lenU; omega
  have hk2 : s'.knots.2.length = s'.controlPoints.cols + s'.degree.2 + 1 := by
    rw [← hs']; exact hs.lenV
  have hg' : NetOk s'.controlPoints := by rw [← hs']; exact netTab_ok _ _ _
  have hc' : s'.controlPoints.cols = s.controlPoints.cols := by rw [← hs']
  have hbv' : KnotVector.bsplineBasis s'.knots.2 s'.degree.2 v
      = .ok (tab (s.controlPoints.cols + s.degree.2 - s.degree.2) fun i => piece (knot s.knots.2) b s.degree.2 i v) := by
    rw [← hs']; exact hbv
  have hbu' : ∃ bu', KnotVector.bsplineBasis s'.knots.1 s'.degree.1 u = .ok bu' := by
    have := hd1 0 hc
    unfold BSplineCurve.getPoint at this
    rw [bind_eq_ok] at this
    obtain ⟨bu, h, -⟩ := this
    exact ⟨bu, h⟩
  obtain ⟨bu', hbu'⟩ := hbu'
  refine ⟨_, valOf_columns hg' hk1 hk2 hbv' hbu', ?_⟩
  intro f
  rw [map_sum, hc']
  have hD := hasDerivAt_comb s.controlPoints.cols
    (fun j => (tab (s.controlPoints.cols + s.degree.2 - s.degree.2)
      fun i => piece (knot s.knots.2) b s.degree.2 i v).getD j 0)
    (fun j x => f (valOf ((BSplineCurve.mk (column s.controlPoints j) s.knots.1 s.degree.1).getPoint x)))
    (fun j => f (d j)) u (fun j hj => hd2 j hj f)
  have e : ∑ j ∈ Finset.range s.controlPoints.cols, f ((tab (s.controlPoints.cols + s.degree.2 - s.degree.2)
      fun i => piece (knot s.knots.2) b s.degree.2 i v).getD j 0 •
        valOf ((BSplineCurve.mk (column s'.controlPoints j) s'.knots.1 s'.degree.1).getPoint u))
      = ∑ j ∈ Finset.range s.controlPoints.cols, (tab (s.controlPoints.cols + s.degree.2 - s.degree.2)
      fun i => piece (knot s.knots.2) b s.degree.2 i v).getD j 0 * f (d j) := by
    apply Finset.sum_congr rfl
    intro j hj
    rw [hd1 j (Finset.mem_range.1 hj), map_smul, smul_eq_mul]
    rfl
  rw [e]
  refine hD.congr_of_eventuallyEq ?_
  have hmem : ∀ᶠ x in nhds u, knot s.knots.1 a < x := eventually_gt_nhds hu1
  filter_upwards [hmem] with x hx
  have hx0 : knot s.knots.1 0 ≤ x := le_trans (hs.monoU 0 a (by omega) (by omega)) (le_of_lt hx)
  obtain ⟨b', _, _, hb'⟩ := exists_contains hs.lenU hs.sortedU hs.resolvedU hs.nonconstU hx0
  have hbu := basis_of_contains (p := s.degree.1) hs.lenU hs.sortedU hs.resolvedU (by omega) hs.nonconstU hb'
  rw [valOf_columns hs.net hs.lenU hs.lenV hbv hbu]
  show f (∑ j ∈ _, _) = _
  rw [map_sum]
  apply Finset.sum_congr rfl
  intro j _
  rw [map_smul, smul_eq_mul]

/-- **C60**, `derivative_v`. -/
theorem C60_derivativeV {s : BSplineSurface ℝ P} (hs : s.Valid) (hp : 1 ≤ s.degree.2)
    (hpr : s.degree.2 < s.controlPoints.cols) :
    ∃ s', s.derivativeV = .ok s' ∧ s'.degree = (s.degree.1, s.degree.2 - 1) ∧
      s'.controlPoints.rows = s.controlPoints.rows ∧ s'.controlPoints.cols = s.controlPoints.cols - 1 ∧
      ∀ b u v, s.degree.2 ≤ b → b < s.controlPoints.cols → knot s.knots.2 b < v → v < knot s.knots.2 (b + 1) →
        knot s.knots.1 0 ≤ u →
        ∃ d, s'.getPoint u v = .ok d ∧ ∀ f : P →ₗ[ℝ] ℝ, HasDerivAt (fun y => f (valOf (s.getPoint u y))) (f d) v := by
  have hr := hs.rows
  refine ⟨_, derivativeV_eq hs.net hs.lenV hp (by omega) hr hs.resolvedV, rfl, rfl, rfl, ?_⟩
  intro b u v hb1 hb2 hv1 hv2 hu
  generalize hs' : (BSplineSurface.mk _ _ _ : BSplineSurface ℝ P) = s'
  have hrow := fun i (hi : i < s.controlPoints.rows) =>
    derivativeV_row hs.lenV hp (by omega) hs.resolvedV hi hs'.symm
  obtain ⟨a, _, _, ha⟩ := exists_contains hs.lenU hs.sortedU hs.resolvedU hs.nonconstU hu
  have hbu := basis_of_contains (p := s.degree.1) hs.lenU hs.sortedU hs.resolvedU (by omega) hs.nonconstU ha
  have hder : ∀ i, i < s.controlPoints.rows → ∃ d,
      (BSplineCurve.mk (row s'.controlPoints i) s'.knots.2 s'.degree.2).getPoint v = .ok d ∧ ∀ f : P →ₗ[ℝ] ℝ,
        HasDerivAt (fun y => f (valOf ((BSplineCurve.mk (row s.controlPoints i) s.knots.2 s.degree.2).getPoint y)))
          (f d) v := by
    intro i hi
    obtain ⟨c', e1, -, -, -, e2⟩ := derivative_spec (hs.curveV (row_length s.controlPoints i)) hp
    rw [hrow i hi] at e1
    cases e1
    exact e2 b v hb1 (by simpa [row_length] using hb2) hv1 hv2
  choose! d hd1 hd2 using hder
  have hk1 : s'.knots.1.length = s'.controlPoints.rows + s'.degree.1 + 1 := by
    rw [← hs']; exact hs.lenU
  have hk2 : s'.knots.2.length = s'.controlPoints.cols + s'.degree.2 + 1 := by
    rw [← hs']; simp; have := hs.lenV; omega
  have hg' : NetOk s'.controlPoints := by rw [← hs']; exact netTab_ok _ _ _
  have hr' : s'.controlPoints.rows = s.controlPoints.rows := by rw [← hs']
  have hbu' : KnotVector.bsplineBasis s'.knots.1 s'.degree.1 u
      = .ok (tab (s.controlPoints.rows + s.degree.1 - s.degree.1) fun i => piece (knot s.knots.1) a s.degree.1 i u) := by
    rw [← hs']; exact hbu
  have hbv' : ∃ bv', KnotVector.bsplineBasis s'.knots.2 s'.degree.2 v = .ok bv' := by
    have := hd1 0 hr
    unfold BSplineCurve.getPoint at this
    rw [bind_eq_ok] at this
    obtain ⟨bv, h, -⟩ := this
    exact ⟨bv, h⟩
  obtain ⟨bv', hbv'⟩ := hbv'
  refine ⟨_, valOf_rows hg' hk1 hk2 hbv' hbu', ?_⟩
  intro f
  rw [map_sum, hr']
  have hD := hasDerivAt_comb s.controlPoints.rows
    (fun i => (tab (s.controlPoints.rows + s.degree.1 - s.degree.1)
      fun i => piece (knot s.knots.1) a s.degree.1 i u).getD i 0)
    (fun i y => f (valOf ((BSplineCurve.mk (row s.controlPoints i) s.knots.2 s.degree.2).getPoint y)))
    (fun i => f (d i)) v (fun i hi => hd2 i hi f)
  have e : ∑ i ∈ Finset.range s.controlPoints.rows, f ((tab (s.controlPoints.rows + s.degree.1 - s.degree.1)
      fun i => piece (knot s.knots.1) a s.degree.1 i u).getD i 0 •
        valOf ((BSplineCurve.mk (row s'.controlPoints i) s'.knots.2 s'.degree.2).getPoint v))
      = ∑ i ∈ Finset.range s.controlPoints.rows, (tab (s.controlPoints.rows + s.degree.1 - s.degree.1)
      fun i => piece (knot s.knots.1) a s.degree.1 i u).getD i 0 * f (d i) := by
    apply Finset.sum_congr rfl
    intro i hi
    rw [hd1 i (Finset.mem_range.1 hi), map_smul, smul_eq_mul]
    rfl
  rw [e]
  refine hD.congr_of_eventuallyEq ?_
  have hmem : ∀ᶠ y in nhds v, knot s.knots.2 b < y := eventually_gt_nhds hv1
  filter_upwards [hmem] with y hy
  have hy0 : knot s.knots.2 0 ≤ y := le_trans (hs.monoV 0 b (by omega) (by omega)) (le_of_lt hy)
  obtain ⟨b', _, _, hb'⟩ := exists_contains hs.lenV hs.sortedV hs.resolvedV hs.nonconstV hy0
  have hbv := basis_of_contains (p := s.degree.2) hs.lenV hs.sortedV hs.resolvedV (by omega) hs.nonconstV hb'
  rw [valOf_rows hs.net hs.lenU hs.lenV hbv hbu]
  show f (∑ i ∈ _, _) = _
  rw [map_sum]
  apply Finset.sum_congr rfl
  intro i _
  rw [map_smul, smul_eq_mul]

theorem resolved_real (l : List ℝ) : Resolved l where
  eq a _ b _ := by simp [Env.ulpsEq]
  sub a _ b _ := by simp [Env.ulpsEq, sub_eq_zero]

/-- The surface returned for a constant direction: zero everywhere, without panics. -/
theorem zero_surface {s' : BSplineSurface ℝ P} (h : (do
    let g ← Grid.fromVec (List.replicate 4 (0 : P)) 2
    BSplineSurface.uniformClamped (F := ℝ) g (1, 1)) = .ok s') (u v : ℝ) : s'.getPoint u v = .ok 0 := by
  have e : (Grid.fromVec (List.replicate 4 (0 : P)) 2) = .ok ⟨List.replicate 4 0, 2, 2⟩ := by
    simp [Grid.fromVec]
  rw [e] at h
  simp only [ok_bind] at h
  have hk : (KnotVector.uniformKnot 1 1 : List ℝ) = [0, 0, 1, 1] := by simp [KnotVector.uniformKnot, List.replicate]
  have h' : s' = ⟨⟨List.replicate 4 0, 2, 2⟩, ([0, 0, 1, 1], [0, 0, 1, 1]), (1, 1)⟩ := by
    unfold BSplineSurface.uniformClamped at h
    simp only [assertR] at h
    rw [← hk]
    simpa [asU8, ok_bind, eq_comm, pure_eq_ok] using h
  have hres : Resolved ([0, 0, 1, 1] : List ℝ) := resolved_real _
  have hsorted : Sorted ([0, 0, 1, 1] : List ℝ) := by unfold Sorted; simp
  have hb : ∀ x : ℝ, ∃ w, KnotVector.bsplineBasis [0, 0, 1, 1] 1 x = .ok w := by
    intro x
    rcases lt_or_ge x 0 with hx | hx
    · refine bsplineBasis_total (n := 3) (s := 2) rfl (by omega) ?_ (by omega)
      rw [spanIndex_below hsorted (by simpa [knot] using hx)]
      rw [multiplicity_eq hres (i := 0) (a := 0) (b := 2) (by simp) (by simp)]
      intro j hj
      simp only [List.length_cons, List.length_nil] at hj
      have : j = 0 ∨ j = 1 ∨ j = 2 ∨ j = 3 := by omega
      rcases this with rfl | rfl | rfl | rfl <;> simp [knot]
    · obtain ⟨s, h1, h2, -⟩ := exists_contains (knots := ([0, 0, 1, 1] : List ℝ)) (n := 3) rfl hsorted hres
        (by simp [knot]) (u := x) (by simpa [knot] using hx)
      exact ⟨_, bsplineBasis_of_span h2 (by omega) h1⟩
  obtain ⟨bu, hbu⟩ := hb u
  obtain ⟨bv, hbv⟩ := hb v
  subst h'
  rw [bsplineSurface_netSum (bu := bu) (bv := bv) (s := ⟨⟨List.replicate 4 0, 2, 2⟩, ([0, 0, 1, 1], [0, 0, 1, 1]), (1, 1)⟩)
    (by simp [NetOk]) rfl rfl hbu hbv]
  congr 1
  apply Finset.sum_eq_zero
  intro i _
  apply Finset.sum_eq_zero
  intro j _
  have : entry (⟨List.replicate 4 0, 2, 2⟩ : Grid P) i j = 0 := by
    unfold entry
    simp only [List.getD_eq_getElem?_getD, List.getElem?_replicate]
    split <;> rfl
  simp only [this, smul_zero]

/-- **C60**, degree 0: the derivative succeeds and is zero at all parameters, below the first and above the last knot
included. -/
theorem C60_degree_zero {s : BSplineSurface ℝ P} :
    (s.degree.1 = 0 → ∃ s', s.derivativeU = .ok s' ∧ ∀ u v, s'.getPoint u v = .ok 0) ∧
    (s.degree.2 = 0 → ∃ s', s.derivativeV = .ok s' ∧ ∀ u v, s'.getPoint u v = .ok 0) := by
  have hex : ∃ s' : BSplineSurface ℝ P, (do
      let g ← Grid.fromVec (List.replicate 4 (0 : P)) 2
      BSplineSurface.uniformClamped (F := ℝ) g (1, 1)) = .ok s' := by
    refine ⟨⟨⟨List.replicate 4 0, 2, 2⟩, (KnotVector.uniformKnot 1 1, KnotVector.uniformKnot 1 1), (1, 1)⟩, ?_⟩
    simp [Grid.fromVec, ok_bind, BSplineSurface.uniformClamped, assertR, asU8, pure_eq_ok]
  obtain ⟨s', hs'⟩ := hex
  constructor
  · intro h
    refine ⟨s', ?_, zero_surface hs'⟩
    unfold BSplineSurface.derivativeU
    rw [if_pos h]; exact hs'
  · intro h
    refine ⟨s', ?_, zero_surface hs'⟩
    unfold BSplineSurface.derivativeV
    rw [if_pos h]; exact hs'

end

/-- Non-vacuity: a linear–quadratic patch in space that meets the hypotheses in both directions. -/
theorem C60_example : (⟨⟨[⟨0, 0, 0⟩, ⟨1, 0, 1⟩, ⟨2, 0, 0⟩, ⟨0, 2, 0⟩, ⟨1, 2, 3⟩, ⟨2, 2, 0⟩], 2, 3⟩,
    ([0, 0, 1, 1], [0, 0, 0, 1, 1, 1]), (1, 2)⟩ : BSplineSurface ℝ (V3 ℝ)).Valid := by
  constructor <;> first
    | exact resolved_real _
    | simp [NetOk, Sorted, knot]

example : (⟨⟨[⟨0, 0, 0⟩, ⟨1, 0, 1⟩, ⟨2, 0, 0⟩, ⟨0, 2, 0⟩, ⟨1, 2, 3⟩, ⟨2, 2, 0⟩], 2, 3⟩,
    ([0, 0, 1, 1], [0, 0, 0, 1, 1, 1]), (1, 2)⟩ : BSplineSurface ℚ (V3 ℚ)).derivativeV
    = .ok ⟨⟨[⟨2, 0, 2⟩, ⟨2, 0, -2⟩, ⟨2, 0, 6⟩, ⟨2, 0, -6⟩], 2, 2⟩, ([0, 0, 1, 1], [0, 0, 1, 1]), (1, 1)⟩ := by
  decide +kernel

end Geom3d
