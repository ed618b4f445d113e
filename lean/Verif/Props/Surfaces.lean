import Verif.Lemmas.Net
import Verif.Props.Curves
import Verif.Props.Knots

/-! # C19, C58–C61: Bézier and B-spline surfaces, rational curves and surfaces -/

set_option linter.unusedSectionVars false

namespace Geom3d
open Spec

theorem tensor_columns {K P : Type} [Field K] [AddCommGroup P] [Module K P] (R C : Finset Nat) (a b : Nat → K)
    (p : Nat → Nat → P) :
    ∑ i ∈ R, ∑ j ∈ C, (a i * b j) • p i j = ∑ j ∈ C, b j • ∑ i ∈ R, a i • p i j := by
  rw [Finset.sum_comm]
  apply Finset.sum_congr rfl; intro j _
  rw [Finset.smul_sum]
  apply Finset.sum_congr rfl; intro i _
  rw [smul_smul, mul_comm]

theorem tensor_rows {K P : Type} [Field K] [AddCommGroup P] [Module K P] (R C : Finset Nat) (a b : Nat → K)
    (p : Nat → Nat → P) :
    ∑ i ∈ R, ∑ j ∈ C, (a i * b j) • p i j = ∑ i ∈ R, a i • ∑ j ∈ C, b j • p i j := by
  apply Finset.sum_congr rfl; intro i _
  rw [Finset.smul_sum]
  apply Finset.sum_congr rfl; intro j _
  rw [smul_smul]

/-! ### C58: Bézier surfaces -/

section bezier
variable {K P : Type} [Field K] [LinearOrder K] [IsStrictOrderedRing K] [Env K]
  [AddCommGroup P] [Module K P] [HMul K P P] [HMul P K P] [LawfulPoint K P]

theorem bezierSurface_getPoint {s : BezierSurface P} (hg : NetOk s.controlPoints) (hr : 1 ≤ s.controlPoints.rows)
    (hc : 1 ≤ s.controlPoints.cols) (u v : K) :
    s.getPoint u v = .ok (∑ i ∈ Finset.range s.controlPoints.rows, ∑ j ∈ Finset.range s.controlPoints.cols,
      (bernsteinPoly (s.controlPoints.rows - 1) i u * bernsteinPoly (s.controlPoints.cols - 1) j v)
        • entry s.controlPoints i j) := by
  unfold BezierSurface.getPoint
  rw [bernstein_eq _ hr, bernstein_eq _ hc]
  simp only [ok_bind]
  rw [netSum_eq hg (le_refl _) (le_refl _)]

theorem bezier_sum (l : List P) (h : 1 ≤ l.length) (u : K) :
    (BezierCurve.mk l).getPoint u = .ok (∑ i ∈ Finset.range l.length, bernsteinPoly (l.length - 1) i u • cp l i) :=
  bezier_getPoint _ h u

/-- **C58**, isoparametric curves: for fixed `u` the surface is the Bézier curve (in `v`) of the points obtained by
evaluating every column of the net as a Bézier curve at `u`. -/
theorem C58_columns {s : BezierSurface P} (hg : NetOk s.controlPoints) (hr : 1 ≤ s.controlPoints.rows)
    (hc : 1 ≤ s.controlPoints.cols) (u : K) :
    ∃ qs : List P, (columns s.controlPoints).mapM (fun c => (BezierCurve.mk c).getPoint u) = .ok qs ∧
      qs.length = s.controlPoints.cols ∧ ∀ v : K, s.getPoint u v = (BezierCurve.mk qs).getPoint v := by
  refine ⟨_, mapM_range (q := fun j => ∑ i ∈ Finset.range s.controlPoints.rows,
    bernsteinPoly (s.controlPoints.rows - 1) i u • entry s.controlPoints i j) ?_, by simp, ?_⟩
  · intro j hj
    rw [bezier_sum _ (by rw [column_length]; exact hr), column_length]
    congr 1
    apply Finset.sum_congr rfl
    intro i hi
    rw [cp_column (Finset.mem_range.1 hi)]
  · intro v
    rw [bezierSurface_getPoint hg hr hc, bezier_sum _ (by simpa using hc), tensor_columns, tab_length]
    congr 1
    apply Finset.sum_congr rfl
    intro j hj
    rw [← cp_getElem (by simpa using hj), tab_getElem]

/-- **C58**, the same with the roles of the parameters exchanged. -/
theorem C58_rows {s : BezierSurface P} (hg : NetOk s.controlPoints) (hr : 1 ≤ s.controlPoints.rows)
    (hc : 1 ≤ s.controlPoints.cols) (v : K) :
    ∃ qs : List P, (netRows s.controlPoints).mapM (fun c => (BezierCurve.mk c).getPoint v) = .ok qs ∧
      qs.length = s.controlPoints.rows ∧ ∀ u : K, s.getPoint u v = (BezierCurve.mk qs).getPoint u := by
  refine ⟨_, mapM_range (q := fun i => ∑ j ∈ Finset.range s.controlPoints.cols,
    bernsteinPoly (s.controlPoints.cols - 1) j v • entry s.controlPoints i j) ?_, by simp, ?_⟩
  · intro i hi
    rw [bezier_sum _ (by rw [row_length]; exact hc), row_length]
    congr 1
    apply Finset.sum_congr rfl
    intro j hj
    rw [cp_row (Finset.mem_range.1 hj)]
  · intro u
    rw [bezierSurface_getPoint hg hr hc, bezier_sum _ (by simpa using hr), tensor_rows, tab_length]
    congr 1
    apply Finset.sum_congr rfl
    intro i hi
    rw [← cp_getElem (by simpa using hi), tab_getElem]

theorem bernsteinPoly_at_zero (d i : Nat) : bernsteinPoly d i (0 : K) = if i = 0 then 1 else 0 := by
  by_cases h : i = 0
  · subst h; simp [bernsteinPoly]
  · simp [bernsteinPoly, h]

theorem bernsteinPoly_at_one (d i : Nat) (hi : i ≤ d) : bernsteinPoly d i (1 : K) = if i = d then 1 else 0 := by
  by_cases h : i = d
  · subst h; simp [bernsteinPoly]
  · simp only [bernsteinPoly, sub_self]
    rw [zero_pow (by omega)]; simp [h]

theorem sum_ite_smul (n k : Nat) (hk : k < n) (p : Nat → P) :
    ∑ i ∈ Finset.range n, (if i = k then (1 : K) else 0) • p i = p k := by
  rw [Finset.sum_eq_single k]
  · simp
  · intro i _ hi; simp [hi]
  · intro h; exact absurd (Finset.mem_range.2 hk) h

theorem tensor_ite (R C k l : Nat) (hk : k < R) (hl : l < C) (a b : Nat → K) (p : Nat → Nat → P)
    (ha : ∀ i, i < R → a i = if i = k then 1 else 0) (hb : ∀ j, j < C → b j = if j = l then 1 else 0) :
    ∑ i ∈ Finset.range R, ∑ j ∈ Finset.range C, (a i * b j) • p i j = p k l := by
  rw [tensor_rows]
  rw [Finset.sum_congr rfl (g := fun i => (if i = k then (1 : K) else 0) • p i l)]
  · exact sum_ite_smul R k hk (fun i => p i l)
  · intro i hi
    rw [ha i (Finset.mem_range.1 hi)]
    congr 1
    rw [← sum_ite_smul (K := K) C l hl (fun j => p i j)]
    apply Finset.sum_congr rfl
    intro j hj
    rw [hb j (Finset.mem_range.1 hj)]

/-- **C58**, the surface interpolates the four corners of its net. -/
theorem C58_corners {s : BezierSurface P} (hg : NetOk s.controlPoints) (hr : 1 ≤ s.controlPoints.rows)
    (hc : 1 ≤ s.controlPoints.cols) :
    s.getPoint (0 : K) 0 = .ok (entry s.controlPoints 0 0) ∧
    s.getPoint (0 : K) 1 = .ok (entry s.controlPoints 0 (s.controlPoints.cols - 1)) ∧
    s.getPoint (1 : K) 0 = .ok (entry s.controlPoints (s.controlPoints.rows - 1) 0) ∧
    s.getPoint (1 : K) 1 = .ok (entry s.controlPoints (s.controlPoints.rows - 1) (s.controlPoints.cols - 1)) := by
  have z : ∀ d i, bernsteinPoly d i (0 : K) = if i = 0 then 1 else 0 := bernsteinPoly_at_zero
  have o : ∀ n i, i < n → bernsteinPoly (n - 1) i (1 : K) = if i = n - 1 then 1 else 0 :=
    fun n i h => bernsteinPoly_at_one _ _ (by omega)
  refine ⟨?_, ?_, ?_, ?_⟩ <;> rw [bezierSurface_getPoint hg hr hc] <;> congr 1
  · exact tensor_ite _ _ _ _ (by omega) (by omega) _ _ _ (fun i _ => z _ i) (fun j _ => z _ j)
  · exact tensor_ite _ _ _ _ (by omega) (by omega) _ _ _ (fun i _ => z _ i) (fun j h => o _ j h)
  · exact tensor_ite _ _ _ _ (by omega) (by omega) _ _ _ (fun i h => o _ i h) (fun j _ => z _ j)
  · exact tensor_ite _ _ _ _ (by omega) (by omega) _ _ _ (fun i h => o _ i h) (fun j h => o _ j h)

theorem entry_mem {g : Grid P} (hg : NetOk g) {i j : Nat} (hi : i < g.rows) (hj : j < g.cols) : entry g i j ∈ g.data := by
  obtain ⟨h, _⟩ := grid_at hg hi hj
  simp [entry, List.getD, h]

theorem bernsteinPoly_nonneg (d i : Nat) {u : K} (h0 : 0 ≤ u) (h1 : u ≤ 1) : 0 ≤ bernsteinPoly d i u := by
  have : 0 ≤ 1 - u := by linarith
  unfold bernsteinPoly
  exact mul_nonneg (mul_nonneg (Nat.cast_nonneg _) (pow_nonneg h0 _)) (pow_nonneg this _)

theorem bernsteinPoly_sum (n : Nat) (hn : 1 ≤ n) (u : K) : ∑ i ∈ Finset.range n, bernsteinPoly (n - 1) i u = 1 := by
  have := C02_sum_eq_one n hn u _ (bernstein_eq _ hn u)
  rw [sum_tab] at this
  exact this

/-- **C58**, on the unit square every point is a convex combination of the net. -/
theorem C58_convex {s : BezierSurface P} (hg : NetOk s.controlPoints) (hr : 1 ≤ s.controlPoints.rows)
    (hc : 1 ≤ s.controlPoints.cols) {u v : K} (hu0 : 0 ≤ u) (hu1 : u ≤ 1) (hv0 : 0 ≤ v) (hv1 : v ≤ 1) :
    ∃ x, s.getPoint u v = .ok x ∧ ConvexComb (K := K) s.controlPoints.data x := by
  refine ⟨_, bezierSurface_getPoint hg hr hc u v, convexComb_tensor _ _ _ _ _ ?_ ?_ ?_ ?_ ?_⟩
  · intro i _; exact bernsteinPoly_nonneg _ _ hu0 hu1
  · intro i _; exact bernsteinPoly_nonneg _ _ hv0 hv1
  · exact bernsteinPoly_sum _ hr u
  · exact bernsteinPoly_sum _ hc v
  · intro i hi j hj
    exact entry_mem hg (Finset.mem_range.1 hi) (Finset.mem_range.1 hj)

end bezier

/-- **C58**, an empty net (which `new` rejects) panics, for every number type. -/
theorem C58_empty {F P : Type} [Add F] [Sub F] [Mul F] [Div F] [Neg F] [Zero F] [One F] [NatCast F] [LT F]
    [DecidableLT F] [LE F] [DecidableLE F] [Env F] [Add P] [Zero P] [HMul F P P] (s : BezierSurface P) (u v : F)
    (h : s.controlPoints.rows = 0) : s.getPoint u v = .error .index ∧ BezierSurface.new s.controlPoints = .error .assertion := by
  unfold BezierSurface.getPoint BezierSurface.new
  rw [h]
  exact ⟨rfl, by simp [assertR]⟩

/-- **C58**: the constructor accepts exactly the nets with at least two rows and two columns, and keeps the net. -/
theorem C58_new {P : Type} (g : Grid P) :
    ((∃ s, BezierSurface.new g = .ok s) ↔ 2 ≤ g.rows ∧ 2 ≤ g.cols) ∧
    ∀ s, BezierSurface.new g = .ok s → s.controlPoints = g := by
  unfold BezierSurface.new assertR
  by_cases h : 1 < g.rows ∧ 1 < g.cols
  · simp only [h, and_self, decide_true, if_true, ok_bind, pure_eq_ok]
    refine ⟨⟨fun _ => h, fun _ => ⟨_, rfl⟩⟩, ?_⟩
    rintro s ⟨⟩
    rfl
  · simp only [h, decide_false]
    refine ⟨⟨?_, fun h' => absurd h' h⟩, ?_⟩
    · rintro ⟨s, ⟨⟩⟩
    · rintro s ⟨⟩

/-- Non-vacuity: a 2 × 3 net in space. -/
theorem C58_example : NetOk (⟨[⟨0, 0, 0⟩, ⟨1, 0, 1⟩, ⟨2, 0, 0⟩, ⟨0, 2, 0⟩, ⟨1, 2, 3⟩, ⟨2, 2, 0⟩], 2, 3⟩ : Grid (V3 ℚ)) ∧
    (BezierSurface.mk (⟨[⟨0, 0, 0⟩, ⟨1, 0, 1⟩, ⟨2, 0, 0⟩, ⟨0, 2, 0⟩, ⟨1, 2, 3⟩, ⟨2, 2, 0⟩], 2, 3⟩ : Grid (V3 ℚ))).getPoint
      (1 / 2 : ℚ) (1 / 2) = .ok ⟨1, 1, 1⟩ := by
  constructor
  · rfl
  · decide +kernel

/-! ### C59: B-spline surfaces -/

section bspline
variable {K P : Type} [Field K] [LinearOrder K] [IsStrictOrderedRing K] [Env K]
  [AddCommGroup P] [Module K P] [HMul K P P] [HMul P K P] [LawfulPoint K P]

theorem bspline_linComb {knots : List K} {p : Nat} {u : K} {w : List K}
    (hw : KnotVector.bsplineBasis knots p u = .ok w) (l : List P) :
    (BSplineCurve.mk l knots p).getPoint u
      = .ok (∑ i ∈ Finset.range (knots.length - 1 - p), w.getD i 0 • cp l i) := by
  unfold BSplineCurve.getPoint
  simp only []
  rw [hw]
  simp only [ok_bind, pure_eq_ok]
  congr 1
  have e := eq_tab_getD w 0
  rw [bsplineBasis_length hw] at e
  rw [e, linComb_tab]
  apply Finset.sum_congr rfl
  intro i hi
  rw [← e]

/-- The tensor product sum of a B-spline surface. -/
theorem bsplineSurface_netSum' {s : BSplineSurface K P} (hg : NetOk s.controlPoints)
    (hu : s.controlPoints.rows + s.degree.1 + 1 ≤ s.knots.1.length)
    (hv : s.controlPoints.cols + s.degree.2 + 1 ≤ s.knots.2.length) {u v : K} {bu bv : List K}
    (hbu : KnotVector.bsplineBasis s.knots.1 s.degree.1 u = .ok bu)
    (hbv : KnotVector.bsplineBasis s.knots.2 s.degree.2 v = .ok bv) :
    s.getPoint u v = .ok (∑ i ∈ Finset.range s.controlPoints.rows, ∑ j ∈ Finset.range s.controlPoints.cols,
      (bu.getD i 0 * bv.getD j 0) • entry s.controlPoints i j) := by
  unfold BSplineSurface.getPoint
  rw [hbu, hbv]
  simp only [ok_bind]
  have e1 := eq_tab_getD bu 0
  have e2 := eq_tab_getD bv 0
  rw [bsplineBasis_length hbu] at e1
  rw [bsplineBasis_length hbv] at e2
  rw [show netSum s.controlPoints bu bv = netSum s.controlPoints (tab (s.knots.1.length - 1 - s.degree.1) fun i => bu.getD i 0)
    (tab (s.knots.2.length - 1 - s.degree.2) fun i => bv.getD i 0) by rw [← e1, ← e2]]
  rw [netSum_eq hg (by omega) (by omega)]

theorem bsplineSurface_netSum {s : BSplineSurface K P} (hg : NetOk s.controlPoints)
    (hu : s.knots.1.length = s.controlPoints.rows + s.degree.1 + 1)
    (hv : s.knots.2.length = s.controlPoints.cols + s.degree.2 + 1) {u v : K} {bu bv : List K}
    (hbu : KnotVector.bsplineBasis s.knots.1 s.degree.1 u = .ok bu)
    (hbv : KnotVector.bsplineBasis s.knots.2 s.degree.2 v = .ok bv) :
    s.getPoint u v = .ok (∑ i ∈ Finset.range s.controlPoints.rows, ∑ j ∈ Finset.range s.controlPoints.cols,
      (bu.getD i 0 * bv.getD j 0) • entry s.controlPoints i j) :=
  bsplineSurface_netSum' hg (by omega) (by omega) hbu hbv

theorem columns_eval {s : BSplineSurface K P} (hu : s.knots.1.length = s.controlPoints.rows + s.degree.1 + 1) {u : K}
    {bu : List K} (hbu : KnotVector.bsplineBasis s.knots.1 s.degree.1 u = .ok bu) :
    (columns s.controlPoints).mapM (fun c => (BSplineCurve.mk c s.knots.1 s.degree.1).getPoint u)
      = .ok (tab s.controlPoints.cols fun j => ∑ i ∈ Finset.range s.controlPoints.rows,
          bu.getD i 0 • entry s.controlPoints i j) := by
  apply mapM_range
  intro j hj
  rw [bspline_linComb hbu, show s.knots.1.length - 1 - s.degree.1 = s.controlPoints.rows by omega]
  congr 1
  apply Finset.sum_congr rfl
  intro i hi
  rw [cp_column (Finset.mem_range.1 hi)]

theorem rows_eval {s : BSplineSurface K P} (hv : s.knots.2.length = s.controlPoints.cols + s.degree.2 + 1) {v : K}
    {bv : List K} (hbv : KnotVector.bsplineBasis s.knots.2 s.degree.2 v = .ok bv) :
    (netRows s.controlPoints).mapM (fun c => (BSplineCurve.mk c s.knots.2 s.degree.2).getPoint v)
      = .ok (tab s.controlPoints.rows fun i => ∑ j ∈ Finset.range s.controlPoints.cols,
          bv.getD j 0 • entry s.controlPoints i j) := by
  apply mapM_range
  intro i hi
  rw [bspline_linComb hbv, show s.knots.2.length - 1 - s.degree.2 = s.controlPoints.cols by omega]
  congr 1
  apply Finset.sum_congr rfl
  intro j hj
  rw [cp_row (Finset.mem_range.1 hj)]

theorem mapM_first_error {α β : Type} {l : List α} (hl : l ≠ []) {f : α → Res β} {e : Panic} (h : ∀ a ∈ l, f a = .error e) :
    (l.mapM f : Res (List β)) = .error e := by
  obtain ⟨a, t, rfl⟩ := List.exists_cons_of_ne_nil hl
  rw [List.mapM_cons, h a (by simp)]
  rfl

/-- **C59**, isoparametric curves: evaluating the surface is evaluating every column of the net as a B-spline curve at
`u` and then the B-spline curve of these points at `v` — with the same panics, for all parameters. -/
theorem C59_columns {s : BSplineSurface K P} (hg : NetOk s.controlPoints) (hc : 0 < s.controlPoints.cols)
    (hu : s.knots.1.length = s.controlPoints.rows + s.degree.1 + 1)
    (hv : s.knots.2.length = s.controlPoints.cols + s.degree.2 + 1) (u v : K) :
    s.getPoint u v = (do
      let qs ← (columns s.controlPoints).mapM fun c => (BSplineCurve.mk c s.knots.1 s.degree.1).getPoint u
      (BSplineCurve.mk qs s.knots.2 s.degree.2).getPoint v) := by
  cases hbu : KnotVector.bsplineBasis s.knots.1 s.degree.1 u with
  | error e =>
    rw [mapM_first_error (e := e)]
    · unfold BSplineSurface.getPoint; rw [hbu]; rfl
    · intro h; have := congrArg List.length h; rw [columns_length] at this; simp at this; omega
    · intro c _
      unfold BSplineCurve.getPoint
      simp only []
      rw [hbu]; rfl
  | ok bu =>
    rw [columns_eval hu hbu]
    simp only [ok_bind]
    cases hbv : KnotVector.bsplineBasis s.knots.2 s.degree.2 v with
    | error e =>
      unfold BSplineSurface.getPoint BSplineCurve.getPoint
      simp only []
      rw [hbu, hbv]; rfl
    | ok bv =>
      rw [bsplineSurface_netSum hg hu hv hbu hbv, bspline_linComb hbv,
        show s.knots.2.length - 1 - s.degree.2 = s.controlPoints.cols by omega, tensor_columns]
      congr 1
      apply Finset.sum_congr rfl
      intro j hj
      rw [← cp_getElem (by simpa using hj), tab_getElem]

/-- **C59**, the same with the roles of the parameters exchanged. -/
theorem C59_rows {s : BSplineSurface K P} (hg : NetOk s.controlPoints) (hr : 0 < s.controlPoints.rows)
    (hu : s.knots.1.length = s.controlPoints.rows + s.degree.1 + 1)
    (hv : s.knots.2.length = s.controlPoints.cols + s.degree.2 + 1) (u v : K) (x : P) :
    s.getPoint u v = .ok x ↔ (do
      let qs ← (netRows s.controlPoints).mapM fun c => (BSplineCurve.mk c s.knots.2 s.degree.2).getPoint v
      (BSplineCurve.mk qs s.knots.1 s.degree.1).getPoint u) = .ok x := by
  cases hbv : KnotVector.bsplineBasis s.knots.2 s.degree.2 v with
  | error e =>
    rw [mapM_first_error (e := e)]
    · constructor
      · intro h
        unfold BSplineSurface.getPoint at h
        cases hbu : KnotVector.bsplineBasis s.knots.1 s.degree.1 u with
        | error e => rw [hbu] at h; cases h
        | ok bu => rw [hbu, hbv] at h; cases h
      · intro h; cases h
    · intro h; have := congrArg List.length h; rw [rows_length] at this; simp at this; omega
    · intro c _
      unfold BSplineCurve.getPoint
      simp only []
      rw [hbv]; rfl
  | ok bv =>
    rw [rows_eval hv hbv]
    simp only [ok_bind]
    cases hbu : KnotVector.bsplineBasis s.knots.1 s.degree.1 u with
    | error e =>
      unfold BSplineSurface.getPoint BSplineCurve.getPoint
      simp only []
      rw [hbu]
      constructor <;> intro h <;> cases h
    | ok bu =>
      rw [bsplineSurface_netSum hg hu hv hbu hbv, bspline_linComb hbu,
        show s.knots.1.length - 1 - s.degree.1 = s.controlPoints.rows by omega, tensor_rows]
      rw [Finset.sum_congr rfl]
      intro i hi
      rw [← cp_getElem (by simpa using hi), tab_getElem]

/-- The conditions under which a B-spline surface is meaningful: consistent lengths, and non-decreasing, non-constant
knots that the tolerance comparison can tell apart. -/
structure BSplineSurface.Valid (s : BSplineSurface K P) : Prop where
  net : NetOk s.controlPoints
  lenU : s.knots.1.length = s.controlPoints.rows + s.degree.1 + 1
  lenV : s.knots.2.length = s.controlPoints.cols + s.degree.2 + 1
  sortedU : Sorted s.knots.1
  sortedV : Sorted s.knots.2
  resolvedU : Resolved s.knots.1
  resolvedV : Resolved s.knots.2
  nonconstU : knot s.knots.1 0 < knot s.knots.1 (s.controlPoints.rows + s.degree.1)
  nonconstV : knot s.knots.2 0 < knot s.knots.2 (s.controlPoints.cols + s.degree.2)
  rows : 0 < s.controlPoints.rows
  cols : 0 < s.controlPoints.cols

theorem BSplineSurface.Valid.curveU {s : BSplineSurface K P} (hs : s.Valid) {l : List P}
    (hl : l.length = s.controlPoints.rows) : (BSplineCurve.mk l s.knots.1 s.degree.1).Valid :=
  ⟨by simpa [hl] using hs.lenU, hs.sortedU, hs.resolvedU, by simpa [hl] using hs.nonconstU, by simpa [hl] using hs.rows⟩

theorem BSplineSurface.Valid.curveV {s : BSplineSurface K P} (hs : s.Valid) {l : List P}
    (hl : l.length = s.controlPoints.cols) : (BSplineCurve.mk l s.knots.2 s.degree.2).Valid :=
  ⟨by simpa [hl] using hs.lenV, hs.sortedV, hs.resolvedV, by simpa [hl] using hs.nonconstV, by simpa [hl] using hs.cols⟩

theorem BSplineSurface.Valid.monoU {s : BSplineSurface K P} (hs : s.Valid) :
    ∀ i j, i ≤ j → j ≤ s.controlPoints.rows + s.degree.1 → knot s.knots.1 i ≤ knot s.knots.1 j :=
  fun _ _ hij hj => hs.sortedU.knot_le hij (by rw [hs.lenU]; omega)

theorem BSplineSurface.Valid.monoV {s : BSplineSurface K P} (hs : s.Valid) :
    ∀ i j, i ≤ j → j ≤ s.controlPoints.cols + s.degree.2 → knot s.knots.2 i ≤ knot s.knots.2 j :=
  fun _ _ hij hj => hs.sortedV.knot_le hij (by rw [hs.lenV]; omega)

/-- The weights on the span containing the parameter. -/
theorem basis_of_contains {knots : List K} {n p s : Nat} {u : K} (hlen : knots.length = n + 1) (hs : Sorted knots)
    (hr : Resolved knots) (hp : p < n) (hne : knot knots 0 < knot knots n) (h : Contains (knot knots) n s u) :
    KnotVector.bsplineBasis knots p u = .ok (tab (n - p) fun i => piece (knot knots) s p i u) := by
  have hm : ∀ i j, i ≤ j → j ≤ n → knot knots i ≤ knot knots j := fun i j hij hj => hs.knot_le hij (by omega)
  have h0 : knot knots 0 ≤ u := le_trans (hm 0 s (by omega) (by have := h.lt; omega)) h.left
  obtain ⟨s', h1, h2, h3⟩ := exists_contains hlen hs hr hne h0
  rw [Contains.unique hm h h3]
  exact bsplineBasis_of_span h2 hp h1

/-- The point of a surface on the pair of spans containing the parameters. -/
theorem bsplineSurface_pieces {s : BSplineSurface K P} (hs : s.Valid) {u v : K} {a b : Nat}
    (ha : Contains (knot s.knots.1) (s.controlPoints.rows + s.degree.1) a u)
    (hb : Contains (knot s.knots.2) (s.controlPoints.cols + s.degree.2) b v) :
    s.getPoint u v = .ok (∑ i ∈ Finset.range s.controlPoints.rows, ∑ j ∈ Finset.range s.controlPoints.cols,
      (piece (knot s.knots.1) a s.degree.1 i u * piece (knot s.knots.2) b s.degree.2 j v)
        • entry s.controlPoints i j) := by
  have r := hs.rows
  have c := hs.cols
  rw [bsplineSurface_netSum hs.net hs.lenU hs.lenV
    (basis_of_contains hs.lenU hs.sortedU hs.resolvedU (by omega) hs.nonconstU ha)
    (basis_of_contains hs.lenV hs.sortedV hs.resolvedV (by omega) hs.nonconstV hb)]
  congr 1
  apply Finset.sum_congr rfl
  intro i hi
  apply Finset.sum_congr rfl
  intro j hj
  rw [Finset.mem_range] at hi hj
  rw [List.getD_eq_getElem?_getD, List.getD_eq_getElem?_getD, tab_getElem?, tab_getElem?, if_pos (by omega),
    if_pos (by omega)]
  rfl

/-- Evaluation from the first knots on never panics. -/
theorem C59_total {s : BSplineSurface K P} (hs : s.Valid) {u v : K} (hu : knot s.knots.1 0 ≤ u)
    (hv : knot s.knots.2 0 ≤ v) : ∃ x, s.getPoint u v = .ok x := by
  obtain ⟨a, _, _, ha⟩ := exists_contains hs.lenU hs.sortedU hs.resolvedU hs.nonconstU hu
  obtain ⟨b, _, _, hb⟩ := exists_contains hs.lenV hs.sortedV hs.resolvedV hs.nonconstV hv
  exact ⟨_, bsplineSurface_pieces hs ha hb⟩

/-- Parameter `u` lies in span `s` of the valid domain of `N` control points with degree `p`: in the half-open span, or
at the right end of the last one. -/
structure Spec.InSpan (knots : List K) (N p s : Nat) (u : K) : Prop where
  lo : p ≤ s
  hi : s < N
  nonempty : knot knots s < knot knots (s + 1)
  left : knot knots s ≤ u
  right : u < knot knots (s + 1) ∨ (u = knot knots (s + 1) ∧ knot knots (s + 1) = knot knots (N + p))

theorem Spec.InSpan.contains {knots : List K} {N p s : Nat} {u : K} (h : InSpan knots N p s u) :
    Contains (knot knots) (N + p) s u := by
  refine ⟨by have := h.hi; omega, h.nonempty, h.left, ?_⟩
  rcases h.right with h | ⟨h, h'⟩
  · exact Or.inl h
  · exact Or.inr ⟨le_of_eq (h'.symm.trans h.symm), h'⟩

theorem Spec.InSpan.le {knots : List K} {N p s : Nat} {u : K} (h : InSpan knots N p s u) : u ≤ knot knots (s + 1) := by
  rcases h.right with h | ⟨h, _⟩
  · exact le_of_lt h
  · exact le_of_eq h

theorem piece_window {t : Nat → K} {n s p N : Nat} (hsp : SpanAt t n s) (u : K) (hp : p ≤ s) (hN : s < N)
    (hn : s + p < n) : ∑ i ∈ Finset.Icc (s - p) s, piece t s p i u = 1 := by
  rw [← piece_sum hsp u p N hp hN hn]
  apply Finset.sum_subset
  · intro i hi; rw [Finset.mem_Icc] at hi; rw [Finset.mem_range]; omega
  · intro i _ hi
    rw [Finset.mem_Icc] at hi
    exact piece_eq_zero _ _ _ _ _ (by omega)

theorem mem_block {g : Grid P} {i j m n a b : Nat} (ha : i ≤ a ∧ a < i + m) (hb : j ≤ b ∧ b < j + n) :
    entry g a b ∈ block g i j m n := by
  simp only [block, List.mem_flatMap, List.mem_range, List.mem_map]
  exact ⟨a - i, by omega, b - j, by omega, by congr 1 <;> omega⟩

/-- **C59**, local convex hull: for parameters in spans `a`, `b` of the valid domain the point is a convex combination
of the `(p+1)(q+1)` net points with indices `a-p … a`, `b-q … b`. -/
theorem C59_hull {s : BSplineSurface K P} (hs : s.Valid) {u v : K} {a b : Nat}
    (ha : InSpan s.knots.1 s.controlPoints.rows s.degree.1 a u)
    (hb : InSpan s.knots.2 s.controlPoints.cols s.degree.2 b v) :
    ∃ x, s.getPoint u v = .ok x ∧ ConvexComb (K := K)
      (block s.controlPoints (a - s.degree.1) (b - s.degree.2) (s.degree.1 + 1) (s.degree.2 + 1)) x := by
  refine ⟨_, bsplineSurface_pieces hs ha.contains hb.contains, ?_⟩
  have spa : SpanAt (knot s.knots.1) (s.controlPoints.rows + s.degree.1) a := ⟨hs.monoU, ha.contains.lt, ha.nonempty⟩
  have spb : SpanAt (knot s.knots.2) (s.controlPoints.cols + s.degree.2) b := ⟨hs.monoV, hb.contains.lt, hb.nonempty⟩
  have la := ha.lo
  have lb := hb.lo
  have ua := ha.hi
  have ub := hb.hi
  have e : ∑ i ∈ Finset.range s.controlPoints.rows, ∑ j ∈ Finset.range s.controlPoints.cols,
      (piece (knot s.knots.1) a s.degree.1 i u * piece (knot s.knots.2) b s.degree.2 j v) • entry s.controlPoints i j
      = ∑ i ∈ Finset.Icc (a - s.degree.1) a, ∑ j ∈ Finset.Icc (b - s.degree.2) b,
      (piece (knot s.knots.1) a s.degree.1 i u * piece (knot s.knots.2) b s.degree.2 j v)
        • entry s.controlPoints i j := by
    symm
    rw [Finset.sum_subset (s₂ := Finset.range s.controlPoints.rows)]
    · apply Finset.sum_congr rfl
      intro i _
      apply Finset.sum_subset
      · intro j hj; rw [Finset.mem_Icc] at hj; rw [Finset.mem_range]; omega
      · intro j _ hj
        rw [Finset.mem_Icc] at hj
        rw [piece_eq_zero _ b _ j _ (by omega), mul_zero, zero_smul]
    · intro i hi; rw [Finset.mem_Icc] at hi; rw [Finset.mem_range]; omega
    · intro i _ hi
      rw [Finset.mem_Icc] at hi
      apply Finset.sum_eq_zero
      intro j _
      rw [piece_eq_zero _ a _ i _ (by omega), zero_mul, zero_smul]
  rw [e]
  apply convexComb_tensor
  · intro i hi; rw [Finset.mem_Icc] at hi
    exact piece_nonneg spa ha.left ha.le _ _ (by omega)
  · intro j hj; rw [Finset.mem_Icc] at hj
    exact piece_nonneg spb hb.left hb.le _ _ (by omega)
  · exact piece_window spa u la ua (by omega)
  · exact piece_window spb v lb ub (by omega)
  · intro i hi j hj
    rw [Finset.mem_Icc] at hi hj
    exact mem_block (by omega) (by omega)

/-- **C59**, constant nets give constant surfaces. -/
theorem C59_constant {s : BSplineSurface K P} (hs : s.Valid) {c : P}
    (hc : ∀ i j, i < s.controlPoints.rows → j < s.controlPoints.cols → entry s.controlPoints i j = c) {u v : K}
    {a b : Nat} (ha : InSpan s.knots.1 s.controlPoints.rows s.degree.1 a u)
    (hb : InSpan s.knots.2 s.controlPoints.cols s.degree.2 b v) : s.getPoint u v = .ok c := by
  obtain ⟨x, hx, hcc⟩ := C59_hull hs ha hb
  rw [hx, hcc.const (c := c)]
  intro p hp
  simp only [block, List.mem_flatMap, List.mem_range, List.mem_map] at hp
  obtain ⟨i, hi, j, hj, rfl⟩ := hp
  have := ha.hi
  have := hb.hi
  have := ha.lo
  have := hb.lo
  exact hc _ _ (by omega) (by omega)

/-- The weights at the ends of a knot vector clamped with multiplicity exactly `degree + 1`. -/
theorem basis_first {knots : List K} {N p : Nat} (hlen : knots.length = N + p + 1) (hs : Sorted knots)
    (hr : Resolved knots) (hne : knot knots 0 < knot knots (N + p)) (hN : 0 < N)
    (h0 : knot knots 0 = knot knots p) (h0' : knot knots p < knot knots (p + 1)) :
    ∃ w, KnotVector.bsplineBasis knots p (knot knots 0) = .ok w ∧ ∀ i, i < N → w.getD i 0 = if i = 0 then 1 else 0 := by
  have hm : ∀ i j, i ≤ j → j ≤ N + p → knot knots i ≤ knot knots j := fun i j hij hj => hs.knot_le hij (by omega)
  have hc : Contains (knot knots) (N + p) p (knot knots 0) :=
    ⟨by omega, h0', le_of_eq h0.symm, Or.inl (by rw [h0]; exact h0')⟩
  refine ⟨_, basis_of_contains hlen hs hr (by omega) hne hc, ?_⟩
  intro i hi
  rw [List.getD_eq_getElem?_getD, tab_getElem?, if_pos (by omega)]
  show piece (knot knots) p p i (knot knots 0) = _
  rw [h0, piece_at_start h0' _ _ (le_refl _) (fun j _ h2 => le_antisymm (hm _ _ h2 (by omega))
      (h0 ▸ hm 0 j (by omega) (by omega)))]
  by_cases h : i = 0
  · rw [if_pos h, if_pos (by omega)]
  · rw [if_neg h, if_neg (by omega)]

theorem basis_last {knots : List K} {N p : Nat} (hlen : knots.length = N + p + 1) (hs : Sorted knots)
    (hr : Resolved knots) (hne : knot knots 0 < knot knots (N + p)) (hN : 0 < N)
    (h1 : knot knots N = knot knots (N + p)) (h1' : knot knots (N - 1) < knot knots N) :
    ∃ w, KnotVector.bsplineBasis knots p (knot knots (N + p)) = .ok w ∧
      ∀ i, i < N → w.getD i 0 = if i = N - 1 then 1 else 0 := by
  have hm : ∀ i j, i ≤ j → j ≤ N + p → knot knots i ≤ knot knots j := fun i j hij hj => hs.knot_le hij (by omega)
  obtain ⟨s, rfl⟩ : ∃ s, N = s + 1 := ⟨N - 1, by omega⟩
  rw [Nat.add_sub_cancel] at h1' ⊢
  have hc : Contains (knot knots) (s + 1 + p) s (knot knots (s + 1 + p)) :=
    ⟨by omega, h1', le_trans (le_of_lt h1') (le_of_eq h1), Or.inr ⟨le_refl _, h1⟩⟩
  refine ⟨_, basis_of_contains hlen hs hr (by omega) hne hc, ?_⟩
  intro i hi
  rw [List.getD_eq_getElem?_getD, tab_getElem?, if_pos (by omega)]
  show piece (knot knots) s p i (knot knots (s + 1 + p)) = _
  rw [← h1]
  apply piece_at_end h1'
  intro j h2 h3
  exact le_antisymm (h1 ▸ hm j (s + 1 + p) (by omega) (by omega)) (hm (s + 1) j (by omega) (by omega))

/-- A knot vector clamped at both ends with multiplicity exactly `degree + 1`. -/
structure Spec.Clamped (knots : List K) (N p : Nat) : Prop where
  first : knot knots 0 = knot knots p
  first' : knot knots p < knot knots (p + 1)
  last : knot knots N = knot knots (N + p)
  last' : knot knots (N - 1) < knot knots N

/-- **C59**, clamped surfaces interpolate the four corners of their net. -/
theorem C59_corners {s : BSplineSurface K P} (hs : s.Valid)
    (hcu : Clamped s.knots.1 s.controlPoints.rows s.degree.1) (hcv : Clamped s.knots.2 s.controlPoints.cols s.degree.2) :
    let u0 := knot s.knots.1 0
    let u1 := knot s.knots.1 (s.controlPoints.rows + s.degree.1)
    let v0 := knot s.knots.2 0
    let v1 := knot s.knots.2 (s.controlPoints.cols + s.degree.2)
    s.getPoint u0 v0 = .ok (entry s.controlPoints 0 0) ∧
    s.getPoint u0 v1 = .ok (entry s.controlPoints 0 (s.controlPoints.cols - 1)) ∧
    s.getPoint u1 v0 = .ok (entry s.controlPoints (s.controlPoints.rows - 1) 0) ∧
    s.getPoint u1 v1 = .ok (entry s.controlPoints (s.controlPoints.rows - 1) (s.controlPoints.cols - 1)) := by
  have r := hs.rows
  have c := hs.cols
  obtain ⟨wu0, eu0, fu0⟩ := basis_first hs.lenU hs.sortedU hs.resolvedU hs.nonconstU r hcu.first hcu.first'
  obtain ⟨wv0, ev0, fv0⟩ := basis_first hs.lenV hs.sortedV hs.resolvedV hs.nonconstV c hcv.first hcv.first'
  obtain ⟨wu1, eu1, fu1⟩ := basis_last hs.lenU hs.sortedU hs.resolvedU hs.nonconstU r hcu.last hcu.last'
  obtain ⟨wv1, ev1, fv1⟩ := basis_last hs.lenV hs.sortedV hs.resolvedV hs.nonconstV c hcv.last hcv.last'
  refine ⟨?_, ?_, ?_, ?_⟩
  · rw [bsplineSurface_netSum hs.net hs.lenU hs.lenV eu0 ev0, tensor_ite _ _ _ _ r c _ _ _ fu0 fv0]
  · rw [bsplineSurface_netSum hs.net hs.lenU hs.lenV eu0 ev1, tensor_ite _ _ _ _ r (by omega) _ _ _ fu0 fv1]
  · rw [bsplineSurface_netSum hs.net hs.lenU hs.lenV eu1 ev0, tensor_ite _ _ _ _ (by omega) c _ _ _ fu1 fv0]
  · rw [bsplineSurface_netSum hs.net hs.lenU hs.lenV eu1 ev1, tensor_ite _ _ _ _ (by omega) (by omega) _ _ _ fu1 fv1]

end bspline

end Geom3d
