import Verif.Props.Surfaces
import Mathlib.Tactic.FieldSimp
import Mathlib.Tactic.Positivity

/-! # C19: rational curves and surfaces -/

set_option linter.unusedSectionVars false

namespace Geom3d
open Spec

section
variable {K : Type} [Field K] [LinearOrder K] [IsStrictOrderedRing K] [Env K]

/-- The Euclidean point of a homogeneous one: coordinates divided by the weight. -/
def Spec.euclid (h : V4 K) : V3 K := ⟨h.x / h.w, h.y / h.w, h.z / h.w⟩

theorem euclid_eq (h : V4 K) : euclid h = (1 / h.w) • V4.truncL h := by
  have e : V4.truncL h = h.truncate := rfl
  rw [e]
  unfold euclid V4.truncate
  ext <;> simp [div_eq_mul_inv, mul_comm]

theorem rational_eq (h : V4 K) : (1 / h.w) * h.truncate = euclid h := by
  rw [euclid_eq]; rfl

theorem euclid_smul {k : K} (hk : k ≠ 0) (h : V4 K) : euclid (k • h) = euclid h := by
  unfold euclid
  simp only [V4.smul_x, V4.smul_y, V4.smul_z, V4.smul_w]
  simp only [mul_div_mul_left _ _ hk]

/-- A convex combination of homogeneous points with positive weights has positive weight, and its Euclidean point is a
convex combination of the Euclidean points. -/
theorem euclid_convex {pts : List (V4 K)} (hw : ∀ p ∈ pts, 0 < p.w) {h : V4 K} (hh : ConvexComb (K := K) pts h) :
    0 < h.w ∧ ConvexComb (K := K) (pts.map euclid) (euclid h) := by
  obtain ⟨a, ha0, ha1, rfl⟩ := hh
  have hwi : ∀ i, i < pts.length → 0 < (pts.getD i 0).w := by
    intro i hi
    apply hw
    simp [List.getD, hi]
  have hsum : (∑ i ∈ Finset.range pts.length, a i • pts.getD i 0).w
      = ∑ i ∈ Finset.range pts.length, a i * (pts.getD i 0).w := by
    refine (map_sum (V4.wL (K := K)) (fun i => a i • pts.getD i 0) (Finset.range pts.length)).trans ?_
    rfl
  have hpos : 0 < (∑ i ∈ Finset.range pts.length, a i • pts.getD i 0).w := by
    rw [hsum]
    apply Finset.sum_pos'
    · intro i hi
      rw [Finset.mem_range] at hi
      exact mul_nonneg (ha0 i hi) (le_of_lt (hwi i hi))
    · by_contra hcon
      push Not at hcon
      have : ∑ i ∈ Finset.range pts.length, a i ≤ 0 := by
        apply Finset.sum_nonpos
        intro i hi
        have h1 := hcon i hi
        rw [Finset.mem_range] at hi
        by_contra h2
        push Not at h2
        have := mul_pos h2 (hwi i hi)
        linarith
      rw [ha1] at this
      exact absurd this (not_le.2 one_pos)
  refine ⟨hpos, ?_⟩
  generalize hh : ∑ i ∈ Finset.range pts.length, a i • pts.getD i 0 = h at *
  have e : euclid h = ∑ i ∈ Finset.range pts.length, (a i * (pts.getD i 0).w / h.w) • euclid (pts.getD i 0) := by
    rw [euclid_eq, ← hh, map_sum, Finset.smul_sum, hh]
    apply Finset.sum_congr rfl
    intro i hi
    have := (hwi i (Finset.mem_range.1 hi)).ne'
    rw [euclid_eq, map_smul, smul_smul, smul_smul]
    congr 1
    field_simp
  rw [e]
  apply convexComb_of_family
  · intro i hi
    rw [Finset.mem_range] at hi
    exact div_nonneg (mul_nonneg (ha0 i hi) (le_of_lt (hwi i hi))) (le_of_lt hpos)
  · simp only [div_eq_mul_inv]
    rw [← Finset.sum_mul, ← hsum, mul_inv_cancel₀ hpos.ne']
  · intro i hi
    rw [Finset.mem_range] at hi
    apply List.mem_map_of_mem
    simp [List.getD, hi]

/-- With equal weights the Euclidean point of an affine combination is the affine combination of the Euclidean points. -/
theorem euclid_equal {ι : Type} (S : Finset ι) (a : ι → K) (p : ι → V4 K) {w : K} (ha : ∑ i ∈ S, a i = 1)
    (hp : ∀ i ∈ S, (p i).w = w) : euclid (∑ i ∈ S, a i • p i) = ∑ i ∈ S, a i • euclid (p i) := by
  have hw : (∑ i ∈ S, a i • p i).w = w := by
    have e : (∑ i ∈ S, a i • p i).w = ∑ i ∈ S, a i * (p i).w := by
      refine (map_sum (V4.wL (K := K)) (fun i => a i • p i) S).trans ?_
      rfl
    rw [e, Finset.sum_congr rfl (g := fun i => a i * w) (fun i hi => by rw [hp i hi]), ← Finset.sum_mul, ha, one_mul]
  rw [euclid_eq, hw, map_sum, Finset.smul_sum]
  apply Finset.sum_congr rfl
  intro i hi
  rw [euclid_eq, hp i hi, map_smul, smul_smul, smul_smul, mul_comm]

/-! #### Positive weights -/

/-- **C19**, Bézier curves: with positive weights the denominator is positive on `[0,1]` and the point is a convex
combination of the Euclidean control points. -/
theorem C19_bezier (c : BezierCurve (V4 K)) (hc : 1 ≤ c.controlPoints.length) (hw : ∀ p ∈ c.controlPoints, 0 < p.w)
    {u : K} (h0 : 0 ≤ u) (h1 : u ≤ 1) :
    ∃ h, c.getPoint u = .ok h ∧ 0 < h.w ∧ c.getPointRational u = .ok (euclid h) ∧
      ConvexComb (K := K) (c.controlPoints.map euclid) (euclid h) := by
  obtain ⟨h, e, hcc⟩ := C11_convex c hc u h0 h1
  obtain ⟨hpos, hx⟩ := euclid_convex hw hcc
  refine ⟨h, e, hpos, ?_, hx⟩
  unfold BezierCurve.getPointRational
  rw [e]
  simp only [ok_bind, pure_eq_ok]
  rw [rational_eq]

/-- **C19**, B-spline curves: on span `s` of the valid domain, of the `degree + 1` points `s-degree … s`. -/
theorem C19_bspline {c : BSplineCurve K (V4 K)} (hv : c.Valid) (hw : ∀ p ∈ c.controlPoints, 0 < p.w) {s : Nat} {u : K}
    (hs : InSpan c.knots c.controlPoints.length c.degree s u) :
    ∃ h, c.getPoint u = .ok h ∧ 0 < h.w ∧ c.getPointRational u = .ok (euclid h) ∧
      ConvexComb (K := K) (((c.controlPoints.drop (s - c.degree)).take (c.degree + 1)).map euclid) (euclid h) := by
  obtain ⟨h, e, hcc⟩ := C13_hull hv hs.lo hs.hi hs.nonempty hs.left hs.right
  obtain ⟨hpos, hx⟩ := euclid_convex (fun p hp => hw p (List.mem_of_mem_drop (List.mem_of_mem_take hp))) hcc
  refine ⟨h, e, hpos, ?_, hx⟩
  unfold BSplineCurve.getPointRational
  rw [e]
  simp only [ok_bind, pure_eq_ok]
  rw [rational_eq]

/-- **C19**, Bézier surfaces on the unit square. -/
theorem C19_bezier_surface {s : BezierSurface (V4 K)} (hg : NetOk s.controlPoints) (hr : 1 ≤ s.controlPoints.rows)
    (hc : 1 ≤ s.controlPoints.cols) (hw : ∀ p ∈ s.controlPoints.data, 0 < p.w) {u v : K} (hu0 : 0 ≤ u) (hu1 : u ≤ 1)
    (hv0 : 0 ≤ v) (hv1 : v ≤ 1) :
    ∃ h, s.getPoint u v = .ok h ∧ 0 < h.w ∧ s.getPointRational u v = .ok (euclid h) ∧
      ConvexComb (K := K) (s.controlPoints.data.map euclid) (euclid h) := by
  obtain ⟨h, e, hcc⟩ := C58_convex hg hr hc hu0 hu1 hv0 hv1
  obtain ⟨hpos, hx⟩ := euclid_convex hw hcc
  refine ⟨h, e, hpos, ?_, hx⟩
  unfold BezierSurface.getPointRational
  rw [e]
  simp only [ok_bind, pure_eq_ok]
  rw [rational_eq]

/-- **C19**, B-spline surfaces on spans of the valid domain. -/
theorem C19_bspline_surface {s : BSplineSurface K (V4 K)} (hs : s.Valid) (hw : ∀ p ∈ s.controlPoints.data, 0 < p.w)
    {u v : K} {a b : Nat} (ha : InSpan s.knots.1 s.controlPoints.rows s.degree.1 a u)
    (hb : InSpan s.knots.2 s.controlPoints.cols s.degree.2 b v) :
    ∃ h, s.getPoint u v = .ok h ∧ 0 < h.w ∧ s.getPointRational u v = .ok (euclid h) ∧
      ConvexComb (K := K) ((block s.controlPoints (a - s.degree.1) (b - s.degree.2) (s.degree.1 + 1)
        (s.degree.2 + 1)).map euclid) (euclid h) := by
  obtain ⟨h, e, hcc⟩ := C59_hull hs ha hb
  obtain ⟨hpos, hx⟩ := euclid_convex (fun p hp => by
    simp only [block, List.mem_flatMap, List.mem_range, List.mem_map] at hp
    obtain ⟨i, hi, j, hj, rfl⟩ := hp
    have := ha.hi
    have := hb.hi
    have := ha.lo
    have := hb.lo
    exact hw _ (entry_mem hs.net (by omega) (by omega))) hcc
  refine ⟨h, e, hpos, ?_, hx⟩
  unfold BSplineSurface.getPointRational
  rw [e]
  simp only [ok_bind, pure_eq_ok]
  rw [rational_eq]

/-! #### Equal weights -/

theorem cp_map {P Q : Type} [AddCommGroup P] [AddCommGroup Q] (f : P → Q) {l : List P} {i : Nat} (hi : i < l.length) :
    cp (l.map f) i = f (cp l i) := by
  rw [← cp_getElem (by simpa using hi), List.getElem_map, cp_getElem hi]

theorem cp_w {l : List (V4 K)} {w : K} (hw : ∀ p ∈ l, p.w = w) {i : Nat} (hi : i < l.length) : (cp l i).w = w := by
  rw [← cp_getElem hi]; exact hw _ (List.getElem_mem _)

/-- **C19**, a rational Bézier curve with all weights equal is the polynomial curve of its Euclidean control points, at
every parameter. -/
theorem C19_bezier_equal (c : BezierCurve (V4 K)) {w : K} (hw : ∀ p ∈ c.controlPoints, p.w = w) (u : K) :
    c.getPointRational u = (BezierCurve.mk (c.controlPoints.map euclid)).getPoint u := by
  rcases Nat.eq_zero_or_pos c.controlPoints.length with h | h
  · obtain ⟨l⟩ := c
    simp only [List.length_eq_zero_iff] at h
    subst h
    rfl
  · unfold BezierCurve.getPointRational
    rw [bezier_getPoint c h, bezier_getPoint _ (by simp only [List.length_map]; exact h)]
    simp only [ok_bind, pure_eq_ok, List.length_map]
    congr 1
    refine (rational_eq _).trans ?_
    rw [euclid_equal _ _ _ (bernsteinPoly_sum _ h u) (fun i hi => cp_w hw (Finset.mem_range.1 hi))]
    apply Finset.sum_congr rfl
    intro i hi
    rw [Finset.mem_range] at hi
    exact congrArg _ (cp_map euclid hi).symm

/-- **C19**, a rational B-spline curve with all weights equal is the polynomial one on the valid domain. -/
theorem C19_bspline_equal {c : BSplineCurve K (V4 K)} (hv : c.Valid) {w : K} (hw : ∀ p ∈ c.controlPoints, p.w = w)
    {s : Nat} {u : K} (hs : InSpan c.knots c.controlPoints.length c.degree s u) :
    c.getPointRational u = (BSplineCurve.mk (c.controlPoints.map euclid) c.knots c.degree).getPoint u := by
  have hN := hs.hi
  have hlo := hs.lo
  have hb := basis_of_contains (p := c.degree) hv.len hv.sorted hv.resolved (by omega) hv.nonconst hs.contains
  have hb' := bspline_linComb hb c.controlPoints
  unfold BSplineCurve.getPointRational
  rw [show c.getPoint u = _ from hb', bspline_linComb hb]
  simp only [ok_bind, pure_eq_ok]
  congr 1
  refine (rational_eq _).trans ?_
  have hlen : c.knots.length - 1 - c.degree = c.controlPoints.length := by have := hv.len; omega
  rw [hlen]
  have hg : ∀ i, i < c.controlPoints.length → (tab (c.controlPoints.length + c.degree - c.degree)
      fun i => piece (knot c.knots) s c.degree i u).getD i 0 = piece (knot c.knots) s c.degree i u := by
    intro i hi
    rw [List.getD_eq_getElem?_getD, tab_getElem?, if_pos (by omega)]
    rfl
  rw [euclid_equal _ _ _ ?_ (fun i hi => cp_w hw (Finset.mem_range.1 hi))]
  · apply Finset.sum_congr rfl
    intro i hi
    rw [Finset.mem_range] at hi
    exact congrArg _ (cp_map euclid hi).symm
  · rw [Finset.sum_congr rfl (fun i hi => hg i (Finset.mem_range.1 hi))]
    exact piece_sum ⟨hv.mono, by omega, hs.nonempty⟩ u c.degree _ hlo hN (by omega)

/-- A net with `f` applied to every point. -/
def Spec.mapNet {P Q : Type} (f : P → Q) (g : Grid P) : Grid Q := ⟨g.data.map f, g.rows, g.cols⟩

theorem mapNet_ok {P Q : Type} (f : P → Q) {g : Grid P} (hg : NetOk g) : NetOk (mapNet f g) := by
  unfold NetOk mapNet; simpa using show g.data.length = _ from hg

theorem entry_mapNet {P Q : Type} [AddCommGroup P] [AddCommGroup Q] (f : P → Q) {g : Grid P} (hg : NetOk g) {i j : Nat}
    (hi : i < g.rows) (hj : j < g.cols) : entry (mapNet f g) i j = f (entry g i j) := by
  obtain ⟨h, -⟩ := grid_at hg hi hj
  simp [entry, mapNet, List.getD, h]

theorem entry_w {g : Grid (V4 K)} (hg : NetOk g) {w : K} (hw : ∀ p ∈ g.data, p.w = w) {i j : Nat} (hi : i < g.rows)
    (hj : j < g.cols) : (entry g i j).w = w := hw _ (entry_mem hg hi hj)

theorem tensor_equal {g : Grid (V4 K)} (hg : NetOk g) {w : K} (hw : ∀ p ∈ g.data, p.w = w) (a b : Nat → K)
    (ha : ∑ i ∈ Finset.range g.rows, a i = 1) (hb : ∑ j ∈ Finset.range g.cols, b j = 1) :
    euclid (∑ i ∈ Finset.range g.rows, ∑ j ∈ Finset.range g.cols, (a i * b j) • entry g i j)
      = ∑ i ∈ Finset.range g.rows, ∑ j ∈ Finset.range g.cols, (a i * b j) • entry (mapNet euclid g) i j := by
  rw [← Finset.sum_product' (Finset.range g.rows) (Finset.range g.cols) (fun i j => (a i * b j) • entry g i j),
    ← Finset.sum_product' (Finset.range g.rows) (Finset.range g.cols) (fun i j => (a i * b j) • entry (mapNet euclid g) i j)]
  rw [euclid_equal (Finset.range g.rows ×ˢ Finset.range g.cols) (fun q => a q.1 * b q.2) (fun q => entry g q.1 q.2)
    (w := w)]
  · apply Finset.sum_congr rfl
    rintro ⟨i, j⟩ h
    obtain ⟨hi, hj⟩ := Finset.mem_product.1 h
    simp only []
    rw [entry_mapNet euclid hg (Finset.mem_range.1 hi) (Finset.mem_range.1 hj)]
  · rw [Finset.sum_product' (Finset.range g.rows) (Finset.range g.cols) (fun i j => a i * b j), ← Finset.sum_mul_sum, ha,
      hb, one_mul]
  · rintro ⟨i, j⟩ h
    obtain ⟨hi, hj⟩ := Finset.mem_product.1 h
    exact entry_w hg hw (Finset.mem_range.1 hi) (Finset.mem_range.1 hj)

/-- **C19**, equal weights, Bézier surfaces, all parameters. -/
theorem C19_bezier_surface_equal {s : BezierSurface (V4 K)} (hg : NetOk s.controlPoints)
    (hr : 1 ≤ s.controlPoints.rows) (hc : 1 ≤ s.controlPoints.cols) {w : K}
    (hw : ∀ p ∈ s.controlPoints.data, p.w = w) (u v : K) :
    s.getPointRational u v = (BezierSurface.mk (mapNet euclid s.controlPoints)).getPoint u v := by
  unfold BezierSurface.getPointRational
  rw [bezierSurface_getPoint hg hr hc,
    bezierSurface_getPoint (s := ⟨mapNet euclid s.controlPoints⟩) (mapNet_ok _ hg) hr hc]
  simp only [ok_bind, pure_eq_ok]
  congr 1
  refine (rational_eq _).trans ?_
  exact tensor_equal hg hw _ _ (bernsteinPoly_sum _ hr u) (bernsteinPoly_sum _ hc v)

/-- **C19**, equal weights, B-spline surfaces, on the valid domain. -/
theorem C19_bspline_surface_equal {s : BSplineSurface K (V4 K)} (hs : s.Valid) {w : K}
    (hw : ∀ p ∈ s.controlPoints.data, p.w = w) {u v : K} {a b : Nat}
    (ha : InSpan s.knots.1 s.controlPoints.rows s.degree.1 a u)
    (hb : InSpan s.knots.2 s.controlPoints.cols s.degree.2 b v) :
    s.getPointRational u v
      = (BSplineSurface.mk (mapNet euclid s.controlPoints) s.knots s.degree).getPoint u v := by
  have hs' : (BSplineSurface.mk (mapNet euclid s.controlPoints) s.knots s.degree).Valid :=
    ⟨mapNet_ok _ hs.net, hs.lenU, hs.lenV, hs.sortedU, hs.sortedV, hs.resolvedU, hs.resolvedV, hs.nonconstU, hs.nonconstV,
      hs.rows, hs.cols⟩
  unfold BSplineSurface.getPointRational
  rw [bsplineSurface_pieces hs ha.contains hb.contains, bsplineSurface_pieces hs' ha.contains hb.contains]
  simp only [ok_bind, pure_eq_ok]
  congr 1
  refine (rational_eq _).trans ?_
  have la := ha.lo
  have lb := hb.lo
  have ua := ha.hi
  have ub := hb.hi
  exact tensor_equal hs.net hw _ _
    (piece_sum ⟨hs.monoU, ha.contains.lt, ha.nonempty⟩ u _ _ la ua (by omega))
    (piece_sum ⟨hs.monoV, hb.contains.lt, hb.nonempty⟩ v _ _ lb ub (by omega))

/-! #### Scaling -/

theorem linComb_smul (k : K) (w : List K) (l : List (V4 K)) :
    linComb w (l.map (k • ·)) = k • linComb w l := by
  induction l generalizing w with
  | nil => cases w <;> simp [linComb]
  | cons p l ih =>
    cases w with
    | nil => simp [linComb]
    | cons b w => rw [List.map_cons, linComb_cons, linComb_cons, ih, smul_add, smul_comm]

/-- **C19**, scaling all homogeneous control points by a non-zero factor changes nothing: Bézier curves. -/
theorem C19_bezier_scale (c : BezierCurve (V4 K)) {k : K} (hk : k ≠ 0) (u : K) :
    (BezierCurve.mk (c.controlPoints.map (k • ·))).getPointRational u = c.getPointRational u := by
  unfold BezierCurve.getPointRational BezierCurve.getPoint
  simp only [List.length_map]
  cases bernstein c.controlPoints.length u with
  | error e => rfl
  | ok w =>
    simp only [ok_bind, pure_eq_ok]
    rw [linComb_smul, rational_eq, rational_eq, euclid_smul hk]

/-- **C19**, scaling: B-spline curves. -/
theorem C19_bspline_scale (c : BSplineCurve K (V4 K)) {k : K} (hk : k ≠ 0) (u : K) :
    (BSplineCurve.mk (c.controlPoints.map (k • ·)) c.knots c.degree).getPointRational u = c.getPointRational u := by
  unfold BSplineCurve.getPointRational BSplineCurve.getPoint
  simp only []
  cases KnotVector.bsplineBasis c.knots c.degree u with
  | error e => rfl
  | ok w =>
    simp only [ok_bind, pure_eq_ok]
    rw [linComb_smul, rational_eq, rational_eq, euclid_smul hk]

theorem tensor_scale {g : Grid (V4 K)} (hg : NetOk g) (k : K) (a b : Nat → K) :
    ∑ i ∈ Finset.range g.rows, ∑ j ∈ Finset.range g.cols, (a i * b j) • entry (mapNet (k • ·) g) i j
      = k • ∑ i ∈ Finset.range g.rows, ∑ j ∈ Finset.range g.cols, (a i * b j) • entry g i j := by
  rw [Finset.smul_sum]
  apply Finset.sum_congr rfl
  intro i hi
  rw [Finset.smul_sum]
  apply Finset.sum_congr rfl
  intro j hj
  rw [entry_mapNet (k • ·) hg (Finset.mem_range.1 hi) (Finset.mem_range.1 hj), smul_comm]

/-- **C19**, scaling: Bézier surfaces. -/
theorem C19_bezier_surface_scale {s : BezierSurface (V4 K)} (hg : NetOk s.controlPoints)
    (hr : 1 ≤ s.controlPoints.rows) (hc : 1 ≤ s.controlPoints.cols) {k : K} (hk : k ≠ 0) (u v : K) :
    (BezierSurface.mk (mapNet (k • ·) s.controlPoints)).getPointRational u v = s.getPointRational u v := by
  unfold BezierSurface.getPointRational
  rw [bezierSurface_getPoint hg hr hc,
    bezierSurface_getPoint (s := ⟨mapNet (k • ·) s.controlPoints⟩) (mapNet_ok _ hg) hr hc]
  simp only [ok_bind, pure_eq_ok]
  rw [rational_eq, rational_eq]
  exact congrArg Except.ok ((congrArg euclid (tensor_scale hg k _ _)).trans (euclid_smul hk _))

/-- **C19**, scaling: B-spline surfaces, for all parameters and with the same panics. -/
theorem C19_bspline_surface_scale {s : BSplineSurface K (V4 K)} (hg : NetOk s.controlPoints)
    (hu : s.knots.1.length = s.controlPoints.rows + s.degree.1 + 1)
    (hv : s.knots.2.length = s.controlPoints.cols + s.degree.2 + 1) {k : K} (hk : k ≠ 0) (u v : K) :
    (BSplineSurface.mk (mapNet (k • ·) s.controlPoints) s.knots s.degree).getPointRational u v
      = s.getPointRational u v := by
  unfold BSplineSurface.getPointRational
  cases hbu : KnotVector.bsplineBasis s.knots.1 s.degree.1 u with
  | error e => unfold BSplineSurface.getPoint; simp only []; rw [hbu]; rfl
  | ok bu =>
    cases hbv : KnotVector.bsplineBasis s.knots.2 s.degree.2 v with
    | error e => unfold BSplineSurface.getPoint; simp only []; rw [hbu, hbv]; rfl
    | ok bv =>
      rw [bsplineSurface_netSum hg hu hv hbu hbv,
        bsplineSurface_netSum (s := ⟨mapNet (k • ·) s.controlPoints, s.knots, s.degree⟩) (mapNet_ok _ hg) hu hv hbu hbv]
      simp only [ok_bind, pure_eq_ok]
      rw [rational_eq, rational_eq]
      exact congrArg Except.ok ((congrArg euclid (tensor_scale hg k _ _)).trans (euclid_smul hk _))

end

/-- Non-vacuity: a quarter circle as a rational quadratic (weights 1, 1, 2) passes through `(3/5, 4/5)`. -/
theorem C19_example : (BezierCurve.mk [⟨1, 0, 0, 1⟩, ⟨1, 1, 0, 1⟩, (⟨0, 2, 0, 2⟩ : V4 ℚ)]).getPointRational (1 / 2)
    = .ok ⟨3 / 5, 4 / 5, 0⟩ := by decide +kernel

end Geom3d
