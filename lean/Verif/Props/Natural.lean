import Verif.Lemmas.Natural
import Verif.Props.Rational
import Verif.Model.Instances

/-! # C110: linear and affine maps of the control points -/

set_option linter.unusedSectionVars false

namespace Geom3d
open Spec

/-- The curve with every control point moved by `φ`. -/
def Spec.mapBezier {P Q : Type} (φ : P → Q) (c : BezierCurve P) : BezierCurve Q := ⟨c.controlPoints.map φ⟩

/-- The curve with every control point moved by `φ`. -/
def Spec.mapBSpline {F P Q : Type} (φ : P → Q) (c : BSplineCurve F P) : BSplineCurve F Q :=
  ⟨c.controlPoints.map φ, c.knots, c.degree⟩

/-- The surface with every control point moved by `φ`. -/
def Spec.mapSurface {F P Q : Type} (φ : P → Q) (s : BSplineSurface F P) : BSplineSurface F Q :=
  ⟨mapNet φ s.controlPoints, s.knots, s.degree⟩

section
variable {F P Q : Type} [Add F] [Sub F] [Mul F] [Div F] [Neg F] [Zero F] [One F] [NatCast F]
  [LT F] [DecidableLT F] [LE F] [DecidableLE F] [Env F]
  [Add P] [Sub P] [Zero P] [HMul F P P] [HMul P F P] [Add Q] [Sub Q] [Zero Q] [HMul F Q Q] [HMul Q F Q]
  {φ ψ : P → Q}

/-- **C110** (law-free): evaluating Bézier curves commutes with linear maps; the same panics occur. -/
theorem C110_bezier (h : PointHom F φ) (c : BezierCurve P) (u : F) :
    (mapBezier φ c).getPoint u = φ <$> c.getPoint u := by
  unfold BezierCurve.getPoint mapBezier
  rw [List.length_map]
  refine bind_same _ fun w => ?_
  rw [linComb_natural h]
  rfl

/-- **C110** (law-free): the derivative is moved by the map `ψ` of differences (for an affine map its linear part). -/
theorem C110_bezier_derivative_differences (hψ : PointHom F ψ) (hφ : ∀ a b, φ b - φ a = ψ (b - a)) (c : BezierCurve P) :
    (mapBezier φ c).derivative (F := F) = mapBezier ψ <$> c.derivative (F := F) := by
  unfold BezierCurve.derivative BezierCurve.degree mapBezier
  rw [List.length_map]
  refine bind_same _ fun n => ?_
  rw [pairs_map]
  simp only [pure, Except.pure, res_map_ok, List.map_map]
  congr 2
  refine List.map_congr_left fun p _ => ?_
  simp only [Function.comp_apply, hψ.rmul, hφ]

/-- **C110** (law-free): the derivative commutes with linear maps. -/
theorem C110_bezier_derivative (h : PointHom F φ) (c : BezierCurve P) :
    (mapBezier φ c).derivative (F := F) = mapBezier φ <$> c.derivative (F := F) :=
  C110_bezier_derivative_differences h (fun a b => (h.sub b a).symm) c

/-- **C110** (law-free): evaluating B-spline curves commutes with linear maps. -/
theorem C110_bspline (h : PointHom F φ) (c : BSplineCurve F P) (u : F) :
    (mapBSpline φ c).getPoint u = φ <$> c.getPoint u := by
  unfold BSplineCurve.getPoint mapBSpline
  refine bind_same _ fun w => ?_
  rw [linComb_natural h]
  rfl

/-- **C110** (law-free): the derivative is moved by the map of differences. -/
theorem C110_bspline_derivative_differences (hψ : PointHom F ψ) (hφ : ∀ a b, φ b - φ a = ψ (b - a))
    (c : BSplineCurve F P) : (mapBSpline φ c).derivative = mapBSpline ψ <$> c.derivative := by
  unfold BSplineCurve.derivative mapBSpline
  refine bind_same _ fun knots => bind_same _ fun spans => bind_same _ fun d => ?_
  rw [pairs_map]
  simp only [pure, Except.pure, res_map_ok, List.map_map, List.zip_map_left]
  congr 2
  refine List.map_congr_left fun p _ => ?_
  simp only [Function.comp_apply, hψ.rmul, hφ, Prod.map_fst, Prod.map_snd, id_eq]

/-- **C110** (law-free): the derivative commutes with linear maps. -/
theorem C110_bspline_derivative (h : PointHom F φ) (c : BSplineCurve F P) :
    (mapBSpline φ c).derivative = mapBSpline φ <$> c.derivative :=
  C110_bspline_derivative_differences h (fun a b => (h.sub b a).symm) c

/-- **C110** (law-free): knot insertion. -/
theorem C110_add_knot (h : PointHom F φ) (c : BSplineCurve F P) (x : F) :
    (mapBSpline φ c).addKnot x = mapBSpline φ <$> c.addKnot x := by
  have tail : ∀ s : List P × Nat, (forRangeRev
        (if c.degree < (KnotVector.addKnot c.knots x).2 then (KnotVector.addKnot c.knots x).2 - c.degree else 0)
        s.2 (s.1.map φ) (addKnotBody (KnotVector.addKnot c.knots x).1 c.degree x) >>= fun cps =>
          pure (⟨cps, (KnotVector.addKnot c.knots x).1, c.degree⟩ : BSplineCurve F Q))
      = mapBSpline φ <$> (forRangeRev
        (if c.degree < (KnotVector.addKnot c.knots x).2 then (KnotVector.addKnot c.knots x).2 - c.degree else 0)
        s.2 s.1 (addKnotBody (KnotVector.addKnot c.knots x).1 c.degree x) >>= fun cps =>
          pure (⟨cps, (KnotVector.addKnot c.knots x).1, c.degree⟩ : BSplineCurve F P)) := fun s =>
    bind_natural (List.map φ) _ (forRangeRev_map (List.map φ) _ _ _ _ _
      fun cps i => addKnotBody_natural h _ _ _ _ _) fun cps => rfl
  unfold BSplineCurve.addKnot
  simp only [mapBSpline, List.length_map]
  by_cases h1 : (KnotVector.addKnot c.knots x).2 = 0
  · simp only [if_pos h1]
    refine bind_natural (List.map φ) _ ?_ fun cps => rfl
    rw [← h.zero, insertAt_map]
  · simp only [if_neg h1]
    by_cases h2 : c.controlPoints.length < (KnotVector.addKnot c.knots x).2
    · simp only [if_pos h2]
      have := tail (c.controlPoints ++ [0], c.controlPoints.length + 1)
      rw [List.map_append, List.map_singleton, h.zero] at this
      exact this
    · simp only [if_neg h2]
      exact bind_natural φ _ (idx_map φ _ _) fun y => bind_natural (List.map φ) _ (insertAt_map φ _ _ _) fun cps =>
        tail (cps, _)

theorem splitTail_natural (h : PointHom F φ) (c : BSplineCurve F P) (t : F) (s : Nat) :
    (forRange s ((mapBSpline φ c).degree + 1) (mapBSpline φ c) (fun c _ => c.addKnot t) >>= fun c1 =>
      KnotVector.spanIndex c1.knots t >>= fun k =>
      KnotVector.subVec c1.knots 0 (k + 1) >>= fun knots0 =>
      usub k (mapBSpline φ c).degree >>= fun kp =>
      KnotVector.subVec c1.knots kp c1.knots.length >>= fun knots1 =>
      slice c1.controlPoints 0 kp >>= fun cps0 =>
      slice c1.controlPoints kp c1.controlPoints.length >>= fun cps1 =>
      pure ((⟨cps0, knots0, c1.degree⟩ : BSplineCurve F Q), (⟨cps1, knots1, c1.degree⟩ : BSplineCurve F Q)))
    = (fun r => (mapBSpline φ r.1, mapBSpline φ r.2)) <$>
    (forRange s (c.degree + 1) c (fun c _ => c.addKnot t) >>= fun c1 =>
      KnotVector.spanIndex c1.knots t >>= fun k =>
      KnotVector.subVec c1.knots 0 (k + 1) >>= fun knots0 =>
      usub k c.degree >>= fun kp =>
      KnotVector.subVec c1.knots kp c1.knots.length >>= fun knots1 =>
      slice c1.controlPoints 0 kp >>= fun cps0 =>
      slice c1.controlPoints kp c1.controlPoints.length >>= fun cps1 =>
      pure ((⟨cps0, knots0, c1.degree⟩ : BSplineCurve F P), (⟨cps1, knots1, c1.degree⟩ : BSplineCurve F P))) := by
  refine bind_natural (mapBSpline φ) _ (forRange_map (mapBSpline φ) _ _ _ _ _ fun c _ => C110_add_knot h c _) fun c1 => ?_
  refine bind_same _ fun k => bind_same _ fun k0 => bind_same _ fun kp => bind_same _ fun k1 => ?_
  refine bind_natural (List.map φ) _ (slice_map φ _ _ _) fun a => ?_
  refine bind_natural (List.map φ) _ ?_ fun b => rfl
  simp only [mapBSpline, List.length_map]
  exact slice_map φ _ _ _

/-- **C110** (law-free): splitting. -/
theorem C110_split (h : PointHom F φ) (c : BSplineCurve F P) (t : F) :
    (mapBSpline φ c).split t = (fun r => (mapBSpline φ r.1, mapBSpline φ r.2)) <$> c.split t := by
  unfold BSplineCurve.split
  refine bind_same _ fun index => bind_same _ fun ti => ?_
  by_cases hn : near t ti = true
  · simp only [if_pos hn]
    exact bind_same _ fun s => splitTail_natural h c ti s
  · simp only [if_neg hn]
    exact splitTail_natural h c t 0

/-- **C110** (law-free): clamping. -/
theorem C110_clamp (h : PointHom F φ) (c : BSplineCurve F P) :
    (mapBSpline φ c).clamp = mapBSpline φ <$> c.clamp := by
  unfold BSplineCurve.clamp
  refine bind_same _ fun s => ?_
  refine bind_natural (mapBSpline φ) _ (forRange_map (mapBSpline φ) _ _ _ _ _
    fun c _ => bind_same _ fun x => C110_add_knot h c x) fun c => ?_
  refine bind_same _ fun l => bind_same _ fun s => ?_
  exact forRange_map (mapBSpline φ) _ _ _ _ _ fun c _ => bind_same _ fun x => C110_add_knot h c x

/-- **C110** (law-free): decomposition into Bézier curves. -/
theorem C110_piecewise (h : PointHom F φ) (c : BSplineCurve F P) :
    (mapBSpline φ c).toPiecewiseBezier = List.map (mapBezier φ) <$> c.toPiecewiseBezier := by
  unfold BSplineCurve.toPiecewiseBezier
  refine bind_natural (mapBSpline φ) _ (C110_clamp h c) fun b => bind_same _ fun _ => ?_
  refine bind_natural (fun s : BSplineCurve F P × List (BezierCurve P) => (mapBSpline φ s.1, s.2.map (mapBezier φ))) _
    (forRange_map (fun s : BSplineCurve F P × List (BezierCurve P) => (mapBSpline φ s.1, s.2.map (mapBezier φ)))
      2 _ (b, []) _ _ fun st i => ?_) fun st => ?_
  · refine bind_same _ fun t => ?_
    refine bind_natural (fun r : BSplineCurve F P × BSplineCurve F P => (mapBSpline φ r.1, mapBSpline φ r.2)) _
      (C110_split h _ _) fun r => ?_
    simp [mapBezier, mapBSpline]
  · simp [mapBezier, mapBSpline]

/-- **C110** (law-free): Bézier surfaces. -/
theorem C110_bezier_surface (h : PointHom F φ) (s : BezierSurface P) (u v : F) :
    (BezierSurface.mk (mapNet φ s.controlPoints)).getPoint u v = φ <$> s.getPoint u v := by
  unfold BezierSurface.getPoint
  exact bind_same _ fun bu => bind_same _ fun bv => netSum_natural h _ _ _

/-- **C110** (law-free): B-spline surfaces. -/
theorem C110_surface (h : PointHom F φ) (s : BSplineSurface F P) (u v : F) :
    (mapSurface φ s).getPoint u v = φ <$> s.getPoint u v := by
  unfold BSplineSurface.getPoint
  exact bind_same _ fun bu => bind_same _ fun bv => netSum_natural h _ _ _

theorem zeroSurface_natural (h : PointHom F φ) :
    (do let g ← Grid.fromVec (List.replicate 4 (0 : Q)) 2
        BSplineSurface.uniformClamped (F := F) g (1, 1))
      = mapSurface φ <$> (do let g ← Grid.fromVec (List.replicate 4 (0 : P)) 2
                             BSplineSurface.uniformClamped (F := F) g (1, 1)) := by
  refine bind_natural (mapNet φ) _ ?_ fun g => ?_
  · rw [← h.zero, ← List.map_replicate]
    exact Grid.fromVec_map φ _ _
  · unfold BSplineSurface.uniformClamped
    exact bind_same _ fun _ => rfl

/-- **C110** (law-free): the partial derivative in `u`. -/
theorem C110_derivative_u_differences (h : PointHom F ψ) (hφ : ∀ a b, φ b - φ a = ψ (b - a)) (s : BSplineSurface F P) :
    (mapSurface φ s).derivativeU = mapSurface ψ <$> s.derivativeU := by
  unfold BSplineSurface.derivativeU
  by_cases h0 : s.degree.1 = 0
  · rw [if_pos h0, if_pos (show (mapSurface φ s).degree.1 = 0 from h0)]
    exact zeroSurface_natural h
  · rw [if_neg h0, if_neg (show ¬ (mapSurface φ s).degree.1 = 0 from h0)]
    refine bind_same _ fun p => bind_same _ fun k => bind_same _ fun sp => bind_same _ fun n => ?_
    refine bind_natural (List.map ψ) _ (forRange_map (List.map ψ) _ _ [] _ _ fun pts i =>
      forRange_map (List.map ψ) _ _ _ _ _ fun pts j => ?_) fun pts => ?_
    · refine bind_natural φ _ (Grid.at_map φ _ _ _) fun b => bind_natural φ _ (Grid.at_map φ _ _ _) fun a =>
        bind_same _ fun sp => ?_
      simp [h.rmul, hφ, mapSurface]
    · exact bind_natural (mapNet ψ) _ (Grid.fromVec_map ψ _ _) fun g => rfl

/-- **C110** (law-free). -/
theorem C110_derivative_u (h : PointHom F φ) (s : BSplineSurface F P) :
    (mapSurface φ s).derivativeU = mapSurface φ <$> s.derivativeU :=
  C110_derivative_u_differences h (fun a b => (h.sub b a).symm) s

/-- **C110** (law-free): the partial derivative in `v`. -/
theorem C110_derivative_v_differences (h : PointHom F ψ) (hφ : ∀ a b, φ b - φ a = ψ (b - a)) (s : BSplineSurface F P) :
    (mapSurface φ s).derivativeV = mapSurface ψ <$> s.derivativeV := by
  unfold BSplineSurface.derivativeV
  by_cases h0 : s.degree.2 = 0
  · rw [if_pos h0, if_pos (show (mapSurface φ s).degree.2 = 0 from h0)]
    exact zeroSurface_natural h
  · rw [if_neg h0, if_neg (show ¬ (mapSurface φ s).degree.2 = 0 from h0)]
    refine bind_same _ fun p => bind_same _ fun k => bind_same _ fun sp => bind_same _ fun n => ?_
    refine bind_natural (List.map ψ) _ (forRange_map (List.map ψ) _ _ [] _ _ fun pts i =>
      forRange_map (List.map ψ) _ _ _ _ _ fun pts j => ?_) fun pts => ?_
    · refine bind_natural φ _ (Grid.at_map φ _ _ _) fun b => bind_natural φ _ (Grid.at_map φ _ _ _) fun a =>
        bind_same _ fun sp => ?_
      simp [h.rmul, hφ, mapSurface]
    · exact bind_natural (mapNet ψ) _ (Grid.fromVec_map ψ _ _) fun g => rfl

/-- **C110** (law-free). -/
theorem C110_derivative_v (h : PointHom F φ) (s : BSplineSurface F P) :
    (mapSurface φ s).derivativeV = mapSurface φ <$> s.derivativeV :=
  C110_derivative_v_differences h (fun a b => (h.sub b a).symm) s

end

/-! ### Instances -/

section
variable {F : Type} [Add F] [Sub F] [Mul F] [Div F] [Neg F] [Zero F] [One F] [NatCast F]
  [LT F] [DecidableLT F] [LE F] [DecidableLE F] [Env F]

theorem hom_x : PointHom F (V3.x : V3 F → F) := ⟨fun _ _ => rfl, fun _ _ => rfl, rfl, fun _ _ => rfl, fun _ _ => rfl⟩
theorem hom_y : PointHom F (V3.y : V3 F → F) := ⟨fun _ _ => rfl, fun _ _ => rfl, rfl, fun _ _ => rfl, fun _ _ => rfl⟩
theorem hom_z : PointHom F (V3.z : V3 F → F) := ⟨fun _ _ => rfl, fun _ _ => rfl, rfl, fun _ _ => rfl, fun _ _ => rfl⟩

/-- The cyclic exchange of the axes. -/
def Spec.rotateAxes (p : V3 F) : V3 F := ⟨p.y, p.z, p.x⟩

theorem hom_rotateAxes : PointHom F (rotateAxes : V3 F → V3 F) :=
  ⟨fun _ _ => rfl, fun _ _ => rfl, rfl, fun _ _ => rfl, fun _ _ => rfl⟩

/-- **C110** (law-free, so bit for bit in binary64): each coordinate of a point of a B-spline curve is the value of the
B-spline with that coordinate of the control points; the coordinates do not interact. -/
theorem C110_coordinates (c : BSplineCurve F (V3 F)) (u : F) (p : V3 F) (h : c.getPoint u = .ok p) :
    (mapBSpline V3.x c).getPoint u = .ok p.x ∧ (mapBSpline V3.y c).getPoint u = .ok p.y ∧
      (mapBSpline V3.z c).getPoint u = .ok p.z := by
  rw [C110_bspline hom_x, C110_bspline hom_y, C110_bspline hom_z, h]
  exact ⟨rfl, rfl, rfl⟩

/-- **C110** (law-free): a map of the homogeneous points that keeps the weight moves the rational curve by the induced
map of points. -/
theorem C110_rational_bezier {φ : V4 F → V4 F} {ψ : V3 F → V3 F} (h : PointHom F φ) (c : BezierCurve (V4 F)) (u : F)
    (hψ : ∀ p, c.getPoint u = .ok p → (1 / (φ p).w) * (φ p).truncate = ψ ((1 / p.w) * p.truncate)) :
    (mapBezier φ c).getPointRational u = ψ <$> c.getPointRational u := by
  unfold BezierCurve.getPointRational
  rw [C110_bezier h]
  cases e : c.getPoint u with
  | error e => rfl
  | ok p => exact congrArg Except.ok (hψ p e)

theorem C110_rational_bspline {φ : V4 F → V4 F} {ψ : V3 F → V3 F} (h : PointHom F φ) (c : BSplineCurve F (V4 F)) (u : F)
    (hψ : ∀ p, c.getPoint u = .ok p → (1 / (φ p).w) * (φ p).truncate = ψ ((1 / p.w) * p.truncate)) :
    (mapBSpline φ c).getPointRational u = ψ <$> c.getPointRational u := by
  unfold BSplineCurve.getPointRational
  rw [C110_bspline h]
  cases e : c.getPoint u with
  | error e => rfl
  | ok p => exact congrArg Except.ok (hψ p e)

theorem C110_rational_surface {φ : V4 F → V4 F} {ψ : V3 F → V3 F} (h : PointHom F φ) (s : BSplineSurface F (V4 F)) (u v : F)
    (hψ : ∀ p, s.getPoint u v = .ok p → (1 / (φ p).w) * (φ p).truncate = ψ ((1 / p.w) * p.truncate)) :
    (mapSurface φ s).getPointRational u v = ψ <$> s.getPointRational u v := by
  unfold BSplineSurface.getPointRational
  rw [C110_surface h]
  cases e : s.getPoint u v with
  | error e => rfl
  | ok p => exact congrArg Except.ok (hψ p e)

end

/-! ### Affine maps, exact arithmetic -/

section
variable {K P Q : Type} [Field K] [LinearOrder K] [IsStrictOrderedRing K] [Env K]
  [AddCommGroup P] [Module K P] [HMul K P P] [HMul P K P] [LawfulPoint K P]
  [AddCommGroup Q] [Module K Q] [HMul K Q Q] [HMul Q K Q] [LawfulPoint K Q]

theorem hom_linear (L : P →ₗ[K] Q) : PointHom K L where
  add := L.map_add
  sub := L.map_sub
  zero := L.map_zero
  lmul f a := by rw [LawfulPoint.left, LawfulPoint.left, L.map_smul]
  rmul f a := by rw [LawfulPoint.right, LawfulPoint.right, L.map_smul]

theorem affine_sum {ι : Type} (S : Finset ι) (w : ι → K) (p : ι → P) (L : P →ₗ[K] Q) (t : Q) (hw : ∑ i ∈ S, w i = 1) :
    ∑ i ∈ S, w i • (L (p i) + t) = L (∑ i ∈ S, w i • p i) + t := by
  simp only [smul_add, Finset.sum_add_distrib, map_sum, L.map_smul]
  rw [← Finset.sum_smul, hw, one_smul]

/-- **C110**: an affine map of the control points moves a Bézier curve by it, for all parameters. -/
theorem C110_bezier_affine (c : BezierCurve P) (hc : c.controlPoints ≠ []) (L : P →ₗ[K] Q) (t : Q) (u : K) :
    (mapBezier (fun p => L p + t) c).getPoint u = (fun p => L p + t) <$> c.getPoint u := by
  have hl : 1 ≤ c.controlPoints.length := List.length_pos_iff.2 hc
  rw [bezier_getPoint c hl, bezier_getPoint _ (by simpa [mapBezier] using hl), res_map_ok]
  simp only [mapBezier, List.length_map]
  rw [← affine_sum _ _ _ _ _ (bernsteinPoly_sum _ hl u)]
  congr 1
  refine Finset.sum_congr rfl fun i hi => ?_
  rw [cp_map (fun p => L p + t) (Finset.mem_range.1 hi)]

theorem bspline_affine {c : BSplineCurve K P} (hv : c.Valid) (L : P →ₗ[K] Q) (t : Q) {s : Nat} {u : K}
    (hc : Contains (knot c.knots) (c.controlPoints.length + c.degree) s u) (hlo : c.degree ≤ s)
    (hN : s < c.controlPoints.length) :
    (mapBSpline (fun p => L p + t) c).getPoint u = (fun p => L p + t) <$> c.getPoint u := by
  have hb := basis_of_contains (p := c.degree) hv.len hv.sorted hv.resolved (by omega) hv.nonconst hc
  have e1 : (mapBSpline (fun p => L p + t) c).getPoint u = _ := bspline_linComb hb (c.controlPoints.map fun p => L p + t)
  have e2 : c.getPoint u = _ := bspline_linComb hb c.controlPoints
  rw [e1, e2, res_map_ok]
  have hlen : c.knots.length - 1 - c.degree = c.controlPoints.length := by have := hv.len; omega
  rw [hlen]
  have hg : ∀ i, i < c.controlPoints.length → (tab (c.controlPoints.length + c.degree - c.degree)
      fun i => piece (knot c.knots) s c.degree i u).getD i 0 = piece (knot c.knots) s c.degree i u := by
    intro i hi
    rw [List.getD_eq_getElem?_getD, tab_getElem?, if_pos (by omega)]
    rfl
  rw [← affine_sum]
  · congr 1
    refine Finset.sum_congr rfl fun i hi => ?_
    rw [cp_map (fun p => L p + t) (Finset.mem_range.1 hi)]
  · rw [Finset.sum_congr rfl (fun i hi => hg i (Finset.mem_range.1 hi))]
    exact piece_sum ⟨hv.mono, by omega, hc.nonempty⟩ u c.degree _ hlo hN (by omega)

/-- **C110**: the same for B-spline curves at the parameters of their domain. -/
theorem C110_bspline_affine {c : BSplineCurve K P} (hv : c.Valid) (L : P →ₗ[K] Q) (t : Q) {s : Nat} {u : K}
    (hs : InSpan c.knots c.controlPoints.length c.degree s u) :
    (mapBSpline (fun p => L p + t) c).getPoint u = (fun p => L p + t) <$> c.getPoint u :=
  bspline_affine hv L t hs.contains hs.lo hs.hi

theorem affine_tensor {g : Grid P} (hg : NetOk g) (a b : Nat → K) (L : P →ₗ[K] Q) (t : Q)
    (ha : ∑ i ∈ Finset.range g.rows, a i = 1) (hb : ∑ j ∈ Finset.range g.cols, b j = 1) :
    ∑ i ∈ Finset.range g.rows, ∑ j ∈ Finset.range g.cols, (a i * b j) • entry (mapNet (fun p => L p + t) g) i j
      = L (∑ i ∈ Finset.range g.rows, ∑ j ∈ Finset.range g.cols, (a i * b j) • entry g i j) + t := by
  rw [← Finset.sum_product' (Finset.range g.rows) (Finset.range g.cols) (fun i j => (a i * b j) • entry g i j),
    ← Finset.sum_product' (Finset.range g.rows) (Finset.range g.cols)
      (fun i j => (a i * b j) • entry (mapNet (fun p => L p + t) g) i j),
    ← affine_sum]
  · refine Finset.sum_congr rfl ?_
    rintro ⟨i, j⟩ h
    obtain ⟨hi, hj⟩ := Finset.mem_product.1 h
    simp only []
    rw [entry_mapNet _ hg (Finset.mem_range.1 hi) (Finset.mem_range.1 hj)]
  · rw [Finset.sum_product' (Finset.range g.rows) (Finset.range g.cols) (fun i j => a i * b j), ← Finset.sum_mul_sum, ha,
      hb, one_mul]

/-- **C110**: Bézier surfaces. -/
theorem C110_bezier_surface_affine {s : BezierSurface P} (hg : NetOk s.controlPoints) (hr : 1 ≤ s.controlPoints.rows)
    (hc : 1 ≤ s.controlPoints.cols) (L : P →ₗ[K] Q) (t : Q) (u v : K) :
    (BezierSurface.mk (mapNet (fun p => L p + t) s.controlPoints)).getPoint u v = (fun p => L p + t) <$> s.getPoint u v := by
  rw [bezierSurface_getPoint hg hr hc, bezierSurface_getPoint (s := ⟨mapNet (fun p => L p + t) s.controlPoints⟩)
    (mapNet_ok _ hg) hr hc, res_map_ok]
  congr 1
  exact affine_tensor hg _ _ L t (bernsteinPoly_sum _ hr u) (bernsteinPoly_sum _ hc v)

theorem surface_affine {s : BSplineSurface K P} (hs : s.Valid) (L : P →ₗ[K] Q) (t : Q) {u v : K} {a b : Nat}
    (ha : Contains (knot s.knots.1) (s.controlPoints.rows + s.degree.1) a u) (la : s.degree.1 ≤ a)
    (ua : a < s.controlPoints.rows) (hb : Contains (knot s.knots.2) (s.controlPoints.cols + s.degree.2) b v)
    (lb : s.degree.2 ≤ b) (ub : b < s.controlPoints.cols) :
    (mapSurface (fun p => L p + t) s).getPoint u v = (fun p => L p + t) <$> s.getPoint u v := by
  have hs' : (mapSurface (fun p => L p + t) s).Valid :=
    ⟨mapNet_ok _ hs.net, hs.lenU, hs.lenV, hs.sortedU, hs.sortedV, hs.resolvedU, hs.resolvedV, hs.nonconstU, hs.nonconstV,
      hs.rows, hs.cols⟩
  rw [bsplineSurface_pieces hs ha hb, bsplineSurface_pieces hs' ha hb, res_map_ok]
  congr 1
  exact affine_tensor hs.net _ _ L t
    (piece_sum ⟨hs.monoU, ha.lt, ha.nonempty⟩ u _ _ la ua (show a + s.degree.1 < s.controlPoints.rows + s.degree.1 by omega))
    (piece_sum ⟨hs.monoV, hb.lt, hb.nonempty⟩ v _ _ lb ub (show b + s.degree.2 < s.controlPoints.cols + s.degree.2 by omega))

/-- **C110**: B-spline surfaces at the parameters of their domain. -/
theorem C110_surface_affine {s : BSplineSurface K P} (hs : s.Valid) (L : P →ₗ[K] Q) (t : Q) {u v : K} {a b : Nat}
    (ha : InSpan s.knots.1 s.controlPoints.rows s.degree.1 a u)
    (hb : InSpan s.knots.2 s.controlPoints.cols s.degree.2 b v) :
    (mapSurface (fun p => L p + t) s).getPoint u v = (fun p => L p + t) <$> s.getPoint u v :=
  surface_affine hs L t ha.contains ha.lo ha.hi hb.contains hb.lo hb.hi

end

section
variable {K : Type} [Field K] [LinearOrder K] [IsStrictOrderedRing K] [Env K]

/-- The map of homogeneous points that moves the points by `p ↦ L p + t`. -/
def Spec.homogeneous (L : V3 K →ₗ[K] V3 K) (t : V3 K) (p : V4 K) : V4 K :=
  let q := L p.truncate + p.w • t
  ⟨q.x, q.y, q.z, p.w⟩

theorem hom_homogeneous (L : V3 K →ₗ[K] V3 K) (t : V3 K) : PointHom K (homogeneous L t) := by
  have trA : ∀ a b : V4 K, (a + b).truncate = a.truncate + b.truncate := fun _ _ => rfl
  have trS : ∀ a b : V4 K, (a - b).truncate = a.truncate - b.truncate := fun _ _ => rfl
  have trM : ∀ (f : K) (a : V4 K), (f • a).truncate = f • a.truncate := fun _ _ => rfl
  refine ⟨fun a b => ?_, fun a b => ?_, ?_, fun f a => ?_, fun f a => ?_⟩
  · unfold homogeneous
    rw [trA, L.map_add, show (a + b).w = a.w + b.w from rfl, add_smul]
    ext <;> simp <;> ring
  · unfold homogeneous
    rw [trS, L.map_sub, show (a - b).w = a.w - b.w from rfl, sub_smul]
    ext <;> simp <;> ring
  · unfold homogeneous
    rw [show (0 : V4 K).truncate = 0 from rfl, L.map_zero, show (0 : V4 K).w = 0 from rfl, zero_smul]
    ext <;> simp
  · rw [LawfulPoint.left, LawfulPoint.left]
    unfold homogeneous
    rw [trM, L.map_smul, show (f • a).w = f * a.w from rfl, mul_smul]
    ext <;> simp <;> ring
  · rw [LawfulPoint.right, LawfulPoint.right]
    unfold homogeneous
    rw [trM, L.map_smul, show (f • a).w = f * a.w from rfl, mul_smul]
    ext <;> simp <;> ring

theorem homogeneous_point (L : V3 K →ₗ[K] V3 K) (t : V3 K) {p : V4 K} (hp : p.w ≠ 0) :
    (1 / (homogeneous L t p).w) * (homogeneous L t p).truncate = L ((1 / p.w) * p.truncate) + t := by
  rw [LawfulPoint.left, LawfulPoint.left, L.map_smul]
  change (1 / p.w) • (L p.truncate + p.w • t) = _
  rw [smul_add, smul_smul, one_div, inv_mul_cancel₀ hp, one_smul]

/-- **C110**: rational Bézier curves, wherever the denominator does not vanish. -/
theorem C110_rational_bezier_affine (c : BezierCurve (V4 K)) (L : V3 K →ₗ[K] V3 K) (t : V3 K) (u : K)
    (hw : ∀ p, c.getPoint u = .ok p → p.w ≠ 0) :
    (mapBezier (homogeneous L t) c).getPointRational u = (fun p => L p + t) <$> c.getPointRational u :=
  C110_rational_bezier (hom_homogeneous L t) c u fun p hp => homogeneous_point L t (hw p hp)

/-- **C110**: rational B-spline curves, also outside the domain. -/
theorem C110_rational_bspline_affine (c : BSplineCurve K (V4 K)) (L : V3 K →ₗ[K] V3 K) (t : V3 K) (u : K)
    (hw : ∀ p, c.getPoint u = .ok p → p.w ≠ 0) :
    (mapBSpline (homogeneous L t) c).getPointRational u = (fun p => L p + t) <$> c.getPointRational u :=
  C110_rational_bspline (hom_homogeneous L t) c u fun p hp => homogeneous_point L t (hw p hp)

/-- **C110**: rational B-spline surfaces. -/
theorem C110_rational_surface_affine (s : BSplineSurface K (V4 K)) (L : V3 K →ₗ[K] V3 K) (t : V3 K) (u v : K)
    (hw : ∀ p, s.getPoint u v = .ok p → p.w ≠ 0) :
    (mapSurface (homogeneous L t) s).getPointRational u v = (fun p => L p + t) <$> s.getPointRational u v :=
  C110_rational_surface (hom_homogeneous L t) s u v fun p hp => homogeneous_point L t (hw p hp)

end

/-! ### Examples -/

/-- The hypothesis of the law-free part, binary64: exchanging the axes of the control points and evaluating. -/
theorem C110_example_float : (mapBSpline rotateAxes (⟨[⟨0, 0.1, 1⟩, ⟨1, 2, 0.3⟩, ⟨3, 0.7, 0⟩], [0, 0, 0, 1, 1, 1], 2⟩ :
      BSplineCurve Float (V3 Float))).getPoint (0.3 : Float)
    = rotateAxes <$> (⟨[⟨0, 0.1, 1⟩, ⟨1, 2, 0.3⟩, ⟨3, 0.7, 0⟩], [0, 0, 0, 1, 1, 1], 2⟩ :
      BSplineCurve Float (V3 Float)).getPoint (0.3 : Float) := C110_bspline hom_rotateAxes _ (0.3 : Float)

/-- A translated quadratic: without the partition of unity the shift would be scaled. -/
theorem C110_example : (mapBezier (fun p => p + ⟨1, 2, 3⟩) (⟨[⟨0, 0, 0⟩, ⟨1, 2, 0⟩, (⟨2, 0, 0⟩ : V3 ℚ)]⟩)).getPoint (1 / 2 : ℚ)
      = .ok ⟨2, 3, 3⟩ ∧
    (BezierCurve.mk [⟨0, 0, 0⟩, ⟨1, 2, 0⟩, (⟨2, 0, 0⟩ : V3 ℚ)]).getPoint (1 / 2 : ℚ) = .ok ⟨1, 1, 0⟩ := by
  decide +kernel

/-- Outside the domain of an unclamped curve the weights do not add up to one and a translation is not respected. -/
theorem C110_example_outside :
    (mapBSpline (fun p => p + 1) (⟨[1, 1], [0, 1, 2, 3], 1⟩ : BSplineCurve ℚ ℚ)).getPoint (1 / 2 : ℚ) = .ok 1 ∧
    (⟨[1, 1], [0, 1, 2, 3], 1⟩ : BSplineCurve ℚ ℚ).getPoint (1 / 2 : ℚ) = .ok (1 / 2) := by
  decide +kernel

end Geom3d
