import Verif.Props.Motion

/-! # C111: moved curves, B-spline surfaces and patches -/

set_option linter.unusedSectionVars false

noncomputable section
namespace Geom3d
open Spec

section
variable {m : Motion}

theorem bind_move {α β γ : Type} {f : α → β} {x : Res α} {x' : Res β} {g : α → Res γ} {g' : β → Res γ}
    (hx : x' = f <$> x) (hg : ∀ a, g' (f a) = g a) : (x' >>= g') = (x >>= g) := by
  subst hx
  cases x with
  | error e => rfl
  | ok a => exact hg a

theorem bind_same_eq' {α γ : Type} {x : Res α} {g g' : α → Res γ} (hg : ∀ a, x = .ok a → g' a = g a) :
    (x >>= g') = (x >>= g) := by
  cases x with
  | error e => rfl
  | ok a => exact hg a rfl

/-! ### Lines, circles, polylines -/

/-- **C111**: lines. -/
theorem C111_line (l : Line ℝ) (u : ℝ) (p : V3 ℝ) :
    (Line.mk (m.move l.origin) (m.lin l.direction)).getPoint u = m.move (l.getPoint u) ∧
      (Line.mk (m.move l.origin) (m.lin l.direction)).project (m.move p) = l.project p := by
  constructor
  · unfold Line.getPoint; rw [lin_mul, move_add]
  · unfold Line.project; rw [move_sub, m.dot]

/-- **C111**: circles. -/
theorem C111_circle (c : Circle ℝ) (u : ℝ) (p : V3 ℝ) :
    (Circle.mk (m.move c.center) c.radius (m.lin c.axis) (m.lin c.refDir)).getPoint u = m.move (c.getPoint u) ∧
      (Circle.mk (m.move c.center) c.radius (m.lin c.axis) (m.lin c.refDir)).project (m.move p) = c.project p := by
  constructor
  · unfold Circle.getPoint; simp only [lin_quat, lin_mul, move_add]
  · unfold Circle.project; simp only [move_sub, m.cross, lin_normalize, m.dot]

/-- The moved polyline. -/
def Spec.Motion.polyline (m : Motion) (c : Polyline ℝ) : Polyline ℝ := ⟨c.vertices.map m.move, c.segmentLengths, c.length⟩

theorem polylineWalk_move (vs : List (V3 ℝ)) (ls : List ℝ) (i : Nat) (x : ℝ) :
    polylineWalk (vs.map m.move) ls i x = m.move <$> polylineWalk vs ls i x := by
  induction ls generalizing i x with
  | nil => rfl
  | cons s ls ih =>
    unfold polylineWalk
    split
    · exact ih _ _
    · refine bind_natural m.move _ (idx_map _ _ _) fun a => bind_natural m.move _ (idx_map _ _ _) fun b => ?_
      rw [move_lerp]; rfl

theorem distanceToLineSegment_move (a b p : V3 ℝ) :
    distanceToLineSegment (m.move a) (m.move b) (m.move p) = distanceToLineSegment a b p := by
  unfold distanceToLineSegment
  simp only [move_sub, m.dot, m.cross, lin_length, lin_lengthSq]

theorem nearestSegment_move (p : V3 ℝ) (l : List (V3 ℝ × V3 ℝ)) (i : Nat) (st : ℝ × Nat) :
    nearestSegment (m.move p) (l.map fun q => (m.move q.1, m.move q.2)) i st = nearestSegment p l i st := by
  induction l generalizing i st with
  | nil => rfl
  | cons q l ih =>
    rw [List.map_cons, nearestSegment, nearestSegment, distanceToLineSegment_move]
    exact ih _ _

/-- **C111**: polylines: the moved vertices give the moved polyline, with the moved points and the same parameters. -/
theorem C111_polyline (vs : List (V3 ℝ)) (c : Polyline ℝ) (u : ℝ) (p : V3 ℝ) :
    Polyline.new (vs.map m.move) = m.polyline <$> Polyline.new vs ∧
      (m.polyline c).getPoint u = m.move <$> c.getPoint u ∧ (m.polyline c).project (m.move p) = c.project p := by
  refine ⟨?_, ?_, ?_⟩
  · unfold Polyline.new
    rw [List.length_map]
    refine bind_same _ fun _ => ?_
    rw [pairs_map, List.map_map]
    have : ((fun pair : V3 ℝ × V3 ℝ => pair.2.distance pair.1) ∘ fun q : V3 ℝ × V3 ℝ => (m.move q.1, m.move q.2))
        = fun pair => pair.2.distance pair.1 := funext fun q => move_distance m _ _
    rw [this]; rfl
  · unfold Polyline.getPoint
    split
    · exact idx_map _ _ _
    · split
      · unfold Polyline.stop Motion.polyline
        simp only [List.length_map]
        exact bind_same _ fun k => idx_map _ _ _
      · exact polylineWalk_move _ _ _ _
  · unfold Polyline.project Motion.polyline
    simp only [pairs_map, nearestSegment_move, idx_map, res_map_bind, move_sub, lin_normalize, m.dot]

/-! ### Bézier and B-spline curves -/

theorem nearestLoop_move (p : V3 ℝ) (l : List (V3 ℝ)) (i : Nat) (st : ℝ × Nat) :
    nearestLoop (m.move p) (l.map m.move) i st = nearestLoop p l i st := by
  induction l generalizing i st with
  | nil => rfl
  | cons q l ih =>
    rw [List.map_cons, nearestLoop, nearestLoop, move_sub, lin_lengthSq]
    exact ih _ _

/-- Newton's iteration for a moved curve and a moved point. -/
theorem newtonLoop_move {g g' d1 d1' d2 d2' : ℝ → Res (V3 ℝ)} {lo hi : ℝ} (hlh : lo ≤ hi)
    (hg : ∀ u ∈ Set.Icc lo hi, g' u = m.move <$> g u) (h1 : ∀ u, d1' u = m.lin <$> d1 u)
    (h2 : ∀ u, d2' u = m.lin <$> d2 u) (p : V3 ℝ) (trials : Nat) {u : ℝ} (hu : u ∈ Set.Icc lo hi) :
    newtonLoop g' d1' d2' (m.move p) (lo, hi) trials u = newtonLoop g d1 d2 p (lo, hi) trials u := by
  induction trials generalizing u with
  | zero => rfl
  | succ n ih =>
    unfold newtonLoop
    rw [hg u hu, h1, h2]
    simp only [res_map_bind, move_sub, lin_lengthSq, m.dot]
    congr 1; funext x
    split
    · rfl
    · congr 1; funext y
      split
      · rfl
      · congr 1; funext z
        rw [clampInRange_eq]
        simp only [ok_bind]
        apply ih
        rw [min_eq_left hlh, max_eq_right hlh]
        exact ⟨le_max_left _ _, max_le hlh (min_le_right _ _)⟩

theorem uniformDivide_mem {lo hi : ℝ} (h : lo ≤ hi) {d : Nat} {l : List ℝ} (hl : uniformDivide (lo, hi) d = .ok l) :
    ∀ u ∈ l, u ∈ Set.Icc lo hi := by
  rcases Nat.eq_zero_or_pos d with rfl | hd
  · exact absurd hl (by unfold uniformDivide; simp [usub])
  · rw [uniformDivide_tab _ _ hd] at hl
    cases hl
    intro u hu
    obtain ⟨i, hi, rfl⟩ := List.mem_map.1 hu
    rw [List.mem_range] at hi
    exact evenly_mem h hd (by omega)

theorem idx_mem {α : Type} {l : List α} {i : Nat} {a : α} (h : idx l i = .ok a) : a ∈ l := by
  unfold idx at h
  cases e : l[i]? with
  | none => rw [e] at h; cases h
  | some b => rw [e] at h; cases h; exact List.mem_of_getElem? e

theorem findNearestParameter_move {g g' d1 d1' d2 d2' : ℝ → Res (V3 ℝ)} {lo hi : ℝ} (hlh : lo ≤ hi)
    (hg : ∀ u ∈ Set.Icc lo hi, g' u = m.move <$> g u) (h1 : ∀ u, d1' u = m.lin <$> d1 u)
    (h2 : ∀ u, d2' u = m.lin <$> d2 u) (p : V3 ℝ) (division trials : Nat) :
    findNearestParameter g' d1' d2' (m.move p) (lo, hi) division trials
      = findNearestParameter g d1 d2 p (lo, hi) division trials := by
  unfold findNearestParameter
  cases e : uniformDivide (lo, hi) division with
  | error e => rfl
  | ok ps =>
    simp only [ok_bind]
    rw [mapM_natural_mem m.move g g' ps fun u hu => hg u (uniformDivide_mem hlh e u hu), res_map_bind]
    congr 1; funext pts
    unfold findNearestPoint
    rw [nearestLoop_move]
    cases e' : idx ps (nearestLoop p pts 0 (Env.maxV, 0)).2 with
    | error e => rfl
    | ok u => exact newtonLoop_move hlh hg h1 h2 p trials (uniformDivide_mem hlh e u (idx_mem e'))

theorem move_differences (a b : V3 ℝ) : m.move b - m.move a = m.lin (b - a) := move_sub m b a

/-- **C111**: Bézier curves: moved points for all parameters, and the same nearest parameter. -/
theorem C111_bezier (c : BezierCurve (V3 ℝ)) (u : ℝ) (p : V3 ℝ) :
    (mapBezier m.move c).getPoint u = m.move <$> c.getPoint u ∧ (mapBezier m.move c).project (m.move p) = c.project p := by
  have hpt : ∀ u : ℝ, (mapBezier m.move c).getPoint u = m.move <$> c.getPoint u := by
    intro u
    by_cases hc : c.controlPoints = []
    · obtain ⟨l⟩ := c
      cases hc
      rfl
    · exact C110_bezier_affine c hc m.lin m.shift u
  refine ⟨hpt u, ?_⟩
  unfold BezierCurve.project
  have hdeg : (mapBezier m.move c).degree = c.degree := by simp [BezierCurve.degree, mapBezier]
  rw [hdeg]
  congr 1; funext d
  split
  · rw [show (mapBezier m.move c).controlPoints = c.controlPoints.map m.move from rfl,
      (C111_polyline c.controlPoints ⟨[], [], 0⟩ 0 p).1, res_map_bind]
    congr 1; funext q
    exact (C111_polyline [] q 0 p).2.2
  · rw [C110_bezier_derivative_differences (F := ℝ) (hom_linear m.lin) move_differences, res_map_bind]
    congr 1; funext d1
    rw [C110_bezier_derivative (F := ℝ) (hom_linear m.lin), res_map_bind]
    congr 1; funext d2
    congr 1; funext n
    exact findNearestParameter_move zero_le_one (fun u _ => hpt u) (C110_bezier (hom_linear m.lin) d1)
      (C110_bezier (hom_linear m.lin) d2) p _ _

/-- Knots from `degree + 1` repeated ones to `degree + 1` repeated ones: every parameter from the first knot on is in a
span where the weights add up to one. -/
theorem repeated_span {knots : List ℝ} {N p : Nat} (hlen : knots.length = N + p + 1) (hs : Sorted knots)
    (hr : Resolved knots) (hne : knot knots 0 < knot knots (N + p)) (he : RepeatedEnds knots N p) {u : ℝ}
    (hu : knot knots 0 ≤ u) : ∃ s, Contains (knot knots) (N + p) s u ∧ p ≤ s ∧ s < N := by
  obtain ⟨s, -, h2, h3⟩ := exists_contains hlen hs hr hne hu
  have hm : ∀ i j, i ≤ j → j ≤ N + p → knot knots i ≤ knot knots j := fun i j hij hj => hs.knot_le hij (by omega)
  have hlt := h3.lt
  have hn := h3.nonempty
  refine ⟨s, h3, ?_, ?_⟩
  · by_contra hc
    have h5 := hm (s + 1) p (by omega) (by omega)
    have h6 := hm 0 s (by omega) (by omega)
    rw [← he.first] at h5
    linarith
  · by_contra hc
    have h5 := hm N s (by omega) (by omega)
    have h6 := hm (s + 1) (N + p) (by omega) (by omega)
    rw [he.last] at h5
    linarith

/-- **C111**: B-spline curves with repeated ends: moved points from the first knot on, and the same nearest parameter. -/
theorem C111_bspline {c : BSplineCurve ℝ (V3 ℝ)} (hv : c.Valid)
    (he : RepeatedEnds c.knots c.controlPoints.length c.degree) :
    (∀ u, knot c.knots 0 ≤ u → (mapBSpline m.move c).getPoint u = m.move <$> c.getPoint u) ∧
      ∀ p, (mapBSpline m.move c).project (m.move p) = c.project p := by
  have hpt : ∀ u, knot c.knots 0 ≤ u → (mapBSpline m.move c).getPoint u = m.move <$> c.getPoint u := by
    intro u hu
    obtain ⟨s, h1, h2, h3⟩ := repeated_span hv.len hv.sorted hv.resolved hv.nonconst he hu
    exact bspline_affine hv m.lin m.shift h1 h2 h3
  refine ⟨hpt, fun p => ?_⟩
  unfold BSplineCurve.project
  rw [show (mapBSpline m.move c).degree = c.degree from rfl, show (mapBSpline m.move c).knots = c.knots from rfl,
    show (mapBSpline m.move c).controlPoints = c.controlPoints.map m.move from rfl, List.length_map]
  split
  · rw [(C111_polyline c.controlPoints ⟨[], [], 0⟩ 0 p).1, res_map_bind]
    congr 1; funext q
    rw [(C111_polyline [] q 0 p).2.2]
  · rw [C110_bspline_derivative_differences (hom_linear m.lin) move_differences, res_map_bind]
    congr 1; funext d1
    rw [C110_bspline_derivative (hom_linear m.lin), res_map_bind]
    congr 1; funext d2
    rw [range_knot hv.len]
    simp only [ok_bind]
    exact findNearestParameter_move hv.nonconst.le (fun u hu => hpt u hu.1) (C110_bspline (hom_linear m.lin) d1)
      (C110_bspline (hom_linear m.lin) d2) p _ _

/-! ### B-spline surfaces -/

theorem goodSurface_move {s : BSplineSurface ℝ (V3 ℝ)} (hs : s.Good) {u v : ℝ} (hu : knot s.knots.1 0 ≤ u)
    (hv : knot s.knots.2 0 ≤ v) : (mapSurface m.move s).getPoint u v = m.move <$> s.getPoint u v := by
  obtain ⟨a, a1, a2, a3⟩ := repeated_span hs.valid.lenU hs.valid.sortedU hs.valid.resolvedU hs.valid.nonconstU hs.endsU hu
  obtain ⟨b, b1, b2, b3⟩ := repeated_span hs.valid.lenV hs.valid.sortedV hs.valid.resolvedV hs.valid.nonconstV hs.endsV hv
  exact surface_affine hs.valid m.lin m.shift a1 a2 a3 b1 b2 b3

theorem nearestRowLoop_move (p : V3 ℝ) (i : Nat) (l : List (V3 ℝ)) (j : Nat) (st : ℝ × (Nat × Nat)) :
    nearestRowLoop (m.move p) i (l.map m.move) j st = nearestRowLoop p i l j st := by
  induction l generalizing j st with
  | nil => rfl
  | cons q l ih =>
    rw [List.map_cons, nearestRowLoop, nearestRowLoop, move_sub, lin_lengthSq]
    exact ih _ _

theorem nearestGridLoop_move (p : V3 ℝ) (l : List (List (V3 ℝ))) (i : Nat) (st : ℝ × (Nat × Nat)) :
    nearestGridLoop (m.move p) (l.map (List.map m.move)) i st = nearestGridLoop p l i st := by
  induction l generalizing i st with
  | nil => rfl
  | cons q l ih =>
    rw [List.map_cons, nearestGridLoop, nearestGridLoop, nearestRowLoop_move]
    exact ih _ _

theorem rowList_map {α β : Type} (f : α → β) (g : Grid α) : (mapNet f g).rowList = g.rowList.map (List.map f) := by
  unfold Grid.rowList mapNet
  rw [List.map_map]
  refine List.map_congr_left fun i _ => ?_
  simp only [Function.comp_apply, List.map_take, List.map_drop]

/-- A moved jet: the surface is moved on the rectangle, the derivatives are turned. -/
structure Spec.Motion.jet (m : Motion) (d d' : SurfaceJet ℝ) (lo hi : V2 ℝ) : Prop where
  s : ∀ u v, u ∈ Set.Icc lo.x hi.x → v ∈ Set.Icc lo.y hi.y → d'.s u v = m.move <$> d.s u v
  su : ∀ u v, d'.su u v = m.lin <$> d.su u v
  sv : ∀ u v, d'.sv u v = m.lin <$> d.sv u v
  suu : ∀ u v, d'.suu u v = m.lin <$> d.suu u v
  suv : ∀ u v, d'.suv u v = m.lin <$> d.suv u v
  svu : ∀ u v, d'.svu u v = m.lin <$> d.svu u v
  svv : ∀ u v, d'.svv u v = m.lin <$> d.svv u v

theorem newtonLoop2_move {d d' : SurfaceJet ℝ} {lo hi : V2 ℝ} (hx : lo.x ≤ hi.x) (hy : lo.y ≤ hi.y)
    (h : m.jet d d' lo hi) (p : V3 ℝ) (trials : Nat) {u v : ℝ} (hu : u ∈ Set.Icc lo.x hi.x) (hv : v ∈ Set.Icc lo.y hi.y) :
    newtonLoop2 d' (m.move p) (lo.x, hi.x) (lo.y, hi.y) trials u v
      = newtonLoop2 d p (lo.x, hi.x) (lo.y, hi.y) trials u v := by
  induction trials generalizing u v with
  | zero => rfl
  | succ n ih =>
    unfold newtonLoop2
    rw [h.s u v hu hv, h.su, h.sv, h.suu, h.suv, h.svu, h.svv]
    simp only [res_map_bind, move_sub, lin_lengthSq, m.dot]
    congr 1; funext x
    split
    · rfl
    · congr 1; funext a
      congr 1; funext b
      split
      · rfl
      · congr 1; funext c
        congr 1; funext e
        congr 1; funext f
        congr 1; funext g
        rw [clampInRange_eq, clampInRange_eq]
        simp only [ok_bind, min_eq_left hx, max_eq_right hx, min_eq_left hy, max_eq_right hy]
        exact ih ⟨le_max_left _ _, max_le hx (min_le_right _ _)⟩ ⟨le_max_left _ _, max_le hy (min_le_right _ _)⟩

/-- The search after the derivatives are known (`src/surface/bspline.rs:117-165`). -/
def projectWith (j : SurfaceJet ℝ) (ku kv : List ℝ) (rows cols : Nat) (points : List (V3 ℝ)) : Res (List (V2 ℝ)) := do
  let uRange ← KnotVector.range ku
  let vRange ← KnotVector.range kv
  let us ← uniformDivide uRange (rows * 4)
  let vs ← uniformDivide vRange (cols * 4)
  let samples ← (gridParams us vs).mapM fun q => j.s q.x q.y
  let vertices ← Grid.fromVec samples (cols * 4 + 1)
  points.mapM fun point => do
    let (i, k) := findNearestPointInGrid vertices.rowList point
    let u ← idx us i
    let v ← idx vs k
    newtonLoop2 j point uRange vRange 20 u v

theorem projectPoints_eq (s : BSplineSurface ℝ (V3 ℝ)) (points : List (V3 ℝ)) :
    s.projectPoints points = (s.derivativeU >>= fun dU => s.derivativeV >>= fun dV => dU.derivativeU >>= fun dUU =>
      dU.derivativeV >>= fun dUV => dV.derivativeU >>= fun dVU => dV.derivativeV >>= fun dVV =>
        projectWith ⟨s.getPoint, dU.getPoint, dV.getPoint, dUU.getPoint, dUV.getPoint, dVU.getPoint, dVV.getPoint⟩
          s.knots.1 s.knots.2 s.controlPoints.rows s.controlPoints.cols points) := rfl

theorem projectWith_move {j j' : SurfaceJet ℝ} {ku kv : List ℝ} {rows cols : Nat} {u0 u1 v0 v1 : ℝ}
    (hu : KnotVector.range ku = .ok (u0, u1)) (hv : KnotVector.range kv = .ok (v0, v1)) (hu' : u0 ≤ u1) (hv' : v0 ≤ v1)
    (h : m.jet j j' ⟨u0, v0⟩ ⟨u1, v1⟩) (points : List (V3 ℝ)) :
    projectWith j' ku kv rows cols (points.map m.move) = projectWith j ku kv rows cols points := by
  unfold projectWith
  rw [hu, hv]
  simp only [ok_bind]
  refine bind_same_eq' fun us eu => bind_same_eq' fun vs ev => ?_
  have mu := uniformDivide_mem hu' eu
  have mv := uniformDivide_mem hv' ev
  have hs : ((gridParams us vs).mapM fun q => j'.s q.x q.y) = List.map m.move <$> (gridParams us vs).mapM fun q => j.s q.x q.y := by
    refine mapM_natural_mem m.move _ _ _ fun q hq => ?_
    unfold gridParams at hq
    obtain ⟨u, hu, hq⟩ := List.mem_flatMap.1 hq
    obtain ⟨v, hv', rfl⟩ := List.mem_map.1 hq
    exact h.s _ _ (mu u hu) (mv v hv')
  refine bind_move hs fun samples => bind_move (Grid.fromVec_map m.move samples (cols * 4 + 1)) fun g => ?_
  rw [mapM_listMap]
  congr 1; funext p
  have hn : findNearestPointInGrid (⟨g.data.map m.move, g.rows, g.cols⟩ : Grid (V3 ℝ)).rowList (m.move p)
      = findNearestPointInGrid g.rowList p := by
    unfold findNearestPointInGrid
    rw [show (⟨g.data.map m.move, g.rows, g.cols⟩ : Grid (V3 ℝ)).rowList = _ from rowList_map m.move g, nearestGridLoop_move]
  rw [hn]
  exact bind_same_eq' fun u e1 => bind_same_eq' fun v e2 => newtonLoop2_move hu' hv' h p 20 (mu u (idx_mem e1)) (mv v (idx_mem e2))

/-- **C111**: projecting moved points onto the moved surface gives the same parameters. -/
theorem C111_project_points {s : BSplineSurface ℝ (V3 ℝ)} (hs : s.Good) (points : List (V3 ℝ)) :
    (mapSurface m.move s).projectPoints (points.map m.move) = s.projectPoints points := by
  have hv := hs.valid
  have hl := hom_linear m.lin
  rw [projectPoints_eq, projectPoints_eq]
  refine bind_move (C110_derivative_u_differences hl move_differences s) fun dU => ?_
  refine bind_move (C110_derivative_v_differences hl move_differences s) fun dV => ?_
  refine bind_move (C110_derivative_u hl dU) fun dUU => ?_
  refine bind_move (C110_derivative_v hl dU) fun dUV => ?_
  refine bind_move (C110_derivative_u hl dV) fun dVU => ?_
  refine bind_move (C110_derivative_v hl dV) fun dVV => ?_
  exact projectWith_move (range_knot hv.lenU) (range_knot hv.lenV) hv.nonconstU.le hv.nonconstV.le
    ⟨fun u v hu hv => goodSurface_move hs hu.1 hv.1, C110_surface hl dU, C110_surface hl dV, C110_surface hl dUU,
      C110_surface hl dUV, C110_surface hl dVU, C110_surface hl dVV⟩ points

/-- **C111**: trimming a moved B-spline surface by moved loops gives the moved mesh, provided the front keeps above the
first knots (where the weights add up to one), or the motion is a pure rotation. -/
theorem C111_surface_trim {s : BSplineSurface ℝ (V3 ℝ)} (hs : s.Good) {bs bs' : List (EdgeLoop ℝ)}
    (h : List.Forall₂ m.loop bs bs') {o : TrimOracle ℝ} (hr : ∀ i j, Draws (o.rnd i j))
    (hf : m.shift = 0 ∨ ∀ vs polygons points q, collectLoops o bs = .ok (vs, polygons) → s.projectPoints vs = .ok points →
      FrontPoint o points polygons q → knot s.knots.1 0 ≤ q.x ∧ knot s.knots.2 0 ≤ q.y) :
    (mapSurface m.move s).trim o bs' = m.mesh <$> s.trim o bs := by
  unfold BSplineSurface.trim
  rw [C111_loops h hr, res_map_bind]
  refine bind_same_eq _ fun r hcl => bind_same _ fun _ => ?_
  rw [C111_project_points hs]
  refine bind_same_eq _ fun points hpp => ?_
  have key : ∀ q, FrontPoint o points r.2 q → (mapSurface m.move s).getPoint q.x q.y = m.move <$> s.getPoint q.x q.y := by
    intro q hq
    rcases hf with h0 | hf
    · have : m.move = m.lin := funext fun p => by unfold Motion.move; rw [h0, add_zero]
      rw [this]
      exact C110_surface (hom_linear m.lin) s _ _
    · obtain ⟨h1, h2⟩ := hf r.1 r.2 points q hcl hpp hq
      exact goodSurface_move hs h1 h2
  exact frontTrim_move o _ _ _ _ _ _ _ key key

/-- **C111**: the normals of a moved surface are the turned normals; no translation is involved. -/
theorem C111_normals (s : BSplineSurface ℝ (V3 ℝ)) (params : List (V2 ℝ)) :
    (mapSurface m.move s).getNormals params = List.map m.lin <$> s.getNormals params := by
  have hl := hom_linear m.lin
  unfold BSplineSurface.getNormals
  refine bind_natural (mapSurface m.lin) _ (C110_derivative_u_differences hl move_differences s) fun dU => ?_
  refine bind_natural (mapSurface m.lin) _ (C110_derivative_v_differences hl move_differences s) fun dV => ?_
  refine mapM_natural_mem _ _ _ _ fun q _ => ?_
  refine bind_natural m.lin _ (C110_surface hl dU _ _) fun a => bind_natural m.lin _ (C110_surface hl dV _ _) fun b => ?_
  rw [m.cross, lin_normalize]; rfl

/-! ### Patches -/

theorem evenly_uIcc {a b : ℝ} {d i : Nat} (hd : 1 ≤ d) (hi : i ≤ d) : evenly a b d i ∈ Set.uIcc a b := by
  rcases le_total a b with h | h
  · rw [Set.uIcc_of_le h]
    exact evenly_mem h hd hi
  · rw [Set.uIcc_of_ge h]
    have h1 := evenly_mem (neg_le_neg h) hd hi
    have e : evenly (-a) (-b) d i = - evenly a b d i := by unfold evenly; ring
    rw [e] at h1
    exact ⟨by linarith [h1.2], by linarith [h1.1]⟩

theorem repairNormals_real (rows cols : Nat) (normals : List (V3 ℝ)) : repairNormals rows cols normals = .ok normals := by
  unfold repairNormals
  obtain ⟨x, h, h'⟩ := forRange_inv (a := 0) (b := normals.length) (s := normals) (body := repairStep rows cols)
    (fun _ l => l = normals) (Nat.zero_le _) rfl fun i l _ hi hl => by
      subst hl
      refine ⟨l, ?_, rfl⟩
      unfold repairStep
      rw [idx_ok hi]
      rfl
  rw [h, h']

/-- **C111**: the mesh of a moved patch is the moved mesh with turned normals. -/
theorem C111_patch {p p' : SurfacePatch ℝ} (hr : p'.parameterRange = p.parameterRange)
    (hd : p'.parameterDivision = p.parameterDivision)
    (hp : ∀ u ∈ Set.uIcc p.parameterRange.1.1 p.parameterRange.1.2, ∀ v ∈ Set.uIcc p.parameterRange.2.1 p.parameterRange.2.2,
      p'.surface.getPoint u v = m.move <$> p.surface.getPoint u v)
    (hn : ∀ params, p'.surface.getNormals params = List.map m.lin <$> p.surface.getNormals params) :
    p'.getTriangleMesh = m.mesh <$> p.getTriangleMesh := by
  unfold SurfacePatch.getTriangleMesh SurfacePatch.getPoints
  rw [hr, hd]
  refine bind_same_eq _ fun us hus => bind_same_eq _ fun vs hvs => ?_
  have mem : ∀ {a : ℝ × ℝ} {d : Nat} {l : List ℝ}, uniformDivide a d = .ok l → ∀ u ∈ l, u ∈ Set.uIcc a.1 a.2 := by
    rintro ⟨a, b⟩ d l hl u hu
    rcases Nat.eq_zero_or_pos d with rfl | hd
    · exact absurd hl (by unfold uniformDivide; simp [usub])
    · rw [uniformDivide_tab _ _ hd] at hl
      cases hl
      obtain ⟨i, hi, rfl⟩ := List.mem_map.1 hu
      rw [List.mem_range] at hi
      exact evenly_uIcc hd (by omega)
  have hpts := mapM_natural_mem m.move (fun q : V2 ℝ => p.surface.getPoint q.x q.y) (fun q : V2 ℝ => p'.surface.getPoint q.x q.y)
    (gridParams us vs) fun q hq => by
      unfold gridParams at hq
      obtain ⟨u, hu, hq⟩ := List.mem_flatMap.1 hq
      obtain ⟨v, hv', rfl⟩ := List.mem_map.1 hq
      exact hp _ (mem hus u hu) _ (mem hvs v hv')
  refine bind_natural (List.map m.move) _ hpts fun pts => bind_natural (List.map m.lin) _ (hn _) fun ns => ?_
  refine bind_natural (mapNet m.move) _ (Grid.fromVec_map m.move pts _) fun g => ?_
  refine bind_same _ fun ts => ?_
  rw [repairNormals_real, repairNormals_real]
  rfl

/-- **C111**: patches of planes, cylinders and Bézier surfaces, over any rectangle. -/
theorem C111_patches (p : Plane ℝ) (c : Cylinder ℝ) (b : BezierSurface (V3 ℝ)) (hg : NetOk b.controlPoints)
    (hr : 1 ≤ b.controlPoints.rows) (hc : 1 ≤ b.controlPoints.cols) (range : (ℝ × ℝ) × (ℝ × ℝ)) (d : Nat × Nat) :
    (SurfacePatch.mk (m.plane p).surface range d).getTriangleMesh
        = m.mesh <$> (SurfacePatch.mk p.surface range d).getTriangleMesh ∧
      (SurfacePatch.mk (m.cylinder c).surface range d).getTriangleMesh
        = m.mesh <$> (SurfacePatch.mk c.surface range d).getTriangleMesh ∧
      (SurfacePatch.mk (BezierSurface.mk (mapNet m.move b.controlPoints)).surface range d).getTriangleMesh
        = m.mesh <$> (SurfacePatch.mk b.surface range d).getTriangleMesh := by
  refine ⟨C111_patch rfl rfl (fun u _ v _ => ?_) fun _ => rfl, C111_patch rfl rfl (fun u _ v _ => ?_) fun _ => rfl,
    C111_patch rfl rfl (fun u _ v _ => C110_bezier_surface_affine hg hr hc m.lin m.shift u v) fun _ => rfl⟩
  · exact congrArg Except.ok (C111_plane p 0 u v).2
  · exact congrArg Except.ok (C111_cylinder c 0 0 0 u v).2.2.2

/-- **C111**: patches of B-spline surfaces, over any rectangle above the first knots. -/
theorem C111_surface_patch {s : BSplineSurface ℝ (V3 ℝ)} (hs : s.Good) {range : (ℝ × ℝ) × (ℝ × ℝ)} (d : Nat × Nat)
    (hu : knot s.knots.1 0 ≤ min range.1.1 range.1.2) (hv : knot s.knots.2 0 ≤ min range.2.1 range.2.2) :
    (SurfacePatch.mk (mapSurface m.move s).surface range d).getTriangleMesh
      = m.mesh <$> (SurfacePatch.mk s.surface range d).getTriangleMesh :=
  C111_patch rfl rfl (fun _ h1 _ h2 => goodSurface_move hs (hu.trans h1.1) (hv.trans h2.1)) fun _ => C111_normals s _

/-- **C111**: surfaces of revolution and swept surfaces (only the path carries the translation). -/
theorem C111_spin_sweep {g g' h h' : CurveObj ℝ} {u : ℝ} (hg : g'.getPoint u = m.move <$> g.getPoint u) (v : ℝ)
    (hh : h'.getPoint v = m.lin <$> h.getPoint v) (o a : V3 ℝ) (angle : ℝ) :
    (SpinSurface.mk (m.move o) (m.lin a) g').getPoint u angle = m.move <$> (SpinSurface.mk o a g).getPoint u angle ∧
      (SweepSurface.mk g' h').getPoint u v = m.move <$> (SweepSurface.mk g h).getPoint u v := by
  constructor
  · unfold SpinSurface.getPoint
    refine bind_natural m.move _ hg fun p => ?_
    simp only [move_sub, m.dot, lin_mul, ← map_sub, lin_quat, move_add]
    rfl
  · unfold SweepSurface.getPoint
    refine bind_natural m.move _ hg fun p => bind_natural m.lin _ hh fun q => ?_
    rw [move_add]; rfl

/-! ### Edges -/

/-- **C111**: rational curves, where the weight is not zero. -/
theorem C111_rational (c : BezierCurve (V4 ℝ)) (b : BSplineCurve ℝ (V4 ℝ)) (u : ℝ) :
    ((∀ p, c.getPoint u = .ok p → p.w ≠ 0) →
      (mapBezier (homogeneous m.lin m.shift) c).getPointRational u = m.move <$> c.getPointRational u) ∧
    ((∀ p, b.getPoint u = .ok p → p.w ≠ 0) →
      (mapBSpline (homogeneous m.lin m.shift) b).getPointRational u = m.move <$> b.getPointRational u) :=
  ⟨C110_rational_bezier_affine c m.lin m.shift u, C110_rational_bspline_affine b m.lin m.shift u⟩

/-! ### A motion -/

/-- A quarter turn about the z axis followed by the translation by (1, 2, 3). -/
def quarterTurn : Motion where
  lin := { toFun := fun p => ⟨-p.y, p.x, p.z⟩
           map_add' := fun a b => by ext <;> simp; ring
           map_smul' := fun a b => by ext <;> simp }
  shift := ⟨1, 2, 3⟩
  dot := fun a b => by simp [V3.dot]; ring
  cross := fun a b => by ext <;> simp [V3.cross] <;> ring

theorem C111_example_motion : quarterTurn.move ⟨1, 0, 5⟩ = ⟨1, 3, 8⟩ := by
  ext <;> simp [Motion.move, quarterTurn] <;> norm_num

/-- A point and its image project to the same parameter on a line and on its image. -/
theorem C111_example : (Line.mk ⟨1, 2, 3⟩ ⟨0, 1, 0⟩ : Line ℝ).project (quarterTurn.move ⟨4, 1, 2⟩) = 4 ∧
    (Line.mk ⟨0, 0, 0⟩ ⟨1, 0, 0⟩ : Line ℝ).project ⟨4, 1, 2⟩ = 4 := by
  have h := (C111_line (m := quarterTurn) ⟨⟨0, 0, 0⟩, ⟨1, 0, 0⟩⟩ 0 ⟨4, 1, 2⟩).2
  have e1 : quarterTurn.move ⟨0, 0, 0⟩ = ⟨1, 2, 3⟩ := by ext <;> simp [Motion.move, quarterTurn]
  have e2 : quarterTurn.lin ⟨1, 0, 0⟩ = ⟨0, 1, 0⟩ := by ext <;> simp [quarterTurn]
  have e3 : (Line.mk ⟨0, 0, 0⟩ ⟨1, 0, 0⟩ : Line ℝ).project ⟨4, 1, 2⟩ = 4 := by simp [Line.project, V3.dot]
  rw [e1, e2] at h
  exact ⟨h.trans e3, e3⟩

end

end Geom3d
