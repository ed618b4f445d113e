import Verif.Lemmas.ConvexFan
import Verif.Lemmas.EdgeHull
import Verif.Props.EdgeLoop
import Verif.Props.Polyhedra
import Verif.Props.Subdivide

/-!
# Planar faces bounded by curved edges (C147)

In exact arithmetic.  Around each edge of a face lies a polygon: the ends of a line, the vertices of a polyline, the control
points of a B-spline curve, tangents of an arc.  If the corners of all these polygons, taken in order, never turn right in the
plane of the face, neither do the points at which the edges are sampled (`CurveSegment::get_points`, `src/curve.rs:40-59`,
`EdgeLoop::to_polygon`, `src/surface.rs:76-89`), whatever the random numbers, and `Plane::trim` (`src/surface/plane.rs:25-91`)
returns the fan around their centre, whose triangles tile the polygon.
-/

set_option linter.unusedSectionVars false

namespace Geom3d
open Spec

/-! ### The fan around the centre -/

section
variable {K : Type} [Field K] [LinearOrder K] [IsStrictOrderedRing K] [Env K]

/-- The mesh is a fan that tiles the polygon `vs`, seen in the plane. -/
structure Spec.FansOut (p : Plane K) (vs : List (V3 K)) (mesh : TriangleMesh K) : Prop where
  vertices : mesh.vertices = vs ++ [Spec.centroid vs]
  normals : mesh.normals = []
  triangles : Spec.triples mesh.triangles = (loopEdges (List.range vs.length)).map fun e => (vs.length, e.1, e.2)
  turned : ∀ t ∈ Spec.triples mesh.triangles, 0 ≤ triArea2 ((mesh.vertices.map p.project).getD t.1 0)
    ((mesh.vertices.map p.project).getD t.2.1 0) ((mesh.vertices.map p.project).getD t.2.2 0)
  proper : ∀ t ∈ Spec.triples mesh.triangles, (mesh.vertices.map p.project).getD t.2.1 0 ≠ (mesh.vertices.map p.project).getD t.2.2 0 →
    0 < triArea2 ((mesh.vertices.map p.project).getD t.1 0) ((mesh.vertices.map p.project).getD t.2.1 0)
      ((mesh.vertices.map p.project).getD t.2.2 0)
  area : Spec.trianglesArea2 (mesh.vertices.map p.project) mesh.triangles = area2 (vs.map p.project)
  within : ∀ t ∈ Spec.triples mesh.triangles, ∀ x, InTriangle ((mesh.vertices.map p.project).getD t.1 0)
    ((mesh.vertices.map p.project).getD t.2.1 0) ((mesh.vertices.map p.project).getD t.2.2 0) x →
    ∀ e ∈ loopEdges (vs.map p.project), 0 ≤ triArea2 e.1 e.2 x
  cover : ∀ x, OffChords (mesh.vertices.map p.project) x →
    (covering (mesh.vertices.map p.project) (ccw (mesh.vertices.map p.project) mesh.triangles) x : ℤ) = winding (vs.map p.project) x
  once : ∀ x, OffChords (mesh.vertices.map p.project) x → winding (vs.map p.project) x = 0 ∨ winding (vs.map p.project) x = 1

theorem inTriangle_left {a b u v w x : V2 K} (hu : 0 ≤ triArea2 a b u) (hv : 0 ≤ triArea2 a b v) (hw : 0 ≤ triArea2 a b w)
    (hx : InTriangle u v w x) : 0 ≤ triArea2 a b x := by
  obtain ⟨r, s, t, hr, hs, ht, h1, ex, ey⟩ := hx
  have e : triArea2 a b x = r * triArea2 a b u + s * triArea2 a b v + t * triArea2 a b w := by
    unfold triArea2
    rw [ex, ey]
    linear_combination ((b.x - a.x) * a.y - a.x * (b.y - a.y)) * h1
  rw [e]
  exact add_nonneg (add_nonneg (mul_nonneg hr hu) (mul_nonneg hs hv)) (mul_nonneg ht hw)

/-- **C147** A loop whose corners, taken in order, never turn right in the plane becomes a fan that tiles it; if no corner turns
by more than the tolerance, nothing is returned. -/
theorem C147_fan (htol : (0 : K) ≤ Env.tol) {p : Plane K} {o : TrimOracle K} {e : EdgeLoop K} {vs : List (V3 K)}
    (hp : e.toPolygon o.divFuel (o.rnd 0) = .ok vs) (hl : AllLeft (vs.map p.project)) :
    ((∀ i < vs.length, turn (vs.map p.project) i ≤ Env.tol) → p.trim o [e] = .ok ⟨[], [], []⟩) ∧
    ((∃ i < vs.length, Env.tol < turn (vs.map p.project) i) → ∃ mesh, p.trim o [e] = .ok mesh ∧ FansOut p vs mesh) := by
  have hn : ∀ i < vs.length, 0 ≤ turn (vs.map p.project) i := fun i hi => hl.turn_nonneg (by simpa using hi)
  have hconc : (List.range vs.length).filter (fun i => decide (turn (vs.map p.project) i < -Env.tol)) = [] := by
    rw [List.filter_eq_nil_iff]
    intro i hi
    have := hn i (by simpa using hi)
    simp; linarith
  have hcol : 0 < vs.length → collectLoops o [e] = .ok (vs, [0, vs.length]) := by
    intro h
    unfold collectLoops
    simp only [List.zipIdx_cons, List.zipIdx_nil, List.foldlM_cons, List.foldlM_nil, hp, ok_bind, pure_eq_ok, h, if_true,
      List.nil_append, Nat.zero_add]
    rfl
  have h2 : ([0, vs.length] : List Nat).length = 2 := rfl
  refine ⟨fun hflat => ?_, fun ⟨i, hi, hturn⟩ => ?_⟩
  · rcases Nat.eq_zero_or_pos vs.length with h0 | h0
    · have h00 : vs = [] := List.eq_nil_of_length_eq_zero h0
      have : collectLoops o [e] = .ok ([], [0]) := by
        unfold collectLoops
        simp only [List.zipIdx_cons, List.zipIdx_nil, List.foldlM_cons, List.foldlM_nil, hp, ok_bind, pure_eq_ok, h00,
          List.length_nil, lt_irrefl, if_false]
        rfl
      unfold Plane.trim
      rw [this]
      rfl
    · unfold Plane.trim
      rw [hcol h0, ok_bind]
      simp only [h2, if_true, C37_compute htol, ok_bind, List.length_map]
      have e1 : (List.range vs.length).filter (fun i => decide (Env.tol < |turn (vs.map p.project) i|)) = [] := by
        rw [List.filter_eq_nil_iff]
        intro i hi
        rw [abs_of_nonneg (hn i (by simpa using hi))]
        simpa using hflat i (by simpa using hi)
      rw [e1, hconc, if_pos rfl]
      rfl
  · have h0 : 0 < vs.length := by omega
    obtain ⟨T, hT, hT1, hT2⟩ := fanTriangles_eq (n := vs.length) h0
    set P := (vs ++ [Spec.centroid vs]).map p.project with hP
    set Q := vs.map p.project with hQ
    have hQlen : Q.length = vs.length := by simp [hQ]
    have hg : P.getD vs.length 0 = p.project (Spec.centroid vs) := by
      rw [hP, List.map_append, List.getD_eq_getElem?_getD, List.getElem?_append_right (by simp)]
      simp
    have hPQ : ∀ e ∈ loopEdges (List.range vs.length), P.getD e.1 0 = Q.getD e.1 0 ∧ P.getD e.2 0 = Q.getD e.2 0 := by
      intro e he
      have hlt : e.1 < vs.length ∧ e.2 < vs.length := by simpa using mem_of_mem_loopEdges he
      exact ⟨project_map_getD p vs _ hlt.1, project_map_getD p vs _ hlt.2⟩
    have hedge : ∀ e ∈ loopEdges (List.range vs.length), (Q.getD e.1 0, Q.getD e.2 0) ∈ loopEdges Q := by
      intro e he
      rw [← loopEdges_points Q, hQlen]
      exact List.mem_map_of_mem he
    have hpos : ∀ e ∈ loopEdges Q, 0 ≤ triArea2 (p.project (Spec.centroid vs)) e.1 e.2 ∧
        (e.1 ≠ e.2 → 0 < triArea2 (p.project (Spec.centroid vs)) e.1 e.2) := by
      intro e he
      have := C72_fan_positive p h0 (a := e.1) (b := e.2) he fun e he v hv => hl.edge he hv
      refine ⟨this.1, fun hne => this.2 ?_⟩
      by_contra hcon
      push Not at hcon
      have hz : ∀ v ∈ Q, triArea2 e.1 e.2 v = 0 := fun v hv => le_antisymm (hcon v hv) (hl.edge he hv)
      have hat : ∀ j < Q.length, Q.getD j 0 ∈ Q := fun j hj => by rw [getD_of_lt 0 hj]; exact List.getElem_mem hj
      have : turn Q i = 0 := by
        rw [turn_eq_tri]
        exact off_line hne (hz _ (hat _ (by omega))) (hz _ (hat _ (Nat.mod_lt _ (by omega)))) (hz _ (hat _ (Nat.mod_lt _ (by omega))))
      linarith
    have hsub : ∀ x, OffChords P x → OffChords Q x := fun x hx a ha b hb =>
      hx a (by rw [hP, List.map_append]; exact List.mem_append_left _ ha) b (by rw [hP, List.map_append]; exact List.mem_append_left _ hb)
    have tri : ∀ t ∈ Spec.triples T, ∃ e ∈ loopEdges Q, P.getD t.1 0 = p.project (Spec.centroid vs) ∧ P.getD t.2.1 0 = e.1 ∧
        P.getD t.2.2 0 = e.2 := by
      intro t ht
      rw [hT2, List.mem_map] at ht
      obtain ⟨e, he, rfl⟩ := ht
      exact ⟨_, hedge e he, hg, (hPQ e he).1, (hPQ e he).2⟩
    have htrim : p.trim o [e] = .ok ⟨vs ++ [Spec.centroid vs], [], T⟩ := by
      unfold Plane.trim
      rw [hcol h0, ok_bind]
      simp only [h2, if_true, C37_compute htol, ok_bind, List.length_map]
      have e1 : i ∈ (List.range vs.length).filter (fun i => decide (Env.tol < |turn (vs.map p.project) i|)) := by
        rw [List.mem_filter]
        exact ⟨by simpa using hi, by simpa using hturn.trans_le (le_abs_self _)⟩
      rw [hconc, if_neg (by
        rw [List.length_nil]
        exact (List.length_pos_of_mem e1).ne'), if_pos rfl, hT, ok_bind, sumV3_div]
      rfl
    refine ⟨⟨vs ++ [Spec.centroid vs], [], T⟩, htrim, rfl, rfl, hT2, fun t ht => ?_, fun t ht hne => ?_, ?_, fun t ht x hx e he => ?_,
      fun x hx => ?_, fun x hx => hl.winding (hsub x hx)⟩
    · obtain ⟨e, he, e1, e2, e3⟩ := tri t ht
      show 0 ≤ triArea2 (P.getD t.1 0) (P.getD t.2.1 0) (P.getD t.2.2 0)
      rw [e1, e2, e3]
      exact (hpos e he).1
    · obtain ⟨e, he, e1, e2, e3⟩ := tri t ht
      change P.getD t.2.1 0 ≠ P.getD t.2.2 0 at hne
      show 0 < triArea2 (P.getD t.1 0) (P.getD t.2.1 0) (P.getD t.2.2 0)
      rw [e2, e3] at hne
      rw [e1, e2, e3]
      exact (hpos e he).2 hne
    · show Spec.trianglesArea2 P T = area2 Q
      rw [trianglesArea2_triples, hT2, List.map_map, ← fan_area Q (P.getD vs.length 0), ← loopEdges_points Q, List.map_map, hQlen]
      apply congrArg
      apply List.map_congr_left
      intro e he
      simp only [Function.comp, (hPQ e he).1, (hPQ e he).2]
    · obtain ⟨e', he', e1, e2, e3⟩ := tri t ht
      change InTriangle (P.getD t.1 0) (P.getD t.2.1 0) (P.getD t.2.2 0) x at hx
      rw [e1, e2, e3] at hx
      have hm := mem_of_mem_loopEdges he'
      refine inTriangle_left ?_ (hl.edge he hm.1) (hl.edge he hm.2) hx
      have := (hpos e he).1
      rwa [Winding.tri_rot]
    · show (covering P (ccw P T) x : ℤ) = winding Q x
      have hw := weight_crossing (P := P) hx T (by
        intro t ht
        have := (C53_valid htrim).2.1 t ht
        rw [hP, List.length_map]
        exact this)
      have hcw : cw P T = [] := by
        classical
        refine List.filter_eq_nil_iff.2 fun t ht => ?_
        obtain ⟨e, he, e1, e2, e3⟩ := tri t ht
        rw [e1, e2, e3]
        simpa using (hpos e he).1
      rw [hcw] at hw
      have h00 : (covering P [] x : ℤ) = 0 := rfl
      rw [h00, sub_zero] at hw
      rw [← hw, winding_fan (P.getD vs.length 0), triEdges_eq_triples, hT2, List.flatMap_map, ← loopEdges_points Q, List.map_map, hQlen]
      unfold Spec.weight
      generalize hE : loopEdges (List.range vs.length) = E at hPQ
      clear hE
      induction E with
      | nil => rfl
      | cons e E ih =>
        rw [List.flatMap_cons, List.map_append, List.sum_append, ih fun e he => hPQ e (by simp [he]), List.map_cons, List.sum_cons]
        congr 1
        simp only [List.map_cons, List.map_nil, List.sum_cons, List.sum_nil, add_zero, Function.comp, (hPQ e (by simp)).1,
          (hPQ e (by simp)).2]

end

/-! ### Edges -/

/-- `CurveHull g a b h`: the curve `g`, run from `a` to `b > a`, stays in the corners of the polygon `h` that it cuts off. -/
inductive Spec.CurveHull : (ℝ → Res (V3 ℝ)) → ℝ → ℝ → List (V3 ℝ) → Prop
  | line (c : Line ℝ) {a b : ℝ} (h : a < b) : CurveHull (DynCurve.line c).obj.getPoint a b [c.getPoint a, c.getPoint b]
  | polyline {vs : List (V3 ℝ)} {c : Polyline ℝ} (hc : Polyline.new vs = .ok c) (h2 : 2 ≤ vs.length) (hL : 0 < Spec.polyLength vs)
      {a b : ℝ} (h : a < b) : CurveHull (DynCurve.polyline c).obj.getPoint a b vs
  | bspline {c : BSplineCurve ℝ (V3 ℝ)} (hv : c.Valid) {a b : ℝ} (h : a < b)
      (ha : InDomain c.knots c.controlPoints.length c.degree a) (hb : InDomain c.knots c.controlPoints.length c.degree b) :
      CurveHull (DynCurve.bspline c).obj.getPoint a b c.controlPoints
  | rational {c : BSplineCurve ℝ (V4 ℝ)} (hv : c.Valid) (hw : ∀ q ∈ c.controlPoints, 0 < q.w) {a b : ℝ} (h : a < b)
      (ha : InDomain c.knots c.controlPoints.length c.degree a) (hb : InDomain c.knots c.controlPoints.length c.degree b) :
      CurveHull c.getPointRational a b (c.controlPoints.map euclid)
  | arc {c : Circle ℝ} (hf : Framed c) {a b : ℝ} (h : a < b) {ms : List ℝ} (hm : ArcAngles ms) (ha : ms.head? = some a)
      (hb : ms.getLast? = some b) : CurveHull c.obj.getPoint a b (arcHull c ms)

/-- The polygon around an edge, which runs through its range upward or downward. -/
def Spec.EdgeHull (s : CurveSegment ℝ) (h : List (V3 ℝ)) : Prop :=
  CurveHull s.curve.getPoint s.parameterRange.1 s.parameterRange.2 h ∨
    CurveHull s.curve.getPoint s.parameterRange.2 s.parameterRange.1 h.reverse

theorem forall₂_map_ok {f : ℝ → V3 ℝ} {us : List ℝ} {xs : List (V3 ℝ)}
    (h : List.Forall₂ (fun u x => (.ok (f u) : Res (V3 ℝ)) = .ok x) us xs) : xs = us.map f := by
  induction h with
  | nil => rfl
  | cons h _ ih =>
    cases h
    rw [ih]
    rfl

theorem Spec.CurveHull.lt {g : ℝ → Res (V3 ℝ)} {a b : ℝ} {h : List (V3 ℝ)} (hc : CurveHull g a b h) : a < b := by
  cases hc <;> assumption

theorem inDomain_between {knots : List ℝ} {N p : Nat} {a b u : ℝ} (ha : InDomain knots N p a) (hb : InDomain knots N p b)
    (h1 : a ≤ u) (h2 : u ≤ b) : InDomain knots N p u := by
  refine ⟨ha.1.trans h1, ?_⟩
  rcases hb.2 with h | ⟨h, h'⟩
  · exact .inl (h2.trans_lt h)
  · rcases lt_or_eq_of_le h2 with h3 | h3
    · exact .inl (h ▸ h3)
    · exact .inr ⟨h3.trans h, h'⟩

/-- **C147** The points of an edge at increasing parameters are found by cutting corners of its polygon. -/
theorem Spec.CurveHull.traces {g : ℝ → Res (V3 ℝ)} {a b : ℝ} {h : List (V3 ℝ)} (hc : CurveHull g a b h) {us : List ℝ}
    {xs : List (V3 ℝ)} (hus : us.Pairwise (· < ·)) (hab : ∀ u ∈ us, a ≤ u ∧ u ≤ b)
    (hx : List.Forall₂ (fun u x => g u = .ok x) us xs) : Traces ℝ h xs := by
  cases hc with
  | line c hlt =>
    have hpos : 0 < b - a := sub_pos.2 hlt
    rw [forall₂_map_ok (f := c.getPoint) hx]
    have := side_traces (c.getPoint b) (c.getPoint a) (ss := us.map fun u => (u - a) / (b - a)) (fun s hs => by
      rw [List.mem_map] at hs
      obtain ⟨u, hu, rfl⟩ := hs
      have := hab u hu
      exact ⟨div_nonneg (by linarith) hpos.le, (div_le_one hpos).2 (by linarith)⟩)
      (List.pairwise_map.2 (hus.imp fun h => div_le_div_of_nonneg_right (by linarith) hpos.le))
    rw [List.map_map] at this
    rw [show us.map c.getPoint = us.map ((fun s => c.getPoint a + s • (c.getPoint b - c.getPoint a)) ∘ fun u => (u - a) / (b - a)) from
      List.map_congr_left fun u _ => ?_]
    · exact this
    · simp only [Function.comp, Line.getPoint, LawfulPoint.right]
      rw [add_sub_add_left_eq_sub, ← sub_smul, smul_smul, div_mul_cancel₀ _ hpos.ne', add_assoc, ← add_smul, add_sub_cancel]
  | @polyline _ c hc h2 hL _ _ hlt =>
    refine polyline_traces h h2 (ss := us.map fun u => max 0 (min u 1) * Spec.polyLength h) (List.pairwise_map.2 (hus.imp fun hlt => ?_)) ?_
    · exact mul_le_mul_of_nonneg_right (max_le_max le_rfl (min_le_min hlt.le le_rfl)) hL.le
    · rw [List.forall₂_map_left_iff]
      refine hx.imp fun u x hux => ?_
      obtain ⟨c1, x1, e1, e2, e3⟩ := C23_arc_length h2 hL u
      rw [hc] at e1
      cases e1
      have : c.getPoint u = .ok x := hux
      rw [e2] at this
      cases this
      exact e3
  | bspline hv _ ha hb => exact bspline_traces hv hus (fun u hu => inDomain_between ha hb (hab u hu).1 (hab u hu).2) hx
  | rational hv hw _ ha hb => exact rational_traces hv hw hus (fun u hu => inDomain_between ha hb (hab u hu).1 (hab u hu).2) hx
  | @arc c hf _ _ _ ms hm ha hb =>
    rw [forall₂_map_ok (f := c.getPoint) hx]
    refine arc_traces hf hm hus (fun u hu => ⟨a, by rw [ha]; rfl, (hab u hu).1⟩) (fun u hu => ⟨b, by rw [hb]; rfl, (hab u hu).2⟩) ?_
    rintro rfl
    cases ha

theorem ends_bound : ∀ {us : List ℝ}, us.Pairwise (· < ·) → ∀ {u b : ℝ}, u ∈ us → us.getLast? = some b → u ≤ b
  | [], _, _, _, hu, _ => by cases hu
  | [v], _, u, b, hu, hb => by
    cases hb
    rw [List.mem_singleton.1 hu]
    exact le_rfl
  | v :: w :: l, h, u, b, hu, hb => by
    have hb' : (w :: l).getLast? = some b := by rw [← hb]; rfl
    rcases List.mem_cons.1 hu with rfl | hu
    · exact (List.rel_of_pairwise_cons h (List.mem_of_getLast? hb')).le
    · exact ends_bound h.tail hu hb'

/-- **C147** So are the samples of `get_points`. -/
theorem C147_edge {s : CurveSegment ℝ} {h : List (V3 ℝ)} (hs : EdgeHull s h) {fuel : Nat} {rnd : List Bool → ℝ} {xs : List (V3 ℝ)}
    (hx : s.getPoints fuel rnd = .ok xs) : Traces ℝ h xs := by
  unfold CurveSegment.getPoints at hx
  rw [bind_eq_ok] at hx
  obtain ⟨us, h1, h2⟩ := hx
  have h3 := of_mapM_ok h2
  obtain ⟨e1, e2, -⟩ := C29_ends h1
  have two : ((2 : Nat) : ℝ) = 2 := by norm_num
  rcases hs with hs | hs
  · have hlt := hs.lt
    have hch := C29_monotone_of (· < ·) (fun a b h => by rw [two]; constructor <;> linarith) h1 hlt
    have hp : us.Pairwise (· < ·) := List.isChain_iff_pairwise.1 hch
    refine hs.traces hp (fun u hu => ?_) h3
    rcases us with _ | ⟨v, l⟩
    · cases hu
    · cases e1
      refine ⟨?_, ?_⟩
      · rcases List.mem_cons.1 hu with rfl | hu
        · exact le_rfl
        · exact (List.rel_of_pairwise_cons hp hu).le
      · exact ends_bound hp hu e2
  · have hlt := hs.lt
    have hch := C29_monotone_of (fun a b => b < a) (fun a b h => by rw [two]; constructor <;> linarith) h1 hlt
    have hp : us.Pairwise (fun a b => b < a) := List.isChain_iff_pairwise.1 hch
    have hp' : us.reverse.Pairwise (· < ·) := List.pairwise_reverse.2 hp
    have e1' : us.reverse.getLast? = some s.parameterRange.1 := by rw [List.getLast?_reverse]; exact e1
    have e2' : us.reverse.head? = some s.parameterRange.2 := by rw [List.head?_reverse]; exact e2
    have := hs.traces hp' (fun u hu => ?_) (List.forall₂_reverse_iff.2 h3)
    · have := this.reverse
      rwa [List.reverse_reverse, List.reverse_reverse] at this
    · refine ⟨?_, ends_bound hp' hu e1'⟩
      rcases hr : us.reverse with _ | ⟨v, l⟩
      · rw [hr] at hu; cases hu
      · rw [hr] at hu hp' e2'
        cases e2'
        rcases List.mem_cons.1 hu with rfl | hu
        · exact le_rfl
        · exact (List.rel_of_pairwise_cons hp' hu).le

/-- **C147** The polygon of a loop of such edges. -/
theorem C147_loop {e : EdgeLoop ℝ} {hulls : List (List (V3 ℝ))} (hh : List.Forall₂ EdgeHull e.edges hulls) {fuel : Nat}
    {rnd : Nat → List Bool → ℝ} {vs : List (V3 ℝ)} (hp : e.toPolygon fuel rnd = .ok vs) : Traces ℝ hulls.flatten vs := by
  obtain ⟨samples, h1, h2, h3⟩ := C62_loop hp
  have hne : hulls ≠ [] := by
    rintro rfl
    have : e.edges = [] := List.eq_nil_of_length_eq_zero hh.length_eq
    rw [this] at h2
    have : samples = [] := List.eq_nil_of_length_eq_zero h2
    rw [this] at h1
    cases h1
  refine Traces.sublist (Traces.flatten (xss := samples) ?_ hne) (C62_order h1).1
  refine List.forall₂_iff_get.2 ⟨by rw [h2, hh.length_eq], fun i hi hi' => ?_⟩
  have hie : i < e.edges.length := by rw [← h2]; exact hi'
  obtain ⟨ps, q1, q2⟩ := h3 i e.edges[i] (List.getElem?_eq_getElem hie)
  rw [List.getElem?_eq_getElem hi'] at q1
  cases q1
  exact C147_edge (List.forall₂_iff_get.1 hh |>.2 i hie hi) q2

/-- **C147** A planar face bounded by one loop of lines, polylines, B-spline curves and arcs: if the corners of the polygons around
its edges, taken in order, never turn right in the plane, the face becomes a fan that tiles the polygon of its samples, or
nothing if no turn of that polygon exceeds the tolerance. -/
theorem C147_face {p : Plane ℝ} {o : TrimOracle ℝ} {e : EdgeLoop ℝ} {hulls : List (List (V3 ℝ))}
    (hh : List.Forall₂ EdgeHull e.edges hulls) (hl : AllLeft (hulls.flatten.map p.project)) {vs : List (V3 ℝ)}
    (hp : e.toPolygon o.divFuel (o.rnd 0) = .ok vs) : AllLeft (vs.map p.project) ∧
      ((∀ i < vs.length, turn (vs.map p.project) i ≤ Env.tol) → p.trim o [e] = .ok ⟨[], [], []⟩) ∧
      ((∃ i < vs.length, Env.tol < turn (vs.map p.project) i) → ∃ mesh, p.trim o [e] = .ok mesh ∧ FansOut p vs mesh) := by
  have htr := C147_loop hh hp
  have hall : AllLeft (vs.map p.project) := by
    have hlin : ∀ a b c : V3 ℝ, triArea2 (p.project a) (p.project b) (p.project c)
        = orient ![V3.dotL p.uAxis, V3.dotL p.vAxis] ![a, b, c] := by
      intro a b c
      have dotL_apply : ∀ d x : V3 ℝ, V3.dotL d x = d.dot x := fun _ _ => rfl
      rw [orient_two]
      simp only [turnIn, triArea2, Plane.project, dotL_apply, V3.dot, V3.sub_x, V3.sub_y, V3.sub_z, Matrix.cons_val_zero,
        Matrix.cons_val_one, Matrix.cons_val]
      ring
    intro a b c habc
    obtain ⟨l, hl1, hl2⟩ := List.sublist_map_iff.1 habc
    rcases l with _ | ⟨a', _ | ⟨b', _ | ⟨c', _ | ⟨_, _⟩⟩⟩⟩ <;> simp at hl2
    obtain ⟨rfl, rfl, rfl⟩ := hl2
    rw [hlin]
    refine htr.orient_nonneg _ (fun q hq => ?_) hl1
    have := hl (p.project (q 0)) (p.project (q 1)) (p.project (q 2)) (by
      have := hq.map p.project
      simpa [List.ofFn_succ] using this)
    rw [hlin] at this
    convert this using 2
    funext j
    fin_cases j <;> rfl
  exact ⟨hall, C147_fan (by norm_num [Env.tol]) hp hall⟩

/-! ### A half disc -/

theorem allLeft_cons {a : V2 ℝ} {l : List (V2 ℝ)} (h1 : l.Pairwise fun b c => 0 ≤ triArea2 a b c) (h2 : AllLeft l) : AllLeft (a :: l) := by
  intro x y z h
  rcases h with _ | h | h
  · exact h2 x y z (by assumption)
  · exact List.pairwise_iff_forall_sublist.1 h1 (by assumption)

noncomputable def Spec.unitCircle : Circle ℝ := ⟨0, 1, ⟨0, 0, 1⟩, ⟨1, 0, 0⟩⟩

/-- Two quarters of the unit circle and the diameter, which is run through downward. -/
noncomputable def Spec.halfDisc (tol : ℝ) : EdgeLoop ℝ :=
  ⟨[⟨unitCircle.obj, (0, Real.pi / 2), tol, 16⟩, ⟨unitCircle.obj, (Real.pi / 2, Real.pi), tol, 16⟩,
    ⟨(DynCurve.line ⟨0, ⟨-1, 0, 0⟩⟩).obj, (1, -1), tol, 16⟩]⟩

def Spec.flatPlane : Plane ℝ := ⟨0, ⟨0, 0, 1⟩, ⟨1, 0, 0⟩, ⟨0, 1, 0⟩⟩

theorem unitCircle_framed : Framed unitCircle := by
  constructor <;> simp [unitCircle, V3.dot]

theorem unitCircle_point (a : ℝ) : unitCircle.getPoint a = ⟨Real.cos a, Real.sin a, 0⟩ := by
  rw [circle_getPoint unitCircle_framed]
  ext <;> simp [unitCircle, V3.cross]

theorem unitCircle_meet (a b : ℝ) : tangentMeet unitCircle a b
    = ⟨Real.cos ((a + b) / 2) / Real.cos ((b - a) / 2), Real.sin ((a + b) / 2) / Real.cos ((b - a) / 2), 0⟩ := by
  unfold tangentMeet
  ext <;> simp [unitCircle, V3.cross] <;> ring

theorem sqrt_two_half : Real.sqrt 2 / 2 ≠ 0 := by positivity

theorem halfDisc_hulls (tol : ℝ) : List.Forall₂ EdgeHull (halfDisc tol).edges
    [[⟨1, 0, 0⟩, ⟨1, 1, 0⟩, ⟨0, 1, 0⟩], [⟨0, 1, 0⟩, ⟨-1, 1, 0⟩, ⟨-1, 0, 0⟩], [⟨-1, 0, 0⟩, ⟨1, 0, 0⟩]] := by
  have hpi := Real.pi_pos
  have s2 := sqrt_two_half
  refine .cons (.inl ?_) (.cons (.inl ?_) (.cons (.inr ?_) .nil))
  · have h := CurveHull.arc unitCircle_framed (a := 0) (b := Real.pi / 2) (by linarith) (ms := [0, Real.pi / 2])
      (List.isChain_pair.2 ⟨by linarith, by linarith⟩) rfl rfl
    have e : arcHull unitCircle [0, Real.pi / 2] = [⟨1, 0, 0⟩, ⟨1, 1, 0⟩, ⟨0, 1, 0⟩] := by
      simp only [arcHull, unitCircle_point, unitCircle_meet]
      rw [show (0 + Real.pi / 2) / 2 = Real.pi / 4 by ring, show (Real.pi / 2 - 0) / 2 = Real.pi / 4 by ring, Real.cos_pi_div_four,
        Real.sin_pi_div_four, div_self s2]
      simp
    rwa [e] at h
  · have h := CurveHull.arc unitCircle_framed (a := Real.pi / 2) (b := Real.pi) (by linarith) (ms := [Real.pi / 2, Real.pi])
      (List.isChain_pair.2 ⟨by linarith, by linarith⟩) rfl rfl
    have e : arcHull unitCircle [Real.pi / 2, Real.pi] = [⟨0, 1, 0⟩, ⟨-1, 1, 0⟩, ⟨-1, 0, 0⟩] := by
      simp only [arcHull, unitCircle_point, unitCircle_meet]
      rw [show (Real.pi / 2 + Real.pi) / 2 = Real.pi - Real.pi / 4 by ring, show (Real.pi - Real.pi / 2) / 2 = Real.pi / 4 by ring,
        Real.cos_pi_sub, Real.sin_pi_sub, Real.cos_pi_div_four, Real.sin_pi_div_four, neg_div, div_self s2]
      simp
    rwa [e] at h
  · have h := CurveHull.line (⟨0, ⟨-1, 0, 0⟩⟩ : Line ℝ) (a := -1) (b := 1) (by norm_num)
    have e : [(⟨0, ⟨-1, 0, 0⟩⟩ : Line ℝ).getPoint (-1), (⟨0, ⟨-1, 0, 0⟩⟩ : Line ℝ).getPoint 1] = [⟨1, 0, 0⟩, ⟨-1, 0, 0⟩] := by
      simp only [Line.getPoint, LawfulPoint.right]
      congr 1
      · ext <;> simp
      · congr 1
        ext <;> simp
    rwa [e] at h

theorem halfDisc_left : AllLeft (([[⟨1, 0, 0⟩, ⟨1, 1, 0⟩, ⟨0, 1, 0⟩], [⟨0, 1, 0⟩, ⟨-1, 1, 0⟩, ⟨-1, 0, 0⟩],
    [⟨-1, 0, 0⟩, ⟨1, 0, 0⟩]] : List (List (V3 ℝ))).flatten.map flatPlane.project) := by
  simp only [List.flatten_cons, List.flatten_nil, List.cons_append, List.nil_append, List.append_nil, List.map_cons, List.map_nil,
    Plane.project, flatPlane, V3.dot, V3.sub_x, V3.sub_y, V3.sub_z, V3.zero_x, V3.zero_y, V3.zero_z]
  repeat' apply allLeft_cons
  all_goals first
    | (simp only [List.pairwise_cons, List.mem_cons, List.not_mem_nil, or_false, forall_eq_or_imp, forall_eq, triArea2,
        List.Pairwise.nil, and_true, IsEmpty.forall_iff, implies_true]; norm_num)
    | exact .nil
    | exact List.pairwise_singleton _ _
    | (intro x y z h; cases h)

theorem distance_lt {a b : V3 ℝ} (hx : |a.x - b.x| ≤ 2) (hy : |a.y - b.y| ≤ 2) (hz : a.z - b.z = 0) : a.distance b < 4 := by
  have e : a.distance b = Real.sqrt ((a.x - b.x) * (a.x - b.x) + (a.y - b.y) * (a.y - b.y) + (a.z - b.z) * (a.z - b.z)) := rfl
  rw [e, Real.sqrt_lt' (by norm_num), hz]
  have h1 := abs_le.1 hx
  have h2 := abs_le.1 hy
  nlinarith

theorem unitCircle_points (a b : ℝ) {fuel : Nat} (hf : 0 < fuel) {rnd : List Bool → ℝ} (hr : ∀ path, 0 ≤ rnd path ∧ rnd path < 1) :
    (CurveSegment.mk unitCircle.obj (a, b) 4 16).getPoints fuel rnd
      = .ok [⟨Real.cos a, Real.sin a, 0⟩, ⟨Real.cos b, Real.sin b, 0⟩] := by
  obtain ⟨fuel, rfl⟩ : ∃ k, fuel = k + 1 := ⟨fuel - 1, by omega⟩
  have hp : ∀ u, unitCircle.obj.getPoint u = .ok ⟨Real.cos u, Real.sin u, 0⟩ := fun u => congrArg Except.ok (unitCircle_point u)
  obtain ⟨d0, d1⟩ := drawRatio_bounds (hr []).1 (hr []).2
  unfold CurveSegment.getPoints parameterDivision
  simp only [hp, ok_bind]
  have comb : ∀ s t u : ℝ, |s| ≤ 1 → |t| ≤ 1 → |u| ≤ 1 → |u - (s + (t - s) * drawRatio (rnd []))| ≤ 2 := by
    intro s t u hs ht hu
    rw [abs_le] at hs ht hu ⊢
    constructor <;> nlinarith
  rw [if_pos (distance_lt ?_ ?_ ?_)]
  · simp [pure_eq_ok, ok_bind, List.mapM_cons, List.mapM_nil, hp]
  · simpa only [V3.rmul_eq, V3.add_x, V3.add_y, V3.add_z, V3.sub_x, V3.sub_y, V3.sub_z, V3.smul_x, V3.smul_y, V3.smul_z, smul_eq_mul, mul_comm] using comb _ _ _ (Real.abs_cos_le_one a) (Real.abs_cos_le_one b) (Real.abs_cos_le_one _)
  · simpa only [V3.rmul_eq, V3.add_x, V3.add_y, V3.add_z, V3.sub_x, V3.sub_y, V3.sub_z, V3.smul_x, V3.smul_y, V3.smul_z, smul_eq_mul, mul_comm] using comb _ _ _ (Real.abs_sin_le_one a) (Real.abs_sin_le_one b) (Real.abs_sin_le_one _)
  · simp [V3.rmul_eq]

theorem halfDisc_polygon {fuel : Nat} (hf : 0 < fuel) {rnd : Nat → List Bool → ℝ} (hr : ∀ i path, 0 ≤ rnd i path ∧ rnd i path < 1) :
    (halfDisc 4).toPolygon fuel rnd = .ok [⟨1, 0, 0⟩, ⟨0, 1, 0⟩, ⟨-1, 0, 0⟩] := by
  have hl : (CurveSegment.mk (DynCurve.line (⟨0, ⟨-1, 0, 0⟩⟩ : Line ℝ)).obj (1, -1) 4 16).getPoints fuel (rnd 2)
      = .ok [⟨-1, 0, 0⟩, ⟨1, 0, 0⟩] := by
    obtain ⟨fuel, rfl⟩ : ∃ k, fuel = k + 1 := ⟨fuel - 1, by omega⟩
    have hp : ∀ u, (DynCurve.line (⟨0, ⟨-1, 0, 0⟩⟩ : Line ℝ)).obj.getPoint u = .ok ⟨-u, 0, 0⟩ := fun u => congrArg Except.ok (by
      simp only [Line.getPoint, LawfulPoint.right]
      ext <;> simp)
    unfold CurveSegment.getPoints parameterDivision
    simp only [hp, ok_bind]
    rw [if_pos (distance_lt ?_ ?_ ?_)]
    · simp [pure_eq_ok, ok_bind, List.mapM_cons, List.mapM_nil, hp]
    all_goals simp [V3.rmul_eq, rangeAt]
    · rw [show -((-1 - 1) * drawRatio (rnd 2 [])) + -1 - (-1 + drawRatio (rnd 2 []) * (1 + 1)) = 0 by ring]
      simp
  have hc := C138_polygon (vs := [⟨1, 0, 0⟩, ⟨0, 1, 0⟩, ⟨-1, 0, 0⟩]) (by simp) (flags := [true, true, true]) rfl (by simp) (by
    intro e he
    simp [loopEdges, pathEdges] at he
    rcases he with rfl | rfl | rfl <;> norm_num [V3.distanceSq, V3.lengthSq, V3.dot, Env.tol])
  unfold EdgeLoop.toPolygon halfDisc
  simp only [List.zipIdx_cons, List.zipIdx_nil, List.mapM_cons, List.mapM_nil, Nat.zero_add, Nat.reduceAdd]
  rw [unitCircle_points _ _ hf (hr 0), ok_bind, unitCircle_points _ _ hf (hr 1), ok_bind, hl]
  simp only [Real.cos_zero, Real.sin_zero, Real.cos_pi_div_two, Real.sin_pi_div_two, Real.cos_pi, Real.sin_pi, ok_bind, pure_eq_ok]
  exact hc

/-- Non-vacuity of **C147**: the polygons of the half disc, whatever the tolerance and the random numbers, turn left at all
corners; with only its end points sampled on each edge it becomes the fan of a triangle. -/
theorem C147_example {o : TrimOracle ℝ} (hf : 0 < o.divFuel) (hr : ∀ i path, 0 ≤ o.rnd 0 i path ∧ o.rnd 0 i path < 1) :
    (∀ tol vs, (halfDisc tol).toPolygon o.divFuel (o.rnd 0) = .ok vs → AllLeft (vs.map flatPlane.project)) ∧
    ∃ mesh, flatPlane.trim o [halfDisc 4] = .ok mesh ∧ FansOut flatPlane [⟨1, 0, 0⟩, ⟨0, 1, 0⟩, ⟨-1, 0, 0⟩] mesh ∧
      ∃ x, winding ([⟨1, 0, 0⟩, ⟨0, 1, 0⟩, ⟨-1, 0, 0⟩].map flatPlane.project) x = 1 := by
  refine ⟨fun tol vs h => (C147_face (halfDisc_hulls tol) halfDisc_left h).1, ?_⟩
  obtain ⟨mesh, h1, h2⟩ := (C147_face (halfDisc_hulls 4) halfDisc_left (halfDisc_polygon hf hr)).2.2 ⟨0, by simp, by
    simp [turn, Plane.project, flatPlane, V3.dot, Env.tol]
    norm_num⟩
  refine ⟨mesh, h1, h2, ⟨0, 1 / 2⟩, ?_⟩
  simp [winding, loopEdges, pathEdges, crossing, Plane.project, flatPlane, V3.dot, triArea2]
  norm_num

end Geom3d
