import Verif.Lemmas.Covering
import Verif.Props.FrontTrim

/-!
# Ear clipping and planar faces: how often a point is covered (C123)

In exact arithmetic.  When `trianglate_polygon` (`src/utils/polygon.rs:66-142`) clips all ears, the counter-clockwise
triangles around a point outnumber the clockwise ones by the winding number of the polygon; the same for the loop made of
a polygon and its holes (`merge_polygons`, `src/utils/polygon.rs`), and for planar faces with holes
(`Plane::trim`, `src/surface/plane.rs:25-91`).  General position is not needed.
-/

namespace Geom3d

set_option linter.unusedSectionVars false

variable {K : Type} [Field K] [LinearOrder K] [IsStrictOrderedRing K] [Env K]

theorem winding_weight (points : List (V2 K)) (V : List Nat) (x : V2 K) :
    Spec.winding (Spec.loopPoints points V) x
      = Spec.weight (fun u v => Spec.crossing x (points.getD u 0) (points.getD v 0)) (Spec.loopEdges V) := by
  unfold Spec.winding Spec.loopPoints Spec.weight
  rw [Spec.loopEdges_map, List.map_map]; rfl

/-- **C123**, ear clipping: if `n - 2` triangles are returned and none of them names a vertex twice, the
counter-clockwise triangles around `x` outnumber the clockwise ones by the winding number of the polygon. -/
theorem C123_ear {bs : List Nat → Nat → Option Nat} {fuel : Nat} {points : List (V2 K)} {V C : List Nat}
    {T : List Nat} (h : triangulatePolygon bs fuel points V C = .ok T) (hV : ∀ v ∈ V, v < points.length)
    (hc : T.length = 3 * (V.length - 2))
    (hrep : ∀ t ∈ Spec.triples T, t.1 ≠ t.2.1 ∧ t.2.1 ≠ t.2.2 ∧ t.1 ≠ t.2.2) {x : V2 K} (hx : Spec.OffChords points x) :
    (Spec.covering points (Spec.ccw points T) x : ℤ) - Spec.covering points (Spec.cw points T) x
      = Spec.winding (Spec.loopPoints points V) x := by
  have hT : ∀ t ∈ T, t < points.length := by
    have h' := h
    unfold triangulatePolygon at h'
    rw [bind_eq_ok] at h'
    obtain ⟨s, h', hT⟩ := h'
    cases hT
    exact fun t ht => hV t ((C38_valid h').2.1 t ht)
  rw [← weight_crossing hx T hT, winding_weight]
  have := crossing_skew x
  exact C75_boundary ℤ h hc hrep _ ⟨fun a b => this.anti _ _, fun a => this.self _⟩

/-- **C123**, bridges: the loop made of all loops winds around a point as often as they do together. -/
theorem C123_merge {points : List (V2 K)} {polygons : List Nat} (hok : Spec.LoopsOk points polygons)
    (h2 : 2 ≤ polygons.length) :
    ∃ V, mergePolygons points polygons = .ok V ∧ ∀ x, Spec.winding (Spec.loopPoints points V) x
      = ((pairs polygons).map fun p => Spec.winding (Spec.loopPoints points (Spec.loopRange p)) x).sum := by
  obtain ⟨V, B, h1, h3, -⟩ := C40_merge hok h2
  refine ⟨V, h1, fun x => ?_⟩
  have hsk : Spec.Skew (fun u v => Spec.crossing x (points.getD u 0) (points.getD v 0)) :=
    ⟨fun a b => (crossing_skew x).anti _ _, fun a => (crossing_skew x).self _⟩
  rw [winding_weight, weight_perm h3, weight_append, weight_append, weight_swap hsk, weight_flatMap]
  rw [add_assoc, add_neg_cancel, add_zero]
  congr 1
  apply List.map_congr_left
  intro p _
  rw [winding_weight]

theorem getD_map_project (p : Plane K) (l : List (V3 K)) {i : Nat} (hi : i < l.length) :
    (l.map p.project).getD i 0 = p.project (l.getD i 0) := by
  rw [getD_of_lt 0 (by simpa using hi), getD_of_lt 0 hi, List.getElem_map]

/-- **C123**, planar faces with any number of holes: if the mesh is a fan around the centre or uses every boundary vertex
(`n - 2` triangles, two more per hole, none naming a vertex twice), the counter-clockwise triangles around `x`
outnumber the clockwise ones by the number of times the loops wind around `x`, as seen in the plane. -/
theorem C123_face {p : Plane K} {o : TrimOracle K} {bounds : List (EdgeLoop K)} {mesh : TriangleMesh K}
    (h : p.trim o bounds = .ok mesh) :
    ∃ loops, List.Forall₂ (fun b P => EdgeLoop.toPolygon o.divFuel (o.rnd b.2) b.1 = .ok P) bounds.zipIdx loops ∧
      ((∀ l ∈ loops, ∀ v ∈ l, Env.minV < (p.project v).x) →
       (mesh.vertices.length = loops.flatten.length + 1 ∨
        1 ≤ (Spec.nonEmpty loops).length ∧
        mesh.triangles.length = 3 * (loops.flatten.length + 2 * ((Spec.nonEmpty loops).length - 1) - 2) ∧
        ∀ t ∈ Spec.triples mesh.triangles, t.1 ≠ t.2.1 ∧ t.2.1 ≠ t.2.2 ∧ t.1 ≠ t.2.2) →
       ∀ x, Spec.OffChords (mesh.vertices.map p.project) x →
        (Spec.covering (mesh.vertices.map p.project) (Spec.ccw (mesh.vertices.map p.project) mesh.triangles) x : ℤ)
          - Spec.covering (mesh.vertices.map p.project) (Spec.cw (mesh.vertices.map p.project) mesh.triangles) x
          = (loops.map fun l => Spec.winding (l.map p.project) x).sum) := by
  obtain ⟨-, hT, -⟩ := C53_valid h
  obtain ⟨loops, hl, hloops⟩ := C73_partial (M := ℤ) h
  refine ⟨loops, hl, fun hmin hcount x hx => ?_⟩
  have := hloops hmin hcount (fun a b => Spec.crossing x (p.project a) (p.project b))
    ⟨fun a b => (crossing_skew x).anti _ _, fun a => (crossing_skew x).self _⟩
  rw [meshEdges_weight] at this
  rw [← weight_crossing hx mesh.triangles (by simpa using hT)]
  rw [show Spec.weight (fun u v => Spec.crossing x ((mesh.vertices.map p.project).getD u 0) ((mesh.vertices.map p.project).getD v 0))
      (Spec.triEdges mesh.triangles) = Spec.weight (fun a b => Spec.crossing x (p.project (mesh.vertices.getD a 0))
        (p.project (mesh.vertices.getD b 0))) (Spec.triEdges mesh.triangles) from
    weight_congr fun e he => by
      have hmem : e.1 ∈ mesh.triangles ∧ e.2 ∈ mesh.triangles := by
        rw [triEdges_eq_triples, List.mem_flatMap] at he
        obtain ⟨t, ht, he⟩ := he
        have := mem_triples ht
        simp only [List.mem_cons, List.not_mem_nil, or_false] at he
        rcases he with rfl | rfl | rfl <;> tauto
      rw [getD_map_project p _ (hT _ hmem.1), getD_map_project p _ (hT _ hmem.2)]]
  rw [this]
  congr 1
  apply List.map_congr_left
  intro l _
  unfold Spec.winding Spec.weight
  rw [Spec.loopEdges_map, List.map_map]; rfl

/-- If there are no clockwise triangles, the triangles around a point are counted by the counter-clockwise ones. -/
theorem covering_ccw {P : List (V2 K)} {T : List Nat}
    (hpos : ∀ t ∈ Spec.triples T, 0 < Spec.triArea2 (P.getD t.1 0) (P.getD t.2.1 0) (P.getD t.2.2 0)) (x : V2 K) :
    (Spec.covering P (Spec.triples T) x : ℤ) = Spec.covering P (Spec.ccw P T) x - Spec.covering P (Spec.cw P T) x := by
  classical
  have e1 : Spec.ccw P T = Spec.triples T := List.filter_eq_self.2 fun t ht => by simpa using hpos t ht
  have e2 : Spec.cw P T = [] := List.filter_eq_nil_iff.2 fun t ht => by simpa using (hpos t ht).le
  rw [e1, e2]
  simp [Spec.covering]

/-! ### Concrete cases -/

/-- A quadrilateral with a triangular hole, which is meshed completely. -/
def Spec.holed : List (List (V3 ℚ)) :=
  [[⟨1, 1, 0⟩, ⟨15, 4, 0⟩, ⟨16, 14, 0⟩, ⟨4, 20, 0⟩], [⟨10, 9, 0⟩, ⟨9, 13, 0⟩, ⟨12, 8, 0⟩]]

def Spec.holedT : List Nat := [6, 0, 1, 0, 6, 4, 5, 6, 1, 3, 0, 4, 5, 1, 2, 3, 4, 5, 5, 2, 3]

theorem holed_trim : Spec.xyPlane.trim Spec.oracle (Spec.holed.map Spec.edgeLoop) = .ok ⟨Spec.holed.flatten, [], Spec.holedT⟩ := by
  decide +kernel

theorem holed_ccw : ∀ t ∈ Spec.triples Spec.holedT, 0 < Spec.triArea2 ((Spec.holed.flatten.map Spec.xyPlane.project).getD t.1 0)
    ((Spec.holed.flatten.map Spec.xyPlane.project).getD t.2.1 0) ((Spec.holed.flatten.map Spec.xyPlane.project).getD t.2.2 0) := by
  decide +kernel

/-- Non-vacuity of **C123**: off the lines through two vertices, points of the quadrilateral are in one triangle unless
they are in the hole. -/
theorem C123_example : ∀ x, Spec.OffChords (Spec.holed.flatten.map Spec.xyPlane.project) x →
    (Spec.covering (Spec.holed.flatten.map Spec.xyPlane.project) (Spec.triples Spec.holedT) x : ℤ)
      = (Spec.holed.map fun l => Spec.winding (l.map Spec.xyPlane.project) x).sum := by
  intro x hx
  obtain ⟨loops, hl, h⟩ := C123_face holed_trim
  have : loops = Spec.holed := by
    have e : ∀ b ∈ (Spec.holed.map Spec.edgeLoop).zipIdx.zip Spec.holed,
        EdgeLoop.toPolygon Spec.oracle.divFuel (Spec.oracle.rnd b.1.2) b.1.1 = .ok b.2 := by
      decide +kernel
    match loops, hl with
    | [l0, l1], .cons h0 (.cons h1 .nil) =>
      have e0 := e _ (List.mem_cons_self ..)
      have e1 := e _ (List.mem_cons_of_mem _ (List.mem_cons_self ..))
      simp only at e0 e1
      cases h0.symm.trans e0
      cases h1.symm.trans e1
      rfl
  subst this
  rw [covering_ccw holed_ccw]
  exact h (by decide +kernel) (.inr ⟨by decide +kernel, by decide +kernel, by decide +kernel⟩) x hx

/-- A quadrilateral with a triangular hole can lose its whole mesh, without a panic … -/
theorem C123_hole_lost : Spec.xyPlane.trim Spec.oracle ([[⟨0, 0, 0⟩, ⟨10, 1, 0⟩, ⟨9, 10, 0⟩, ⟨1, 9, 0⟩],
      [⟨6, 7, 0⟩, ⟨6, 2, 0⟩, ⟨2, 4, 0⟩]].map Spec.edgeLoop)
    = .ok ⟨[⟨0, 0, 0⟩, ⟨10, 1, 0⟩, ⟨9, 10, 0⟩, ⟨1, 9, 0⟩, ⟨6, 7, 0⟩, ⟨6, 2, 0⟩, ⟨2, 4, 0⟩], [], []⟩ := by
  decide +kernel

/-- … and can be meshed with all seven triangles, one of them clockwise, so that others overlap. -/
theorem C123_hole_overlap : ∃ vs T, Spec.xyPlane.trim Spec.oracle ([[⟨0, 0, 0⟩, ⟨10, 1, 0⟩, ⟨9, 10, 0⟩, ⟨1, 9, 0⟩],
      [⟨6, 2, 0⟩, ⟨3, 7, 0⟩, ⟨6, 7, 0⟩]].map Spec.edgeLoop) = .ok ⟨vs, [], T⟩ ∧ T.length = 3 * 7 ∧
    (6, 4, 0) ∈ Spec.triples T ∧ Spec.triArea2 ((vs.map Spec.xyPlane.project).getD 6 0)
      ((vs.map Spec.xyPlane.project).getD 4 0) ((vs.map Spec.xyPlane.project).getD 0 0) = -30 :=
  ⟨[⟨0, 0, 0⟩, ⟨10, 1, 0⟩, ⟨9, 10, 0⟩, ⟨1, 9, 0⟩, ⟨6, 2, 0⟩, ⟨3, 7, 0⟩, ⟨6, 7, 0⟩],
    [3, 0, 4, 6, 4, 0, 0, 1, 2, 3, 4, 5, 6, 0, 2, 2, 3, 5, 5, 6, 2],
    by decide +kernel, by decide +kernel, by decide +kernel, by decide +kernel⟩

end Geom3d
