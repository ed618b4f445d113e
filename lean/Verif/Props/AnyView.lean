import Verif.Props.FrontFace
import Verif.Props.Covering
import Verif.Props.Face
import Verif.Spec.Float64
import Mathlib.Algebra.BigOperators.Intervals

/-!
# Meshes seen from any side, computed in any arithmetic (C126)

The boundary of a mesh does not depend on rounding.  So whatever the arithmetic, and whatever map takes its points to an
exact plane (the values of binary64 coordinates, followed by any projection), the triangles around a point of that plane,
counted with sign, are as many as the boundary loops wind around it: advancing front (`src/utils/meshgen.rs:9-74`), ear
clipping (`src/utils/polygon.rs:66-142`), planar, cylindrical and B-spline faces (`src/surface/plane.rs:25-91`,
`src/surface/cylinder.rs:54-127`, `src/surface/bspline.rs:202-277`) and surface patches (`src/face.rs:15-66`).
-/

namespace Geom3d

set_option linter.unusedSectionVars false

section
variable {α : Type} {K : Type} [Field K] [LinearOrder K] [IsStrictOrderedRing K] [Env K]

/-- The signed number of triangles around a point is the total crossing number of the edges. -/
theorem signedCovering_weight [Zero α] (view : α → V2 K) (V : List α) {T : List Nat} (hT : ∀ t ∈ T, t < V.length) {x : V2 K}
    (hx : Spec.OffChords (V.map view) x) :
    Spec.signedCovering (V.map view) T x
      = Spec.weight (fun a b => Spec.crossing x (view (V.getD a 0)) (view (V.getD b 0))) (Spec.triEdges T) := by
  have hget : ∀ i ∈ T, (V.map view).getD i 0 = view (V.getD i 0) := fun i hi => by
    rw [getD_of_lt 0 (by simpa using hT i hi), getD_of_lt 0 (hT i hi), List.getElem_map]
  unfold Spec.signedCovering
  rw [← weight_crossing hx T (by simpa using hT)]
  refine weight_congr fun e he => ?_
  have hmem : e.1 ∈ T ∧ e.2 ∈ T := by
    rw [triEdges_eq_triples, List.mem_flatMap] at he
    obtain ⟨t, ht, he⟩ := he
    have := mem_triples ht
    simp only [List.mem_cons, List.not_mem_nil, or_false] at he
    rcases he with rfl | rfl | rfl <;> tauto
  rw [hget _ hmem.1, hget _ hmem.2]

theorem winding_view (view : α → V2 K) (l : List α) (x : V2 K) :
    Spec.winding (l.map view) x = Spec.weight (fun a b => Spec.crossing x (view a) (view b)) (Spec.loopEdges l) := by
  rw [show Spec.winding (l.map view) x = Spec.weight (Spec.crossing x) (Spec.loopEdges (l.map view)) from rfl,
    weight_loopEdges_map]

theorem view_skew (view : α → V2 K) (x : V2 K) : Spec.Skew fun a b => Spec.crossing x (view a) (view b) :=
  Skew.comp (crossing_skew x) view

/-- **C126**, no gaps: at least as many triangles are around a point as their signed number says. -/
theorem C126_covered (Q : List (V2 K)) (T : List Nat) (x : V2 K) :
    |Spec.signedCovering Q T x| ≤ Spec.covering Q (Spec.triples T) x := by
  classical
  unfold Spec.signedCovering
  have h1 : Spec.covering Q (Spec.ccw Q T) x ≤ Spec.covering Q (Spec.triples T) x := by
    unfold Spec.covering Spec.ccw
    exact (List.filter_sublist.filter _).length_le
  have h2 : Spec.covering Q (Spec.cw Q T) x ≤ Spec.covering Q (Spec.triples T) x := by
    unfold Spec.covering Spec.cw
    exact (List.filter_sublist.filter _).length_le
  rw [abs_le]
  omega

end

section
variable {F : Type} [Add F] [Sub F] [Mul F] [Div F] [Neg F] [Zero F] [One F] [NatCast F] [LT F] [DecidableLT F] [LE F]
  [DecidableLE F] [Env F]
variable {K : Type} [Field K] [LinearOrder K] [IsStrictOrderedRing K] [Env K]

/-- **C126** (any arithmetic), advancing front. -/
theorem C126_front {pick : List (Nat × F) → Option Nat} (hp : PickOk pick) {innerFuel fuel : Nat}
    {points : List (V2 F)} {polygons : List Nat} {V : List (V2 F)} {T : List Nat}
    (h : generateTriangularMesh pick innerFuel fuel points polygons = .ok (V, T))
    (hpoly : ∀ p ∈ pairs polygons, p.1 < p.2) (view : V2 F → V2 K) {x : V2 K} (hx : Spec.OffChords (V.map view) x) :
    Spec.signedCovering (V.map view) T x
      = ((pairs polygons).map fun p => Spec.winding ((Spec.loopRange p).map fun i => view (V.getD i 0)) x).sum := by
  rw [signedCovering_weight view V (C41_valid hp h).2.2 hx]
  have hw := C42_weight hp h hpoly (fun a b => Spec.crossing x (view (V.getD a 0)) (view (V.getD b 0)))
    (fun u v => (crossing_skew x).anti _ _)
  refine hw.trans ?_
  change Spec.weight (fun a b => Spec.crossing x (view (V.getD a 0)) (view (V.getD b 0))) _ = _
  rw [weight_flatMap]
  congr 1
  apply List.map_congr_left
  intro p _
  rw [winding_view (fun i => view (V.getD i 0))]

/-- **C126** (any arithmetic), ear clipping. -/
theorem C126_ear {bs : List Nat → Nat → Option Nat} {fuel : Nat} {points : List (V2 F)} {V C : List Nat}
    {T : List Nat} (h : triangulatePolygon bs fuel points V C = .ok T) (hV : ∀ v ∈ V, v < points.length)
    (hc : T.length = 3 * (V.length - 2))
    (hrep : ∀ t ∈ Spec.triples T, t.1 ≠ t.2.1 ∧ t.2.1 ≠ t.2.2 ∧ t.1 ≠ t.2.2) (view : V2 F → V2 K) {x : V2 K}
    (hx : Spec.OffChords (points.map view) x) :
    Spec.signedCovering (points.map view) T x = Spec.winding (V.map fun i => view (points.getD i 0)) x := by
  have hT : ∀ t ∈ T, t < points.length := by
    have h' := h
    unfold triangulatePolygon at h'
    rw [bind_eq_ok] at h'
    obtain ⟨s, h', hT⟩ := h'
    cases hT
    exact fun t ht => hV t ((C38_valid h').2.1 t ht)
  rw [signedCovering_weight view points hT hx, winding_view (fun i => view (points.getD i 0))]
  exact C75_boundary ℤ h hc hrep _ (view_skew (fun i => view (points.getD i 0)) x)

theorem signedCovering_mesh {mesh : TriangleMesh F} (hT : ∀ i ∈ mesh.triangles, i < mesh.vertices.length)
    (view : V3 F → V2 K) {x : V2 K} (hx : Spec.OffChords (mesh.vertices.map view) x) :
    Spec.signedCovering (mesh.vertices.map view) mesh.triangles x
      = Spec.weight (fun a b => Spec.crossing x (view a) (view b)) (Spec.meshEdges mesh) := by
  rw [signedCovering_weight view _ hT hx, meshEdges_weight]

/-- **C126** (any arithmetic), planar faces with any number of holes, when the mesh is a fan around the centre or uses
every boundary vertex. -/
theorem C126_plane {p : Plane F} {o : TrimOracle F} {bounds : List (EdgeLoop F)} {mesh : TriangleMesh F}
    (h : p.trim o bounds = .ok mesh) :
    ∃ loops, List.Forall₂ (fun b P => EdgeLoop.toPolygon o.divFuel (o.rnd b.2) b.1 = .ok P) bounds.zipIdx loops ∧
      ((∀ l ∈ loops, ∀ v ∈ l, Env.minV < (p.project v).x) →
       (mesh.vertices.length = loops.flatten.length + 1 ∨
        1 ≤ (Spec.nonEmpty loops).length ∧
        mesh.triangles.length = 3 * (loops.flatten.length + 2 * ((Spec.nonEmpty loops).length - 1) - 2) ∧
        ∀ t ∈ Spec.triples mesh.triangles, t.1 ≠ t.2.1 ∧ t.2.1 ≠ t.2.2 ∧ t.1 ≠ t.2.2) →
       ∀ (view : V3 F → V2 K) (x : V2 K), Spec.OffChords (mesh.vertices.map view) x →
        Spec.signedCovering (mesh.vertices.map view) mesh.triangles x
          = (loops.map fun l => Spec.winding (l.map view) x).sum) := by
  obtain ⟨-, hT, -⟩ := C53_valid h
  obtain ⟨loops, hl, hloops⟩ := C73_partial (M := ℤ) h
  refine ⟨loops, hl, fun hmin hcount view x hx => ?_⟩
  rw [signedCovering_mesh hT view hx, hloops hmin hcount _ (view_skew view x)]
  simp only [winding_view]

end

section
variable {F : Type} [Add F] [Sub F] [Mul F] [Div F] [Neg F] [Zero F] [One F] [NatCast F] [LT F] [DecidableLT F] [LE F]
  [DecidableLE F] [Env F] [Trig F]
variable {K : Type} [Field K] [LinearOrder K] [IsStrictOrderedRing K] [Env K]

/-- **C126** (any arithmetic), trimmed cylinders and B-spline surfaces: a single loop is covered in reverse. -/
theorem C126_trimmed {s : Surface F} (hs : (∃ c : Cylinder F, s = c.surface ∨ s = c.surface.boxed) ∨
      ∃ b : BSplineSurface F (V3 F), s = b.surface ∨ s = b.surface.boxed)
    {o : TrimOracle F} (hp : PickOk o.pick) {bounds : List (EdgeLoop F)} {mesh : TriangleMesh F}
    (h : TrimmedSurface.getTriangleMesh o ⟨s, bounds⟩ = .ok mesh) :
    ∃ loops, List.Forall₂ (fun b P => EdgeLoop.toPolygon o.divFuel (o.rnd b.2) b.1 = .ok P) bounds.zipIdx loops ∧
      ∀ (view : V3 F → V2 K) (x : V2 K), Spec.OffChords (mesh.vertices.map view) x →
        Spec.signedCovering (mesh.vertices.map view) mesh.triangles x
          = if (Spec.nonEmpty loops).length = 1 then -(loops.map fun l => Spec.winding (l.map view) x).sum
            else (loops.map fun l => Spec.winding (l.map view) x).sum := by
  have hT : ∀ i ∈ mesh.triangles, i < mesh.vertices.length := by
    rcases hs with ⟨c, rfl | rfl⟩ | ⟨b, rfl | rfl⟩
    · exact (C76_cylinder hp h).2.1
    · exact (C76_cylinder hp h).2.1
    · exact (C76_bspline hp h).2.1
    · exact (C76_bspline hp h).2.1
  obtain ⟨loops, hl, hloops⟩ := C77_faces (M := ℤ) hs hp h
  refine ⟨loops, hl, fun view x hx => ?_⟩
  rw [signedCovering_mesh hT view hx, hloops _ (view_skew view x)]
  simp only [winding_view]

end

/-! ### Surface patches -/

/-- The positions around a grid of `m` by `n` cells: down the first column, along the last row, up the last column and
back along the first row. -/
def Spec.rim (m n : Nat) : List (Nat × Nat) :=
  (List.range m).map (fun i => (i, 0)) ++ ((List.range n).map (fun j => (m, j)) ++
    ((List.range m).map (fun i => (m - i, n)) ++ (List.range n).map (fun j => (0, n - j))))

section
variable {α M : Type} [AddCommGroup M] {φ : α → α → M}

theorem sum_list_range (m : Nat) (f : Nat → M) : ((List.range m).map f).sum = ∑ i ∈ Finset.range m, f i := by
  induction m with
  | zero => rfl
  | succ m ih => rw [List.range_succ, List.map_append, List.sum_append, ih, Finset.sum_range_succ]; simp

/-- The weight of a path that starts with the values of a function. -/
theorem weight_path (f : Nat → α) (m : Nat) {X : List α} (hX : X.head? = some (f m)) :
    Spec.weight φ (Spec.pathEdges ((List.range m).map f ++ X))
      = (∑ i ∈ Finset.range m, φ (f i) (f (i + 1))) + Spec.weight φ (Spec.pathEdges X) := by
  induction m generalizing X with
  | zero => simp
  | succ m ih =>
    rw [List.range_succ, List.map_append, List.append_assoc, ih (by simp), Finset.sum_range_succ, add_assoc]
    congr 1
    match X, hX with
    | a :: X, hX =>
      cases hX
      simp

/-- The edges of all cells together weigh as much as the rim. -/
theorem weight_grid (hφ : Spec.Skew φ) (P : Nat × Nat → α) {m n : Nat} (hm : 1 ≤ m) (hn : 1 ≤ n) :
    Spec.weight (fun a b => φ (P a) (P b)) (Spec.gridEdges (m + 1) (n + 1))
      = Spec.weight φ (Spec.loopEdges ((Spec.rim m n).map P)) := by
  have hφ' : Spec.Skew fun a b => φ (P a) (P b) := Skew.comp hφ P
  rw [weight_loopEdges_map]
  generalize (fun a b => φ (P a) (P b)) = ψ at hφ' ⊢
  have hcell : ∀ i j, Spec.weight ψ (Spec.cellEdges (i, j)) =
      (ψ (i, j) (i + 1, j) - ψ (i, j + 1) (i + 1, j + 1)) + (ψ (i + 1, j) (i + 1, j + 1) - ψ (i, j) (i, j + 1)) := by
    intro i j
    simp only [Spec.cellEdges, weight_cons, weight_nil]
    rw [hφ'.anti (i, j + 1) (i, j), hφ'.anti (i, j + 1) (i + 1, j), hφ'.anti (i + 1, j + 1) (i, j + 1)]
    abel
  have e1 : Spec.weight ψ (Spec.gridEdges (m + 1) (n + 1)) =
      (∑ i ∈ Finset.range m, (ψ (i, 0) (i + 1, 0) - ψ (i, n) (i + 1, n)))
        + ∑ j ∈ Finset.range n, (ψ (m, j) (m, j + 1) - ψ (0, j) (0, j + 1)) := by
    rw [Spec.gridEdges, weight_flatMap, Spec.cells, List.map_flatMap]
    have : ∀ l : List Nat, (List.flatMap (fun i => List.map (fun b => Spec.weight ψ (Spec.cellEdges b))
        (List.map (fun j => (i, j)) (List.range n))) l).sum
        = (l.map fun i => ∑ j ∈ Finset.range n, Spec.weight ψ (Spec.cellEdges (i, j))).sum := by
      intro l
      induction l with
      | nil => rfl
      | cons a l ih =>
        rw [List.flatMap_cons, List.sum_append, ih, List.map_map, List.map_cons, List.sum_cons, ← sum_list_range]
        rfl
    simp only [Nat.add_sub_cancel]
    rw [this, sum_list_range]
    simp only [hcell, Finset.sum_add_distrib]
    congr 1
    · refine Finset.sum_congr rfl fun i _ => ?_
      exact Finset.sum_range_sub' (fun j => ψ (i, j) (i + 1, j)) n
    · rw [Finset.sum_comm]
      refine Finset.sum_congr rfl fun j _ => ?_
      exact Finset.sum_range_sub (fun i => ψ (i, j) (i, j + 1)) m
  have e2 : Spec.weight ψ (Spec.loopEdges (Spec.rim m n)) =
      (∑ i ∈ Finset.range m, ψ (i, 0) (i + 1, 0)) + ((∑ j ∈ Finset.range n, ψ (m, j) (m, j + 1)) +
        ((∑ i ∈ Finset.range m, ψ (m - i, n) (m - (i + 1), n)) + ∑ j ∈ Finset.range n, ψ (0, n - j) (0, n - (j + 1)))) := by
    obtain ⟨m, rfl⟩ : ∃ k, m = k + 1 := ⟨m - 1, by omega⟩
    obtain ⟨n, rfl⟩ : ∃ k, n = k + 1 := ⟨n - 1, by omega⟩
    have h0 : ∀ (k : Nat) (f : Nat → Nat × Nat) (X : List (Nat × Nat)), ((List.range (k + 1)).map f ++ X).head? = some (f 0) := by
      intro k f X
      rw [List.range_succ_eq_map]; rfl
    have : Spec.loopEdges (Spec.rim (m + 1) (n + 1)) = Spec.pathEdges ((List.range (m + 1)).map (fun i => (i, 0)) ++
        ((List.range (n + 1)).map (fun j => (m + 1, j)) ++ ((List.range (m + 1)).map (fun i => (m + 1 - i, n + 1)) ++
          ((List.range (n + 1)).map (fun j => (0, n + 1 - j)) ++ [(0, 0)])))) := by
      have : Spec.rim (m + 1) (n + 1) = (0, 0) :: (Spec.rim (m + 1) (n + 1)).tail := by
        unfold Spec.rim
        rw [List.range_succ_eq_map]; rfl
      rw [this, Spec.loopEdges_cons, ← List.cons_append, ← this]
      simp only [Spec.rim, List.append_assoc]
    rw [this, weight_path _ _ (by rw [h0]), weight_path _ _ (by rw [h0]; simp), weight_path _ _ (by rw [h0]; simp),
      weight_path _ _ (by simp)]
    simp
  rw [e1, e2]
  have r1 : ∑ i ∈ Finset.range m, ψ (m - i, n) (m - (i + 1), n) = -∑ i ∈ Finset.range m, ψ (i, n) (i + 1, n) := by
    rw [← Finset.sum_range_reflect, ← Finset.sum_neg_distrib]
    refine Finset.sum_congr rfl fun i hi => ?_
    rw [Finset.mem_range] at hi
    rw [show m - (m - 1 - i) = i + 1 by omega, show m - (m - 1 - i + 1) = i by omega, hφ'.anti]
  have r2 : ∑ j ∈ Finset.range n, ψ (0, n - j) (0, n - (j + 1)) = -∑ j ∈ Finset.range n, ψ (0, j) (0, j + 1) := by
    rw [← Finset.sum_range_reflect, ← Finset.sum_neg_distrib]
    refine Finset.sum_congr rfl fun i hi => ?_
    rw [Finset.mem_range] at hi
    rw [show n - (n - 1 - i) = i + 1 by omega, show n - (n - 1 - i + 1) = i by omega, hφ'.anti]
  rw [r1, r2, Finset.sum_sub_distrib, Finset.sum_sub_distrib]
  abel

end

section
variable {F : Type} [Add F] [Sub F] [Mul F] [Div F] [Neg F] [Zero F] [One F] [NatCast F] [LT F] [DecidableLT F] [LE F]
  [DecidableLE F] [Env F]
variable {K : Type} [Field K] [LinearOrder K] [IsStrictOrderedRing K] [Env K]

/-- **C126** (any arithmetic), surface patches: the boundary is the loop of the points sampled on the four sides. -/
theorem C126_patch {p : SurfacePatch F} {mesh : TriangleMesh F} (h : p.getTriangleMesh = .ok mesh) {m n : Nat}
    (hd : p.parameterDivision = (m, n)) (hm : 1 ≤ m) (hn : 1 ≤ n) (hsz : (m + 1) * (n + 1) ≤ 2 ^ 32)
    (view : V3 F → V2 K) {x : V2 K} (hx : Spec.OffChords (mesh.vertices.map view) x) :
    Spec.signedCovering (mesh.vertices.map view) mesh.triangles x
      = Spec.winding (((Spec.rim m n).map fun q => mesh.vertices.getD (q.1 * (n + 1) + q.2) 0).map view) x := by
  obtain ⟨us, vs, N, hs, -, hT, -⟩ := getTriangleMesh_eq_ok h
  rw [hd] at hs hT
  obtain ⟨T, hT', hE⟩ := triEdges_createTriangles (g := (⟨mesh.vertices, m + 1, n + 1⟩ : Grid (V3 F))) (by simp) (by simp) hsz
  rw [hT] at hT'
  cases hT'
  have hlen : mesh.vertices.length = (m + 1) * (n + 1) := hs.length
  obtain ⟨T, hT', -, hv⟩ := C43_size (g := (⟨mesh.vertices, m + 1, n + 1⟩ : Grid (V3 F))) (by simp) (by simp) hsz
  rw [hT] at hT'
  cases hT'
  rw [signedCovering_weight view _ (by rw [hlen]; exact hv) hx, hE, winding_view]
  rw [← weight_grid (view_skew view x) (fun q => mesh.vertices.getD (q.1 * (n + 1) + q.2) 0) hm hn]
  exact weight_map (Spec.gridId (n + 1)) _

end

/-! ### Binary64, seen along any direction -/

/-- The real point of a binary64 point in the coordinates `e`, `f` of a plane of projection. -/
noncomputable def Spec.seen (e f : V3 ℝ) (v : V3 Float) : V2 ℝ :=
  ⟨e.dot (F64.toReal v), f.dot (F64.toReal v)⟩

/-- **C126** (binary64): a point around which the boundary of a trimmed cylinder or B-spline surface winds, seen along
any direction, is covered by at least as many triangles. -/
theorem C126_binary64 [Trig Float] {s : Surface Float}
    (hs : (∃ c : Cylinder Float, s = c.surface ∨ s = c.surface.boxed) ∨
      ∃ b : BSplineSurface Float (V3 Float), s = b.surface ∨ s = b.surface.boxed)
    {o : TrimOracle Float} (hp : PickOk o.pick) {bounds : List (EdgeLoop Float)} {mesh : TriangleMesh Float}
    (h : TrimmedSurface.getTriangleMesh o ⟨s, bounds⟩ = .ok mesh) :
    ∃ loops, List.Forall₂ (fun b P => EdgeLoop.toPolygon o.divFuel (o.rnd b.2) b.1 = .ok P) bounds.zipIdx loops ∧
      ∀ (e f : V3 ℝ) (x : V2 ℝ), Spec.OffChords (mesh.vertices.map (Spec.seen e f)) x →
        |(loops.map fun l => Spec.winding (l.map (Spec.seen e f)) x).sum|
          ≤ Spec.covering (mesh.vertices.map (Spec.seen e f)) (Spec.triples mesh.triangles) x := by
  obtain ⟨loops, hl, hloops⟩ := C126_trimmed (K := ℝ) hs hp h
  refine ⟨loops, hl, fun e f x hx => ?_⟩
  have h1 := C126_covered (mesh.vertices.map (Spec.seen e f)) mesh.triangles x
  rw [hloops _ x hx] at h1
  split at h1
  · rwa [abs_neg] at h1
  · exact h1

/-! ### Concrete cases -/

theorem cylinder_face {F : Type} [Add F] [Sub F] [Mul F] [Div F] [Neg F] [Zero F] [One F] [NatCast F] [LT F]
    [DecidableLT F] [LE F] [DecidableLE F] [Env F] [Trig F] (c : Cylinder F) (o : TrimOracle F) (bounds : List (EdgeLoop F)) :
    TrimmedSurface.getTriangleMesh o ⟨c.surface, bounds⟩ = c.trim o bounds := rfl

/-- Non-vacuity of **C126**, trimmed surfaces: the triangle on a cylinder of `C76_example`, in binary64, seen along any
direction, is covered in reverse. -/
theorem C126_example [Trig Float] (e f : V3 ℝ) (x : V2 ℝ) (hx : Spec.OffChords (Spec.wedge.map (Spec.seen e f)) x) :
    Spec.signedCovering (Spec.wedge.map (Spec.seen e f)) [1, 0, 2] x = -Spec.winding (Spec.wedge.map (Spec.seen e f)) x := by
  obtain ⟨h1, h2⟩ := wedge_trim
  have h2' : TrimmedSurface.getTriangleMesh Spec.oracleF ⟨Spec.zCylinder.surface, [Spec.edgeLoopF Spec.wedge]⟩ =
      .ok ⟨Spec.wedge, [], [1, 0, 2]⟩ := (cylinder_face _ _ _).trans h2
  have hs : (∃ c : Cylinder Float, Spec.zCylinder.surface = c.surface ∨ Spec.zCylinder.surface = c.surface.boxed) ∨
      ∃ b : BSplineSurface Float (V3 Float), Spec.zCylinder.surface = b.surface ∨ Spec.zCylinder.surface = b.surface.boxed :=
    .inl ⟨_, .inl rfl⟩
  have hp : PickOk Spec.oracleF.pick := pickMax_ok
  obtain ⟨loops, hl, h⟩ := C126_trimmed (K := ℝ) hs hp h2'
  obtain ⟨loops', hl', e1, -⟩ := collectLoops_spec h1
  have hw : loops = [Spec.wedge] := by
    rcases List.forall₂_cons_left_iff.1 hl with ⟨l, t, h0, hn, rfl⟩
    rcases List.forall₂_cons_left_iff.1 hl' with ⟨l', t', h0', hn', rfl⟩
    rw [List.zipIdx_nil, List.forall₂_nil_left_iff] at hn hn'
    rw [hn' , List.flatten_cons, List.flatten_nil, List.append_nil] at e1
    rw [h0, Except.ok.injEq] at h0'
    rw [hn, h0', e1]
  have hn : (Spec.nonEmpty [Spec.wedge]).length = 1 := rfl
  have h3 := h (Spec.seen e f) x hx
  rw [hw, if_pos hn, List.map_singleton, List.sum_singleton] at h3
  exact h3

/-- Non-vacuity of **C126**, ear clipping in binary64: an L-shaped polygon. -/
theorem C126_ear_example (view : V2 Float → V2 ℝ) (x : V2 ℝ)
    (hx : Spec.OffChords (([⟨0, 0⟩, ⟨4, 0⟩, ⟨4, 1⟩, ⟨1, 1⟩, ⟨1, 4⟩, ⟨0, 4⟩] : List (V2 Float)).map view) x) :
    Spec.signedCovering (([⟨0, 0⟩, ⟨4, 0⟩, ⟨4, 1⟩, ⟨1, 1⟩, ⟨1, 4⟩, ⟨0, 4⟩] : List (V2 Float)).map view)
        [0, 1, 2, 3, 4, 5, 0, 2, 3, 3, 5, 0] x
      = Spec.winding (([⟨0, 0⟩, ⟨4, 0⟩, ⟨4, 1⟩, ⟨1, 1⟩, ⟨1, 4⟩, ⟨0, 4⟩] : List (V2 Float)).map view) x := by
  have h : triangulatePolygon linSearch 10 ([⟨0, 0⟩, ⟨4, 0⟩, ⟨4, 1⟩, ⟨1, 1⟩, ⟨1, 4⟩, ⟨0, 4⟩] : List (V2 Float))
      [0, 1, 2, 3, 4, 5] [3] = .ok [0, 1, 2, 3, 4, 5, 0, 2, 3, 3, 5, 0] := by decide +kernel
  exact C126_ear h (by decide) rfl (by decide) view hx

/-- Non-vacuity of **C126**, patches: two cells, seen from the side from which the triangles are counter-clockwise. -/
theorem C126_patch_example (x : V2 ℚ) (hx : Spec.OffChords ([⟨0, 0⟩, ⟨0, 3 / 2⟩, ⟨0, 3⟩, ⟨1, 0⟩, ⟨1, 3 / 2⟩, ⟨1, 3⟩] : List (V2 ℚ)) x) :
    Spec.signedCovering ([⟨0, 0⟩, ⟨0, 3 / 2⟩, ⟨0, 3⟩, ⟨1, 0⟩, ⟨1, 3 / 2⟩, ⟨1, 3⟩] : List (V2 ℚ))
        [0, 3, 1, 1, 3, 4, 1, 4, 2, 2, 4, 5] x
      = Spec.winding [⟨0, 0⟩, ⟨1, 0⟩, ⟨1, 3 / 2⟩, ⟨1, 3⟩, ⟨0, 3⟩, ⟨0, 3 / 2⟩] x :=
  C126_patch C44_example rfl (by decide) (by decide) (by decide) (fun v => ⟨v.x, v.y⟩) hx

end Geom3d
