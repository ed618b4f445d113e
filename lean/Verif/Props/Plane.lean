import Verif.Props.EarArea
import Verif.Props.Merge
import Verif.Props.Mesh
import Verif.Lemmas.Trim
import Verif.Lemmas.Real3
import Verif.Spec.ExactEnv

/-! # C52, C53, C72: planes and their trimming -/

set_option linter.unusedSectionVars false

namespace Geom3d

/-! ### C52 -/

section
variable {K : Type} [Field K] [LinearOrder K] [IsStrictOrderedRing K] [Env K]

/-- The parameter axes are orthonormal. -/
structure Spec.OrthonormalAxes (p : Plane K) : Prop where
  uu : p.uAxis.dot p.uAxis = 1
  vv : p.vAxis.dot p.vAxis = 1
  uv : p.uAxis.dot p.vAxis = 0

/-- **C52** Projecting an evaluated point returns its parameters. -/
theorem C52_project_getPoint {p : Plane K} (h : Spec.OrthonormalAxes p) (u v : K) :
    p.project (p.getPoint u v) = ⟨u, v⟩ := by
  obtain ⟨h1, h2, h3⟩ := h
  simp only [V3.dot] at h1 h2 h3
  ext
  · simp only [Plane.project, Plane.getPoint, V3.dot, V3.sub_x, V3.sub_y, V3.sub_z, V3.add_x, V3.add_y, V3.add_z,
      V3.rmul_x, V3.rmul_y, V3.rmul_z]
    linear_combination u * h1 + v * h3
  · simp only [Plane.project, Plane.getPoint, V3.dot, V3.sub_x, V3.sub_y, V3.sub_z, V3.add_x, V3.add_y, V3.add_z,
      V3.rmul_x, V3.rmul_y, V3.rmul_z]
    linear_combination u * h3 + v * h2

/-- **C52** Evaluating the projection of a point gives its foot on the plane: the difference is perpendicular to the
plane, and no other point of the plane is nearer. -/
theorem C52_getPoint_project {p : Plane K} (h : Spec.OrthonormalAxes p) (q : V3 K) :
    let foot := p.getPoint (p.project q).x (p.project q).y
    (q - foot).dot p.uAxis = 0 ∧ (q - foot).dot p.vAxis = 0 ∧
    ∀ u v, (q - p.getPoint u v).dot (q - p.getPoint u v)
      = (q - foot).dot (q - foot) + (u - (p.project q).x) ^ 2 + (v - (p.project q).y) ^ 2 := by
  obtain ⟨h1, h2, h3⟩ := h
  simp only [V3.dot] at h1 h2 h3
  simp only [Plane.project, Plane.getPoint, V3.dot, V3.sub_x, V3.sub_y, V3.sub_z, V3.add_x, V3.add_y, V3.add_z,
    V3.rmul_x, V3.rmul_y, V3.rmul_z]
  obtain ⟨⟨ox, oy, oz⟩, n, ⟨a, b, c⟩, ⟨d, e, f⟩⟩ := p
  obtain ⟨x, y, z⟩ := q
  simp only at h1 h2 h3 ⊢
  set s := (x - ox) * a + (y - oy) * b + (z - oz) * c with hs
  set t := (x - ox) * d + (y - oy) * e + (z - oz) * f with ht
  refine ⟨?_, ?_, ?_⟩
  · linear_combination (-s) * h1 + (-t) * h3 - hs
  · linear_combination (-s) * h3 + (-t) * h2 - ht
  · intro u v
    linear_combination (u ^ 2 - s ^ 2) * h1 + (v ^ 2 - t ^ 2) * h2 + 2 * (u * v - s * t) * h3
      + 2 * (u - s) * hs + 2 * (v - t) * ht

/-- **C52** The foot is the nearest point of the plane, and points of the plane are their own feet. -/
theorem C52_nearest {p : Plane K} (h : Spec.OrthonormalAxes p) (q : V3 K) (u v : K) :
    (q - p.getPoint (p.project q).x (p.project q).y).dot (q - p.getPoint (p.project q).x (p.project q).y)
      ≤ (q - p.getPoint u v).dot (q - p.getPoint u v) := by
  have := (C52_getPoint_project h q).2.2 u v
  nlinarith [sq_nonneg (u - (p.project q).x), sq_nonneg (v - (p.project q).y)]

/-- Non-vacuity of **C52**: a frame with a 3-4-5 rotation. -/
theorem C52_example :
    Spec.OrthonormalAxes (⟨⟨1, 2, 3⟩, ⟨0, 0, 1⟩, ⟨3 / 5, 4 / 5, 0⟩, ⟨-4 / 5, 3 / 5, 0⟩⟩ : Plane ℚ) :=
  ⟨by decide +kernel, by decide +kernel, by decide +kernel⟩

end

/-! ### C53 -/

section
variable {F : Type} [Add F] [Sub F] [Mul F] [Div F] [Neg F] [Zero F] [One F] [NatCast F] [LT F] [DecidableLT F]
  [LE F] [DecidableLE F] [Env F]

theorem mem_of_mem_loopEdges {α : Type} {l : List α} {e : α × α} (h : e ∈ Spec.loopEdges l) : e.1 ∈ l ∧ e.2 ∈ l := by
  cases l with
  | nil => cases h
  | cons a t =>
    obtain ⟨h1, h2⟩ := List.of_mem_zip (show (e.1, e.2) ∈ List.zip (a :: t ++ [a]) (a :: t ++ [a]).tail from h)
    have h2' := List.mem_of_mem_tail h2
    simp only [List.cons_append, List.mem_cons, List.mem_append, List.not_mem_nil, or_false] at h1 h2' ⊢
    tauto

theorem pathEdges_range (m : Nat) :
    Spec.pathEdges (List.range (m + 1)) = (List.range m).map fun i => (i, i + 1) := by
  induction m with
  | zero => rfl
  | succ k ih =>
    have : List.range (k + 1 + 1) = List.range k ++ k :: [k + 1] := by simp [List.range_succ]
    rw [this, Spec.pathEdges_append, ← List.range_succ, ih]
    conv_rhs => rw [List.range_succ, List.map_append]
    rfl

theorem loopEdges_range (m : Nat) :
    Spec.loopEdges (List.range (m + 1)) = ((List.range m).map fun i => (i, i + 1)) ++ [(m, 0)] := by
  have h : List.range (m + 1) = 0 :: List.range' 1 m := by
    rw [List.range_eq_range', List.range'_succ]
  rw [h, Spec.loopEdges_cons, ← List.cons_append, ← h]
  have : List.range (m + 1) ++ [0] = List.range m ++ m :: [0] := by simp [List.range_succ]
  rw [this, Spec.pathEdges_append, ← List.range_succ, pathEdges_range]
  rfl

/-- The centroid fan: one triangle per edge of the loop. -/
theorem fanTriangles_eq {n : Nat} (hn : 1 ≤ n) :
    ∃ T, fanTriangles n = .ok T ∧ T.length = 3 * n ∧
      Spec.triples T = (Spec.loopEdges (List.range n)).map fun e => (n, e.1, e.2) := by
  obtain ⟨m, rfl⟩ := Nat.exists_eq_add_of_le' hn
  unfold fanTriangles
  rw [usub_ok hn, ok_bind, forRange_append 0 (m + 1 - 1) [] fun i => [m + 1, i, i + 1], ok_bind]
  refine ⟨_, rfl, ?_, ?_⟩
  · simp; omega
  · simp only [Nat.add_sub_cancel, List.nil_append, Nat.sub_zero, ← List.range_eq_range']
    rw [loopEdges_range, List.map_append, List.map_map]
    have : ∀ (l : List Nat) (rest : List Nat), Spec.triples ((l.flatMap fun i => [m + 1, i, i + 1]) ++ rest)
        = (l.map fun i => (m + 1, i, i + 1)) ++ Spec.triples rest := by
      intro l rest
      induction l with
      | nil => rfl
      | cons a l ih => rw [List.flatMap_cons]; simp [Spec.triples, ih]
    rw [this]
    rfl

theorem computeVertexConvexity_lt {points : List (V2 F)} {V C : List Nat}
    (h : computeVertexConvexity points = .ok (V, C)) : ∀ v ∈ V, v < points.length := by
  unfold computeVertexConvexity at h
  have := forRange_partial (I := fun k (s : List Nat × List Nat) => ∀ v ∈ s.1, v < k) (Nat.zero_le _)
    (by simp) (by
      rintro i ⟨a, b⟩ s' _ hi hI hs
      simp only [bind_eq_ok] at hs
      obtain ⟨p, -, q, -, r, -, hs⟩ := hs
      intro v hv
      split at hs <;> cases hs
      · simp only [List.mem_append, List.mem_singleton] at hv
        rcases hv with hv | rfl
        · have := hI v hv; omega
        · omega
      · simp only [List.mem_append, List.mem_singleton] at hv
        rcases hv with hv | rfl
        · have := hI v hv; omega
        · omega
      · have := hI v hv; omega) h
  exact this

theorem findConcaveVertices_sub {points : List (V2 F)} {V C V' : List Nat}
    (h : findConcaveVertices points V = .ok (C, V')) : (∀ v ∈ V', v ∈ V) ∧ ∀ v ∈ V, v < points.length := by
  unfold findConcaveVertices at h
  simp only [bind_eq_ok] at h
  obtain ⟨st, h1, h2⟩ := h
  constructor
  · cases h2
    intro v hv
    have : ∀ (ds : List Nat) (l : List Nat), (ds.foldl (fun vs j => vs.eraseIdx j) l).Sublist l := by
      intro ds
      induction ds with
      | nil => intro l; exact List.Sublist.refl _
      | cons d ds ih => intro l; exact (ih _).trans (List.eraseIdx_sublist ..)
    exact (this _ _).subset hv
  · have := forRange_partial (I := fun k (_ : List Nat × List Nat) => ∀ i v, i < k → V[i]? = some v → v < points.length)
      (Nat.zero_le _) (by intro i v hi; omega) (by
        rintro i ⟨a, b⟩ s' _ hi hI hs
        simp only [bind_eq_ok] at hs
        obtain ⟨p, -, q, hq, -⟩ := hs
        intro j v hj hv
        rcases Nat.lt_succ_iff_lt_or_eq.1 hj with hj | rfl
        · exact hI j v hj hv
        · unfold pointAt at hq
          rw [bind_eq_ok] at hq
          obtain ⟨w, hw, hq⟩ := hq
          rw [idx_eq_ok, hv] at hw
          cases hw
          exact idx_lt hq) h1
    intro v hv
    obtain ⟨i, hi, rfl⟩ := List.getElem_of_mem hv
    exact this i _ hi (by simp)

/-- **C53** (any arithmetic) Whenever trimming a plane returns, the indices form triples, every index is valid, and no
normals are produced; the vertices are the boundary points, possibly followed by one extra point. -/
theorem C53_valid {p : Plane F} {o : TrimOracle F} {bounds : List (EdgeLoop F)} {mesh : TriangleMesh F}
    (h : p.trim o bounds = .ok mesh) :
    (∃ k, mesh.triangles.length = 3 * k) ∧ (∀ i ∈ mesh.triangles, i < mesh.vertices.length) ∧ mesh.normals = [] := by
  unfold Plane.trim at h
  rw [bind_eq_ok] at h
  obtain ⟨⟨vs, polygons⟩, hc, h⟩ := h
  simp only [] at h
  split at h
  · rw [bind_eq_ok] at h
    obtain ⟨⟨V, C⟩, hV, h⟩ := h
    simp only [] at h
    split at h
    · cases h; exact ⟨⟨0, rfl⟩, by simp [TriangleMesh.new], rfl⟩
    · split at h
      · rename_i hne hC
        rw [bind_eq_ok] at h
        obtain ⟨T, hT, h⟩ := h
        cases h
        have hn : 1 ≤ vs.length := (collectLoops_two hc ‹_›).2
        obtain ⟨T', h1, h2, h3⟩ := fanTriangles_eq hn
        rw [hT] at h1; cases h1
        refine ⟨⟨_, h2⟩, ?_, rfl⟩
        intro i hi
        rw [← flatten_triples h2, List.mem_flatten] at hi
        obtain ⟨l, hl, hi⟩ := hi
        obtain ⟨t, ht, rfl⟩ := List.mem_map.1 hl
        rw [h3, List.mem_map] at ht
        obtain ⟨e, he, rfl⟩ := ht
        have hlt : e.1 < vs.length ∧ e.2 < vs.length := by
          have := mem_of_mem_loopEdges he
          simpa using this
        simp only [List.length_append, List.length_singleton]
        simp only [List.mem_cons, List.not_mem_nil, or_false] at hi
        rcases hi with rfl | rfl | rfl
        · omega
        · omega
        · omega
      · rw [bind_eq_ok] at h
        obtain ⟨T, hT, h⟩ := h
        cases h
        unfold triangulatePolygon at hT
        rw [bind_eq_ok] at hT
        obtain ⟨s, hs, hT⟩ := hT
        cases hT
        obtain ⟨-, h2, -, k, h3, -⟩ := C38_valid hs
        refine ⟨⟨k, h3⟩, ?_, rfl⟩
        intro i hi
        simpa using computeVertexConvexity_lt hV i (h2 i hi)
  · split at h
    · simp only [bind_eq_ok] at h
      obtain ⟨V, hV, ⟨C, V'⟩, hC, T, hT, h⟩ := h
      cases h
      unfold triangulatePolygon at hT
      rw [bind_eq_ok] at hT
      obtain ⟨s, hs, hT⟩ := hT
      cases hT
      obtain ⟨-, h2, -, k, h3, -⟩ := C38_valid hs
      obtain ⟨h4, h5⟩ := findConcaveVertices_sub hC
      refine ⟨⟨k, h3⟩, ?_, rfl⟩
      intro i hi
      simpa using h5 i (h4 i (h2 i hi))
    · cases h; exact ⟨⟨0, rfl⟩, by simp [TriangleMesh.new], rfl⟩

end

section
variable {K : Type} [Field K] [LinearOrder K] [IsStrictOrderedRing K] [Env K]

theorem trianglesArea2_triples (points : List (V2 K)) (T : List Nat) :
    Spec.trianglesArea2 points T = ((Spec.triples T).map fun t =>
      Spec.triArea2 (points.getD t.1 0) (points.getD t.2.1 0) (points.getD t.2.2 0)).sum := by
  fun_induction Spec.triples T with
  | case1 a b c rest ih => simp only [Spec.trianglesArea2, List.map_cons, List.sum_cons, ih]
  | case2 l hl =>
    unfold Spec.trianglesArea2
    split
    · rename_i a b c rest; exact absurd rfl (hl a b c rest)
    · rfl

/-- A fan around any point has the area of the polygon. -/
theorem fan_area (pts : List (V2 K)) (c : V2 K) :
    ((Spec.loopEdges pts).map fun e => Spec.triArea2 c e.1 e.2).sum = Spec.area2 pts := by
  have h : ∀ e : V2 K × V2 K, Spec.triArea2 c e.1 e.2
      = Spec.cross2 e.1 e.2 + (Spec.cross2 e.2 c - Spec.cross2 e.1 c) := by
    intro e; simp only [Spec.triArea2, Spec.cross2]; ring
  simp only [h, List.sum_map_add]
  rw [Spec.sum_loopEdges_sub (fun q => Spec.cross2 q c), add_zero]
  rfl

theorem project_map_getD (p : Plane K) (vs : List (V3 K)) (c : V3 K) {i : Nat} (hi : i < vs.length) :
    ((vs ++ [c]).map p.project).getD i 0 = (vs.map p.project).getD i 0 := by
  rw [List.map_append, List.getD_eq_getElem?_getD, List.getElem?_append_left (by simpa using hi),
    ← List.getD_eq_getElem?_getD]

theorem loopEdges_points (pts : List (V2 K)) :
    (Spec.loopEdges (List.range pts.length)).map (fun e => (pts.getD e.1 0, pts.getD e.2 0)) = Spec.loopEdges pts := by
  have : pts = (List.range pts.length).map fun i => pts.getD i 0 := by
    apply List.ext_getElem?
    intro i
    by_cases h : i < pts.length
    · rw [List.getElem?_map, List.getElem?_range h, Option.map_some, getD_of_lt 0 h, List.getElem?_eq_getElem h]
    · rw [List.getElem?_eq_none (by omega), List.getElem?_eq_none (by simpa using by omega)]
  conv_rhs => rw [this, Spec.loopEdges_map]
  rfl

/-- The centroid of a list of points. -/
def Spec.centroid (vs : List (V3 K)) : V3 K :=
  ⟨(vs.map (·.x)).sum / vs.length, (vs.map (·.y)).sum / vs.length, (vs.map (·.z)).sum / vs.length⟩

theorem sumV3_div (vs : List (V3 K)) : sumV3 vs / (vs.length : K) = Spec.centroid vs := by
  have hsum : ∀ (l : List (V3 K)) (s : V3 K), l.foldl (· + ·) s
      = s + ⟨(l.map (·.x)).sum, (l.map (·.y)).sum, (l.map (·.z)).sum⟩ := by
    intro l
    induction l with
    | nil => intro s; ext <;> simp
    | cons a l ih =>
      intro s
      rw [List.foldl_cons, ih]
      ext <;> simp [add_assoc]
  have h0 : sumV3 vs = ⟨(vs.map (·.x)).sum, (vs.map (·.y)).sum, (vs.map (·.z)).sum⟩ := by
    rw [sumV3, hsum]; ext <;> simp
  rw [h0]; rfl

/-- **C53** A single loop whose every projected turn is a left turn (by more than the tolerance) becomes the fan
around the centroid: one triangle per boundary edge, keeping the direction of the edge, and the signed areas add up to
the polygon's. -/
theorem C53_fan (htol : (0 : K) ≤ Env.tol) {p : Plane K} {o : TrimOracle K} {bounds : List (EdgeLoop K)}
    {vs : List (V3 K)} {polygons : List Nat} (hc : collectLoops o bounds = .ok (vs, polygons))
    (h2 : polygons.length = 2)
    (hconv : ∀ i, i < vs.length → Env.tol < Spec.turn (vs.map p.project) i) :
    ∃ T, p.trim o bounds = .ok ⟨vs ++ [Spec.centroid vs], [], T⟩ ∧
      Spec.triples T = (Spec.loopEdges (List.range vs.length)).map (fun e => (vs.length, e.1, e.2)) ∧
      Spec.trianglesArea2 ((vs ++ [Spec.centroid vs]).map p.project) T = Spec.area2 (vs.map p.project) := by
  obtain ⟨-, hpos⟩ := collectLoops_two hc h2
  obtain ⟨T, hT, hT1, hT2⟩ := fanTriangles_eq (n := vs.length) hpos
  refine ⟨T, ?_, hT2, ?_⟩
  · unfold Plane.trim
    rw [hc, ok_bind]
    simp only [h2, if_true, C37_compute htol, ok_bind, List.length_map]
    have e1 : (List.range vs.length).filter (fun i => decide (Env.tol < |Spec.turn (vs.map p.project) i|))
        = List.range vs.length := by
      apply filter_eq_self'
      intro i hi
      have := hconv i (by simpa using hi)
      simpa using lt_of_lt_of_le this (le_abs_self _)
    have e2 : (List.range vs.length).filter (fun i => decide (Spec.turn (vs.map p.project) i < -Env.tol)) = [] := by
      rw [List.filter_eq_nil_iff]
      intro i hi
      have := hconv i (by simpa using hi)
      simp; linarith
    rw [e1, e2, if_neg (by simp only [List.length_range, List.length_nil]; omega), if_pos rfl, hT, ok_bind,
      sumV3_div]
    rfl
  · rw [trianglesArea2_triples, hT2, List.map_map, ← fan_area (vs.map p.project)
      (((vs ++ [Spec.centroid vs]).map p.project).getD vs.length 0), ← loopEdges_points (vs.map p.project),
      List.map_map, List.length_map]
    apply congrArg
    apply List.map_congr_left
    intro e he
    have hlt : e.1 < vs.length ∧ e.2 < vs.length := by
      have := mem_of_mem_loopEdges he
      simpa using this
    simp only [Function.comp, project_map_getD p vs _ hlt.1, project_map_getD p vs _ hlt.2]

/-- **C53** A single loop with only right turns gives the empty mesh. -/
theorem C53_clockwise (htol : (0 : K) ≤ Env.tol) {p : Plane K} {o : TrimOracle K} {bounds : List (EdgeLoop K)}
    {vs : List (V3 K)} {polygons : List Nat} (hc : collectLoops o bounds = .ok (vs, polygons))
    (h2 : polygons.length = 2)
    (hconc : ∀ i, i < vs.length → Spec.turn (vs.map p.project) i < -Env.tol) :
    p.trim o bounds = .ok ⟨[], [], []⟩ := by
  unfold Plane.trim
  rw [hc, ok_bind]
  simp only [h2, if_true, C37_compute htol, ok_bind, List.length_map]
  have e1 : (List.range vs.length).filter (fun i => decide (Env.tol < |Spec.turn (vs.map p.project) i|))
      = List.range vs.length := by
    apply filter_eq_self'
    intro i hi
    have := hconc i (by simpa using hi)
    have h3 := neg_le_abs (Spec.turn (vs.map p.project) i)
    simp; linarith
  have e2 : (List.range vs.length).filter (fun i => decide (Spec.turn (vs.map p.project) i < -Env.tol))
      = List.range vs.length := by
    apply filter_eq_self'
    intro i hi
    have := hconc i (by simpa using hi)
    simpa using this
  rw [e1, e2, if_pos rfl]
  rfl

/-- **C53** No non-empty loop: empty mesh. -/
theorem C53_no_loop {p : Plane K} {o : TrimOracle K} {bounds : List (EdgeLoop K)}
    {vs : List (V3 K)} {polygons : List Nat} (hc : collectLoops o bounds = .ok (vs, polygons)) (h : vs = []) :
    p.trim o bounds = .ok ⟨[], [], []⟩ := by
  have hl : polygons.length = 1 := by
    obtain ⟨loops, -, h1, h2⟩ := collectLoops_spec hc
    rw [h2, length_offsets]
    have : Spec.nonEmpty loops = [] := by
      rw [List.eq_nil_iff_forall_not_mem]
      intro b hb
      have hf := nonEmpty_flatten loops
      rw [← h1, h, List.flatten_eq_nil_iff] at hf
      have := hf b hb
      subst this
      simp [Spec.nonEmpty] at hb
    rw [this]; rfl
  unfold Plane.trim
  rw [hc, ok_bind]
  simp [hl, TriangleMesh.new]

/-! ### C72: fan triangles of a convex loop are positively oriented -/

theorem triArea2_centroid (a b : V2 K) (l : List (V2 K)) :
    (l.map fun v => Spec.triArea2 a b v).sum
      = (b.x - a.x) * ((l.map (·.y)).sum - l.length * a.y) - ((l.map (·.x)).sum - l.length * a.x) * (b.y - a.y) := by
  induction l with
  | nil => simp
  | cons v l ih =>
    rw [List.map_cons, List.sum_cons, ih]
    simp only [List.map_cons, List.sum_cons, Spec.triArea2, List.length_cons]
    push_cast; ring

theorem project_centroid (p : Plane K) {vs : List (V3 K)} (hn : 0 < vs.length) :
    p.project (Spec.centroid vs)
      = ⟨((vs.map p.project).map (·.x)).sum / vs.length, ((vs.map p.project).map (·.y)).sum / vs.length⟩ := by
  have hn' : (vs.length : K) ≠ 0 := by exact_mod_cast hn.ne'
  have hdot : ∀ (axis : V3 K) (l : List (V3 K)), (l.map fun q => (q - p.origin).dot axis).sum
      = (l.map (·.x)).sum * axis.x + (l.map (·.y)).sum * axis.y + (l.map (·.z)).sum * axis.z
        - l.length * p.origin.dot axis := by
    intro axis l
    induction l with
    | nil => simp
    | cons a l ih =>
      rw [List.map_cons, List.sum_cons, ih]
      simp only [List.map_cons, List.sum_cons, List.length_cons, V3.dot, V3.sub_x, V3.sub_y, V3.sub_z]
      push_cast; ring
  have hx := hdot p.uAxis vs
  have hy := hdot p.vAxis vs
  simp only [Plane.project, List.map_map, Function.comp_def]
  ext
  · simp only [hx]
    simp only [V3.dot, V3.sub_x, V3.sub_y, V3.sub_z, Spec.centroid]
    field_simp; ring
  · simp only [hy]
    simp only [V3.dot, V3.sub_x, V3.sub_y, V3.sub_z, Spec.centroid]
    field_simp; ring

/-- **C72** In the fan of a loop whose projection is convex (every vertex lies on the left of or on every edge), no
triangle is turned over, and it has positive area if some vertex lies strictly left of its edge. -/
theorem C72_fan_positive (p : Plane K) {vs : List (V3 K)} (hn : 0 < vs.length) {a b : V2 K}
    (hedge : (a, b) ∈ Spec.loopEdges (vs.map p.project))
    (hconvex : ∀ e ∈ Spec.loopEdges (vs.map p.project), ∀ v ∈ vs.map p.project, 0 ≤ Spec.triArea2 e.1 e.2 v) :
    let c := p.project (Spec.centroid vs)
    0 ≤ Spec.triArea2 c a b ∧ ((∃ v ∈ vs.map p.project, 0 < Spec.triArea2 a b v) → 0 < Spec.triArea2 c a b) := by
  have hn' : (0 : K) < vs.length := by exact_mod_cast hn
  have key : Spec.triArea2 (p.project (Spec.centroid vs)) a b * vs.length
      = ((vs.map p.project).map fun v => Spec.triArea2 a b v).sum := by
    rw [project_centroid p hn, triArea2_centroid, List.length_map]
    simp only [Spec.triArea2]
    field_simp
    ring
  have hnn : ∀ x ∈ (vs.map p.project).map (fun v => Spec.triArea2 a b v), 0 ≤ x := by
    intro x hx
    rw [List.mem_map] at hx
    obtain ⟨v, hv, rfl⟩ := hx
    exact hconvex _ hedge v hv
  refine ⟨?_, ?_⟩
  · have := List.sum_nonneg hnn
    rw [← key] at this
    exact nonneg_of_mul_nonneg_left this hn'
  · rintro ⟨v, hv, hpos⟩
    have h1 := List.single_le_sum hnn (Spec.triArea2 a b v) (List.mem_map_of_mem hv)
    rw [← key] at h1
    exact pos_of_mul_pos_left (lt_of_lt_of_le hpos h1) hn'.le

/-! ### C74: area of plane meshes when every vertex is used -/

theorem pairs_offsets_cons {α : Type} (a : Nat) (x : List α) (l : List (List α)) :
    pairs (Spec.offsets a (x :: l)) = (a, a + x.length) :: pairs (Spec.offsets (a + x.length) l) := by
  cases l <;> simp [Spec.offsets, pairs]

theorem loopPoints_block (pre b post : List (V2 K)) :
    Spec.loopPoints (pre ++ (b ++ post)) (Spec.loopRange (pre.length, pre.length + b.length)) = b := by
  apply List.ext_getElem?
  intro i
  simp only [Spec.loopPoints, Spec.loopRange, List.getElem?_map]
  by_cases hi : i < b.length
  · rw [List.getElem?_range' (by omega), Option.map_some, List.getD_eq_getElem?_getD,
      List.getElem?_append_right (by omega), List.getElem?_append_left (by omega), show pre.length + 1 * i - pre.length = i by omega,
      List.getElem?_eq_getElem hi]
    rfl
  · rw [List.getElem?_eq_none (by simp; omega), List.getElem?_eq_none (by omega)]
    rfl

theorem area_blocks (L : List (List (V2 K))) (pre : List (V2 K)) :
    ((pairs (Spec.offsets pre.length L)).map fun p =>
      Spec.area2 (Spec.loopPoints (pre ++ L.flatten) (Spec.loopRange p))).sum = (L.map Spec.area2).sum := by
  induction L generalizing pre with
  | nil => simp [Spec.offsets, pairs]
  | cons b L ih =>
    rw [pairs_offsets_cons, List.map_cons, List.map_cons, List.sum_cons, List.sum_cons, List.flatten_cons,
      loopPoints_block]
    have := ih (pre ++ b)
    rw [List.length_append, List.append_assoc] at this
    rw [this]

theorem length_blocks {α : Type} (L : List (List α)) (a : Nat) :
    ((pairs (Spec.offsets a L)).map fun p => p.2 - p.1).sum = L.flatten.length := by
  induction L generalizing a with
  | nil => simp [Spec.offsets, pairs]
  | cons b L ih =>
    rw [pairs_offsets_cons, List.map_cons, List.sum_cons, ih]
    simp

theorem offsets_map {α β : Type} (f : α → β) (L : List (List α)) (a : Nat) :
    Spec.offsets a (L.map (List.map f)) = Spec.offsets a L := by
  induction L generalizing a with
  | nil => rfl
  | cons b L ih => simp [Spec.offsets, ih]

theorem loopPoints_range (pts : List (V2 K)) : Spec.loopPoints pts (List.range pts.length) = pts := by
  have := loopPoints_block [] pts []
  simpa [Spec.loopRange, List.range_eq_range'] using this

theorem foldl_eraseIdx_sublist (ds : List Nat) : ∀ (l : List Nat), (ds.foldl (fun vs j => vs.eraseIdx j) l).Sublist l := by
  induction ds with
  | nil => intro l; exact List.Sublist.refl _
  | cons d ds ih => intro l; exact (ih _).trans (List.eraseIdx_sublist ..)

theorem findConcaveVertices_sublist {points : List (V2 K)} {V C V' : List Nat}
    (h : findConcaveVertices points V = .ok (C, V')) : V'.Sublist V := by
  unfold findConcaveVertices at h
  simp only [bind_eq_ok] at h
  obtain ⟨st, h1, h2⟩ := h
  cases h2
  exact foldl_eraseIdx_sublist _ _

/-- **C74** Every polygon, with or without holes: if the mesh has as many triangles as a triangulation using every
vertex has (`n - 2` for one loop, two more per hole) and none of them is flat, the signed areas of the triangles add
up to the signed areas of the loops. -/
theorem C74_area (htol : (0 : K) ≤ Env.tol) {p : Plane K} {o : TrimOracle K} {bounds : List (EdgeLoop K)}
    {mesh : TriangleMesh K} (h : p.trim o bounds = .ok mesh) :
    ∃ loops, List.Forall₂ (fun b P => EdgeLoop.toPolygon o.divFuel (o.rnd b.2) b.1 = .ok P) bounds.zipIdx loops ∧
      (1 ≤ (Spec.nonEmpty loops).length →
       (∀ l ∈ loops, ∀ v ∈ l, Env.minV < (p.project v).x) →
       mesh.triangles.length = 3 * (loops.flatten.length + 2 * ((Spec.nonEmpty loops).length - 1) - 2) →
       (∀ t ∈ Spec.triples mesh.triangles, Spec.triArea2 ((mesh.vertices.map p.project).getD t.1 0)
          ((mesh.vertices.map p.project).getD t.2.1 0) ((mesh.vertices.map p.project).getD t.2.2 0) ≠ 0) →
       Spec.trianglesArea2 (mesh.vertices.map p.project) mesh.triangles
         = (loops.map fun l => Spec.area2 (l.map p.project)).sum) := by
  unfold Plane.trim at h
  rw [bind_eq_ok] at h
  obtain ⟨⟨vs, polygons⟩, hc, h⟩ := h
  obtain ⟨loops, hl, hvs, hpoly⟩ := collectLoops_spec hc
  refine ⟨loops, hl, ?_⟩
  intro h1 hmin hcount hflat
  have hlen : polygons.length = (Spec.nonEmpty loops).length + 1 := by rw [hpoly, length_offsets]
  -- the loops' areas
  have hsum0 : (loops.map fun l => Spec.area2 (l.map p.project)).sum
      = ((Spec.nonEmpty loops).map fun l => Spec.area2 (l.map p.project)).sum := by
    clear hl hvs hpoly hc h1 hmin hcount hlen h
    induction loops with
    | nil => rfl
    | cons a loops ih =>
      cases a with
      | nil => simpa [Spec.nonEmpty, area2_nil] using ih
      | cons x a => simpa [Spec.nonEmpty] using ih
  have hsum : (loops.map fun l => Spec.area2 (l.map p.project)).sum
      = ((pairs polygons).map fun q => Spec.area2 (Spec.loopPoints (vs.map p.project) (Spec.loopRange q))).sum := by
    rw [hsum0]
    have := area_blocks ((Spec.nonEmpty loops).map (List.map p.project)) []
    rw [List.length_nil, offsets_map, ← hpoly, List.nil_append, ← List.map_flatten, nonEmpty_flatten, ← hvs,
      List.map_map] at this
    rw [this]; rfl
  rw [← hvs] at hcount
  simp only [] at h
  split at h
  · rename_i h2
    obtain ⟨hp2, hpos⟩ := collectLoops_two hc h2
    have hone : (Spec.nonEmpty loops).length = 1 := by omega
    have harea : (loops.map fun l => Spec.area2 (l.map p.project)).sum = Spec.area2 (vs.map p.project) := by
      rw [hsum, hp2]
      have := loopPoints_range (vs.map p.project)
      rw [List.length_map] at this
      simp [pairs, Spec.loopRange, ← List.range_eq_range', this]
    rw [harea]
    rw [bind_eq_ok] at h
    obtain ⟨⟨V, C⟩, hV, h⟩ := h
    simp only [] at h
    split at h
    · cases h
      simp only [TriangleMesh.new, List.length_nil] at hcount
      rw [area2_short (by simp; omega)]
      rfl
    · split at h
      · rw [bind_eq_ok] at h
        obtain ⟨T, hT, h⟩ := h
        cases h
        obtain ⟨T', h3, h4, -⟩ := fanTriangles_eq (n := vs.length) hpos
        rw [hT] at h3; cases h3
        simp only at hcount
        omega
      · rw [bind_eq_ok] at h
        obtain ⟨T, hT, h⟩ := h
        cases h
        simp only at hcount hflat ⊢
        rw [C37_compute htol] at hV
        simp only [Except.ok.injEq, Prod.mk.injEq] at hV
        have hT' := hT
        unfold triangulatePolygon at hT'
        rw [bind_eq_ok] at hT'
        obtain ⟨s, hs, hT'⟩ := hT'
        cases hT'
        obtain ⟨h5, -, -, k, h6, h7⟩ := C38_valid hs
        have hsub : V.Sublist (List.range (vs.map p.project).length) := by
          rw [← hV.1]; exact List.filter_sublist ..
        have hle := hsub.length_le
        rw [List.length_range, List.length_map] at hle
        have hVr : V = List.range (vs.map p.project).length :=
          hsub.eq_of_length (by rw [List.length_range, List.length_map]; omega)
        have := C69_exact htol hT (by rw [hVr, List.length_range, List.length_map]; omega) hflat
        rw [hVr, loopPoints_range] at this
        exact this.symm
  · split at h
    · rename_i h2 h3
      simp only [bind_eq_ok] at h
      obtain ⟨V, hV, ⟨C, V'⟩, hC, T, hT, h⟩ := h
      cases h
      simp only at hcount hflat hT ⊢
      have hok : Spec.LoopsOk (vs.map p.project) polygons := by
        intro q hq
        obtain ⟨hq1, hq2⟩ := collectLoops_pairs hc q hq
        refine ⟨by simpa using hq2, q.1, by rw [List.length_map]; omega, le_refl _, hq1, ?_⟩
        rw [List.getElem_map]
        have hm : vs[q.1]'(by omega) ∈ loops.flatten := by rw [← hvs]; exact List.getElem_mem _
        obtain ⟨l, hl, hm⟩ := List.mem_flatten.1 hm
        exact hmin l hl _ hm
      obtain ⟨V1, e1, -, -, e4⟩ := C40_length hok (by omega)
      obtain ⟨V2, e5, e6⟩ := C40_area hok (by omega)
      rw [hV] at e1 e5
      cases e1; cases e5
      have hblk : ((pairs polygons).map fun q => q.2 - q.1).sum = vs.length := by
        rw [hpoly, length_blocks, nonEmpty_flatten, hvs]
      have hT' := hT
      unfold triangulatePolygon at hT'
      rw [bind_eq_ok] at hT'
      obtain ⟨s, hs, hT'⟩ := hT'
      cases hT'
      obtain ⟨h5, -, -, k, h6, h7⟩ := C38_valid hs
      have hsub := findConcaveVertices_sublist hC
      have hle := hsub.length_le
      have hVV : V' = V := hsub.eq_of_length (by omega)
      subst hVV
      rw [hsum, ← e6]
      exact (C69_exact htol hT (by omega) hflat).symm
    · omega

end

/-! ### Concrete cases -/

/-- A straight edge from `a` to `b`. -/
def Spec.edge (a b : V3 ℚ) : CurveSegment ℚ where
  curve := { getPoint := fun t => .ok (a + (b - a) * t), project := fun _ => .ok 0 }
  parameterRange := (0, 1)
  tolerance := 1 / 1000
  parameterDivision := 10

def Spec.edgeLoop (l : List (V3 ℚ)) : EdgeLoop ℚ := ⟨(Spec.loopEdges l).map fun e => Spec.edge e.1 e.2⟩

def Spec.oracle : TrimOracle ℚ where
  rnd _ _ _ := 1 / 2
  divFuel := 10
  bs := linSearch
  earFuel := 100
  pick _ := none
  innerFuel := 100
  meshFuel := 1000
  boundWritable := true

def Spec.xyPlane : Plane ℚ := ⟨⟨0, 0, 0⟩, ⟨0, 0, 1⟩, ⟨1, 0, 0⟩, ⟨0, 1, 0⟩⟩

/-- Non-vacuity of **C53**: a square, with its hypotheses checked and the mesh that comes out. -/
theorem C53_example :
    collectLoops Spec.oracle [Spec.edgeLoop [⟨0, 0, 0⟩, ⟨4, 0, 0⟩, ⟨4, 4, 0⟩, ⟨0, 4, 0⟩]]
      = .ok ([⟨0, 0, 0⟩, ⟨4, 0, 0⟩, ⟨4, 4, 0⟩, ⟨0, 4, 0⟩], [0, 4]) ∧
    (∀ i, i < 4 → Env.tol < Spec.turn (([⟨0, 0, 0⟩, ⟨4, 0, 0⟩, ⟨4, 4, 0⟩, ⟨0, 4, 0⟩] : List (V3 ℚ)).map
      Spec.xyPlane.project) i) ∧
    (Spec.xyPlane.trim Spec.oracle [Spec.edgeLoop [⟨0, 0, 0⟩, ⟨4, 0, 0⟩, ⟨4, 4, 0⟩, ⟨0, 4, 0⟩]]).map (·.triangles)
      = .ok [4, 0, 1, 4, 1, 2, 4, 2, 3, 4, 3, 0] ∧
    (Spec.xyPlane.trim Spec.oracle [Spec.edgeLoop [⟨0, 0, 0⟩, ⟨0, 4, 0⟩, ⟨4, 4, 0⟩, ⟨4, 0, 0⟩]]).map (·.triangles)
      = .ok [] := by
  refine ⟨by decide +kernel, ?_, by decide +kernel, by decide +kernel⟩
  decide +kernel

/-- Non-vacuity of **C74**: an L-shaped face, cut into four non-flat triangles. -/
theorem C74_example :
    (Spec.xyPlane.trim Spec.oracle [Spec.edgeLoop [⟨0, 0, 0⟩, ⟨4, 0, 0⟩, ⟨4, 1, 0⟩, ⟨1, 1, 0⟩, ⟨1, 4, 0⟩, ⟨0, 4, 0⟩]])
      = .ok ⟨[⟨0, 0, 0⟩, ⟨4, 0, 0⟩, ⟨4, 1, 0⟩, ⟨1, 1, 0⟩, ⟨1, 4, 0⟩, ⟨0, 4, 0⟩], [],
          [0, 1, 2, 3, 4, 5, 0, 2, 3, 3, 5, 0]⟩ := by decide +kernel

/-- Non-vacuity of **C72**: the square again; every vertex is on or left of every edge, and some strictly left. -/
theorem C72_example :
    (∀ e ∈ Spec.loopEdges (([⟨0, 0, 0⟩, ⟨4, 0, 0⟩, ⟨4, 4, 0⟩, ⟨0, 4, 0⟩] : List (V3 ℚ)).map Spec.xyPlane.project),
      (∀ v ∈ ([⟨0, 0, 0⟩, ⟨4, 0, 0⟩, ⟨4, 4, 0⟩, ⟨0, 4, 0⟩] : List (V3 ℚ)).map Spec.xyPlane.project,
        0 ≤ Spec.triArea2 e.1 e.2 v) ∧
      ∃ v ∈ ([⟨0, 0, 0⟩, ⟨4, 0, 0⟩, ⟨4, 4, 0⟩, ⟨0, 4, 0⟩] : List (V3 ℚ)).map Spec.xyPlane.project,
        0 < Spec.triArea2 e.1 e.2 v) := by decide +kernel

end Geom3d
