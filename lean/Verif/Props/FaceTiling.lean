import Verif.Lemmas.ConvexLoop
import Verif.Props.EarComplete
import Verif.Props.FloatEar

/-!
# Planar faces are meshed without gaps and overlaps (C121)

`Plane::trim` (`src/surface/plane.rs:25-91`) makes a fan around the centroid of a convex loop and clips the ears of any
other.  Here: for a single simple loop in general position, counter-clockwise as seen in the plane, the mesh tiles the
inside of the loop.  For a clockwise loop with a corner that turns left it does not.
-/

namespace Geom3d

set_option linter.unusedSectionVars false

variable {K : Type} [Field K] [LinearOrder K] [IsStrictOrderedRing K] [Env K]

/-- A list of triangles, given by vertex numbers, tiles the inside of the polygon `Q`: all triangles are
counter-clockwise, the areas add up, and off the lines through two vertices every point is in as many triangles as the
polygon winds around it, `0` or `1`. -/
structure Spec.Tiles (Q P : List (V2 K)) (T : List Nat) : Prop where
  pos : ∀ t ∈ Spec.triples T, 0 < Spec.triArea2 (P.getD t.1 0) (P.getD t.2.1 0) (P.getD t.2.2 0)
  area : Spec.trianglesArea2 P T = Spec.area2 Q
  cover : ∀ x, Spec.OffLines P x → (Spec.winding Q x = 0 ∨ Spec.winding Q x = 1) ∧
    (Spec.covering P (Spec.triples T) x : ℤ) = Spec.winding Q x

theorem loopEdges_pts (Q : List (V2 K)) :
    Spec.loopEdges Q = (Spec.loopEdges (List.range Q.length)).map (Prod.map (Winding.pt Q) (Winding.pt Q)) := by
  rw [← Spec.loopEdges_map, map_range_pt]

theorem generic_of_offLines {P : List (V2 K)} {x : V2 K} (hx : Spec.OffLines P x) : Winding.Generic P x := by
  intro a ha b hb hab
  obtain ⟨i, hi, rfl⟩ := List.getElem_of_mem ha
  obtain ⟨j, hj, rfl⟩ := List.getElem_of_mem hb
  have := hx i j hi hj (fun h => hab (by subst h; rfl))
  rwa [getD_of_lt 0 hi, getD_of_lt 0 hj] at this

section
variable {F : Type} [Add F] [Sub F] [Mul F] [Div F] [Neg F] [Zero F] [One F] [NatCast F] [LT F] [DecidableLT F]
  [LE F] [DecidableLE F] [Env F]

/-- What `trim` does with a single loop if the planar tests on it are those of exact arithmetic on the polygon `Q`: a
fan around the mean of the vertices if all corners turn left, and otherwise a tiling. -/
theorem trim_of_decides {p : Plane F} {o : TrimOracle F} (hbs : BinarySearch o.bs)
    {bounds : List (EdgeLoop F)} {vs : List (V3 F)} {polygons : List Nat} (hc : collectLoops o bounds = .ok (vs, polygons))
    (h2 : polygons.length = 2) (hfuel : vs.length < o.earFuel) (hn : 3 ≤ vs.length) {Q : List (V2 K)}
    (hlen : Q.length = vs.length) (hd : Winding.Decides (vs.map p.project) (Winding.pt Q))
    (hs : Spec.Simple Q) (ha : 0 < Spec.area2 Q) :
    (Winding.LeftTurns Q ∧ ∃ T, p.trim o bounds = .ok ⟨vs ++ [sumV3 vs / (Nat.cast vs.length : F)], [], T⟩ ∧ T.length = 3 * vs.length ∧
      Spec.triples T = (Spec.loopEdges (List.range vs.length)).map fun e => (vs.length, e.1, e.2)) ∨
    ∃ T, p.trim o bounds = .ok ⟨vs, [], T⟩ ∧ T.length = 3 * (vs.length - 2) ∧ Spec.Tiles Q Q T := by
  have hQn : 3 ≤ Q.length := by omega
  have hlenP : (vs.map p.project).length = Q.length := by rw [List.length_map, hlen]
  have hS : Winding.Simple Q := simple_of_nz hQn hs fun hi hj hk h1 h2 h3 =>
    hd.nz _ _ _ (hlenP ▸ hi) (hlenP ▸ hj) (hlenP ▸ hk) h1 h2 h3
  have hlev := Winding.level_of_area hS hQn ha
  obtain ⟨V, C, T, h1, hT, hT1, hT2, hT3, hT4⟩ := complete_of_decides hbs hlenP.symm hd (by omega) hs ha (fuel := o.earFuel) (by simpa using hfuel)
  have hcv := computeVertexConvexity_decides (by omega) hd
  rw [h1] at hcv
  cases hcv
  rw [hlenP] at h1 hT hT1
  set C := (List.range Q.length).filter fun i => decide (¬ 0 < Spec.triArea2
      (Winding.pt Q ((Q.length + i - 1) % Q.length)) (Winding.pt Q i) (Winding.pt Q ((i + 1) % Q.length))) with hC
  have hpos0 : 0 < Q.length := by omega
  have corner : ∀ {a v c}, (a, v) ∈ Spec.loopEdges Q → (v, c) ∈ Spec.loopEdges Q → ∃ i, i < Q.length ∧
      a = Winding.pt Q ((Q.length + i - 1) % Q.length) ∧ v = Winding.pt Q i ∧ c = Winding.pt Q ((i + 1) % Q.length) := by
    intro a v c e1 e2
    have inj : ∀ {x y}, x < Q.length → y < Q.length → Winding.pt Q x = Winding.pt Q y → x = y := by
      intro x y hx hy h
      unfold Winding.pt at h
      rw [getD_of_lt 0 hx, getD_of_lt 0 hy] at h
      exact (List.Nodup.getElem_inj_iff hS.nodup).1 h
    rw [loopEdges_pts, List.mem_map] at e1 e2
    obtain ⟨⟨x, y⟩, f1, g1⟩ := e1
    obtain ⟨⟨y', z⟩, f2, g2⟩ := e2
    rw [mem_loopEdges_range hpos0] at f1 f2
    simp only [Prod.map_apply, Prod.mk.injEq] at g1 g2
    obtain ⟨f1, rfl⟩ := f1
    obtain ⟨f2, rfl⟩ := f2
    obtain ⟨rfl, g1⟩ := g1
    obtain ⟨g2, rfl⟩ := g2
    have hy := Nat.mod_lt (x + 1) hpos0
    obtain rfl := inj f2 hy (g2.trans g1.symm)
    refine ⟨_, hy, ?_, g1.symm, rfl⟩
    congr 1
    rcases Nat.lt_or_ge (x + 1) Q.length with h | h
    · rw [Nat.mod_eq_of_lt h, show Q.length + (x + 1) - 1 = x + Q.length by omega, Nat.add_mod_right]
      exact (Nat.mod_eq_of_lt f1).symm
    · rw [show x + 1 = Q.length by omega, Nat.mod_self]
      rw [Nat.mod_eq_of_lt (by omega)]; omega
  -- not all corners are reflex
  have hne : (List.range Q.length).length ≠ C.length := by
    intro h
    have hall : ∀ i ∈ List.range Q.length, _ := List.length_filter_eq_length_iff.1 h.symm
    have hm : Winding.pt Q 0 ∈ Q := by
      unfold Winding.pt
      rw [getD_of_lt 0 hpos0]
      exact List.getElem_mem hpos0
    obtain ⟨⟨c, hc'⟩, -⟩ := Winding.exists_edge_from hQn hm
    obtain ⟨a, v, c, hear, -⟩ := Winding.exists_ear hS hQn hlev hc'
    obtain ⟨i, hi, rfl, rfl, rfl⟩ := corner hear.into hear.out
    have := hall i (by simpa using hi)
    have hp := hear.pos
    rw [Winding.tri_rot] at hp
    simp only [decide_eq_true_eq] at this
    exact this hp
  have hun : ∀ r, (if (List.range Q.length).length = C.length then (pure TriangleMesh.new : Res (TriangleMesh F)) else r) = r :=
    fun r => if_neg hne
  by_cases hC0 : C = []
  · refine .inl ⟨?_, ?_⟩
    · intro a v c e1 e2
      obtain ⟨i, hi, rfl, rfl, rfl⟩ := corner e1 e2
      have := List.filter_eq_nil_iff.1 (hC ▸ hC0) i (by simpa using hi)
      simpa using this
    · obtain ⟨T', f1, f2, f3⟩ := fanTriangles_eq (n := vs.length) (by omega)
      refine ⟨T', ?_, f2, f3⟩
      unfold Plane.trim
      rw [hc, ok_bind]
      simp only [h2, if_true]
      rw [h1, ok_bind]
      simp only
      rw [hun, if_pos hC0, f1, ok_bind]
      rfl
  · refine .inr ⟨T, ?_, by rw [hT1, hlen], hT2, hT3, hT4⟩
    unfold Plane.trim
    rw [hc, ok_bind]
    simp only [h2, if_true]
    rw [h1, ok_bind]
    simp only
    rw [hun, if_neg hC0, hT, ok_bind]
    rfl

end

theorem convex_of_leftTurns {Q : List (V2 K)} (hS : Winding.Simple Q) (hQn : 3 ≤ Q.length) (hlev : Winding.level Q = 1)
    (hleft : Winding.LeftTurns Q) :
    ∀ e ∈ Spec.loopEdges Q, (∀ v ∈ Q, 0 ≤ Spec.triArea2 e.1 e.2 v) ∧ ∃ v ∈ Q, 0 < Spec.triArea2 e.1 e.2 v := by
  rintro ⟨a, b⟩ he
  refine ⟨fun v hv => ?_, ?_⟩
  · by_cases e1 : v = a
    · subst e1; exact le_of_eq (by unfold Spec.triArea2; ring)
    by_cases e2 : v = b
    · subst e2; exact le_of_eq (by unfold Spec.triArea2; ring)
    exact (Winding.convex_left hS hQn hlev hleft he hv e1 e2).le
  · obtain ⟨⟨d, hd'⟩, -⟩ := Winding.exists_edge_from hQn (Winding.mem_of_loopEdges he).2
    exact ⟨d, (Winding.mem_of_loopEdges hd').2, hleft a b d he hd'⟩

/-- The fan around the mean of the vertices tiles a loop that has all of its vertices on the left of each edge. -/
theorem fan_tiles_of_edges {p : Plane K} {vs : List (V3 K)} (hn : 0 < vs.length) {Q : List (V2 K)} (hQ : Q = vs.map p.project)
    (hconv : ∀ e ∈ Spec.loopEdges Q, (∀ v ∈ Q, 0 ≤ Spec.triArea2 e.1 e.2 v) ∧ ∃ v ∈ Q, 0 < Spec.triArea2 e.1 e.2 v)
    (hw : ∀ x, Spec.OffLines Q x → Spec.winding Q x = 0 ∨ Spec.winding Q x = 1) {T' : List Nat}
    (e2 : Spec.triples T' = (Spec.loopEdges (List.range vs.length)).map fun e => (vs.length, e.1, e.2)) :
    Spec.Tiles Q ((vs ++ [Spec.centroid vs]).map p.project) T' := by
  have hlen : Q.length = vs.length := by simp [hQ]
  subst hQ
  set Q := vs.map p.project with hQ
  have hfan : ∀ e ∈ Spec.loopEdges Q, 0 < Spec.triArea2 (p.project (Spec.centroid vs)) e.1 e.2 := fun e he =>
    (C72_fan_positive p (vs := vs) (by omega) (a := e.1) (b := e.2) he (fun e he => (hconv e he).1)).2 (hconv e he).2
  have hget : ∀ {i}, i < vs.length → ((vs ++ [Spec.centroid vs]).map p.project).getD i 0 = Winding.pt Q i := by
    intro i hi
    rw [project_map_getD p vs _ hi]; rfl
  have hcen : ((vs ++ [Spec.centroid vs]).map p.project).getD vs.length 0 = p.project (Spec.centroid vs) := by
    rw [getD_of_lt _ (by simp)]
    simp
  have hE : ∀ e ∈ Spec.loopEdges (List.range vs.length), e.1 < vs.length ∧ e.2 < vs.length := by
    intro e he
    have := Winding.mem_of_loopEdges he
    simpa using this
  have hpos : ∀ t ∈ Spec.triples T', 0 < Spec.triArea2 (((vs ++ [Spec.centroid vs]).map p.project).getD t.1 0)
      (((vs ++ [Spec.centroid vs]).map p.project).getD t.2.1 0) (((vs ++ [Spec.centroid vs]).map p.project).getD t.2.2 0) := by
    intro t ht
    rw [e2, List.mem_map] at ht
    obtain ⟨e, he, rfl⟩ := ht
    obtain ⟨b1, b2⟩ := hE e he
    simp only
    rw [hcen, hget b1, hget b2]
    refine hfan (Winding.pt Q e.1, Winding.pt Q e.2) ?_
    rw [loopEdges_pts, List.mem_map]
    exact ⟨e, by rw [hlen]; exact he, rfl⟩
  refine ⟨hpos, ?_, fun x hx => ?_⟩
  · rw [trianglesArea2_triples, e2, List.map_map, ← fan_area Q (((vs ++ [Spec.centroid vs]).map p.project).getD vs.length 0),
      loopEdges_pts, List.map_map, hlen]
    apply congrArg
    apply List.map_congr_left
    intro e he
    obtain ⟨b1, b2⟩ := hE e he
    simp only [Function.comp, hget b1, hget b2]
    rfl
  have hgen := generic_of_offLines hx
  have hsub : ∀ z ∈ p.project (Spec.centroid vs) :: Q, z ∈ (vs ++ [Spec.centroid vs]).map p.project := by
    intro z hz
    rw [List.map_append, List.mem_append]
    rcases List.mem_cons.1 hz with rfl | hz
    · exact .inr (by simp)
    · exact .inl hz
  have htile := Winding.fan_tiling hfan (hgen.sub hsub)
  have hoff : Spec.OffLines Q x := by
    intro i j hi hj hij
    have := hx i j (by simp; omega) (by simp; omega) hij
    rwa [hget (by omega), hget (by omega)] at this
  refine ⟨hw x hoff, ?_⟩
  rw [winding_eq, ← htile, loopEdges_pts, List.filter_map, List.length_map, hlen]
  unfold Spec.covering
  rw [e2, List.filter_map, List.length_map]
  congr 2
  apply List.filter_congr
  intro e he
  obtain ⟨b1, b2⟩ := hE e he
  have hp := hpos (vs.length, e.1, e.2) (by rw [e2]; exact List.mem_map.2 ⟨e, he, rfl⟩)
  simp only [Function.comp, decide_eq_decide]
  rw [← C33_exact hp, Winding.isInside_iff, hcen, hget b1, hget b2]
  rfl

/-- The fan around the mean of the vertices of a convex loop tiles it. -/
theorem fan_tiles {p : Plane K} {vs : List (V3 K)} (hn : 3 ≤ vs.length) {Q : List (V2 K)} (hQ : Q = vs.map p.project)
    (hS : Winding.Simple Q) (hlev : Winding.level Q = 1) (hleft : Winding.LeftTurns Q)
    (hw : ∀ x, Spec.OffLines Q x → Spec.winding Q x = 0 ∨ Spec.winding Q x = 1) {T' : List Nat}
    (e2 : Spec.triples T' = (Spec.loopEdges (List.range vs.length)).map fun e => (vs.length, e.1, e.2)) :
    Spec.Tiles Q ((vs ++ [Spec.centroid vs]).map p.project) T' :=
  fan_tiles_of_edges (by omega) hQ (convex_of_leftTurns hS (by simpa [hQ] using hn) hlev hleft) hw e2

/-- **C121** The face of a single simple loop in general position, counter-clockwise in the plane, is tiled. -/
theorem C121_tiling (htol : (0 : K) ≤ Env.tol) {p : Plane K} {o : TrimOracle K} (hbs : BinarySearch o.bs)
    {bounds : List (EdgeLoop K)} {vs : List (V3 K)} {polygons : List Nat} (hc : collectLoops o bounds = .ok (vs, polygons))
    (h2 : polygons.length = 2) (hfuel : vs.length < o.earFuel) (hn : 3 ≤ vs.length)
    (hs : Spec.Simple (vs.map p.project)) (hg : Spec.General (vs.map p.project)) (ha : 0 < Spec.area2 (vs.map p.project)) :
    ∃ mesh, p.trim o bounds = .ok mesh ∧ mesh.normals = [] ∧
      ((mesh.vertices = vs ∧ mesh.triangles.length = 3 * (vs.length - 2)) ∨
        (mesh.vertices = vs ++ [Spec.centroid vs] ∧ mesh.triangles.length = 3 * vs.length)) ∧
      Spec.Tiles (vs.map p.project) (mesh.vertices.map p.project) mesh.triangles := by
  have hQn : 3 ≤ (vs.map p.project).length := by simpa using hn
  have hS := simple_of_spec htol hQn hs hg
  have hd := decides_of_general htol hg
  have hlev := Winding.level_of_area hS hQn ha
  obtain ⟨V0, C0, T0, _, _, _, _, _, hT4⟩ := complete_of_decides hbs rfl hd hQn hs ha (Nat.lt_succ_self _)
  rcases trim_of_decides hbs hc h2 hfuel hn (by simp) hd hs ha with ⟨hleft, T', e1, hlenT, e2⟩ | ⟨T, e1, e2, e3⟩
  · rw [sumV3_div] at e1
    exact ⟨_, e1, rfl, .inr ⟨rfl, hlenT⟩, fan_tiles hn rfl hS hlev hleft (fun x hx => (hT4 x hx).1) e2⟩
  · exact ⟨_, e1, rfl, .inl ⟨rfl, e2⟩, e3⟩

open F64 in
/-- **C121** In binary64, for a loop whose projected vertices clear the margin of C120: a convex loop becomes the fan of
its edges, and any other loop is tiled. -/
theorem C121_float {p : Plane Float} {o : TrimOracle Float} (hbs : BinarySearch o.bs)
    {bounds : List (EdgeLoop Float)} {vs : List (V3 Float)} {polygons : List Nat} (hc : collectLoops o bounds = .ok (vs, polygons))
    (h2 : polygons.length = 2) (hfuel : vs.length < o.earFuel) (hn : 3 ≤ vs.length) {M : ℝ} (hM : M ≤ 2 ^ (509 : Int))
    (hb : ∀ v ∈ vs, Bounded2 M (p.project v)) {Q : List (V2 ℝ)} (hQ : Q = vs.map fun v => toReal2 (p.project v))
    (hs : Spec.Simple Q) (hg : Spec.ClearOfLines M Q) (ha : 0 < Spec.area2 Q) :
    ((∀ e ∈ Spec.loopEdges Q, ∀ v ∈ Q, 0 ≤ Spec.triArea2 e.1 e.2 v) ∧
      ∃ c T, p.trim o bounds = .ok ⟨vs ++ [c], [], T⟩ ∧ T.length = 3 * vs.length ∧
        Spec.triples T = (Spec.loopEdges (List.range vs.length)).map fun e => (vs.length, e.1, e.2)) ∨
    ∃ T, p.trim o bounds = .ok ⟨vs, [], T⟩ ∧ T.length = 3 * (vs.length - 2) ∧ Spec.Tiles Q Q T := by
  have hQ' : Q = (vs.map p.project).map toReal2 := by rw [hQ, List.map_map]; rfl
  have hlen : Q.length = vs.length := by rw [hQ, List.length_map]
  have hd : Winding.Decides (vs.map p.project) (Winding.pt Q) := by
    rw [hQ'] at hg ⊢
    exact decides_float hM (fun q hq => by
      obtain ⟨v, hv, rfl⟩ := List.mem_map.1 hq
      exact hb v hv) hg
  rcases trim_of_decides hbs hc h2 hfuel hn hlen hd hs ha with ⟨hleft, T, e1, e2, e3⟩ | h
  · have hS : Winding.Simple Q := simple_of_nz (by omega) hs fun hi hj hk h1 h2 h3 =>
      hd.nz _ _ _ (by simpa [hlen] using hi) (by simpa [hlen] using hj) (by simpa [hlen] using hk) h1 h2 h3
    have hlev := Winding.level_of_area hS (by omega) ha
    exact .inl ⟨fun e he => (convex_of_leftTurns hS (by omega) hlev hleft e he).1, _, T, e1, e2, e3⟩
  · exact .inr h

/-- A quadrilateral with a reflex vertex. -/
def dart : List (V3 ℚ) := [⟨0, 0, 0⟩, ⟨3, 1, 0⟩, ⟨6, 0, 0⟩, ⟨3, 5, 0⟩]

/-- Non-vacuity of C121: the quadrilateral is cut in two, and a square becomes a fan of four. -/
example : collectLoops Spec.oracle [Spec.edgeLoop dart] = .ok (dart, [0, 4]) ∧ dart.length < (Spec.oracle : TrimOracle ℚ).earFuel ∧
    3 ≤ dart.length ∧ Spec.Simple (dart.map Spec.xyPlane.project) ∧ Spec.General (dart.map Spec.xyPlane.project) ∧
    0 < Spec.area2 (dart.map Spec.xyPlane.project) ∧
    (Spec.xyPlane.trim Spec.oracle [Spec.edgeLoop dart]).map (·.triangles) = .ok [3, 0, 1, 1, 2, 3] :=
  ⟨by decide +kernel, by decide +kernel, by decide, simple_of_check (by decide +kernel), general_of_check (by decide +kernel),
    by decide +kernel, by decide +kernel⟩

/-- **C121** Finding: the direction of the loop is not looked at unless all corners turn right.  The same
quadrilateral clockwise is meshed with a triangle outside of it: the point `(3, 1 / 2)`, around which the loop does not
wind, is covered twice. -/
theorem C121_clockwise : Spec.Simple (dart.reverse.map Spec.xyPlane.project) ∧
    Spec.General (dart.reverse.map Spec.xyPlane.project) ∧ Spec.area2 (dart.reverse.map Spec.xyPlane.project) = -24 ∧
    Spec.xyPlane.trim Spec.oracle [Spec.edgeLoop dart.reverse] = .ok ⟨dart.reverse, [], [1, 2, 3, 0, 1, 3]⟩ ∧
    Spec.winding (dart.reverse.map Spec.xyPlane.project) ⟨3, 1 / 2⟩ = 0 ∧
    Spec.InTriangle (⟨6, 0⟩ : V2 ℚ) ⟨3, 1⟩ ⟨0, 0⟩ ⟨3, 1 / 2⟩ ∧ Spec.InTriangle (⟨3, 5⟩ : V2 ℚ) ⟨6, 0⟩ ⟨0, 0⟩ ⟨3, 1 / 2⟩ :=
  ⟨simple_of_check (by decide +kernel), general_of_check (by decide +kernel), by decide +kernel, by decide +kernel, by decide +kernel,
    ⟨1 / 4, 1 / 2, 1 / 4, by norm_num⟩, ⟨1 / 10, 9 / 20, 9 / 20, by norm_num⟩⟩

end Geom3d
