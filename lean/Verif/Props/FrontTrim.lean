import Verif.Props.EarChain
import Verif.Props.Plane
import Verif.Props.Meshgen
import Verif.Model.Instances

/-! # C73, C76, C77: meshes of trimmed faces: validity and direction of the boundary (any arithmetic) -/

set_option linter.unusedSectionVars false

namespace Geom3d

section
variable {F : Type} [Add F] [Sub F] [Mul F] [Div F] [Neg F] [Zero F] [One F] [NatCast F] [LT F] [DecidableLT F]
  [LE F] [DecidableLE F] [Env F]

/-- The directed edges of a mesh, as pairs of positions. -/
def Spec.meshEdges (m : TriangleMesh F) : List (V3 F × V3 F) :=
  (Spec.triEdges m.triangles).map fun e => (m.vertices.getD e.1 0, m.vertices.getD e.2 0)

theorem extendVertices_ok {vs vs' : List (V3 F)} {pts : List (V2 F)} {n : Nat} {f : V2 F → Res (V3 F)}
    (h : extendVertices vs pts n f = .ok vs') :
    ∃ new, vs' = vs ++ new ∧ n ≤ pts.length ∧ List.Forall₂ (fun p v => f p = .ok v) (pts.drop n) new := by
  unfold extendVertices at h
  simp only [bind_eq_ok] at h
  obtain ⟨tail, h1, new, h2, h3⟩ := h
  cases h3
  unfold slice at h1
  split at h1
  · cases h1
    rw [List.take_length] at h2
    exact ⟨new, rfl, by omega, of_mapM_ok h2⟩
  · cases h1

/-- What `frontTrim` returns. -/
theorem frontTrim_cases {o : TrimOracle F} {vs : List (V3 F)} {pts : List (V2 F)} {polygons : List Nat}
    {lift liftHoles : V2 F → Res (V3 F)} {mesh : TriangleMesh F}
    (h : frontTrim o vs pts polygons lift liftHoles = .ok mesh) :
    (polygons.length = 2 ∧ ∃ V T new, ∃ m0 : TriangleMesh F, isPolygonCcw pts = .ok true ∧
      generateTriangularMesh o.pick o.innerFuel o.meshFuel pts polygons = .ok (V, T) ∧
      pts.length ≤ V.length ∧ List.Forall₂ (fun p v => lift p = .ok v) (V.drop pts.length) new ∧
      m0 = ⟨vs ++ new, [], T⟩ ∧ m0.reverseWindingDirection = .ok mesh) ∨
    (polygons.length = 2 ∧ ∃ V T new, isPolygonCcw pts = .ok false ∧
      generateTriangularMesh o.pick o.innerFuel o.meshFuel pts.reverse polygons = .ok (V, T) ∧
      pts.length ≤ V.length ∧ List.Forall₂ (fun p v => lift p = .ok v) (V.drop pts.length) new ∧
      mesh = ⟨vs.reverse ++ new, [], T⟩) ∨
    (2 < polygons.length ∧ ∃ V T new,
      generateTriangularMesh o.pick o.innerFuel o.meshFuel pts polygons = .ok (V, T) ∧
      pts.length ≤ V.length ∧ List.Forall₂ (fun p v => liftHoles p = .ok v) (V.drop pts.length) new ∧
      mesh = ⟨vs ++ new, [], T⟩) ∨
    (polygons.length < 2 ∧ mesh = TriangleMesh.new) := by
  unfold frontTrim at h
  simp only [] at h
  split at h
  · rename_i h2
    rw [bind_eq_ok] at h
    obtain ⟨c, hc, h⟩ := h
    cases c with
    | true =>
      rw [if_pos rfl] at h
      simp only [bind_eq_ok] at h
      obtain ⟨⟨V, T⟩, hg, vs', hv, h⟩ := h
      obtain ⟨new, rfl, hn, hnew⟩ := extendVertices_ok hv
      exact .inl ⟨h2, V, T, new, _, hc, hg, hn, hnew, rfl, h⟩
    | false =>
      rw [if_neg (by simp)] at h
      simp only [bind_eq_ok] at h
      obtain ⟨⟨V, T⟩, hg, vs', hv, h⟩ := h
      obtain ⟨new, rfl, hn, hnew⟩ := extendVertices_ok hv
      cases h
      exact .inr (.inl ⟨h2, V, T, new, hc, hg, hn, hnew, rfl⟩)
  · split at h
    · simp only [bind_eq_ok] at h
      obtain ⟨⟨V, T⟩, hg, vs', hv, h⟩ := h
      obtain ⟨new, rfl, hn, hnew⟩ := extendVertices_ok hv
      cases h
      exact .inr (.inr (.inl ⟨by omega, V, T, new, hg, hn, hnew, rfl⟩))
    · cases h
      exact .inr (.inr (.inr ⟨by omega, rfl⟩))

theorem mem_of_triples_map {T T' : List Nat} {k : Nat} (hT' : T'.length = 3 * k)
    (h : Spec.triples T' = (Spec.triples T).map fun t => (t.2.2, t.2.1, t.1)) : ∀ i ∈ T', i ∈ T := by
  intro i hi
  rw [← flatten_triples hT', List.mem_flatten] at hi
  obtain ⟨l, hl, hi⟩ := hi
  obtain ⟨t, ht, rfl⟩ := List.mem_map.1 hl
  rw [h, List.mem_map] at ht
  obtain ⟨s, hs, rfl⟩ := ht
  obtain ⟨a, b, c⟩ := mem_triples hs
  simp only [List.mem_cons, List.not_mem_nil, or_false] at hi
  rcases hi with rfl | rfl | rfl
  · exact c
  · exact b
  · exact a

/-- Validity of the meshes of `frontTrim`. -/
theorem frontTrim_valid {o : TrimOracle F} (hp : PickOk o.pick) {vs : List (V3 F)} {pts : List (V2 F)}
    {polygons : List Nat} {lift liftHoles : V2 F → Res (V3 F)} {mesh : TriangleMesh F} (hl : vs.length = pts.length)
    (h : frontTrim o vs pts polygons lift liftHoles = .ok mesh) :
    (∃ k, mesh.triangles.length = 3 * k ∧ mesh.vertices.length ≤ vs.length + k) ∧
    (∀ i ∈ mesh.triangles, i < mesh.vertices.length) ∧ mesh.normals = [] ∧
    (2 ≤ polygons.length → ∃ new, (∀ v ∈ new, ∃ q, lift q = .ok v ∨ liftHoles q = .ok v) ∧
      (mesh.vertices = vs ++ new ∨ polygons.length = 2 ∧ mesh.vertices = vs.reverse ++ new)) ∧
    (polygons.length < 2 → mesh.vertices = [] ∧ mesh.triangles = []) := by
  have himg : ∀ {V : List (V2 F)} {new : List (V3 F)} {f : V2 F → Res (V3 F)},
      List.Forall₂ (fun p v => f p = .ok v) (V.drop pts.length) new → ∀ v ∈ new, ∃ q, f q = .ok v := by
    intro V new f h v hv
    obtain ⟨i, hi, rfl⟩ := List.getElem_of_mem hv
    have hi' : i < (V.drop pts.length).length := by rw [h.length_eq]; exact hi
    exact ⟨_, h.get hi' hi⟩
  rcases frontTrim_cases h with ⟨h2, V, T, new, m0, -, hg, hn, hnew, rfl, hr⟩ | ⟨h2, V, T, new, -, hg, hn, hnew, rfl⟩ |
    ⟨h2, V, T, new, hg, hn, hnew, rfl⟩ | ⟨h2, rfl⟩
  · obtain ⟨-, ⟨k, hk, hVk⟩, hT⟩ := C41_valid hp hg
    obtain ⟨m', e1, e2, e3, -, -, e6, e7, -⟩ := C47_reverse (m := ⟨vs ++ new, [], T⟩) (k := k) hk
    rw [hr] at e1
    cases e1
    have hlen : (vs ++ new).length = V.length := by
      rw [List.length_append, ← hnew.length_eq, List.length_drop]; omega
    refine ⟨⟨k, e6, by rw [e2, hlen]; omega⟩, ?_, e3, ?_, by omega⟩
    · intro i hi
      rw [e2, hlen]
      exact hT i (mem_of_triples_map e6 e7 i hi)
    · intro _
      refine ⟨new, fun v hv => ?_, .inl e2⟩
      obtain ⟨q, hq⟩ := himg hnew v hv
      exact ⟨q, .inl hq⟩
  · obtain ⟨-, ⟨k, hk, hVk⟩, hT⟩ := C41_valid hp hg
    rw [List.length_reverse] at hVk
    have hlen : (vs.reverse ++ new).length = V.length := by
      rw [List.length_append, ← hnew.length_eq, List.length_drop, List.length_reverse]; omega
    refine ⟨⟨k, hk, by simp only [hlen]; omega⟩, by simp only [hlen]; exact hT, rfl, ?_, by omega⟩
    intro _
    refine ⟨new, fun v hv => ?_, .inr ⟨h2, rfl⟩⟩
    obtain ⟨q, hq⟩ := himg hnew v hv
    exact ⟨q, .inl hq⟩
  · obtain ⟨-, ⟨k, hk, hVk⟩, hT⟩ := C41_valid hp hg
    have hlen : (vs ++ new).length = V.length := by
      rw [List.length_append, ← hnew.length_eq, List.length_drop]; omega
    refine ⟨⟨k, hk, by simp only [hlen]; omega⟩, by simp only [hlen]; exact hT, rfl, ?_, by omega⟩
    intro _
    refine ⟨new, fun v hv => ?_, .inl rfl⟩
    obtain ⟨q, hq⟩ := himg hnew v hv
    exact ⟨q, .inr hq⟩
  · exact ⟨⟨0, rfl, by simp [TriangleMesh.new]⟩, by simp [TriangleMesh.new], rfl, by omega, by simp [TriangleMesh.new]⟩

/-! ### Boundary -/

theorem map_getD_block {α : Type} (d : α) (pre b post : List α) :
    (Spec.loopRange (pre.length, pre.length + b.length)).map (fun i => (pre ++ (b ++ post)).getD i d) = b := by
  apply List.ext_getElem?
  intro i
  simp only [Spec.loopRange, List.getElem?_map]
  by_cases hi : i < b.length
  · rw [List.getElem?_range' (by omega), Option.map_some, List.getD_eq_getElem?_getD,
      List.getElem?_append_right (by omega), List.getElem?_append_left (by omega),
      show pre.length + 1 * i - pre.length = i by omega, List.getElem?_eq_getElem hi]
    rfl
  · rw [List.getElem?_eq_none (by simp; omega), List.getElem?_eq_none (by omega)]
    rfl

variable {M : Type} [AddCommGroup M]

theorem weight_blocks {α : Type} (d : α) (φ : α → α → M) (L : List (List α)) (pre post : List α) :
    Spec.weight (fun a b => φ ((pre ++ (L.flatten ++ post)).getD a d) ((pre ++ (L.flatten ++ post)).getD b d))
        ((pairs (Spec.offsets pre.length L)).flatMap fun p => Spec.loopEdges (Spec.loopRange p))
      = (L.map fun l => Spec.weight φ (Spec.loopEdges l)).sum := by
  induction L generalizing pre with
  | nil => simp [Spec.offsets, pairs]
  | cons b L ih =>
    rw [pairs_offsets_cons, List.flatMap_cons, weight_append, List.map_cons, List.sum_cons, List.flatten_cons]
    have := ih (pre ++ b)
    rw [List.length_append, List.append_assoc] at this
    rw [List.append_assoc, this, ← weight_loopEdges_map (φ := φ) (fun i => (pre ++ (b ++ (L.flatten ++ post))).getD i d),
      map_getD_block]

theorem weight_nonEmpty {α : Type} (φ : α → α → M) (L : List (List α)) :
    ((Spec.nonEmpty L).map fun l => Spec.weight φ (Spec.loopEdges l)).sum
      = (L.map fun l => Spec.weight φ (Spec.loopEdges l)).sum := by
  induction L with
  | nil => rfl
  | cons a L ih =>
    cases a with
    | nil => simpa [Spec.nonEmpty, Spec.loopEdges] using ih
    | cons x a => simpa [Spec.nonEmpty] using ih

theorem meshEdges_weight (φ : V3 F → V3 F → M) (m : TriangleMesh F) :
    Spec.weight φ (Spec.meshEdges m)
      = Spec.weight (fun a b => φ (m.vertices.getD a 0) (m.vertices.getD b 0)) (Spec.triEdges m.triangles) :=
  weight_map (fun i => m.vertices.getD i 0) _

/-- Boundary of the meshes of `frontTrim`: a single loop is reversed, several loops are kept. -/
theorem frontTrim_boundary {o : TrimOracle F} (hp : PickOk o.pick) {loops : List (List (V3 F))} {pts : List (V2 F)}
    {lift liftHoles : V2 F → Res (V3 F)} {mesh : TriangleMesh F} (hl : loops.flatten.length = pts.length)
    (hne : ∀ l ∈ loops, l ≠ [])
    (h : frontTrim o loops.flatten pts (Spec.offsets 0 loops) lift liftHoles = .ok mesh)
    (φ : V3 F → V3 F → M) (hφ : Spec.Skew φ) :
    Spec.weight φ (Spec.meshEdges mesh)
      = if loops.length = 1 then -(loops.map fun l => Spec.weight φ (Spec.loopEdges l)).sum
        else (loops.map fun l => Spec.weight φ (Spec.loopEdges l)).sum := by
  have hpoly : ∀ p ∈ pairs (Spec.offsets 0 loops), p.1 < p.2 := by
    intro p hp
    obtain ⟨b, hb, h1, -⟩ := pairs_offsets loops [] hp
    have := List.length_pos_iff.2 (hne b hb)
    omega
  have hlen := length_offsets 0 loops
  rw [meshEdges_weight]
  rcases frontTrim_cases h with ⟨h2, V, T, new, m0, -, hg, hn, hnew, rfl, hr⟩ | ⟨h2, V, T, new, -, hg, hn, hnew, rfl⟩ |
    ⟨h2, V, T, new, hg, hn, hnew, rfl⟩ | ⟨h2, rfl⟩
  · obtain ⟨-, ⟨k, hk, hVk⟩, hT⟩ := C41_valid hp hg
    obtain ⟨m', e1, e2, e3, -, -, e6, e7, e8⟩ := C47_reverse (m := ⟨loops.flatten ++ new, [], T⟩) (k := k) hk
    rw [hr] at e1
    cases e1
    rw [if_pos (by omega), weight_perm e8, weight_swap (Skew.comp hφ _), e2]
    have hw := C42_weight hp hg hpoly (fun a b => φ ((loops.flatten ++ new).getD a 0) ((loops.flatten ++ new).getD b 0))
      (fun u v => hφ.anti _ _)
    have hb := weight_blocks (0 : V3 F) φ loops [] new
    simp only [List.nil_append, List.length_nil] at hb
    rw [← hb]
    exact congrArg Neg.neg hw
  · rw [if_pos (by omega)]
    obtain ⟨b, hb⟩ : ∃ b, loops = [b] := List.length_eq_one_iff.1 (by omega)
    subst hb
    have hoff : Spec.offsets 0 [b] = Spec.offsets 0 [b.reverse] := by simp [Spec.offsets]
    have hw := C42_weight hp hg hpoly (fun a c => φ (([b].flatten.reverse ++ new).getD a 0) (([b].flatten.reverse ++ new).getD c 0))
      (fun u v => hφ.anti _ _)
    have hb := weight_blocks (0 : V3 F) φ [b.reverse] [] new
    simp only [List.nil_append, List.length_nil] at hb
    rw [hoff] at hw
    have e : [b].flatten.reverse = [b.reverse].flatten := by simp
    rw [e] at hw ⊢
    simp only [List.map_cons, List.map_nil, List.sum_cons, List.sum_nil, add_zero] at hb ⊢
    rw [weight_reverse hφ] at hb
    rw [← hb]
    exact hw
  · rw [if_neg (by omega)]
    have hw := C42_weight hp hg hpoly (fun a b => φ ((loops.flatten ++ new).getD a 0) ((loops.flatten ++ new).getD b 0))
      (fun u v => hφ.anti _ _)
    have hb := weight_blocks (0 : V3 F) φ loops [] new
    simp only [List.nil_append, List.length_nil] at hb
    rw [← hb]
    exact hw
  · have : loops = [] := List.length_eq_zero_iff.1 (by omega)
    subst this
    simp [TriangleMesh.new, Spec.triEdges]

/-! ### Cylinders and B-spline surfaces -/

section
variable [Trig F]

theorem Cylinder.trim_front {c : Cylinder F} {o : TrimOracle F} {bounds : List (EdgeLoop F)} {mesh : TriangleMesh F}
    (h : c.trim o bounds = .ok mesh) :
    ∃ loops, List.Forall₂ (fun b P => EdgeLoop.toPolygon o.divFuel (o.rnd b.2) b.1 = .ok P) bounds.zipIdx loops ∧
      frontTrim o (Spec.nonEmpty loops).flatten
        ((Spec.nonEmpty loops).flatten.map fun v => c.projectToRing v (c.ringDistance (Spec.nonEmpty loops).flatten))
        (Spec.offsets 0 (Spec.nonEmpty loops))
        (fun p => pure (c.generatePointFromRing p (c.ringDistance (Spec.nonEmpty loops).flatten)))
        (fun p => pure (c.getPoint p.x p.y)) = .ok mesh := by
  unfold Cylinder.trim at h
  rw [bind_eq_ok] at h
  obtain ⟨⟨vs, polygons⟩, hc, h⟩ := h
  obtain ⟨loops, h1, rfl, rfl⟩ := collectLoops_spec hc
  refine ⟨loops, h1, ?_⟩
  rw [nonEmpty_flatten]
  exact h

/-- **C76** (any arithmetic) Whenever trimming a cylinder returns, the indices form triples, all are valid, no normals
are produced, and the vertices are the boundary points in order (reversed at most for a single loop), followed by
points of the cylinder's own maps. -/
theorem C76_cylinder {c : Cylinder F} {o : TrimOracle F} (hp : PickOk o.pick) {bounds : List (EdgeLoop F)}
    {mesh : TriangleMesh F} (h : c.trim o bounds = .ok mesh) :
    (∃ k, mesh.triangles.length = 3 * k) ∧ (∀ i ∈ mesh.triangles, i < mesh.vertices.length) ∧ mesh.normals = [] ∧
    ∃ loops d new,
      List.Forall₂ (fun b P => EdgeLoop.toPolygon o.divFuel (o.rnd b.2) b.1 = .ok P) bounds.zipIdx loops ∧
      (∀ v ∈ new, ∃ q : V2 F, v = c.generatePointFromRing q d ∨ v = c.getPoint q.x q.y) ∧
      (mesh.vertices = loops.flatten ++ new ∨
        (Spec.nonEmpty loops).length = 1 ∧ mesh.vertices = loops.flatten.reverse ++ new) := by
  obtain ⟨loops, h1, h⟩ := Cylinder.trim_front h
  obtain ⟨⟨k, hk, -⟩, hT, hN, hV, hV0⟩ := frontTrim_valid hp (by rw [List.length_map]) h
  have hlen := length_offsets 0 (Spec.nonEmpty loops)
  rw [nonEmpty_flatten] at hV
  refine ⟨⟨k, hk⟩, hT, hN, loops, c.ringDistance (Spec.nonEmpty loops).flatten, ?_⟩
  by_cases h2 : 2 ≤ (Spec.offsets 0 (Spec.nonEmpty loops)).length
  · obtain ⟨new, hnew, hv⟩ := hV h2
    rw [nonEmpty_flatten]
    refine ⟨new, h1, ?_, ?_⟩
    · intro v hv
      obtain ⟨q, hq | hq⟩ := hnew v hv
      · cases hq; exact ⟨q, .inl rfl⟩
      · cases hq; exact ⟨q, .inr rfl⟩
    · rcases hv with hv | ⟨h3, hv⟩
      · exact .inl hv
      · exact .inr ⟨by omega, hv⟩
  · refine ⟨[], h1, by simp, .inl ?_⟩
    have : Spec.nonEmpty loops = [] := List.length_eq_zero_iff.1 (by omega)
    rw [(hV0 (by omega)).1, ← nonEmpty_flatten, this]
    rfl

/-- **C77** (any arithmetic) The oriented boundary of a trimmed cylinder mesh: several loops are kept in their given
direction, but a single loop comes out reversed. -/
theorem C77_cylinder {c : Cylinder F} {o : TrimOracle F} (hp : PickOk o.pick) {bounds : List (EdgeLoop F)}
    {mesh : TriangleMesh F} (h : c.trim o bounds = .ok mesh) :
    ∃ loops, List.Forall₂ (fun b P => EdgeLoop.toPolygon o.divFuel (o.rnd b.2) b.1 = .ok P) bounds.zipIdx loops ∧
      ∀ φ : V3 F → V3 F → M, Spec.Skew φ → Spec.weight φ (Spec.meshEdges mesh)
        = if (Spec.nonEmpty loops).length = 1 then -(loops.map fun l => Spec.weight φ (Spec.loopEdges l)).sum
          else (loops.map fun l => Spec.weight φ (Spec.loopEdges l)).sum := by
  obtain ⟨loops, h1, h⟩ := Cylinder.trim_front h
  refine ⟨loops, h1, fun φ hφ => ?_⟩
  rw [frontTrim_boundary hp (by rw [List.length_map]) (by simp [Spec.nonEmpty]) h φ hφ, weight_nonEmpty]

end

theorem BSplineSurface.trim_front {s : BSplineSurface F (V3 F)} {o : TrimOracle F} {bounds : List (EdgeLoop F)}
    {mesh : TriangleMesh F} (h : s.trim o bounds = .ok mesh) :
    ∃ loops pts, List.Forall₂ (fun b P => EdgeLoop.toPolygon o.divFuel (o.rnd b.2) b.1 = .ok P) bounds.zipIdx loops ∧
      s.projectPoints (Spec.nonEmpty loops).flatten = .ok pts ∧
      frontTrim o (Spec.nonEmpty loops).flatten pts (Spec.offsets 0 (Spec.nonEmpty loops))
        (fun p => s.getPoint p.x p.y) (fun p => s.getPoint p.x p.y) = .ok mesh := by
  unfold BSplineSurface.trim at h
  rw [bind_eq_ok] at h
  obtain ⟨⟨vs, polygons⟩, hc, h⟩ := h
  obtain ⟨loops, h1, rfl, rfl⟩ := collectLoops_spec hc
  simp only [bind_eq_ok] at h
  obtain ⟨-, -, pts, h2, h⟩ := h
  refine ⟨loops, pts, h1, ?_⟩
  rw [nonEmpty_flatten]
  exact ⟨h2, h⟩

theorem projectPoints_length {s : BSplineSurface F (V3 F)} {vs : List (V3 F)} {pts : List (V2 F)}
    (h : s.projectPoints vs = .ok pts) : vs.length = pts.length := by
  unfold BSplineSurface.projectPoints at h
  simp only [bind_eq_ok] at h
  obtain ⟨_, _, _, _, _, _, _, _, _, _, _, _, _, _, _, _, _, _, _, _, _, _, _, _, h⟩ := h
  exact (of_mapM_ok h).length_eq

/-- **C76** (any arithmetic) The same for B-spline surfaces: the extra vertices are points of the surface. -/
theorem C76_bspline {s : BSplineSurface F (V3 F)} {o : TrimOracle F} (hp : PickOk o.pick) {bounds : List (EdgeLoop F)}
    {mesh : TriangleMesh F} (h : s.trim o bounds = .ok mesh) :
    (∃ k, mesh.triangles.length = 3 * k) ∧ (∀ i ∈ mesh.triangles, i < mesh.vertices.length) ∧ mesh.normals = [] ∧
    ∃ loops new,
      List.Forall₂ (fun b P => EdgeLoop.toPolygon o.divFuel (o.rnd b.2) b.1 = .ok P) bounds.zipIdx loops ∧
      (∀ v ∈ new, ∃ q : V2 F, s.getPoint q.x q.y = .ok v) ∧
      (mesh.vertices = loops.flatten ++ new ∨
        (Spec.nonEmpty loops).length = 1 ∧ mesh.vertices = loops.flatten.reverse ++ new) := by
  obtain ⟨loops, pts, h1, h2, h⟩ := BSplineSurface.trim_front h
  obtain ⟨⟨k, hk, -⟩, hT, hN, hV, hV0⟩ := frontTrim_valid hp (projectPoints_length h2) h
  have hlen := length_offsets 0 (Spec.nonEmpty loops)
  rw [nonEmpty_flatten] at hV
  refine ⟨⟨k, hk⟩, hT, hN, loops, ?_⟩
  by_cases h2 : 2 ≤ (Spec.offsets 0 (Spec.nonEmpty loops)).length
  · obtain ⟨new, hnew, hv⟩ := hV h2
    refine ⟨new, h1, ?_, ?_⟩
    · intro v hv
      obtain ⟨q, hq⟩ := hnew v hv
      exact ⟨q, by tauto⟩
    · rcases hv with hv | ⟨h3, hv⟩
      · exact .inl hv
      · exact .inr ⟨by omega, hv⟩
  · refine ⟨[], h1, by simp, .inl ?_⟩
    have : Spec.nonEmpty loops = [] := List.length_eq_zero_iff.1 (by omega)
    rw [(hV0 (by omega)).1, ← nonEmpty_flatten, this]
    rfl

/-- **C77** (any arithmetic) The same for B-spline surfaces. -/
theorem C77_bspline {s : BSplineSurface F (V3 F)} {o : TrimOracle F} (hp : PickOk o.pick) {bounds : List (EdgeLoop F)}
    {mesh : TriangleMesh F} (h : s.trim o bounds = .ok mesh) :
    ∃ loops, List.Forall₂ (fun b P => EdgeLoop.toPolygon o.divFuel (o.rnd b.2) b.1 = .ok P) bounds.zipIdx loops ∧
      ∀ φ : V3 F → V3 F → M, Spec.Skew φ → Spec.weight φ (Spec.meshEdges mesh)
        = if (Spec.nonEmpty loops).length = 1 then -(loops.map fun l => Spec.weight φ (Spec.loopEdges l)).sum
          else (loops.map fun l => Spec.weight φ (Spec.loopEdges l)).sum := by
  obtain ⟨loops, pts, h1, h2, h⟩ := BSplineSurface.trim_front h
  refine ⟨loops, h1, fun φ hφ => ?_⟩
  rw [frontTrim_boundary hp (projectPoints_length h2) (by simp [Spec.nonEmpty]) h φ hφ, weight_nonEmpty]

/-! ### Planes -/

theorem computeVertexConvexity_sublist {points : List (V2 F)} {V C : List Nat}
    (h : computeVertexConvexity points = .ok (V, C)) : V.Sublist (List.range points.length) := by
  unfold computeVertexConvexity at h
  exact forRange_partial (I := fun k (s : List Nat × List Nat) => s.1.Sublist (List.range k)) (Nat.zero_le _)
    (by simp) (by
      rintro i ⟨a, b⟩ s' _ hi hI hs
      simp only [bind_eq_ok] at hs
      obtain ⟨p, -, q, -, r, -, hs⟩ := hs
      rw [List.range_succ]
      split at hs <;> cases hs
      · exact hI.append (List.Sublist.refl _)
      · exact hI.append (List.Sublist.refl _)
      · exact hI.trans (List.sublist_append_left _ _)) h

theorem findConcaveVertices_sublist' {points : List (V2 F)} {V C V' : List Nat}
    (h : findConcaveVertices points V = .ok (C, V')) : V'.Sublist V := by
  unfold findConcaveVertices at h
  simp only [bind_eq_ok] at h
  obtain ⟨st, h1, h2⟩ := h
  cases h2
  exact foldl_eraseIdx_sublist _ _

theorem fan_weight {φ : V3 F → V3 F → M} (hφ : Spec.Skew φ) (c : V3 F) (g : Nat → V3 F) (E : List (Nat × Nat)) :
    ((E.map fun e => [(c, g e.1), (g e.1, g e.2), (g e.2, c)]).map fun l => Spec.weight φ l).sum
      = Spec.weight (fun a b => φ (g a) (g b)) E + ((E.map fun e => φ (g e.2) c - φ (g e.1) c).sum) := by
  induction E with
  | nil => simp
  | cons e E ih =>
    simp only [List.map_cons, List.sum_cons, weight_cons, weight_nil] at ih ⊢
    rw [ih, hφ.anti c (g e.1)]
    abel

/-- **C73** (any arithmetic), partial: for planes the direction is kept whenever the mesh is a fan around the centre,
or uses every boundary vertex (`n - 2` triangles, two more per hole, none naming a vertex twice); cylinder and B-spline
meshes keep it for several loops.  Missing: single loops on cylinders and B-spline surfaces (see `C73_reversed`,
`C77_cylinder`), and plane meshes with skipped vertices. -/
theorem C73_partial {p : Plane F} {o : TrimOracle F} {bounds : List (EdgeLoop F)} {mesh : TriangleMesh F}
    (h : p.trim o bounds = .ok mesh) :
    ∃ loops, List.Forall₂ (fun b P => EdgeLoop.toPolygon o.divFuel (o.rnd b.2) b.1 = .ok P) bounds.zipIdx loops ∧
      ((∀ l ∈ loops, ∀ v ∈ l, Env.minV < (p.project v).x) →
       (mesh.vertices.length = loops.flatten.length + 1 ∨
        1 ≤ (Spec.nonEmpty loops).length ∧
        mesh.triangles.length = 3 * (loops.flatten.length + 2 * ((Spec.nonEmpty loops).length - 1) - 2) ∧
        ∀ t ∈ Spec.triples mesh.triangles, t.1 ≠ t.2.1 ∧ t.2.1 ≠ t.2.2 ∧ t.1 ≠ t.2.2) →
       ∀ φ : V3 F → V3 F → M, Spec.Skew φ →
        Spec.weight φ (Spec.meshEdges mesh) = (loops.map fun l => Spec.weight φ (Spec.loopEdges l)).sum) := by
  unfold Plane.trim at h
  rw [bind_eq_ok] at h
  obtain ⟨⟨vs, polygons⟩, hc, h⟩ := h
  obtain ⟨loops, hl, hvs, hpoly⟩ := collectLoops_spec hc
  refine ⟨loops, hl, ?_⟩
  intro hmin hcount φ hφ
  have hlen : polygons.length = (Spec.nonEmpty loops).length + 1 := by rw [hpoly, length_offsets]
  have hblocks : ∀ post, Spec.weight (fun a b => φ ((vs ++ post).getD a 0) ((vs ++ post).getD b 0))
      ((pairs polygons).flatMap fun p => Spec.loopEdges (Spec.loopRange p))
        = (loops.map fun l => Spec.weight φ (Spec.loopEdges l)).sum := by
    intro post
    have := weight_blocks (0 : V3 F) φ (Spec.nonEmpty loops) [] post
    simp only [List.nil_append, List.length_nil] at this
    rw [nonEmpty_flatten, ← hvs, ← hpoly, weight_nonEmpty] at this
    exact this
  have hblocks0 : Spec.weight (fun a b => φ (vs.getD a 0) (vs.getD b 0))
      ((pairs polygons).flatMap fun p => Spec.loopEdges (Spec.loopRange p))
        = (loops.map fun l => Spec.weight φ (Spec.loopEdges l)).sum := by
    simpa using hblocks []
  rw [← hvs] at hcount
  rw [meshEdges_weight]
  simp only [] at h
  split at h
  · rename_i h2
    obtain ⟨hp2, hpos⟩ := collectLoops_two hc h2
    have hone : (Spec.nonEmpty loops).length = 1 := by omega
    have hpp : ((pairs polygons).flatMap fun p => Spec.loopEdges (Spec.loopRange p))
        = Spec.loopEdges (List.range vs.length) := by
      rw [hp2]; simp [pairs, Spec.loopRange, ← List.range_eq_range']
    rw [hpp] at hblocks hblocks0
    rw [bind_eq_ok] at h
    obtain ⟨⟨V, C⟩, hV, h⟩ := h
    simp only [] at h
    split at h
    · cases h
      simp only [TriangleMesh.new, List.length_nil] at hcount
      rw [← hblocks0, chain_short (Skew.comp hφ _) (by rw [List.length_range]; omega)]
      simp [TriangleMesh.new, Spec.triEdges]
    · split at h
      · rw [bind_eq_ok] at h
        obtain ⟨T, hT, h⟩ := h
        cases h
        obtain ⟨T', h3, h4, h5⟩ := fanTriangles_eq (n := vs.length) hpos
        rw [hT] at h3; cases h3
        rw [← hblocks [sumV3 vs / (Nat.cast vs.length : F)]]
        simp only
        generalize hc : sumV3 vs / (Nat.cast vs.length : F) = c
        rw [triEdges_eq_triples, h5, List.flatMap_map, weight_flatMap]
        have := fan_weight hφ c (fun i => (vs ++ [c]).getD i 0) (Spec.loopEdges (List.range vs.length))
        rw [Spec.sum_loopEdges_sub (f := fun i => φ ((vs ++ [c]).getD i 0) c), add_zero] at this
        rw [← this, List.map_map]
        congr 1
        apply List.map_congr_left
        intro e he
        simp [List.getD_eq_getElem?_getD]
      · rw [bind_eq_ok] at h
        obtain ⟨T, hT, h⟩ := h
        cases h
        simp only at hcount ⊢
        obtain ⟨-, hcount, hrep⟩ : _ ∧ _ ∧ _ := hcount.resolve_left (by omega)
        have hT' := hT
        unfold triangulatePolygon at hT'
        rw [bind_eq_ok] at hT'
        obtain ⟨s, hs, hT'⟩ := hT'
        cases hT'
        obtain ⟨h5, -, -, k, h6, h7⟩ := C38_valid hs
        have hsub := computeVertexConvexity_sublist hV
        have hle := hsub.length_le
        rw [List.length_range, List.length_map] at hle
        have hVr : V = List.range (vs.map p.project).length :=
          hsub.eq_of_length (by rw [List.length_range, List.length_map]; omega)
        rw [C75_boundary M hT (by rw [hVr, List.length_range, List.length_map]; omega) hrep _ (Skew.comp hφ _), hVr,
          List.length_map]
        exact hblocks0
  · split at h
    · rename_i h2 h3
      simp only [bind_eq_ok] at h
      obtain ⟨V, hV, ⟨C, V'⟩, hC, T, hT, h⟩ := h
      cases h
      simp only at hcount hT ⊢
      obtain ⟨-, hcount, hrep⟩ : _ ∧ _ ∧ _ := hcount.resolve_left (by omega)
      have hok : Spec.LoopsOk (vs.map p.project) polygons := by
        intro q hq
        obtain ⟨hq1, hq2⟩ := collectLoops_pairs hc q hq
        refine ⟨by simpa using hq2, q.1, by rw [List.length_map]; omega, le_refl _, hq1, ?_⟩
        rw [List.getElem_map]
        have hm : vs[q.1]'(by omega) ∈ loops.flatten := by rw [← hvs]; exact List.getElem_mem _
        obtain ⟨l, hl, hm⟩ := List.mem_flatten.1 hm
        exact hmin l hl _ hm
      obtain ⟨V1, e1, -, -, e4⟩ := C40_length hok (by omega)
      obtain ⟨V2, B, e5, e6, -⟩ := C40_merge hok (by omega)
      rw [hV] at e1 e5
      cases e1; cases e5
      have hblk : ((pairs polygons).map fun q => q.2 - q.1).sum = vs.length := by
        rw [hpoly, length_blocks, nonEmpty_flatten, hvs]
      have hT' := hT
      unfold triangulatePolygon at hT'
      rw [bind_eq_ok] at hT'
      obtain ⟨s, hs, hT'⟩ := hT'
      cases hT'
      obtain ⟨h5, -, -, k, h6, h7⟩ := C38_valid hs
      have hsub := findConcaveVertices_sublist' hC
      have hle := hsub.length_le
      have hVV : V' = V := hsub.eq_of_length (by omega)
      subst hVV
      rw [C75_boundary M hT (by omega) hrep _ (Skew.comp hφ _), weight_perm e6, weight_append, weight_append,
        weight_swap (Skew.comp hφ _), hblocks0]
      abel
    · cases h
      have : Spec.nonEmpty loops = [] := List.length_eq_zero_iff.1 (by omega)
      rw [← weight_nonEmpty, this]
      simp [TriangleMesh.new, Spec.triEdges]

end

/-! ### C78: surfaces without their own `trim` -/

section
variable {F : Type} [Add F] [Sub F] [Mul F] [Div F] [Neg F] [Zero F] [One F] [NatCast F] [LT F] [DecidableLT F]
  [LE F] [DecidableLE F] [Env F] [Trig F]

/-- The kinds of surface with a `trim` of their own. -/
def Spec.Trimmable (s : Surface F) : Prop :=
  (∃ p : Plane F, s = p.surface) ∨ (∃ c : Cylinder F, s = c.surface) ∨ (∃ b : BSplineSurface F (V3 F), s = b.surface)

/-- Every kind of surface of the crate, boxed or not. -/
def Spec.Known (s : Surface F) : Prop :=
  Spec.Trimmable s ∨ (∃ b : BezierSurface (V3 F), s = b.surface) ∨ (∃ b : BezierSurface (V4 F), s = b.surfaceRational) ∨
  (∃ b : BSplineSurface F (V4 F), s = b.surfaceRational) ∨ (∃ b : SpinSurface F, s = b.surface) ∨
  (∃ b : SweepSurface F, s = b.surface) ∨ ∃ b : Umbrella F, s = b.surface

/-- **C78** A trimmed face on any other surface, boxed or not, has an empty mesh whatever its boundary is. -/
theorem C78_empty {s : Surface F} (hs : Spec.Known s) (hn : ¬ Spec.Trimmable s) (o : TrimOracle F)
    (bounds : List (EdgeLoop F)) :
    TrimmedSurface.getTriangleMesh o ⟨s, bounds⟩ = .ok ⟨[], [], []⟩ ∧
    TrimmedSurface.getTriangleMesh o ⟨s.boxed, bounds⟩ = .ok ⟨[], [], []⟩ := by
  rcases hs with h | ⟨b, rfl⟩ | ⟨b, rfl⟩ | ⟨b, rfl⟩ | ⟨b, rfl⟩ | ⟨b, rfl⟩ | ⟨b, rfl⟩
  · exact absurd h hn
  all_goals exact ⟨rfl, rfl⟩

end

section
variable {F M : Type} [Add F] [Sub F] [Mul F] [Div F] [Neg F] [Zero F] [One F] [NatCast F] [LT F] [DecidableLT F]
  [LE F] [DecidableLE F] [Env F] [Trig F] [AddCommGroup M]

/-- **C77** for the faces themselves: a `TrimmedSurface` over a cylinder or a B-spline surface, boxed or not, has the
oriented boundary stated in C77. -/
theorem C77_faces {s : Surface F} (hs : (∃ c : Cylinder F, s = c.surface ∨ s = c.surface.boxed) ∨
      ∃ b : BSplineSurface F (V3 F), s = b.surface ∨ s = b.surface.boxed)
    {o : TrimOracle F} (hp : PickOk o.pick) {bounds : List (EdgeLoop F)} {mesh : TriangleMesh F}
    (h : TrimmedSurface.getTriangleMesh o ⟨s, bounds⟩ = .ok mesh) :
    ∃ loops, List.Forall₂ (fun b P => EdgeLoop.toPolygon o.divFuel (o.rnd b.2) b.1 = .ok P) bounds.zipIdx loops ∧
      ∀ φ : V3 F → V3 F → M, Spec.Skew φ → Spec.weight φ (Spec.meshEdges mesh)
        = if (Spec.nonEmpty loops).length = 1 then -(loops.map fun l => Spec.weight φ (Spec.loopEdges l)).sum
          else (loops.map fun l => Spec.weight φ (Spec.loopEdges l)).sum := by
  rcases hs with ⟨c, rfl | rfl⟩ | ⟨b, rfl | rfl⟩
  · exact C77_cylinder hp h
  · exact C77_cylinder hp h
  · exact C77_bspline hp h
  · exact C77_bspline hp h

end

/-! ### Concrete cases -/

/-- A straight edge from `a` to `b`, in binary64. -/
def Spec.edgeF (a b : V3 Float) : CurveSegment Float where
  curve := { getPoint := fun t => .ok (a + (b - a) * t), project := fun _ => .ok 0 }
  parameterRange := (0, 1)
  tolerance := 0.001
  parameterDivision := 10

def Spec.edgeLoopF (l : List (V3 Float)) : EdgeLoop Float := ⟨(Spec.loopEdges l).map fun e => Spec.edgeF e.1 e.2⟩

def Spec.oracleF : TrimOracle Float where
  rnd _ _ _ := 0.5
  divFuel := 10
  bs := linSearch
  earFuel := 100
  pick := fun l => (pickMax l).map Prod.fst
  innerFuel := 100
  meshFuel := 1000
  boundWritable := true

/-- The unit cylinder around the `z` axis. -/
def Spec.zCylinder : Cylinder Float := ⟨0, ⟨0, 0, 1⟩, ⟨1, 0, 0⟩, 1⟩

/-- A triangle with corners on the unit cylinder. -/
def Spec.wedge : List (V3 Float) := [⟨1, 0, 0⟩, ⟨0, 1, 0⟩, ⟨-1, 0, 1⟩]

theorem ringDistance_keys {F : Type} [Add F] [Sub F] [Mul F] [Div F] [Neg F] [Zero F] [One F] [NatCast F] [LT F]
    [DecidableLT F] [LE F] [DecidableLE F] [Env F] [Trig F] (c : Cylinder F) (vs : List (V3 F)) :
    c.ringDistance vs = ((getMinMaxByKey (vs.map fun v => (v - c.origin).dot c.axis) id).2
      - (getMinMaxByKey (vs.map fun v => (v - c.origin).dot c.axis) id).1) * (Nat.cast 2 : F) := by
  unfold Cylinder.ringDistance getMinMaxByKey
  simp only [List.foldl_map]
  rfl

/-- The mesh of `C73_reversed`. -/
theorem wedge_trim [Trig Float] :
    collectLoops Spec.oracleF [Spec.edgeLoopF Spec.wedge] = .ok (Spec.wedge, [0, 3]) ∧
    Spec.zCylinder.trim Spec.oracleF [Spec.edgeLoopF Spec.wedge] = .ok ⟨Spec.wedge, [], [1, 0, 2]⟩ := by
  have h1 : collectLoops Spec.oracleF [Spec.edgeLoopF Spec.wedge] = .ok (Spec.wedge, [0, 3]) := by decide +kernel
  refine ⟨h1, ?_⟩
  have h2 : Spec.zCylinder.ringDistance Spec.wedge = 2 := by
    rw [ringDistance_keys]
    decide +kernel
  have h3 : (Spec.wedge.map fun v => Spec.zCylinder.projectToRing v 2) = [⟨1, 0⟩, ⟨0, 1⟩, ⟨-2, 0⟩] := by
    unfold Cylinder.projectToRing
    decide +kernel
  have h4 : isPolygonCcw ([⟨1, 0⟩, ⟨0, 1⟩, ⟨-2, 0⟩] : List (V2 Float)) = .ok true := by decide +kernel
  have h5 : generateTriangularMesh Spec.oracleF.pick Spec.oracleF.innerFuel Spec.oracleF.meshFuel
      ([⟨1, 0⟩, ⟨0, 1⟩, ⟨-2, 0⟩] : List (V2 Float)) [0, 3] = .ok ([⟨1, 0⟩, ⟨0, 1⟩, ⟨-2, 0⟩], [2, 0, 1]) := by
    decide +kernel
  unfold Cylinder.trim
  rw [h1, ok_bind]
  simp only [h2, h3]
  unfold frontTrim
  simp only [List.length_cons, List.length_nil, if_true, h4, ok_bind, h5]
  rfl

/-- **C73**, finding: a single loop on a cylinder comes out reversed.  The loop runs 0, 1, 2; the only triangle is
1, 0, 2. -/
theorem C73_reversed [Trig Float] :
    ∃ mesh, Spec.zCylinder.trim Spec.oracleF [Spec.edgeLoopF Spec.wedge] = .ok mesh ∧
      collectLoops Spec.oracleF [Spec.edgeLoopF Spec.wedge] = .ok (Spec.wedge, [0, 3]) ∧
      ∃ φ : V3 Float → V3 Float → ℤ, Spec.Skew φ ∧ Spec.weight φ (Spec.loopEdges Spec.wedge) = 1 ∧
        Spec.weight φ (Spec.meshEdges mesh) = -1 := by
  refine ⟨_, wedge_trim.2, wedge_trim.1,
    fun a b => (if (a, b) = (⟨1, 0, 0⟩, ⟨0, 1, 0⟩) then 1 else 0) - (if (b, a) = (⟨1, 0, 0⟩, ⟨0, 1, 0⟩) then 1 else 0),
    ⟨fun a b => by omega, fun a => by omega⟩, ?_, ?_⟩
  · decide +kernel
  · decide +kernel

/-- Non-vacuity of **C75**: an L-shaped polygon is cut into four triangles with its boundary. -/
theorem C75_example :
    triangulatePolygon linSearch 10 ([⟨0, 0⟩, ⟨4, 0⟩, ⟨4, 1⟩, ⟨1, 1⟩, ⟨1, 4⟩, ⟨0, 4⟩] : List (V2 ℚ)) [0, 1, 2, 3, 4, 5] [3]
      = .ok [0, 1, 2, 3, 4, 5, 0, 2, 3, 3, 5, 0] := by decide +kernel

/-- Non-vacuity of **C76** and **C77**: the oracle satisfies its hypothesis and trimming returns. -/
theorem C76_example [Trig Float] : PickOk Spec.oracleF.pick ∧
    ∃ mesh, Spec.zCylinder.trim Spec.oracleF [Spec.edgeLoopF Spec.wedge] = .ok mesh ∧ mesh.triangles = [1, 0, 2] :=
  ⟨pickMax_ok, _, wedge_trim.2, rfl⟩

/-- Non-vacuity of **C73**'s hypotheses on planes: the L-shaped face of `C74_example`, and the square fan. -/
theorem C73_example :
    ((Spec.xyPlane.trim Spec.oracle [Spec.edgeLoop [⟨0, 0, 0⟩, ⟨4, 0, 0⟩, ⟨4, 1, 0⟩, ⟨1, 1, 0⟩, ⟨1, 4, 0⟩, ⟨0, 4, 0⟩]]).map
      (·.triangles)) = .ok [0, 1, 2, 3, 4, 5, 0, 2, 3, 3, 5, 0] ∧
    ((Spec.xyPlane.trim Spec.oracle [Spec.edgeLoop [⟨0, 0, 0⟩, ⟨4, 0, 0⟩, ⟨4, 4, 0⟩, ⟨0, 4, 0⟩]]).map
      (·.vertices.length)) = .ok 5 := by decide +kernel

end Geom3d
