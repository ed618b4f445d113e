import Verif.Model.Examples
import Verif.Props.Files
import Verif.Props.Face
import Verif.Props.Stl
import Verif.Props.EarArea
import Verif.Lemmas.F64Net
import Verif.Lemmas.F64Bernstein
import Verif.Props.SurfaceDeriv
import Verif.Props.UniformClamped

/-! # C115: the example programs, from the patch file to the STL and OBJ files -/

set_option linter.unusedSectionVars false

namespace Geom3d
open Spec

/-- A triangle by its corners. -/
abbrev Spec.Tri (F : Type) := V3 F × V3 F × V3 F

/-- The triangles of a grid of points `q i j`, `i ≤ a`, `j ≤ b`: two for every cell, the cells row by row. -/
def Spec.gridTriangles {F : Type} (q : Nat → Nat → V3 F) (a b : Nat) : List (Tri F) :=
  (List.range a).flatMap fun i => (List.range b).flatMap fun j =>
    [(q i j, q (i + 1) j, q i (j + 1)), (q i (j + 1), q (i + 1) j, q (i + 1) (j + 1))]

/-- The face of an OBJ file that says the triangle `t`, without normals. -/
def Spec.plainFace {F : Type} (t : Tri F) : List (Option (V3 F) × Option (V3 F)) :=
  [(some t.1, none), (some t.2.1, none), (some t.2.2, none)]

/-- The corners of a face of an OBJ file. -/
def Spec.facePoints {F : Type} (f : List (Option (V3 F) × Option (V3 F))) : List (Option (V3 F)) := f.map Prod.fst

section
variable {F : Type} [Add F] [Sub F] [Mul F] [Div F] [Neg F] [Zero F] [One F] [NatCast F] [LT F] [DecidableLT F]
  [LE F] [DecidableLE F] [Env F]

theorem option_mapM_some {α β : Type} {f : α → Option β} {g : α → β} {l : List α} (h : ∀ a ∈ l, f a = some (g a)) :
    l.mapM f = some (l.map g) := by
  induction l with
  | nil => rfl
  | cons a l ih =>
    rw [List.mapM_cons, h a (by simp), ih fun x hx => h x (by simp [hx])]
    rfl

theorem triples_cells {β : Type} (l : List β) (f : β → List Nat) (hf : ∀ b ∈ l, (f b).length = 6) :
    triples (l.flatMap f) = l.flatMap fun b => triples (f b) := by
  induction l with
  | nil => rfl
  | cons b l ih =>
    rw [List.flatMap_cons, List.flatMap_cons, triples_append (k := 2) (by rw [hf b (by simp)]),
      ih fun x hx => hf x (by simp [hx])]

/-- The corners of the mesh of a grid. -/
theorem corners_grid {a b : Nat} (hsz : (a + 1) * (b + 1) ≤ 2 ^ 32) {q : Nat → Nat → V3 F} {mesh : TriangleMesh F}
    (hv : ∀ i j, i ≤ a → j ≤ b → mesh.vertices[i * (b + 1) + j]? = some (q i j))
    (hl : mesh.triangles.length = 3 * (2 * (a * b)))
    (ht : createTriangles (⟨mesh.vertices, a + 1, b + 1⟩ : Grid (V3 F)) = .ok mesh.triangles) :
    corners mesh = some (gridTriangles q a b) := by
  unfold corners
  rw [if_pos (by omega)]
  rw [createTriangles_eq (by simp) (by simp), Except.ok.injEq] at ht
  simp only [] at ht
  have hT : triples mesh.triangles = (cells (a + 1) (b + 1)).flatMap fun p =>
      [(gridId (b + 1) p, gridId (b + 1) (p.1 + 1, p.2), gridId (b + 1) (p.1, p.2 + 1)),
       (gridId (b + 1) (p.1, p.2 + 1), gridId (b + 1) (p.1 + 1, p.2), gridId (b + 1) (p.1 + 1, p.2 + 1))] := by
    rw [← ht, triples_cells _ _ fun p _ => rfl]
    apply List.flatMap_congr
    intro p hp
    rw [cellTriangles_eq hsz hp]
    rfl
  have hd : ∀ i j, j ≤ b → q ((i * (b + 1) + j) / (b + 1)) ((i * (b + 1) + j) % (b + 1)) = q i j := by
    intro i j hj
    rw [Nat.add_comm, Nat.mul_comm, Nat.add_mul_div_left _ _ (by omega), Nat.add_mul_mod_self_left,
      Nat.div_eq_of_lt (by omega), Nat.mod_eq_of_lt (by omega), Nat.zero_add]
  set V : Nat → V3 F := fun k => q (k / (b + 1)) (k % (b + 1)) with hV
  have hid : ∀ i j, i ≤ a → j ≤ b → mesh.vertices[gridId (b + 1) (i, j)]? = some (V (gridId (b + 1) (i, j))) := by
    intro i j hi hj
    rw [gridId, hv i j hi hj, hV]
    simp only []
    rw [hd i j hj]
  rw [option_mapM_some (g := fun t => (V t.1, V t.2.1, V t.2.2)), hT]
  · congr 1
    unfold cells gridTriangles
    rw [List.map_flatMap, List.flatMap_assoc]
    simp only [Nat.add_sub_cancel, List.flatMap_map]
    apply List.flatMap_congr
    intro i hi
    apply List.flatMap_congr
    intro j hj
    rw [List.mem_range] at hi hj
    simp only [List.map_cons, List.map_nil, gridId, hV]
    rw [hd i j (by omega), hd (i + 1) j (by omega), hd i (j + 1) (by omega), hd (i + 1) (j + 1) (by omega)]
  · intro t htm
    rw [hT, List.mem_flatMap] at htm
    obtain ⟨p, hp, htm⟩ := htm
    rw [mem_cells] at hp
    obtain ⟨i, j⟩ := p
    simp only [List.mem_cons, List.not_mem_nil, or_false] at htm hp
    have e1 := hid i j (by omega) (by omega)
    have e2 := hid (i + 1) j (by omega) (by omega)
    have e3 := hid i (j + 1) (by omega) (by omega)
    have e4 := hid (i + 1) (j + 1) (by omega) (by omega)
    rcases htm with rfl | rfl
    · simp only [e1, e2, e3]; rfl
    · simp only [e2, e3, e4]; rfl

/-- A patch that can be evaluated: the points of its grid are `q i j`, and there are no normals or one for each point. -/
structure Spec.Evaluates (p : SurfacePatch F) (q : Nat → Nat → V3 F) : Prop where
  points : ∀ us vs, uniformDivide p.parameterRange.1 p.parameterDivision.1 = .ok us →
    uniformDivide p.parameterRange.2 p.parameterDivision.2 = .ok vs → ∀ i j u v, us[i]? = some u → vs[j]? = some v →
      p.surface.getPoint u v = .ok (q i j)
  normals : ∀ us vs, uniformDivide p.parameterRange.1 p.parameterDivision.1 = .ok us →
    uniformDivide p.parameterRange.2 p.parameterDivision.2 = .ok vs → ∃ N, p.surface.getNormals (gridParams us vs) = .ok N ∧
      (N = [] ∨ N.length = (gridParams us vs).length)

theorem patch_mesh {p : SurfacePatch F} {a b : Nat} (hd : p.parameterDivision = (a, b)) (ha : 1 ≤ a) (hb : 1 ≤ b)
    (hsz : (a + 1) * (b + 1) ≤ 2 ^ 32) {q : Nat → Nat → V3 F} (hq : Evaluates p q) :
    ∃ mesh, p.getTriangleMesh = .ok mesh ∧ ValidMesh mesh ∧ mesh.vertices.length = (a + 1) * (b + 1) ∧
      corners mesh = some (gridTriangles q a b) ∧
      ((∀ ps, p.surface.getNormals ps = .ok []) → mesh.normals = []) := by
  obtain ⟨us, h1, hul, -⟩ := C28_ends p.parameterRange.1 (show 1 ≤ p.parameterDivision.1 by rw [hd]; exact ha)
  obtain ⟨vs, h2, hvl, -⟩ := C28_ends p.parameterRange.2 (show 1 ≤ p.parameterDivision.2 by rw [hd]; exact hb)
  have hpts := hq.points us vs h1 h2
  obtain ⟨pts, h3, hpts'⟩ := mapM_ok (f := fun r : V2 F => p.surface.getPoint r.x r.y) (P := fun _ _ => True)
    (l := gridParams us vs) (fun r hr => by
      simp only [gridParams, List.mem_flatMap, List.mem_map] at hr
      obtain ⟨u, hu, v, hv, rfl⟩ := hr
      obtain ⟨i, hi, rfl⟩ := List.getElem_of_mem hu
      obtain ⟨j, hj, rfl⟩ := List.getElem_of_mem hv
      exact ⟨_, hpts i j _ _ (List.getElem?_eq_getElem hi) (List.getElem?_eq_getElem hj), trivial⟩)
  obtain ⟨N, h4, hN⟩ := hq.normals us vs h1 h2
  have hlen : pts.length = (p.parameterDivision.1 + 1) * (p.parameterDivision.2 + 1) := by
    rw [← hpts'.length_eq, length_gridParams, hul, hvl]
  have hNl : N = [] ∨ N.length = (p.parameterDivision.1 + 1) * (p.parameterDivision.2 + 1) := by
    rcases hN with h | h
    · exact Or.inl h
    · exact Or.inr (by rw [h, length_gridParams, hul, hvl])
  obtain ⟨N', h5, hN'⟩ : ∃ N', repairNormals (p.parameterDivision.1 + 1) (p.parameterDivision.2 + 1) N = .ok N' ∧
      ((N = [] → N' = []) ∧ (N' = [] ∨ N'.length = (p.parameterDivision.1 + 1) * (p.parameterDivision.2 + 1))) := by
    rcases hNl with rfl | hl
    · exact ⟨[], C45_empty _ _, fun _ => rfl, Or.inl rfl⟩
    · obtain ⟨N', h, h'⟩ := C45_repaired hl
      refine ⟨N', h, ?_, Or.inr (by rw [← hl]; exact h'.1)⟩
      rintro rfl
      rw [C45_empty] at h
      cases h; rfl
  have hok : ∃ mesh, p.getTriangleMesh = .ok mesh ∧ mesh.normals = N' := by
    unfold SurfacePatch.getTriangleMesh SurfacePatch.getPoints
    simp only [h1, ok_bind, h2, h3, h4, fromVec_ok hlen, h5]
    rw [createTriangles_eq (by simp) (by simp), ok_bind]
    exact ⟨_, rfl, rfl⟩
  obtain ⟨mesh, hm, hmn⟩ := hok
  obtain ⟨-, -, hvl', htl, -, hti⟩ := C44_mesh hm hd
  obtain ⟨us', vs', N'', hs, -, hT, -, -⟩ := getTriangleMesh_eq_ok hm
  rw [hd] at hs hT
  have hu' : us' = us := by have := hs.usDef; rw [hd] at h1; rw [h1] at this; cases this; rfl
  have hv' : vs' = vs := by have := hs.vsDef; rw [hd] at h2; rw [h2] at this; cases this; rfl
  rw [hu', hv'] at hs
  rw [hd] at hul hvl hN'
  refine ⟨mesh, hm, ⟨by omega, hti hsz, ?_⟩, hvl', ?_, ?_⟩
  · rw [hmn, hvl']; exact hN'.2
  · refine corners_grid hsz ?_ htl hT
    intro i j hi hj
    simp only [] at hul hvl
    have hi' : i < us.length := by omega
    have hj' : j < vs.length := by omega
    obtain ⟨r, hr2, hr1⟩ := hs.at_ i j _ _ (List.getElem?_eq_getElem hi') (List.getElem?_eq_getElem hj')
    have := hpts i j _ _ (List.getElem?_eq_getElem hi') (List.getElem?_eq_getElem hj')
    rw [hr2] at this
    cases this
    exact hr1
  · intro hno
    rw [hmn]
    apply hN'.1
    rw [hno] at h4
    cases h4; rfl

theorem meshFaces_points {m : TriangleMesh F} {cs : List (Tri F)} (h : corners m = some cs) :
    (meshFaces m).map facePoints = cs.map (fun t => facePoints (plainFace t)) ∧
    (m.normals = [] → meshFaces m = cs.map plainFace) := by
  unfold corners at h
  split at h
  · unfold meshFaces
    generalize triples m.triangles = l at h ⊢
    induction l generalizing cs with
    | nil =>
      rw [List.mapM_nil] at h
      cases h
      simp
    | cons t l ih =>
      rw [List.mapM_cons] at h
      simp only [Option.bind_eq_bind, Option.bind_eq_some_iff, Option.pure_def, Option.some.injEq] at h
      obtain ⟨c, ⟨x, hx, y, hy, z, hz, rfl⟩, cs', hcs, rfl⟩ := h
      obtain ⟨i1, i2⟩ := ih (by simpa using hcs)
      refine ⟨?_, ?_⟩
      · rw [List.map_cons, List.map_cons, List.map_cons, i1]
        simp [facePoints, plainFace, hx, hy, hz]
      · intro hn
        rw [List.map_cons, List.map_cons, i2 hn]
        simp [plainFace, hx, hy, hz, hn]
  · cases h

theorem length_gridTriangles (q : Nat → Nat → V3 F) (a b : Nat) : (gridTriangles q a b).length = 2 * (a * b) := by
  unfold gridTriangles
  simp [List.length_flatMap]
  ring

/-- The meshes of evaluated patches. -/
theorem patches_meshes {ps : List (SurfacePatch F)} {a b : Nat} (ha : 1 ≤ a) (hb : 1 ≤ b)
    (hsz : (a + 1) * (b + 1) ≤ 2 ^ 32) {qs : List (Nat → Nat → V3 F)}
    (h : List.Forall₂ (fun p q => p.parameterDivision = (a, b) ∧ Evaluates p q) ps qs) :
    ∃ ms, ps.map SurfacePatch.getTriangleMesh = ms.map .ok ∧ ps.mapM SurfacePatch.getTriangleMesh = .ok ms ∧
      (∀ m ∈ ms, ValidMesh m) ∧ (ms.map fun m => m.vertices.length).sum = ps.length * ((a + 1) * (b + 1)) ∧
      ms.mapM corners = some (qs.map fun q => gridTriangles q a b) ∧
      ((∀ p ∈ ps, ∀ l, p.surface.getNormals l = .ok []) → ∀ m ∈ ms, m.normals = []) := by
  induction h with
  | nil => exact ⟨[], rfl, rfl, by simp, by simp, rfl, by simp⟩
  | @cons p q ps qs hp _ ih =>
    obtain ⟨ms, h1, h2, h3, h4, h5, h6⟩ := ih
    obtain ⟨m, g1, g2, g3, g4, g5⟩ := patch_mesh hp.1 ha hb hsz hp.2
    refine ⟨m :: ms, by simp [g1, h1], ?_, ?_, ?_, ?_, ?_⟩
    · rw [mapM_cons, g1, h2]; rfl
    · intro m' hm'
      rcases List.mem_cons.1 hm' with rfl | hm'
      · exact g2
      · exact h3 _ hm'
    · rw [List.map_cons, List.sum_cons, h4, g3, List.length_cons]; ring
    · rw [List.mapM_cons, g4, h5]; rfl
    · intro hno m' hm'
      rcases List.mem_cons.1 hm' with rfl | hm'
      · exact g5 (hno p (by simp))
      · exact h6 (fun p' hp' => hno p' (by simp [hp'])) _ hm'

/-- **C115**, the STL file of patches that can be evaluated: decoding it returns the triangles of all grids in order. -/
theorem C115_stl (f32 : F → UInt32) (stem : List Char) {ps : List (SurfacePatch F)} {a b : Nat} (ha : 1 ≤ a) (hb : 1 ≤ b)
    {qs : List (Nat → Nat → V3 F)}
    (h : List.Forall₂ (fun p q => p.parameterDivision = (a, b) ∧ Evaluates p q) ps qs)
    (hn : 2 * (ps.length * ((a + 1) * (b + 1))) < 2 ^ 32) (hsz : (a + 1) * (b + 1) ≤ 2 ^ 32) :
    ∃ bytes, stlFile f32 stem ps = .ok bytes ∧ decodeStl bytes
      = some ((qs.flatMap fun q => gridTriangles q a b).map fun t => (stlWords f32 t, [0, 0])) := by
  obtain ⟨ms, h1, -, -, -, h5, -⟩ := patches_meshes ha hb hsz h
  obtain ⟨d1, -, d3⟩ := C49_decode f32 stem h5 (by
    have : ∀ l : List (Nat → Nat → V3 F), (l.map fun q => gridTriangles q a b).flatten.length = 2 * (l.length * (a * b)) := by
      intro l
      induction l with
      | nil => simp
      | cons q l ih =>
        rw [List.map_cons, List.flatten_cons, List.length_append, ih, length_gridTriangles, List.length_cons]; ring
    rw [this, ← h.length_eq]
    refine lt_of_le_of_lt ?_ hn
    gcongr <;> omega)
  refine ⟨final (saveAsStl f32 (some stem) (ms.map .ok)).ops, ?_, ?_⟩
  · unfold stlFile
    simp only [h1, d1, ok_bind, pure_eq_ok]
    rfl
  · rw [List.flatMap_def]
    exact d3

/-- **C115**, the OBJ file: reading it returns the same triangles in the same order, and without normals if the surfaces
supply none. -/
theorem C115_obj {ps : List (SurfacePatch F)} {a b : Nat} (ha : 1 ≤ a) (hb : 1 ≤ b)
    {qs : List (Nat → Nat → V3 F)}
    (h : List.Forall₂ (fun p q => p.parameterDivision = (a, b) ∧ Evaluates p q) ps qs)
    (hn : ps.length * ((a + 1) * (b + 1)) + 1 < 2 ^ 32) (hsz : (a + 1) * (b + 1) ≤ 2 ^ 32) :
    ∃ lines, objFile ps = .ok lines ∧
      (objRead lines).faces.map facePoints
        = (qs.flatMap fun q => gridTriangles q a b).map (fun t => facePoints (plainFace t)) ∧
      ((∀ p ∈ ps, ∀ l, p.surface.getNormals l = .ok []) →
        (objRead lines).faces = (qs.flatMap fun q => gridTriangles q a b).map plainFace ∧ (objRead lines).ns = []) := by
  obtain ⟨ms, -, h2, h3, h4, h5, h6⟩ := patches_meshes ha hb hsz h
  obtain ⟨lines, e1, e2, -, e4⟩ := C48_obj ms h3 (by rw [h4]; exact hn)
  have key : ∀ (ms : List (TriangleMesh F)) (css : List (List (Tri F))), ms.mapM corners = some css →
      (ms.flatMap meshFaces).map facePoints = css.flatten.map (fun t => facePoints (plainFace t)) ∧
      ((∀ m ∈ ms, m.normals = []) → ms.flatMap meshFaces = css.flatten.map plainFace) := by
    intro ms
    induction ms with
    | nil => intro css h; rw [List.mapM_nil] at h; cases h; simp
    | cons m ms ih =>
      intro css h
      rw [List.mapM_cons] at h
      simp only [Option.bind_eq_bind, Option.bind_eq_some_iff, Option.pure_def, Option.some.injEq] at h
      obtain ⟨c, hc, cs, hcs, rfl⟩ := h
      obtain ⟨i1, i2⟩ := ih cs hcs
      obtain ⟨j1, j2⟩ := meshFaces_points hc
      refine ⟨?_, ?_⟩
      · rw [List.flatMap_cons, List.map_append, i1, j1, List.flatten_cons, List.map_append]
      · intro hno
        rw [List.flatMap_cons, i2 fun m' hm' => hno m' (by simp [hm']), j2 (hno m (by simp)), List.flatten_cons,
          List.map_append]
  obtain ⟨k1, k2⟩ := key ms _ h5
  refine ⟨lines, ?_, ?_, ?_⟩
  · unfold objFile
    rw [h2, ok_bind, e1]
  · rw [e2, k1, List.flatMap_def]
  · intro hno
    refine ⟨by rw [e2, k2 (h6 hno), List.flatMap_def], ?_⟩
    rw [e4, List.flatMap_eq_nil_iff]
    exact h6 hno

end

/-! ### `examples/bezier.rs` -/

section
variable {F τ : Type} [Add F] [Sub F] [Mul F] [Div F] [Neg F] [Zero F] [One F] [NatCast F] [LT F] [DecidableLT F]
  [LE F] [DecidableLE F] [Env F]

theorem bezier_patches {parseN : τ → Option Nat} {parseF : τ → Option F} {showN : Nat → τ} {showF : F → τ}
    (hN : ∀ k, parseN (showN k) = some k) (hF : ∀ x, parseF (showF x) = some x) {patches : List (BptPatch F)}
    (h : patches ≠ []) (ho : ∀ p ∈ patches, 1 ≤ p.m ∧ 1 ≤ p.n) {a b : Nat} :
    loadTeapot BezierSurface.surface BezierSurface.new parseN parseF (a, b) (bptFile showN showF patches)
      = .ok (patches.map fun p => SurfacePatch.mk (BezierSurface.surface (F := F) ⟨gridOf (p.m + 1) (p.n + 1) p.P⟩)
        ((0, 1), (0, 1)) (a, b)) := by
  unfold loadTeapot
  rw [C105_bezier hN hF h ho, ok_bind, List.map_map]
  rfl

/-- Both files, from the points of the grids. -/
theorem bezier_files {parseN : τ → Option Nat} {parseF : τ → Option F} {showN : Nat → τ} {showF : F → τ}
    (hN : ∀ k, parseN (showN k) = some k) (hF : ∀ x, parseF (showF x) = some x) (f32 : F → UInt32)
    {patches : List (BptPatch F)} (h : patches ≠ []) (ho : ∀ p ∈ patches, 1 ≤ p.m ∧ 1 ≤ p.n) {a b : Nat} (ha : 1 ≤ a)
    (hb : 1 ≤ b) (hn : 2 * (patches.length * ((a + 1) * (b + 1))) < 2 ^ 32) (q : BptPatch F → Nat → Nat → V3 F)
    (hq : ∀ p ∈ patches, Evaluates (SurfacePatch.mk (BezierSurface.surface (F := F) ⟨gridOf (p.m + 1) (p.n + 1) p.P⟩)
      ((0, 1), (0, 1)) (a, b)) (q p)) :
    ∃ stl obj, bezierMain parseN parseF f32 (a, b) (bptFile showN showF patches) = .ok (stl, obj) ∧
      decodeStl stl = some ((patches.flatMap fun p => gridTriangles (q p) a b).map fun t => (stlWords f32 t, [0, 0])) ∧
      (objRead obj).faces = (patches.flatMap fun p => gridTriangles (q p) a b).map plainFace ∧
      (objRead obj).ns = [] := by
  have hl : 1 ≤ patches.length := List.length_pos_iff.2 h
  have hsz : (a + 1) * (b + 1) ≤ patches.length * ((a + 1) * (b + 1)) := Nat.le_mul_of_pos_left _ hl
  have hpos : 4 ≤ (a + 1) * (b + 1) := Nat.mul_le_mul (show 2 ≤ a + 1 by omega) (show 2 ≤ b + 1 by omega)
  have hev : List.Forall₂ (fun (p : SurfacePatch F) q => p.parameterDivision = (a, b) ∧ Evaluates p q)
      (patches.map fun p => SurfacePatch.mk (BezierSurface.surface (F := F) ⟨gridOf (p.m + 1) (p.n + 1) p.P⟩)
        ((0, 1), (0, 1)) (a, b)) (patches.map q) := by
    rw [List.forall₂_map_left_iff, List.forall₂_map_right_iff, List.forall₂_same]
    intro p hp
    exact ⟨rfl, hq p hp⟩
  obtain ⟨stl, s1, s2⟩ := C115_stl f32 "teapot".toList ha hb hev (by rw [List.length_map]; exact hn) (by omega)
  obtain ⟨obj, o1, -, o3⟩ := C115_obj ha hb hev (by rw [List.length_map]; omega) (by omega)
  obtain ⟨o4, o5⟩ := o3 (by
    intro p hp l
    rw [List.mem_map] at hp
    obtain ⟨p', -, rfl⟩ := hp
    rfl)
  rw [List.flatMap_map] at s2 o4
  refine ⟨stl, obj, ?_, s2, o4, o5⟩
  unfold bezierMain
  rw [bezier_patches hN hF h ho, ok_bind, s1, ok_bind, o1]
  rfl

theorem bezierSurface_total {s : BezierSurface (V3 F)} (hg : NetOk s.controlPoints) (hr : 1 ≤ s.controlPoints.rows)
    (hc : 1 ≤ s.controlPoints.cols) (u v : F) : ∃ x, s.getPoint u v = .ok x := by
  unfold BezierSurface.getPoint
  rw [bernstein_tri _ hr, bernstein_tri _ hc]
  simp only [ok_bind]
  exact ⟨_, netSum_flat hg le_rfl le_rfl _ _⟩

/-- **C115** for every number type, binary64 included: `examples/bezier.rs` succeeds on every patch file, and the STL file
and the OBJ file hold the same triangles, those of the grids of points computed by `get_point`. -/
theorem C115_bezier_any {parseN : τ → Option Nat} {parseF : τ → Option F} {showN : Nat → τ} {showF : F → τ}
    (hN : ∀ k, parseN (showN k) = some k) (hF : ∀ x, parseF (showF x) = some x) (f32 : F → UInt32)
    {patches : List (BptPatch F)} (h : patches ≠ []) (ho : ∀ p ∈ patches, 1 ≤ p.m ∧ 1 ≤ p.n) {a b : Nat} (ha : 1 ≤ a)
    (hb : 1 ≤ b) (hn : 2 * (patches.length * ((a + 1) * (b + 1))) < 2 ^ 32) :
    ∃ us vs, uniformDivide ((0, 1) : F × F) a = .ok us ∧ uniformDivide ((0, 1) : F × F) b = .ok vs ∧
    ∃ q : BptPatch F → Nat → Nat → V3 F,
      (∀ p ∈ patches, ∀ i j u v, us[i]? = some u → vs[j]? = some v →
        (BezierSurface.mk (gridOf (p.m + 1) (p.n + 1) p.P)).getPoint u v = .ok (q p i j)) ∧
    ∃ stl obj, bezierMain parseN parseF f32 (a, b) (bptFile showN showF patches) = .ok (stl, obj) ∧
      decodeStl stl = some ((patches.flatMap fun p => gridTriangles (q p) a b).map fun t => (stlWords f32 t, [0, 0])) ∧
      (objRead obj).faces = (patches.flatMap fun p => gridTriangles (q p) a b).map plainFace ∧
      (objRead obj).ns = [] := by
  obtain ⟨us, h1, -⟩ := C28_ends ((0, 1) : F × F) ha
  obtain ⟨vs, h2, -⟩ := C28_ends ((0, 1) : F × F) hb
  have htot : ∀ (p : BptPatch F) (u v : F),
      ∃ x, (BezierSurface.mk (gridOf (p.m + 1) (p.n + 1) p.P)).getPoint u v = .ok x := fun p u v =>
    bezierSurface_total (s := ⟨gridOf (p.m + 1) (p.n + 1) p.P⟩) (netTab_ok _ _ _) (by simp [gridOf]) (by simp [gridOf]) u v
  choose x hx using htot
  have hpt : ∀ (p : BptPatch F) i j u v, us[i]? = some u → vs[j]? = some v →
      (BezierSurface.mk (gridOf (p.m + 1) (p.n + 1) p.P)).getPoint u v = .ok (x p (us.getD i 0) (vs.getD j 0)) := by
    intro p i j u v hu hv
    rw [hx, List.getD_eq_getElem?_getD, List.getD_eq_getElem?_getD, hu, hv]
    rfl
  refine ⟨us, vs, h1, h2, fun p i j => x p (us.getD i 0) (vs.getD j 0), fun p _ => hpt p,
    bezier_files hN hF f32 h ho ha hb hn _ ?_⟩
  intro p _
  refine ⟨?_, fun us vs _ _ => ⟨[], rfl, Or.inl rfl⟩⟩
  intro us' vs' h1' h2'
  rw [h1] at h1'
  rw [h2] at h2'
  cases h1'
  cases h2'
  exact hpt p

end

/-! ### In exact arithmetic -/

/-- The point of the Bézier patch with the orders and control points of `p`. -/
def Spec.BptPatch.point {K : Type} [Field K] (p : BptPatch K) (u v : K) : V3 K :=
  ∑ k ∈ Finset.range (p.m + 1), ∑ l ∈ Finset.range (p.n + 1), (bernsteinPoly p.m k u * bernsteinPoly p.n l v) • p.P k l

section
variable {K τ : Type} [Field K] [LinearOrder K] [IsStrictOrderedRing K] [Env K]

theorem unit_params {a : Nat} (ha : 1 ≤ a) {us : List K} (h : uniformDivide ((0, 1) : K × K) a = .ok us) {i : Nat} {u : K}
    (hi : us[i]? = some u) : i ≤ a ∧ u = (i : K) / (a : K) ∧ 0 ≤ u := by
  obtain ⟨l, e1, e2, e3⟩ := C28_entries ((0, 1) : K × K) ha
  rw [h] at e1
  cases e1
  have hlt : i < us.length := (List.getElem?_eq_some_iff.1 hi).1
  have := e3 i (by omega)
  rw [hi, Option.some.injEq] at this
  have e : u = (i : K) / (a : K) := by rw [this]; simp only []; ring
  exact ⟨by omega, e, by rw [e]; positivity⟩

theorem bezier_evaluates (p : BptPatch K) {a b : Nat} (ha : 1 ≤ a) (hb : 1 ≤ b) :
    Evaluates (SurfacePatch.mk (BezierSurface.surface (F := K) ⟨gridOf (p.m + 1) (p.n + 1) p.P⟩) ((0, 1), (0, 1)) (a, b))
      (fun i j => p.point ((i : K) / a) ((j : K) / b)) := by
  refine ⟨?_, fun us vs _ _ => ⟨[], rfl, Or.inl rfl⟩⟩
  intro us vs h1 h2 i j u v hu hv
  obtain ⟨-, rfl, -⟩ := unit_params ha h1 hu
  obtain ⟨-, rfl, -⟩ := unit_params hb h2 hv
  show BezierSurface.getPoint _ _ _ = _
  rw [bezierSurface_getPoint (s := ⟨gridOf (p.m + 1) (p.n + 1) p.P⟩) (netTab_ok _ _ _) (by simp [gridOf]) (by simp [gridOf])]
  congr 1
  unfold BptPatch.point
  apply Finset.sum_congr rfl
  intro k hk
  apply Finset.sum_congr rfl
  intro l hl
  simp only [gridOf, Nat.add_sub_cancel]
  rw [entry_netTab p.P (show k < p.m + 1 from Finset.mem_range.1 hk) (show l < p.n + 1 from Finset.mem_range.1 hl)]

/-- **C115** `examples/bezier.rs` on a patch file: it succeeds; the STL file decodes to the triangles whose corners are the
points of the patches at the parameters `i / a`, `j / b`, two for every cell, patch by patch and row by row, in single
precision; the OBJ file has the same triangles in the same order and no normals. -/
theorem C115_bezier {parseN : τ → Option Nat} {parseF : τ → Option K} {showN : Nat → τ} {showF : K → τ}
    (hN : ∀ k, parseN (showN k) = some k) (hF : ∀ x, parseF (showF x) = some x) (f32 : K → UInt32)
    {patches : List (BptPatch K)} (h : patches ≠ []) (ho : ∀ p ∈ patches, 1 ≤ p.m ∧ 1 ≤ p.n) {a b : Nat} (ha : 1 ≤ a)
    (hb : 1 ≤ b) (hn : 2 * (patches.length * ((a + 1) * (b + 1))) < 2 ^ 32) :
    ∃ stl obj, bezierMain parseN parseF f32 (a, b) (bptFile showN showF patches) = .ok (stl, obj) ∧
      decodeStl stl = some ((patches.flatMap fun p => gridTriangles (fun i j => p.point ((i : K) / a) ((j : K) / b)) a b).map
        fun t => (stlWords f32 t, [0, 0])) ∧
      (objRead obj).faces
        = (patches.flatMap fun p => gridTriangles (fun i j => p.point ((i : K) / a) ((j : K) / b)) a b).map plainFace ∧
      (objRead obj).ns = [] := by
  exact bezier_files hN hF f32 h ho ha hb hn _ fun p _ => bezier_evaluates p ha hb

end

/-! ### `examples/bspline.rs` -/

/-- The surface `examples/bspline.rs` builds from the patch `p` for the degrees `d`. -/
noncomputable def Spec.BptPatch.bspline (p : BptPatch ℝ) (d : Nat × Nat) : BSplineSurface ℝ (V3 ℝ) :=
  ⟨gridOf (p.m + 1) (p.n + 1) p.P, (KnotVector.uniformKnot d.1 (p.m + 1 - d.1), KnotVector.uniformKnot d.2 (p.n + 1 - d.2)), d⟩

theorem shrunk_knots {l : List ℝ} {N p : Nat} (hl : l.length = N + p + 1) (hp : 1 ≤ p) (hpN : p < N) (hs : Sorted l)
    (hc : Clamped l N p) (h0 : knot l 0 = 0) :
    ((l.take (l.length - 1)).drop 1).length = (N - 1) + (p - 1) + 1 ∧ Sorted ((l.take (l.length - 1)).drop 1) ∧
      knot ((l.take (l.length - 1)).drop 1) 0 = 0 ∧
      knot ((l.take (l.length - 1)).drop 1) 0 < knot ((l.take (l.length - 1)).drop 1) ((N - 1) + (p - 1)) := by
  have hk : ∀ j, j < N + p - 1 → knot ((l.take (l.length - 1)).drop 1) j = knot l (j + 1) := by
    intro j hj
    unfold knot
    simp only [List.getD_eq_getElem?_getD]
    rw [List.getElem?_drop, List.getElem?_take, if_pos (by omega), Nat.add_comm]
  have hm : ∀ i j, i ≤ j → j < l.length → knot l i ≤ knot l j := fun i j hij hj => hs.knot_le hij hj
  have e0 : knot l 1 = 0 := by
    refine le_antisymm ?_ (by rw [← h0]; exact hm 0 1 (by omega) (by omega))
    rw [← h0, hc.first]
    exact hm 1 p hp (by omega)
  refine ⟨by simp; omega, (hs.sublist (List.take_sublist _ _)).sublist (List.drop_sublist _ _), by rw [hk 0 (by omega), e0], ?_⟩
  rw [hk 0 (by omega), e0, hk _ (by omega), ← h0, hc.first]
  exact lt_of_lt_of_le hc.first' (hm _ _ (by omega) (by omega))

theorem bspline_normals {s : BSplineSurface ℝ (V3 ℝ)} (hs : s.Valid) (hp : 1 ≤ s.degree.1) (hq : 1 ≤ s.degree.2)
    (hpr : s.degree.1 < s.controlPoints.rows) (hqc : s.degree.2 < s.controlPoints.cols)
    (hcu : Clamped s.knots.1 s.controlPoints.rows s.degree.1) (hcv : Clamped s.knots.2 s.controlPoints.cols s.degree.2)
    (hu0 : knot s.knots.1 0 = 0) (hv0 : knot s.knots.2 0 = 0) {l : List (V2 ℝ)} (hl : ∀ r ∈ l, 0 ≤ r.x ∧ 0 ≤ r.y) :
    ∃ N, s.getNormals l = .ok N ∧ N.length = l.length := by
  obtain ⟨k1, k2, k3, k4⟩ := shrunk_knots hs.lenU hp hpr hs.sortedU hcu hu0
  obtain ⟨k5, k6, k7, k8⟩ := shrunk_knots hs.lenV hq hqc hs.sortedV hcv hv0
  have hr := hs.rows
  have hc := hs.cols
  unfold BSplineSurface.getNormals
  rw [derivativeU_eq hs.net hs.lenU hp (by omega) hc hs.resolvedU, derivativeV_eq hs.net hs.lenV hq (by omega) hr hs.resolvedV]
  simp only [ok_bind]
  generalize hU : (BSplineSurface.mk _ _ (s.degree.1 - 1, s.degree.2) : BSplineSurface ℝ (V3 ℝ)) = U
  generalize hV : (BSplineSurface.mk _ _ (s.degree.1, s.degree.2 - 1) : BSplineSurface ℝ (V3 ℝ)) = V
  have vU : U.Valid := by
    rw [← hU]
    exact ⟨netTab_ok _ _ _, k1, hs.lenV, k2, hs.sortedV, resolved_real _, hs.resolvedV, k4, hs.nonconstV,
      by simp only []; omega, hc⟩
  have vV : V.Valid := by
    rw [← hV]
    exact ⟨netTab_ok _ _ _, hs.lenU, k5, hs.sortedU, k6, hs.resolvedU, resolved_real _, hs.nonconstU, k8, hr,
      by simp only []; omega⟩
  obtain ⟨N, h1, h2⟩ := mapM_ok (f := fun r : V2 ℝ => (do
      let a ← U.getPoint r.x r.y
      let b ← V.getPoint r.x r.y
      pure (a.cross b).normalize : Res (V3 ℝ))) (P := fun _ _ => True) (l := l) (by
    intro r hr
    obtain ⟨g1, g2⟩ := hl r hr
    obtain ⟨x, hx⟩ := C59_total vU (u := r.x) (v := r.y) (by rw [← hU]; exact k3.trans_le g1)
      (by rw [← hU]; exact hv0.trans_le g2)
    obtain ⟨y, hy⟩ := C59_total vV (u := r.x) (v := r.y) (by rw [← hV]; exact hu0.trans_le g1)
      (by rw [← hV]; exact k7.trans_le g2)
    exact ⟨_, by rw [hx, hy]; rfl, trivial⟩)
  exact ⟨N, h1, h2.length_eq.symm⟩

theorem bspline_evaluates (p : BptPatch ℝ) {d : Nat × Nat} (hd1 : 1 ≤ d.1) (hd2 : 1 ≤ d.2) (hb1 : d.1 < 256)
    (hb2 : d.2 < 256) (hm : d.1 ≤ p.m) (hn : d.2 ≤ p.n) {a b : Nat} (ha : 1 ≤ a) (hb : 1 ≤ b) :
    Evaluates (SurfacePatch.mk (p.bspline d).surface ((0, 1), (0, 1)) (a, b))
      (fun i j => valOf ((p.bspline d).getPoint ((i : ℝ) / a) ((j : ℝ) / b))) := by
  have hu := uniformClamped_eq (F := ℝ) (g := gridOf (p.m + 1) (p.n + 1) p.P) (degree := d)
    (show d.1 < p.m + 1 by omega) (show d.2 < p.n + 1 by omega)
  rw [Nat.mod_eq_of_lt hb1, Nat.mod_eq_of_lt hb2] at hu
  have hu : BSplineSurface.uniformClamped (F := ℝ) (gridOf (p.m + 1) (p.n + 1) p.P) d = .ok (p.bspline d) := hu
  obtain ⟨hs, e0, ed, e1, e2, -, -, c1, c2⟩ := uniformClamped_valid (K := ℝ) (netTab_ok _ _ _) hu hb1 hb2 (resolved_real _)
    (resolved_real _)
  refine ⟨?_, ?_⟩
  · intro us vs h1 h2 i j u v hu hv
    obtain ⟨-, rfl, hu0⟩ := unit_params ha h1 hu
    obtain ⟨-, rfl, hv0⟩ := unit_params hb h2 hv
    obtain ⟨x, hx⟩ := C59_total hs (e1.trans_le hu0) (e2.trans_le hv0)
    show BSplineSurface.getPoint _ _ _ = _
    rw [hx]
    rfl
  · intro us vs h1 h2
    obtain ⟨N, hN1, hN2⟩ := bspline_normals hs (by rw [ed]; exact hd1) (by rw [ed]; exact hd2)
      (by rw [ed, e0]; simp only []; omega) (by rw [ed, e0]; simp only []; omega) (by rw [ed, e0]; exact c1)
      (by rw [ed, e0]; exact c2) e1 e2 (l := gridParams us vs) (by
        intro r hr
        simp only [gridParams, List.mem_flatMap, List.mem_map] at hr
        obtain ⟨u, hu, v, hv, rfl⟩ := hr
        obtain ⟨i, hi, rfl⟩ := List.getElem_of_mem hu
        obtain ⟨j, hj, rfl⟩ := List.getElem_of_mem hv
        exact ⟨(unit_params ha h1 (List.getElem?_eq_getElem hi)).2.2, (unit_params hb h2 (List.getElem?_eq_getElem hj)).2.2⟩)
    exact ⟨N, hN1, Or.inr hN2⟩

theorem bspline_patches {τ : Type} {parseN : τ → Option Nat} {parseF : τ → Option ℝ} {showN : Nat → τ} {showF : ℝ → τ}
    (hN : ∀ k, parseN (showN k) = some k) (hF : ∀ x, parseF (showF x) = some x) {patches : List (BptPatch ℝ)}
    (h : patches ≠ []) {d : Nat × Nat} (hd : d.1 < 256 ∧ d.2 < 256) (hd1 : 1 ≤ d.1 ∧ 1 ≤ d.2)
    (ho : ∀ p ∈ patches, d.1 ≤ p.m ∧ d.2 ≤ p.n) {a b : Nat} (ha : 1 ≤ a) (hb : 1 ≤ b) :
    ∃ ps, loadTeapot BSplineSurface.surface (fun g => BSplineSurface.uniformClamped (F := ℝ) g d) parseN parseF (a, b)
        (bptFile showN showF patches) = .ok ps ∧ ps.length = patches.length ∧
      List.Forall₂ (fun (p : SurfacePatch ℝ) q => p.parameterDivision = (a, b) ∧ Evaluates p q) ps
        (patches.map fun p => fun i j => valOf ((p.bspline d).getPoint ((i : ℝ) / a) ((j : ℝ) / b))) := by
  refine ⟨patches.map fun p => SurfacePatch.mk (p.bspline d).surface ((0, 1), (0, 1)) (a, b), ?_, by simp, ?_⟩
  · unfold loadTeapot
    have e := C105_bspline hN hF h (d := d.1) (e := d.2) hd.1 hd.2 ho
    rw [show ((d.1, d.2) : Nat × Nat) = d from rfl] at e
    rw [e, ok_bind, List.map_map]
    rfl
  · rw [List.forall₂_map_left_iff, List.forall₂_map_right_iff, List.forall₂_same]
    intro p hp
    exact ⟨rfl, bspline_evaluates p hd1.1 hd1.2 hd.1 hd.2 (ho p hp).1 (ho p hp).2 ha hb⟩

/-- **C115** `examples/bspline.rs` on a patch file whose orders are at least the degrees: it succeeds, the STL file decodes
to the triangles on the points of the uniform clamped B-spline surfaces of the first degrees at `i / a`, `j / b`, the OBJ
file has the triangles on the points of those of the second degrees. -/
theorem C115_bspline {τ : Type} {parseN : τ → Option Nat} {parseF : τ → Option ℝ} {showN : Nat → τ} {showF : ℝ → τ}
    (hN : ∀ k, parseN (showN k) = some k) (hF : ∀ x, parseF (showF x) = some x) (f32 : ℝ → UInt32)
    {patches : List (BptPatch ℝ)} (h : patches ≠ []) {d d' : Nat × Nat} (hd : d.1 < 256 ∧ d.2 < 256)
    (hd1 : 1 ≤ d.1 ∧ 1 ≤ d.2) (hd' : d'.1 < 256 ∧ d'.2 < 256) (hd1' : 1 ≤ d'.1 ∧ 1 ≤ d'.2)
    (ho : ∀ p ∈ patches, d.1 ≤ p.m ∧ d.2 ≤ p.n) (ho' : ∀ p ∈ patches, d'.1 ≤ p.m ∧ d'.2 ≤ p.n) {a b : Nat} (ha : 1 ≤ a)
    (hb : 1 ≤ b) (hn : 2 * (patches.length * ((a + 1) * (b + 1))) < 2 ^ 32) :
    ∃ stl obj, bsplineMain parseN parseF f32 d d' (a, b) (bptFile showN showF patches) = .ok (stl, obj) ∧
      decodeStl stl = some ((patches.flatMap fun p =>
        gridTriangles (fun i j => valOf ((p.bspline d).getPoint ((i : ℝ) / a) ((j : ℝ) / b))) a b).map
        fun t => (stlWords f32 t, [0, 0])) ∧
      (objRead obj).faces.map facePoints = (patches.flatMap fun p =>
        gridTriangles (fun i j => valOf ((p.bspline d').getPoint ((i : ℝ) / a) ((j : ℝ) / b))) a b).map
        fun t => facePoints (plainFace t) := by
  have hl : 1 ≤ patches.length := List.length_pos_iff.2 h
  have hsz : (a + 1) * (b + 1) ≤ patches.length * ((a + 1) * (b + 1)) := Nat.le_mul_of_pos_left _ hl
  have hpos : 4 ≤ (a + 1) * (b + 1) := Nat.mul_le_mul (show 2 ≤ a + 1 by omega) (show 2 ≤ b + 1 by omega)
  obtain ⟨ps, l1, l2, l3⟩ := bspline_patches hN hF h hd hd1 ho ha hb
  obtain ⟨ps', l1', l2', l3'⟩ := bspline_patches hN hF h hd' hd1' ho' ha hb
  obtain ⟨stl, s1, s2⟩ := C115_stl f32 "teapot".toList ha hb l3 (by rw [l2]; exact hn) (by omega)
  obtain ⟨obj, o1, o2, -⟩ := C115_obj ha hb l3' (by rw [l2']; omega) (by omega)
  rw [List.flatMap_map] at s2 o2
  refine ⟨stl, obj, ?_, s2, o2⟩
  unfold bsplineMain
  rw [l1, ok_bind, s1, ok_bind, l1', ok_bind, o1]
  rfl

/-! ### `examples/convert_stp.rs` -/

/-- **C115** `examples/convert_stp.rs` on a file that says curves and faces in the supported forms, when the meshes of the
faces are valid and the paths of the curves can be drawn: an OBJ file is written exactly if there are faces and holds the
triangles of all of them in order; an SVG file is written exactly if there are curves and has one path for each. -/
theorem C115_convert {F : Type} [Add F] [Sub F] [Mul F] [Div F] [Neg F] [Zero F] [One F] [NatCast F] [LT F] [DecidableLT F]
    [LE F] [DecidableLE F] [Env F] [Trig F] {file : StepFile F} {curves : List (List (DynSegment F))}
    {faces : List (TrimmedSurface F)} (hc : List.Forall₂ (List.Forall₂ (SaysTrimmed file)) file.compositeCurves curves)
    (hf : List.Forall₂ (SaysFace file) file.advancedFaces faces) {o : Nat → TrimOracle F} {fmt : F → List Char} {fuel : Nat}
    {rnd : Nat → Nat → List Bool → F} {meshes : List (TriangleMesh F)} {paths : List (List Char)}
    (hm : List.Forall₂ (fun f m => f.1.getTriangleMesh (o f.2) = .ok m ∧ ValidMesh m) faces.zipIdx meshes)
    (hsz : (meshes.map fun m => m.vertices.length).sum + 1 < 2 ^ 32)
    (hp : List.Forall₂ (fun c d => svgData fmt fuel (rnd c.2) c.1 = .ok d) curves.zipIdx paths) :
    ∃ obj svg, convertStp o fmt fuel rnd file = .ok (obj, svg) ∧ (obj.isSome ↔ faces ≠ []) ∧ (svg.isSome ↔ curves ≠ []) ∧
      (∀ lines, obj = some lines → (objRead lines).faces = meshes.flatMap meshFaces) ∧
      (∀ ds, svg = some ds → ds = paths) := by
  obtain ⟨lines, e1, e2, -⟩ := C48_obj meshes (by
    have : ∀ {l : List (TrimmedSurface F × Nat)} {ms : List (TriangleMesh F)},
        List.Forall₂ (fun f m => f.1.getTriangleMesh (o f.2) = .ok m ∧ ValidMesh m) l ms → ∀ m ∈ ms, ValidMesh m := by
      intro l ms h
      induction h with
      | nil => simp
      | cons h _ ih =>
        intro m hm
        rcases List.mem_cons.1 hm with rfl | hm
        · exact h.2
        · exact ih _ hm
    exact this hm) hsz
  refine ⟨if 0 < faces.length then some lines else none, if 0 < curves.length then some paths else none, ?_, ?_, ?_, ?_, ?_⟩
  · unfold convertStp
    rw [C103_model hc hf, ok_bind]
    simp only []
    rw [mapM_of_forall2 (hm.imp fun _ _ h => h.1), mapM_of_forall2 hp]
    simp only [ok_bind, e1]
    split <;> split <;> rfl
  · cases faces <;> simp
  · cases curves <;> simp
  · intro l hl
    split at hl
    · cases hl; exact e2
    · cases hl
  · intro ds hl
    split at hl
    · cases hl; rfl
    · cases hl

/-- The run of the example below: the tokens are numbers, a file with one patch of orders 1, 1, divided once by twice; the
words of the STL file are thousandths. -/
def Spec.exampleRun : Res (List UInt8 × List (ObjLine ℚ)) :=
  bezierMain (fun t : ℚ => if t.den = 1 ∧ 0 ≤ t then some t.num.toNat else none) some
    (fun x => UInt32.ofNat (1000 * x).num.toNat) (1, 2) [[1], [1, 1], [0, 0, 0], [1, 0, 0], [0, 1, 0], [1, 1, 8]]

/-- Non-vacuity. -/
theorem C115_example :
    exampleRun.map (fun r => decodeStl r.1) = .ok (some [([0, 0, 0, 0, 0, 0, 1000, 0, 0, 0, 500, 0], [0, 0]),
      ([0, 0, 0, 0, 500, 0, 1000, 0, 0, 1000, 500, 4000], [0, 0]),
      ([0, 0, 0, 0, 500, 0, 1000, 500, 4000, 0, 1000, 0], [0, 0]),
      ([0, 0, 0, 0, 1000, 0, 1000, 500, 4000, 1000, 1000, 8000], [0, 0])]) ∧
    exampleRun.map (fun r => (objRead r.2).faces)
      = .ok [plainFace (⟨0, 0, 0⟩, ⟨1, 0, 0⟩, ⟨0, 1 / 2, 0⟩), plainFace (⟨0, 1 / 2, 0⟩, ⟨1, 0, 0⟩, ⟨1, 1 / 2, 4⟩),
        plainFace (⟨0, 1 / 2, 0⟩, ⟨1, 1 / 2, 4⟩, ⟨0, 1, 0⟩), plainFace (⟨0, 1, 0⟩, ⟨1, 1 / 2, 4⟩, ⟨1, 1, 8⟩)] :=
  ⟨by decide +kernel, by decide +kernel⟩

end Geom3d
