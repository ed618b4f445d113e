import Verif.Model.Base

/-!
# Model of `src/mesh.rs` and of the `grid` crate

`TriangleMesh.triangles` is a `Vec<u32>`; indices are natural numbers, `as u32` is reduction modulo `2^32`
(`asU32`), and `u32` addition panics on overflow (`uadd32`, debug profile).
-/

namespace Geom3d

/-- `x as u32` for an unsigned `x`. -/
def asU32 (n : Nat) : Nat := n % 2 ^ 32

/-- `a + b` on `u32`: panics on overflow (debug profile). -/
def uadd32 (a b : Nat) : Res Nat := if a + b < 2 ^ 32 then .ok (a + b) else .error .overflow

/-- `slice::chunks(3)`. -/
def chunks3 {α : Type} : List α → List (List α)
  | a :: b :: c :: t => [a, b, c] :: chunks3 t
  | [] => []
  | l => [l]

/-! ### `grid::Grid` (crate `grid` 0.4): row-major -/

/-- `grid::Grid<T>`. -/
structure Grid (α : Type) where
  data : List α
  rows : Nat
  cols : Nat
  deriving DecidableEq, Repr

/-- `Grid::from_vec`: panics on an empty vector with `cols != 0` and when the length is not a multiple of
`cols`. -/
def Grid.fromVec {α : Type} (vec : List α) (cols : Nat) : Res (Grid α) :=
  if vec.length = 0 then
    if cols = 0 then .ok ⟨[], 0, 0⟩ else .error .assertion
  else if cols = 0 then .error .overflow
  else if vec.length % cols ≠ 0 then .error .assertion
  else .ok ⟨vec, vec.length / cols, cols⟩

/-- `grid[i][j]`: row slice, then element. -/
def Grid.at {α : Type} (g : Grid α) (i j : Nat) : Res α := do
  let row ← (if i < g.rows then slice g.data (i * g.cols) (i * g.cols + g.cols) else .error .index : Res (List α))
  idx row j

/-- The rows of a grid. -/
def Grid.rowList {α : Type} (g : Grid α) : List (List α) :=
  (List.range g.rows).map fun i => (g.data.drop (i * g.cols)).take g.cols

/-! ### `TriangleMesh` -/

/-- `TriangleMesh` (`src/mesh.rs:4-9`). -/
structure TriangleMesh (F : Type) where
  vertices : List (V3 F)
  normals : List (V3 F)
  triangles : List Nat
  deriving DecidableEq, Repr

/-- `TriangleMesh::new` (`src/mesh.rs:12-18`). -/
def TriangleMesh.new {F : Type} : TriangleMesh F := ⟨[], [], []⟩

/-- `TriangleMesh::triangle_count` (`src/mesh.rs:20-22`). -/
def TriangleMesh.triangleCount {F : Type} (m : TriangleMesh F) : Nat := m.triangles.length / 3

/-- The closure `|t| [t[2], t[1], t[0]]` (`src/mesh.rs:28`). -/
def reverseChunk (t : List Nat) : Res (List Nat) := do
  let c ← idx t 2
  let b ← idx t 1
  let a ← idx t 0
  pure [c, b, a]

/-- `TriangleMesh::reverse_winding_direction` (`src/mesh.rs:24-36`). -/
def TriangleMesh.reverseWindingDirection {F : Type} (m : TriangleMesh F) : Res (TriangleMesh F) := do
  let chunks ← (chunks3 m.triangles).mapM reverseChunk
  pure { m with triangles := chunks.flatten }

/-- The two triangles of the cell `(row, col)` (`src/mesh.rs:95-103`). -/
def cellTriangles (cols row col : Nat) : List Nat :=
  [asU32 (row * cols + col), asU32 ((row + 1) * cols + col), asU32 (row * cols + col + 1),
   asU32 (row * cols + col + 1), asU32 ((row + 1) * cols + col), asU32 ((row + 1) * cols + col + 1)]

/-- `create_triangles` (`src/mesh.rs:90-106`). -/
def createTriangles {α : Type} (g : Grid α) : Res (List Nat) := do
  let r ← usub g.rows 1
  let c ← usub g.cols 1
  forRange 0 r [] fun triangles row =>
    forRange 0 c triangles fun triangles col => pure (triangles ++ cellTriangles g.cols row col)

/-! ### OBJ output -/

/-- A line of an OBJ file: `v x y z`, `vn x y z`, or `f` with its corners `a` or `a//n`. -/
inductive ObjLine (F : Type) where
  | v (p : V3 F)
  | vn (n : V3 F)
  | f (corners : List (Nat × Option Nat))
  deriving DecidableEq, Repr

/-- One corner of a face line (`src/mesh.rs:61-63`, `:71-76`): `{}` or `{}//{}`. -/
def objCorner (normals : Bool) (vertexStart normalStart : Nat) (index : Nat) : Res (Nat × Option Nat) := do
  let v ← uadd32 index vertexStart
  if normals then do
    let n ← uadd32 index normalStart
    pure (v, some n)
  else pure (v, none)

/-- One face line (`src/mesh.rs:57-64`, `:67-77`). -/
def objFace {F : Type} (normals : Bool) (vertexStart normalStart : Nat) (t : List Nat) : Res (ObjLine F) := do
  let a ← idx t 0
  let ca ← objCorner normals vertexStart normalStart a
  let b ← idx t 1
  let cb ← objCorner normals vertexStart normalStart b
  let c ← idx t 2
  let cc ← objCorner normals vertexStart normalStart c
  pure (.f [ca, cb, cc])

/-- `TriangleMesh::write_obj` (`src/mesh.rs:38-81`): the lines written. -/
def TriangleMesh.writeObj {F : Type} (m : TriangleMesh F) (vertexStart normalStart : Nat) :
    Res (List (ObjLine F)) := do
  let faces ← (chunks3 m.triangles).mapM (objFace (!m.normals.isEmpty) vertexStart normalStart)
  pure (m.vertices.map .v ++ m.normals.map .vn ++ faces)

/-- `Model::save_as_obj` (`src/model.rs:66-79`) on the meshes of its faces: the lines written.  State of the
loop is `(lines, vertex_start, normal_start)`. -/
def saveAsObj {F : Type} (meshes : List (TriangleMesh F)) : Res (List (ObjLine F)) := do
  let st ← meshes.foldlM (fun (st : List (ObjLine F) × Nat × Nat) mesh => do
    let lines ← mesh.writeObj st.2.1 st.2.2
    let vertexStart ← uadd32 st.2.1 (asU32 mesh.vertices.length)
    let normalStart ← uadd32 st.2.2 (asU32 mesh.normals.length)
    pure (st.1 ++ lines, vertexStart, normalStart)) ([], 1, 1)
  pure st.1

end Geom3d
