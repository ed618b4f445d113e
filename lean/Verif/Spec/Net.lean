import Verif.Model.Mesh

/-! Control nets as matrices: entries, rows and columns of a row-major grid, written without reference to the
evaluation code. -/

namespace Geom3d.Spec

/-- The invariant of `grid::Grid`: as many elements as rows times columns. -/
def NetOk {α : Type} (g : Grid α) : Prop := g.data.length = g.rows * g.cols

/-- Entry `(i, j)` of a net. -/
def entry {P : Type} [Zero P] (g : Grid P) (i j : Nat) : P := g.data.getD (i * g.cols + j) 0

/-- Column `j`: the points with varying first index. -/
def column {P : Type} [Zero P] (g : Grid P) (j : Nat) : List P := (List.range g.rows).map fun i => entry g i j

/-- Row `i`: the points with varying second index. -/
def row {P : Type} [Zero P] (g : Grid P) (i : Nat) : List P := (List.range g.cols).map fun j => entry g i j

/-- All columns. -/
def columns {P : Type} [Zero P] (g : Grid P) : List (List P) := (List.range g.cols).map (column g)

/-- All rows. -/
def netRows {P : Type} [Zero P] (g : Grid P) : List (List P) := (List.range g.rows).map (row g)

/-- The block of `m × n` entries starting at `(i, j)`. -/
def block {P : Type} [Zero P] (g : Grid P) (i j m n : Nat) : List P :=
  (List.range m).flatMap fun a => (List.range n).map fun b => entry g (i + a) (j + b)

end Geom3d.Spec
