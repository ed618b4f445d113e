import Verif.Model.Step

/-!
# `save_bound_as_obj` and the patch file loader of the examples

The lines of `bound.obj` are data (`BoundLine`); numbers are not formatted.  A patch file is its list of lines, a line the
list of its tokens (`split_whitespace`); `parseN` and `parseF` are `usize::from_str` and `Float::from_str`.
`reserve_exact` and `with_capacity` have no effect on the result and are left out, like the overflow of `m + 1`.
-/

namespace Geom3d

/-- A line of `bound.obj`. -/
inductive BoundLine (F : Type) where
  | v (p : V3 F)
  | l (i j : Nat)

/-- `save_bound_as_obj` (`src/surface/bspline.rs:299-316`). -/
def saveBoundAsObj {F : Type} (vertices : List (V3 F)) : List (BoundLine F) :=
  vertices.map BoundLine.v
    ++ (List.range (vertices.length - 1)).map (fun i => BoundLine.l (i + 1) (i + 1 + 1))
    ++ [BoundLine.l vertices.length 1]

/-- `Grid::transpose` (crate `grid`). -/
def Grid.transpose {α : Type} (g : Grid α) : Res (Grid α) := do
  let columns ← (List.range g.cols).mapM fun c => (List.range g.rows).mapM fun r => g.at r c
  pure ⟨columns.flatten, g.cols, g.rows⟩

/-- The variables of `load_teapot`: `model.faces`, `points`, `current_cols`. -/
structure BptState (F S : Type) where
  faces : List S
  points : List (V3 F)
  cols : Nat

section
variable {F S τ : Type} (mk : Grid (V3 F) → Res S) (parseN : τ → Option Nat) (parseF : τ → Option F)

/-- `mk(Grid::from_vec(points, current_cols).transpose())`; `mk` is `BezierSurface::new` (`examples/bezier.rs:30`) or
`BSplineSurface::uniform_clamped(_, degree)` (`examples/bspline.rs:32-35`). -/
def bptSurface (points : List (V3 F)) (cols : Nat) : Res S := do
  let g ← Grid.fromVec points cols
  let g ← g.transpose
  mk g

/-- One turn of the loop over the lines (`examples/bezier.rs:22-50`, `examples/bspline.rs:23-54`). -/
def bptLine (st : BptState F S) : List τ → Res (BptState F S)
  | [count] => do
    let _ ← unwrapR (parseN count)
    pure st
  | [a, b] => do
    let faces ← (if st.points.length > 0 then do
        let s ← bptSurface mk st.points st.cols
        pure (st.faces ++ [s])
      else pure st.faces : Res (List S))
    let m ← unwrapR (parseN a)
    let _ ← unwrapR (parseN b)
    pure ⟨faces, [], m + 1⟩
  | [x, y, z] => do
    let x ← unwrapR (parseF x)
    let y ← unwrapR (parseF y)
    let z ← unwrapR (parseF z)
    pure { st with points := st.points ++ [⟨x, y, z⟩] }
  | _ => pure st

/-- `load_teapot` (`examples/bezier.rs:7-58`, `examples/bspline.rs:6-66`): the surfaces of the faces. -/
def loadBpt (lines : List (List τ)) : Res (List S) := do
  let st ← lines.foldlM (bptLine mk parseN parseF) ⟨[], [], 0⟩
  let s ← bptSurface mk st.points st.cols
  pure (st.faces ++ [s])

end

end Geom3d
