import Verif.Model.Files
import Verif.Model.Export
import Verif.Model.Mesh
import Verif.Model.Svg
import Verif.Model.Step

/-!
# The programs in `examples`

The lines of a patch file are its tokens (`Model.Files`), files are their contents after the run (`Model.Export`), lines of
OBJ files are data (`Model.Mesh`).  An error of the operating system is left out, as is the text printed by `dbg!`.  The
division of the patches and the degrees, constants in `main`, are parameters here.
-/

namespace Geom3d

section
variable {F S τ : Type} [Add F] [Sub F] [Mul F] [Div F] [Neg F] [Zero F] [One F] [NatCast F] [LT F] [DecidableLT F]
  [LE F] [DecidableLE F] [Env F]

/-- `load_teapot` with the patches it adds to the model (`examples/bezier.rs:31-36,52-57`,
`examples/bspline.rs:31-39,55-63`, `Model::new` and `Model::add_face`, `src/model.rs:10-19`). -/
def loadTeapot (surface : S → Surface F) (mk : Grid (V3 F) → Res S) (parseN : τ → Option Nat) (parseF : τ → Option F)
    (division : Nat × Nat) (lines : List (List τ)) : Res (List (SurfacePatch F)) := do
  let surfaces ← loadBpt mk parseN parseF lines
  pure (surfaces.map fun s => ⟨surface s, ((0, 1), (0, 1)), division⟩)

/-- `Model::save_as_stl` on patches: the bytes of the file (`src/model.rs:25-64`). -/
def stlFile (f32 : F → UInt32) (stem : List Char) (faces : List (SurfacePatch F)) : Res (List UInt8) := do
  let t := saveAsStl f32 (some stem) (faces.map SurfacePatch.getTriangleMesh)
  t.res
  pure (FileState.run ⟨[], 0⟩ t.ops).content

/-- `Model::save_as_obj` on patches: the lines of the file (`src/model.rs:66-79`). -/
def objFile (faces : List (SurfacePatch F)) : Res (List (ObjLine F)) := do
  let meshes ← faces.mapM SurfacePatch.getTriangleMesh
  saveAsObj meshes

/-- `main` of `examples/bezier.rs:61-65`: the files `teapot.stl` and `teapot.obj`. -/
def bezierMain (parseN : τ → Option Nat) (parseF : τ → Option F) (f32 : F → UInt32) (division : Nat × Nat)
    (lines : List (List τ)) : Res (List UInt8 × List (ObjLine F)) := do
  let teapot ← loadTeapot BezierSurface.surface BezierSurface.new parseN parseF division lines
  let stl ← stlFile f32 "teapot".toList teapot
  let obj ← objFile teapot
  pure (stl, obj)

/-- `main` of `examples/bspline.rs:67-72`: the file `teapot.stl` from surfaces of one pair of degrees, the file
`teapot.obj` from surfaces of another. -/
def bsplineMain (parseN : τ → Option Nat) (parseF : τ → Option F) (f32 : F → UInt32) (degree degree' : Nat × Nat)
    (division : Nat × Nat) (lines : List (List τ)) : Res (List UInt8 × List (ObjLine F)) := do
  let teapot ← loadTeapot BSplineSurface.surface (fun g => BSplineSurface.uniformClamped (F := F) g degree) parseN parseF
    division lines
  let stl ← stlFile f32 "teapot".toList teapot
  let teapot ← loadTeapot BSplineSurface.surface (fun g => BSplineSurface.uniformClamped (F := F) g degree') parseN parseF
    division lines
  let obj ← objFile teapot
  pure (stl, obj)

/-- `main` of `examples/convert_stp.rs:3-15` on a parsed file: the lines of the OBJ file if there are faces, the `d`
attributes of the SVG file if there are curves.  `o i` and `rnd i` are the oracles of face `i` and curve `i`. -/
def convertStp [Trig F] (o : Nat → TrimOracle F) (fmt : F → List Char) (fuel : Nat) (rnd : Nat → Nat → List Bool → F)
    (file : StepFile F) : Res (Option (List (ObjLine F)) × Option (List (List Char))) := do
  let model ← file.readModel
  let obj ← (if 0 < model.2.length then do
      let meshes ← model.2.zipIdx.mapM fun f => f.1.getTriangleMesh (o f.2)
      let lines ← saveAsObj meshes
      pure (some lines)
    else pure none : Res (Option (List (ObjLine F))))
  let svg ← (if 0 < model.1.length then do
      let paths ← model.1.zipIdx.mapM fun c => svgData fmt fuel (rnd c.2) c.1
      pure (some paths)
    else pure none : Res (Option (List (List Char))))
  pure (obj, svg)

end

end Geom3d
