import Verif.Model.Surface

/-!
# Model of `Model::save_as_svg` (`src/model.rs:81-165`)

The text of the `d` attribute of each path is modelled character by character.  `fmt` is `{:.2}` on a `Float`, a
parameter.  The document around the paths (`width`, `viewBox`, `transform`, styles) does not depend on the curves and is
left out.
-/

namespace Geom3d

section
variable {F : Type} [Add F] [Sub F] [Mul F] [Div F] [Neg F] [Zero F] [One F] [NatCast F] [LT F] [DecidableLT F]
  [LE F] [DecidableLE F] [Env F]

/-- `Box<dyn Curve>` as far as `downcast_ref` of `save_as_svg` tells curves apart. -/
inductive DynCurve (F : Type) where
  | line (c : Line F)
  | polyline (c : Polyline F)
  | bspline (c : BSplineCurve F (V3 F))
  | other (c : CurveObj F)

/-- The methods behind the box. -/
def DynCurve.obj : DynCurve F → CurveObj F
  | .line c => { getPoint := fun u => pure (c.getPoint u), project := fun p => pure (c.project p) }
  | .polyline c => { getPoint := c.getPoint, project := c.project }
  | .bspline c => { getPoint := c.getPoint, project := c.project }
  | .other c => c

/-- `CurveSegment<Box<dyn Curve>>` (`src/curve.rs:33-38`). -/
structure DynSegment (F : Type) where
  curve : DynCurve F
  parameterRange : F × F
  tolerance : F
  parameterDivision : Nat

/-- The segment with its curve as a trait object. -/
def DynSegment.segment (s : DynSegment F) : CurveSegment F :=
  ⟨s.curve.obj, s.parameterRange, s.tolerance, s.parameterDivision⟩

/-- `{:.2},{:.2}` of the first two coordinates. -/
def svgPair (fmt : F → List Char) (p : V3 F) : List Char := fmt p.x ++ ',' :: fmt p.y

/-- `"M {:.2},{:.2}"`. -/
def svgMove (fmt : F → List Char) (p : V3 F) : List Char := 'M' :: ' ' :: svgPair fmt p

/-- `" L {:.2},{:.2}"`. -/
def svgLine (fmt : F → List Char) (p : V3 F) : List Char := ' ' :: 'L' :: ' ' :: svgPair fmt p

/-- `" {:.2},{:.2} {:.2},{:.2} {:.2},{:.2}"`. -/
def svgTriple (fmt : F → List Char) (p q r : V3 F) : List Char :=
  ' ' :: svgPair fmt p ++ ' ' :: svgPair fmt q ++ ' ' :: svgPair fmt r

/-- What one cubic piece pushes (`src/model.rs:122-141`). -/
def svgPiece (fmt : F → List Char) (index : Nat) (b : BezierCurve (V3 F)) : Res (List Char) := do
  let start ← idx b.controlPoints 0
  let cp1 ← idx b.controlPoints 1
  let cp2 ← idx b.controlPoints 2
  let last ← idx b.controlPoints 3
  if index = 0 then pure (svgMove fmt start ++ (' ' :: 'C' :: svgTriple fmt cp1 cp2 last))
  else pure (svgTriple fmt cp1 cp2 last)

/-- The loop over sample points (`src/model.rs:147-154`). -/
def svgPoints (fmt : F → List Char) (data : List Char) (points : List (V3 F)) : List Char :=
  points.foldl (fun data p => data ++ if data.length = 0 then svgMove fmt p else svgLine fmt p) data

/-- One turn of the loop over segments (`src/model.rs:103-155`). -/
def svgSegment (fmt : F → List Char) (fuel : Nat) (rnd : List Bool → F) (data : List Char) (s : DynSegment F) :
    Res (List Char) := do
  match s.curve with
  | .line line =>
    pure (data ++ svgMove fmt (line.getPoint s.parameterRange.1) ++ svgLine fmt (line.getPoint s.parameterRange.2))
  | .polyline polyline =>
    pure (polyline.vertices.zipIdx.foldl (fun data (p : V3 F × Nat) =>
      data ++ if p.2 = 0 then svgMove fmt p.1 else svgLine fmt p.1) data)
  | .bspline bspline =>
    if bspline.degree = 3 then do
      (← bspline.toPiecewiseBezier).zipIdx.foldlM (fun data (b : BezierCurve (V3 F) × Nat) => do
        pure (data ++ (← svgPiece fmt b.2 b.1))) data
    else do
      pure (svgPoints fmt data (← s.segment.getPoints fuel rnd))
  | .other _ => do
    pure (svgPoints fmt data (← s.segment.getPoints fuel rnd))

/-- The `d` attribute of one polycurve (`src/model.rs:101-156`); `rnd i` are the random numbers of segment `i`. -/
def svgData (fmt : F → List Char) (fuel : Nat) (rnd : Nat → List Bool → F) (segments : List (DynSegment F)) :
    Res (List Char) :=
  segments.zipIdx.foldlM (fun data s => svgSegment fmt fuel (rnd s.2) data s.1) []

end

end Geom3d
