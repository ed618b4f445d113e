import Verif.Model.Base

/-!
# Model of `src/utils/point.rs` (the `Point` trait for `Point2`)
-/

namespace Geom3d

section
variable {F : Type} [Add F] [Sub F] [Mul F] [Div F] [Neg F] [Zero F] [One F] [NatCast F] [LT F] [DecidableLT F]
  [LE F] [DecidableLE F] [Env F]

/-- `<Point2 as Point>::distance_to_line_segment` (`src/utils/point.rs:10-22`). -/
def distanceToLineSegment2 (p a b : V2 F) : F :=
  let ap := p - a
  let ab := b - a
  let product := ap.dot ab
  if product ≤ 0 then ap.length
  else if ab.lengthSq ≤ product then (p - b).length
  else fabs (ap.perpDot ab) / ab.length

/-- `<Point2 as Point>::is_inside_triangle` (`src/utils/point.rs:24-34`), with tolerance. -/
def isInsideTriangleTol (p a b c : V2 F) : Bool :=
  let pa := a - p
  let pb := b - p
  let pc := c - p
  let pab := pa.perpDot pb
  let pbc := pb.perpDot pc
  let pca := pc.perpDot pa
  (decide (0 ≤ pab) || near pab 0) && (decide (0 ≤ pbc) || near pbc 0) && (decide (0 ≤ pca) || near pca 0)

end

end Geom3d
