import Verif.Model.Instances
import Verif.Model.Knot
import Verif.Model.Polygon
import Verif.Model.Meshgen
import Verif.Model.Utils

/-!
# The repository's own unit tests, replayed in the binary64 model

These are tests of the model, not proofs of properties: each assertion of a `#[test]` function in `/repo` that
does not need `sin`/`cos` is evaluated by the kernel on the model at `F := Float`.
-/

namespace Geom3d

/-- `test_bernstein` (`src/basis.rs:23-28`). -/
example : (bernstein 4 (0.25 : Float)).toOption.map (·.map Float.toBits) =
    some ([0.421875, 0.421875, 0.140625, 0.015625].map Float.toBits) := by decide +kernel

/-- `test_bspline_basis` (`src/knot.rs:187-201`). -/
example : (KnotVector.bsplineBasis (KnotVector.bezierKnot 3) 3 (0.0 : Float)).toOption.map (·.map Float.toBits) =
    some ([1.0, 0.0, 0.0, 0.0].map Float.toBits) := by decide +kernel

example : (KnotVector.bsplineBasis (KnotVector.bezierKnot 3) 3 (0.5 : Float)).toOption.map (·.map Float.toBits) =
    some ([0.125, 0.375, 0.375, 0.125].map Float.toBits) := by decide +kernel

example : (KnotVector.bsplineBasis (KnotVector.bezierKnot 3) 3 (1.0 : Float)).toOption.map (·.map Float.toBits) =
    some ([0.0, 0.0, 0.0, 1.0].map Float.toBits) := by decide +kernel

example : (KnotVector.uniformKnot 2 2 : List Float).map Float.toBits =
    [0.0, 0.0, 0.0, 0.5, 1.0, 1.0, 1.0].map Float.toBits := by decide +kernel

/-- Documentation examples of `bezier_knot` and `uniform_knot` (`src/knot.rs:93-96`, `:109-112`). -/
example : (KnotVector.bezierKnot 3 : List Float).map Float.toBits =
    [0.0, 0.0, 0.0, 0.0, 1.0, 1.0, 1.0, 1.0].map Float.toBits := by decide +kernel

example : (KnotVector.uniformKnot 2 4 : List Float).map Float.toBits =
    [0.0, 0.0, 0.0, 0.25, 0.5, 0.75, 1.0, 1.0, 1.0].map Float.toBits := by decide +kernel

/-- Documentation examples of `uniform_divide` (`src/utils.rs:45-52`). -/
example : (uniformDivide ((0.0 : Float), 1.0) 8).toOption.map (·.map Float.toBits) =
    some ([0.0, 0.125, 0.25, 0.375, 0.5, 0.625, 0.75, 0.875, 1.0].map Float.toBits) := by decide +kernel

example : (uniformDivide ((1.0 : Float), 0.0) 8).toOption.map (·.map Float.toBits) =
    some ([1.0, 0.875, 0.75, 0.625, 0.5, 0.375, 0.25, 0.125, 0.0].map Float.toBits) := by decide +kernel

/-- `test_segments_intersect` (`src/utils/meshgen.rs`). -/
example : isSegmentsIntersect (⟨8.680205032300453, -91.00000004229226⟩ : V2 Float)
    ⟨10.924396800019334, -91.00000004229226⟩ ⟨15.412780335457098, -91.00000004229226⟩
    ⟨17.656972103175978, -91.00000004229226⟩ = false := by decide +kernel

end Geom3d
