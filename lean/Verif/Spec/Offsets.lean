import Verif.Model.Base
import Mathlib.Data.List.Basic

/-! Offsets of consecutive loops in one array, written without reference to the model. -/

namespace Geom3d

/-- The start offsets of consecutive blocks, and the final end. -/
def Spec.offsets {α : Type} : Nat → List (List α) → List Nat
  | a, [] => [a]
  | a, l :: t => a :: Spec.offsets (a + l.length) t

/-- The non-empty blocks. -/
def Spec.nonEmpty {α : Type} (l : List (List α)) : List (List α) := l.filter fun x => !x.isEmpty

end Geom3d
