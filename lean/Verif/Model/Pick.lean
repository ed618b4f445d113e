import Verif.Model.Meshgen

/-!
# Model of the selection of a node (`src/utils/meshgen.rs:112-120`)

`nearby_nodes` is sorted by node, and by descending factor for equal nodes; later entries of the same node are dropped;
the rest is sorted by factor, and the last one is taken.  `sort_by` is a stable sort; it is modelled by insertion.
Simplification: on incomparable factors (NaN) the comparators are not total orders, and Rust does not say what `sort_by`
does.  There the model follows the insertion sort; `Model/Meshgen.lean` leaves the selection open (`PickOk`).
-/

namespace Geom3d

/-- Insertion of an element that comes before those of the list, keeping the order of equal elements. -/
def stableInsert {α : Type} (le : α → α → Bool) (a : α) : List α → List α
  | [] => [a]
  | b :: l => if le a b then a :: b :: l else b :: stableInsert le a l

/-- `slice::sort_by`, stable; `le a b` stands for `compare(a, b) != Greater`. -/
def stableSort {α : Type} (le : α → α → Bool) : List α → List α
  | [] => []
  | a :: l => stableInsert le a (stableSort le l)

section
variable {F : Type} [LT F] [DecidableLT F]

/-- The comparator of `meshgen.rs:112-115`: by node, and by descending factor for equal nodes. -/
def nodeLe (a b : Nat × F) : Bool := decide (a.1 < b.1 ∨ a.1 = b.1 ∧ ¬ a.2 < b.2)

/-- The comparator of `meshgen.rs:118`: by factor. -/
def factorLe (a b : Nat × F) : Bool := decide (¬ b.2 < a.2)

/-- `Vec::dedup_by_key` for the rest of the list after an element with the given node. -/
def dedupFrom (node : Nat) : List (Nat × F) → List (Nat × F)
  | [] => []
  | b :: l => if b.1 = node then dedupFrom node l else b :: dedupFrom b.1 l

/-- `nearby_nodes.dedup_by_key(|(node, _)| *node)` (`meshgen.rs:116`). -/
def dedupNode : List (Nat × F) → List (Nat × F)
  | [] => []
  | a :: l => a :: dedupFrom a.1 l

/-- `src/utils/meshgen.rs:112-120`. -/
def pickNode (nearby : List (Nat × F)) : Option Nat :=
  let nearby := dedupNode (stableSort nodeLe nearby)
  let nearby := if 1 < nearby.length then stableSort factorLe nearby else nearby
  nearby.getLast?.map Prod.fst

end

end Geom3d
