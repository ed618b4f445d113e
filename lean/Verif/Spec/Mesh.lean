import Mathlib.Data.List.Basic

/-! Triangle lists, written without reference to the model. -/

namespace Geom3d

/-- The directed edges of a flat list of triangles. -/
def Spec.triEdges : List Nat → List (Nat × Nat)
  | a :: b :: c :: rest => (a, b) :: (b, c) :: (c, a) :: Spec.triEdges rest
  | _ => []

theorem triEdges_append (T : List Nat) (k : Nat) (h : T.length = 3 * k) (T' : List Nat) :
    Spec.triEdges (T ++ T') = Spec.triEdges T ++ Spec.triEdges T' := by
  induction k generalizing T with
  | zero =>
    have : T = [] := List.length_eq_zero_iff.1 (by omega)
    subst this; rfl
  | succ k ih =>
    match T, h with
    | a :: b :: c :: T, h =>
      simp only [List.cons_append, Spec.triEdges]
      rw [ih T (by simp at h; omega)]

/-- The triangles of an index list, three indices each. -/
def Spec.triples {α : Type} : List α → List (α × α × α)
  | a :: b :: c :: rest => (a, b, c) :: Spec.triples rest
  | _ => []

end Geom3d
