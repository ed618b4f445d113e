import Verif.Spec.Polygon
import Verif.Lemmas.Points
import Mathlib.Data.List.Rotate
import Mathlib.Algebra.BigOperators.Group.List.Lemmas

/-! Directed edges of closed loops: rotation, reversal, splicing, telescoping sums. -/

set_option linter.unusedSectionVars false

namespace Geom3d.Spec

section
variable {α β : Type}

@[simp] theorem pathEdges_nil : pathEdges ([] : List α) = [] := rfl
@[simp] theorem pathEdges_singleton (a : α) : pathEdges [a] = [] := rfl
@[simp] theorem pathEdges_cons_cons (a b : α) (l : List α) :
    pathEdges (a :: b :: l) = (a, b) :: pathEdges (b :: l) := rfl

theorem pathEdges_append (l : List α) (x : α) (m : List α) :
    pathEdges (l ++ x :: m) = pathEdges (l ++ [x]) ++ pathEdges (x :: m) := by
  induction l with
  | nil => rfl
  | cons a l ih =>
    cases l with
    | nil => rfl
    | cons b l => simp only [List.cons_append, pathEdges_cons_cons, List.cons.injEq, true_and] at ih ⊢; exact ih

theorem pathEdges_map (f : α → β) (l : List α) :
    pathEdges (l.map f) = (pathEdges l).map (Prod.map f f) := by
  simp only [pathEdges, ← List.map_tail, List.zip_map]

theorem pathEdges_reverse (l : List α) : pathEdges l.reverse = ((pathEdges l).map Prod.swap).reverse := by
  induction l with
  | nil => rfl
  | cons a l ih =>
    cases l with
    | nil => rfl
    | cons b l =>
      have e : (a :: b :: l).reverse = l.reverse ++ b :: [a] := by simp
      rw [e, pathEdges_append, pathEdges_cons_cons, pathEdges_cons_cons, List.map_cons]
      rw [List.reverse_cons (a := b)] at ih
      rw [ih]
      simp

theorem length_pathEdges (l : List α) : (pathEdges l).length = l.length - 1 := by
  simp [pathEdges]

theorem getElem?_pathEdges (l : List α) (i : Nat) (a b : α) (ha : l[i]? = some a) (hb : l[i + 1]? = some b) :
    (pathEdges l)[i]? = some (a, b) := by
  simp only [pathEdges, List.getElem?_zip_eq_some, List.getElem?_tail]
  exact ⟨ha, hb⟩

@[simp] theorem loopEdges_nil : loopEdges ([] : List α) = [] := rfl
theorem loopEdges_cons (a : α) (t : List α) : loopEdges (a :: t) = pathEdges (a :: (t ++ [a])) := rfl

theorem length_loopEdges (l : List α) : (loopEdges l).length = l.length := by
  cases l with
  | nil => rfl
  | cons a t => rw [loopEdges_cons, length_pathEdges]; simp

theorem loopEdges_map (f : α → β) (l : List α) :
    loopEdges (l.map f) = (loopEdges l).map (Prod.map f f) := by
  cases l with
  | nil => rfl
  | cons a t =>
    rw [List.map_cons, loopEdges_cons, loopEdges_cons, ← pathEdges_map]
    simp

/-- Moving the first vertex to the end rotates the edges. -/
theorem loopEdges_rotate_one (a : α) (t : List α) : (loopEdges (t ++ [a])).Perm (loopEdges (a :: t)) := by
  cases t with
  | nil => exact List.Perm.refl _
  | cons b t =>
    rw [List.cons_append, loopEdges_cons, loopEdges_cons]
    have : b :: (t ++ [a] ++ [b]) = (b :: t) ++ a :: [b] := by simp
    rw [this, pathEdges_append]
    have e : (a :: (b :: t ++ [a])) = a :: b :: (t ++ [a]) := rfl
    rw [e, pathEdges_cons_cons]
    show (pathEdges (b :: t ++ [a]) ++ [(a, b)]).Perm ((a, b) :: pathEdges (b :: t ++ [a]))
    exact List.perm_append_comm

theorem loopEdges_append_comm (l m : List α) : (loopEdges (l ++ m)).Perm (loopEdges (m ++ l)) := by
  induction l generalizing m with
  | nil => simp
  | cons a l ih =>
    have h1 := loopEdges_rotate_one a (l ++ m)
    have h2 := ih (m ++ [a])
    rw [List.append_assoc] at h1
    have e : m ++ a :: l = (m ++ [a]) ++ l := by simp
    rw [e]
    exact h1.symm.trans h2

theorem loopEdges_rotate (l : List α) (k : Nat) : (loopEdges (l.rotate k)).Perm (loopEdges l) := by
  rw [List.rotate_eq_drop_append_take_mod]
  conv_rhs => rw [← List.take_append_drop (k % l.length) l]
  exact loopEdges_append_comm _ _

theorem loopEdges_reverse (l : List α) : (loopEdges l.reverse).Perm ((loopEdges l).map Prod.swap) := by
  cases l with
  | nil => exact List.Perm.refl _
  | cons a t =>
    rw [List.reverse_cons]
    refine (loopEdges_rotate_one a t.reverse).trans ?_
    rw [loopEdges_cons, loopEdges_cons]
    have : a :: (t.reverse ++ [a]) = (a :: (t ++ [a])).reverse := by simp
    rw [this, pathEdges_reverse]
    exact List.reverse_perm _

/-- A loop `p ++ [x] ++ q` with a closed detour from `x` spliced in. -/
theorem loopEdges_splice (p : List α) (x : α) (d q : List α) :
    (loopEdges (p ++ x :: d ++ x :: q)).Perm (loopEdges (x :: d) ++ loopEdges (p ++ x :: q)) := by
  have h1 : (loopEdges (p ++ x :: d ++ x :: q)).Perm (loopEdges ((x :: d) ++ (x :: q ++ p))) := by
    have := loopEdges_append_comm p (x :: d ++ x :: q)
    simpa using this
  refine h1.trans ?_
  have h2 : (loopEdges (p ++ x :: q)).Perm (loopEdges (x :: q ++ p)) := loopEdges_append_comm _ _
  refine List.Perm.trans ?_ (List.Perm.append_left _ h2.symm)
  rw [show x :: d ++ (x :: q ++ p) = x :: (d ++ (x :: (q ++ p))) by simp, loopEdges_cons, loopEdges_cons]
  have e : x :: (d ++ x :: (q ++ p) ++ [x]) = (x :: d) ++ x :: (q ++ p ++ [x]) := by simp
  rw [e, pathEdges_append, show x :: q ++ p = x :: (q ++ p) by rfl, loopEdges_cons]
  exact List.Perm.refl _

end

section
variable {α M : Type} [AddCommGroup M]

/-- A difference summed along a path telescopes. -/
theorem sum_pathEdges_sub (f : α → M) (a : α) (l : List α) (z : α) :
    ((pathEdges (a :: (l ++ [z]))).map fun e => f e.2 - f e.1).sum = f z - f a := by
  induction l generalizing a with
  | nil => simp
  | cons b l ih =>
    rw [List.cons_append, pathEdges_cons_cons, List.map_cons, List.sum_cons, ih]
    abel

theorem sum_loopEdges_sub (f : α → M) (l : List α) :
    ((loopEdges l).map fun e => f e.2 - f e.1).sum = 0 := by
  cases l with
  | nil => rfl
  | cons a t => rw [loopEdges_cons, sum_pathEdges_sub]; abel

end

section
variable {K : Type} [Field K] [LinearOrder K] [IsStrictOrderedRing K]

theorem area2_perm {l m : List (V2 K)} (h : (loopEdges l).Perm (loopEdges m)) : area2 l = area2 m :=
  (h.map _).sum_eq

theorem area2_rotate (l : List (V2 K)) (k : Nat) : area2 (l.rotate k) = area2 l :=
  area2_perm (loopEdges_rotate l k)

theorem area2_reverse (l : List (V2 K)) : area2 l.reverse = -area2 l := by
  unfold area2
  rw [((loopEdges_reverse l).map _).sum_eq, List.map_map, ← neg_one_mul, ← List.sum_map_mul_left]
  apply congrArg
  apply List.map_congr_left
  intro e _
  simp only [Function.comp, Prod.fst_swap, Prod.snd_swap, cross2]; ring

theorem area2_translate (t : V2 K) (l : List (V2 K)) : area2 (l.map (· + t)) = area2 l := by
  unfold area2
  rw [loopEdges_map, List.map_map]
  have : ((loopEdges l).map ((fun e : V2 K × V2 K => cross2 e.1 e.2) ∘ Prod.map (· + t) (· + t))).sum
      = ((loopEdges l).map fun e => cross2 e.1 e.2).sum
        + ((loopEdges l).map fun e => (t.x * e.2.y - t.y * e.2.x) - (t.x * e.1.y - t.y * e.1.x)).sum := by
    rw [← List.sum_map_add]
    apply congrArg
    apply List.map_congr_left
    intro e _
    simp only [Function.comp, Prod.map, cross2]
    show (e.1.x + t.x) * (e.2.y + t.y) - (e.2.x + t.x) * (e.1.y + t.y) = _
    ring
  rw [this, sum_loopEdges_sub (fun p : V2 K => t.x * p.y - t.y * p.x) l, add_zero]

end

end Geom3d.Spec
