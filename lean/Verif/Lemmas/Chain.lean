import Verif.Spec.Chain
import Verif.Lemmas.Loops
import Mathlib.Tactic.Abel

/-! Lemmas on boundary chains. -/

namespace Geom3d

variable {α β M : Type} [AddCommGroup M] {φ : α → α → M}

@[simp] theorem weight_nil : Spec.weight φ [] = 0 := rfl
@[simp] theorem weight_cons (e : α × α) (E : List (α × α)) : Spec.weight φ (e :: E) = φ e.1 e.2 + Spec.weight φ E := by
  simp [Spec.weight]
@[simp] theorem weight_append (E E' : List (α × α)) :
    Spec.weight φ (E ++ E') = Spec.weight φ E + Spec.weight φ E' := by
  simp [Spec.weight]
theorem weight_perm {E E' : List (α × α)} (h : E.Perm E') : Spec.weight φ E = Spec.weight φ E' := by
  unfold Spec.weight; exact (h.map _).sum_eq
theorem weight_swap (h : Spec.Skew φ) (E : List (α × α)) : Spec.weight φ (E.map Prod.swap) = -Spec.weight φ E := by
  induction E with
  | nil => simp
  | cons e E ih =>
    rw [List.map_cons, weight_cons, weight_cons, ih, Prod.fst_swap, Prod.snd_swap, h.anti]
    abel
theorem weight_flatMap {β : Type} (l : List β) (f : β → List (α × α)) :
    Spec.weight φ (l.flatMap f) = (l.map fun b => Spec.weight φ (f b)).sum := by
  induction l with
  | nil => simp
  | cons b l ih => rw [List.flatMap_cons, weight_append, ih, List.map_cons, List.sum_cons]
theorem weight_map {β : Type} (f : β → α) (E : List (β × β)) :
    Spec.weight φ (E.map fun e => (f e.1, f e.2)) = Spec.weight (fun a b => φ (f a) (f b)) E := by
  unfold Spec.weight
  rw [List.map_map]; rfl
theorem weight_loopEdges_map {β : Type} (f : β → α) (l : List β) :
    Spec.weight φ (Spec.loopEdges (l.map f)) = Spec.weight (fun a b => φ (f a) (f b)) (Spec.loopEdges l) := by
  rw [Spec.loopEdges_map]
  exact weight_map f _
theorem weight_congr {E : List (α × α)} {ψ : α → α → M} (h : ∀ e ∈ E, φ e.1 e.2 = ψ e.1 e.2) :
    Spec.weight φ E = Spec.weight ψ E := by
  unfold Spec.weight
  exact congrArg _ (List.map_congr_left h)
theorem Skew.comp {β : Type} (h : Spec.Skew φ) (f : β → α) : Spec.Skew fun a b => φ (f a) (f b) :=
  ⟨fun _ _ => h.anti _ _, fun _ => h.self _⟩
theorem weight_reverse (h : Spec.Skew φ) (l : List α) :
    Spec.weight φ (Spec.loopEdges l.reverse) = -Spec.weight φ (Spec.loopEdges l) := by
  rw [weight_perm (Spec.loopEdges_reverse l), weight_swap h]

theorem chain_append_comm (l m : List α) :
    Spec.weight φ (Spec.loopEdges (l ++ m)) = Spec.weight φ (Spec.loopEdges (m ++ l)) :=
  weight_perm (Spec.loopEdges_append_comm l m)

theorem chain_short (h : Spec.Skew φ) {l : List α} (hl : l.length ≤ 2) : Spec.weight φ (Spec.loopEdges l) = 0 := by
  match l, hl with
  | [], _ => rfl
  | [a], _ => simp [Spec.loopEdges, h.self]
  | [a, b], _ => simp [Spec.loopEdges, h.anti b a]

/-- Weight of a triangle's boundary. -/
def triWeight (φ : α → α → M) (a b c : α) : M := φ a b + φ b c + φ c a

theorem chain_triangle (a b c : α) : Spec.weight φ (Spec.loopEdges [a, b, c]) = triWeight φ a b c := by
  simp [Spec.loopEdges, triWeight]; abel

theorem chain_cut (h : Spec.Skew φ) (x n p : α) (R : List α) :
    Spec.weight φ (Spec.loopEdges (x :: n :: (R ++ [p])))
      = Spec.weight φ (Spec.loopEdges (n :: (R ++ [p]))) + triWeight φ p x n := by
  simp only [Spec.loopEdges_cons]
  have e1 : x :: (n :: (R ++ [p]) ++ [x]) = x :: n :: (R ++ p :: [x]) := by simp
  have e2 : n :: (R ++ [p] ++ [n]) = (n :: R) ++ p :: [n] := by simp
  have e3 : n :: (R ++ p :: [x]) = (n :: R) ++ p :: [x] := by simp
  rw [e1, Spec.pathEdges_cons_cons, e2, e3, Spec.pathEdges_append, Spec.pathEdges_append (n :: R) p [n]]
  simp only [weight_cons, weight_append, Spec.pathEdges_cons_cons, Spec.pathEdges_singleton, weight_nil, triWeight]
  rw [h.anti n p]
  abel

end Geom3d
