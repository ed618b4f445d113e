import Verif.Model.Surface

/-! # Maps of points that commute with the vector operations, through the loops of the code

Everything here is law-free: `φ` only has to commute with the operations the code uses. -/

set_option linter.unusedSectionVars false

namespace Geom3d

/-- `φ` commutes with the operations on points. -/
structure PointHom (F : Type) {P Q : Type} [Add P] [Sub P] [Zero P] [HMul F P P] [HMul P F P]
    [Add Q] [Sub Q] [Zero Q] [HMul F Q Q] [HMul Q F Q] (φ : P → Q) : Prop where
  add : ∀ a b, φ (a + b) = φ a + φ b
  sub : ∀ a b, φ (a - b) = φ a - φ b
  zero : φ 0 = 0
  lmul : ∀ (f : F) a, φ (f * a) = f * φ a
  rmul : ∀ (f : F) a, φ (a * f) = φ a * f

section
variable {α β σ τ : Type}

@[simp] theorem res_map_ok (f : α → β) (a : α) : f <$> (Except.ok a : Res α) = .ok (f a) := rfl
@[simp] theorem res_map_error (f : α → β) (e : Panic) : f <$> (Except.error e : Res α) = .error e := rfl

theorem idx_map (f : α → β) (l : List α) (i : Nat) : idx (l.map f) i = f <$> idx l i := by
  unfold idx
  rw [List.getElem?_map]
  cases l[i]? <;> rfl

theorem upd_map (f : α → β) (l : List α) (i : Nat) (a : α) : upd (l.map f) i (f a) = List.map f <$> upd l i a := by
  unfold upd
  rw [List.length_map]
  split
  · rw [res_map_ok, List.map_set]
  · rfl

theorem insertIdx_map (f : α → β) (l : List α) (i : Nat) (a : α) : (l.map f).insertIdx i (f a) = (l.insertIdx i a).map f := by
  induction i generalizing l with
  | zero => rfl
  | succ i ih =>
    cases l with
    | nil => rfl
    | cons b l => simp [List.insertIdx_succ_cons, ih]

theorem insertAt_map (f : α → β) (l : List α) (i : Nat) (a : α) :
    insertAt (l.map f) i (f a) = List.map f <$> insertAt l i a := by
  unfold insertAt
  rw [List.length_map]
  split
  · rw [res_map_ok, insertIdx_map]
  · rfl

theorem slice_map (f : α → β) (l : List α) (a b : Nat) : slice (l.map f) a b = List.map f <$> slice l a b := by
  unfold slice
  rw [List.length_map]
  split
  · rw [res_map_ok, List.map_drop, List.map_take]
  · rfl

theorem pairs_map (f : α → β) (l : List α) : pairs (l.map f) = (pairs l).map fun p => (f p.1, f p.2) := by
  unfold pairs
  rw [← List.map_tail, List.zip_map]
  rfl

theorem foldlM_map {ι : Type} (f : σ → τ) (l : List ι) (s : σ) (body : σ → ι → Res σ) (body' : τ → ι → Res τ)
    (h : ∀ s i, body' (f s) i = f <$> body s i) : l.foldlM body' (f s) = f <$> l.foldlM body s := by
  induction l generalizing s with
  | nil => rfl
  | cons i l ih =>
    rw [List.foldlM_cons, List.foldlM_cons, h]
    cases body s i with
    | error e => rfl
    | ok t => exact ih t

theorem forRange_map (f : σ → τ) (a b : Nat) (s : σ) (body : σ → Nat → Res σ) (body' : τ → Nat → Res τ)
    (h : ∀ s i, body' (f s) i = f <$> body s i) : forRange a b (f s) body' = f <$> forRange a b s body :=
  foldlM_map f _ s body body' h

theorem forRangeRev_map (f : σ → τ) (a b : Nat) (s : σ) (body : σ → Nat → Res σ) (body' : τ → Nat → Res τ)
    (h : ∀ s i, body' (f s) i = f <$> body s i) : forRangeRev a b (f s) body' = f <$> forRangeRev a b s body :=
  foldlM_map f _ s body body' h

/-- Two computations that agree up to `f` stay so. -/
theorem bind_natural {α' β' : Type} (f : α → α') (g : β → β') {x : Res α} {x' : Res α'} (hx : x' = f <$> x)
    {k : α → Res β} {k' : α' → Res β'} (hk : ∀ a, k' (f a) = g <$> k a) : (x' >>= k') = g <$> (x >>= k) := by
  subst hx
  cases x with
  | error e => rfl
  | ok a => exact hk a

theorem bind_same {β' : Type} (g : β → β') {x : Res α} {k : α → Res β} {k' : α → Res β'}
    (hk : ∀ a, k' a = g <$> k a) : (x >>= k') = g <$> (x >>= k) := by
  cases x with
  | error e => rfl
  | ok a => exact hk a

end

section
variable {F P Q : Type} [Add F] [Sub F] [Mul F] [Div F] [Neg F] [Zero F] [One F] [NatCast F]
  [LT F] [DecidableLT F] [LE F] [DecidableLE F] [Env F]
  [Add P] [Sub P] [Zero P] [HMul F P P] [HMul P F P] [Add Q] [Sub Q] [Zero Q] [HMul F Q Q] [HMul Q F Q]
  {φ : P → Q}

theorem linComb_natural (h : PointHom F φ) (w : List F) (l : List P) : linComb w (l.map φ) = φ (linComb w l) := by
  unfold linComb
  have : ∀ (w : List F) (l : List P) (a : P),
      (w.zip (l.map φ)).foldl (fun point bp => point + bp.1 * bp.2) (φ a)
        = φ ((w.zip l).foldl (fun point bp => point + bp.1 * bp.2) a) := by
    intro w
    induction w with
    | nil => intro l a; rfl
    | cons b w ih =>
      intro l a
      cases l with
      | nil => rfl
      | cons p l =>
        simp only [List.map_cons, List.zip_cons_cons, List.foldl_cons]
        rw [← h.lmul, ← h.add]
        exact ih l _
  rw [← h.zero]
  exact this w l 0

theorem addKnotBody_natural (h : PointHom F φ) (knots : List F) (p : Nat) (x : F) (cps : List P) (i : Nat) :
    addKnotBody knots p x (cps.map φ) i = List.map φ <$> addKnotBody knots p x cps i := by
  unfold addKnotBody
  refine bind_same _ fun hi => bind_same _ fun lo => bind_same _ fun j => ?_
  refine bind_natural φ _ (idx_map φ _ _) fun prev => bind_natural φ _ (idx_map φ _ _) fun cur => ?_
  rw [← upd_map, h.add, h.rmul, h.rmul]

theorem Grid.at_map (f : P → Q) (g : Grid P) (i j : Nat) :
    Grid.at ⟨g.data.map f, g.rows, g.cols⟩ i j = f <$> g.at i j := by
  unfold Grid.at
  refine bind_natural (List.map f) _ ?_ fun row => idx_map f _ _
  simp only []
  split
  · exact slice_map f _ _ _
  · rfl

theorem netSum_natural (h : PointHom F φ) (g : Grid P) (bu bv : List F) :
    netSum ⟨g.data.map φ, g.rows, g.cols⟩ bu bv = φ <$> netSum g bu bv := by
  unfold netSum
  rw [← h.zero]
  refine forRange_map φ _ _ _ _ _ fun point i => forRange_map φ _ _ _ _ _ fun point j => ?_
  refine bind_natural φ _ (Grid.at_map φ g i j) fun p => bind_same _ fun a => bind_same _ fun b => ?_
  rw [← h.lmul, ← h.add]
  rfl

theorem Grid.fromVec_map (f : P → Q) (l : List P) (n : Nat) :
    Grid.fromVec (l.map f) n = (fun g : Grid P => (⟨g.data.map f, g.rows, g.cols⟩ : Grid Q)) <$> Grid.fromVec l n := by
  unfold Grid.fromVec
  rw [List.length_map]
  repeat' split
  all_goals rfl

end

end Geom3d
