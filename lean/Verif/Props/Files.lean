import Verif.Model.Files
import Verif.Spec.Polygon
import Verif.Props.Mesh
import Verif.Props.StepRead

/-! # C104, C105: `bound.obj` and patch files -/

set_option linter.unusedSectionVars false

namespace Geom3d
open Spec

/-! ### C104 -/

section
variable {F : Type}

/-- Vertices of a file of `v` and `l` lines, in order. -/
def Spec.boundVertices : List (BoundLine F) → List (V3 F)
  | [] => []
  | .v p :: rest => p :: boundVertices rest
  | .l _ _ :: rest => boundVertices rest

/-- Index pairs of the `l` lines, in order. -/
def Spec.boundPairs : List (BoundLine F) → List (Nat × Nat)
  | [] => []
  | .v _ :: rest => boundPairs rest
  | .l i j :: rest => (i, j) :: boundPairs rest

/-- The segments drawn: both ends looked up by 1-based number. -/
def Spec.boundSegments (file : List (BoundLine F)) : List (Option (V3 F) × Option (V3 F)) :=
  (boundPairs file).map fun ij => (lookup1 (boundVertices file) ij.1, lookup1 (boundVertices file) ij.2)

theorem boundVertices_append (a b : List (BoundLine F)) : boundVertices (a ++ b) = boundVertices a ++ boundVertices b := by
  induction a with
  | nil => rfl
  | cons x a ih => cases x <;> simp [boundVertices, ih]

theorem boundPairs_append (a b : List (BoundLine F)) : boundPairs (a ++ b) = boundPairs a ++ boundPairs b := by
  induction a with
  | nil => rfl
  | cons x a ih => cases x <;> simp [boundPairs, ih]

theorem boundVertices_v (l : List (V3 F)) : boundVertices (l.map BoundLine.v) = l := by
  induction l with
  | nil => rfl
  | cons x l ih => simp [boundVertices, ih]

theorem boundPairs_v (l : List (V3 F)) : boundPairs (l.map BoundLine.v) = [] := by
  induction l with
  | nil => rfl
  | cons x l ih => simp [boundPairs, ih]

theorem boundVertices_l (l : List Nat) (f g : Nat → Nat) :
    boundVertices (l.map fun i => (BoundLine.l (f i) (g i) : BoundLine F)) = [] := by
  induction l with
  | nil => rfl
  | cons x l ih => simp [boundVertices, ih]

theorem boundPairs_l (l : List Nat) (f g : Nat → Nat) :
    boundPairs (l.map fun i => (BoundLine.l (f i) (g i) : BoundLine F)) = l.map fun i => (f i, g i) := by
  induction l with
  | nil => rfl
  | cons x l ih => simp [boundPairs, ih]

/-- **C104** The file has exactly the given vertices, in order. -/
theorem C104_vertices (vertices : List (V3 F)) : boundVertices (saveBoundAsObj vertices) = vertices := by
  unfold saveBoundAsObj
  rw [boundVertices_append, boundVertices_append, boundVertices_v, boundVertices_l]
  simp [boundVertices]

theorem boundPairs_save (vertices : List (V3 F)) : boundPairs (saveBoundAsObj vertices)
    = (List.range (vertices.length - 1)).map (fun i => (i + 1, i + 1 + 1)) ++ [(vertices.length, 1)] := by
  unfold saveBoundAsObj
  rw [boundPairs_append, boundPairs_append, boundPairs_v, boundPairs_l]
  simp [boundPairs]

theorem pathEdges_eq_map {α : Type} (a : α) (l : List α) (b : α) :
    (pathEdges (a :: l ++ [b])).map (fun e => (some e.1, some e.2))
      = (List.range (l.length + 1)).map fun i => ((a :: l)[i]?, (l ++ [b])[i]?) := by
  induction l generalizing a with
  | nil => rfl
  | cons c l ih =>
    rw [List.length_cons, List.range_succ_eq_map, List.map_cons, List.map_map]
    have e : pathEdges (a :: (c :: l) ++ [b]) = (a, c) :: pathEdges (c :: l ++ [b]) := rfl
    rw [e, List.map_cons, ih]
    rfl

/-- **C104** For a non-empty list the segments drawn are the edges of the closed polygon through the vertices: every index
is in range, each vertex is joined to the next and the last to the first. -/
theorem C104_closed {vertices : List (V3 F)} (h : vertices ≠ []) :
    boundSegments (saveBoundAsObj vertices) = (loopEdges vertices).map fun e => (some e.1, some e.2) := by
  unfold boundSegments
  rw [C104_vertices, boundPairs_save]
  cases vertices with
  | nil => exact absurd rfl h
  | cons a l =>
    rw [show loopEdges (a :: l) = pathEdges (a :: l ++ [a]) from rfl, pathEdges_eq_map, List.range_succ, List.map_append,
      List.map_append, List.map_map, List.length_cons, Nat.add_sub_cancel]
    congr 1
    · apply List.map_congr_left
      intro i hi
      have hi := List.mem_range.1 hi
      simp only [Function.comp, lookup1, Nat.add_sub_cancel, Nat.succ_ne_zero, if_false]
      rw [List.getElem?_cons_succ, List.getElem?_append_left hi]
    · simp [lookup1]

/-- **C104** An empty list is written as a segment between vertices 0 and 1 of a file without vertices. -/
theorem C104_empty : boundPairs (saveBoundAsObj ([] : List (V3 F))) = [(0, 1)] ∧
    boundSegments (saveBoundAsObj ([] : List (V3 F))) = [(none, none)] := ⟨rfl, rfl⟩

theorem pathEdges_append {α : Type} (a : α) (l : List α) (b : α) (l' : List α) :
    pathEdges (a :: l ++ b :: l') = pathEdges (a :: l ++ [b]) ++ pathEdges (b :: l') := by
  induction l generalizing a with
  | nil => rfl
  | cons c l ih =>
    have e : ∀ x : List α, pathEdges (a :: (c :: l) ++ x) = (a, c) :: pathEdges (c :: l ++ x) := fun _ => rfl
    rw [e, e, ih]
    rfl

/-- **C104** `trim` writes all loops of a face with one call: two loops `a ⋯` and `b ⋯` are drawn as one closed polygon, with a
bridge from the end of the first to `b` and one from the end of the second to `a` in place of their closing edges. -/
theorem C104_two_loops (a : V3 F) (l : List (V3 F)) (b : V3 F) (l' : List (V3 F)) :
    boundSegments (saveBoundAsObj ((a :: l) ++ (b :: l')))
      = (pathEdges (a :: l ++ [b]) ++ pathEdges (b :: l' ++ [a])).map fun e => (some e.1, some e.2) := by
  rw [C104_closed (by simp)]
  have e := pathEdges_append a l b (l' ++ [a])
  rw [← List.cons_append] at e
  rw [← e]
  simp [loopEdges]

/-- Non-vacuity: a triangle. -/
example (p q r : V3 F) : boundSegments (saveBoundAsObj [p, q, r])
    = [(some p, some q), (some q, some r), (some r, some p)] := C104_closed (by simp)

end

/-! ### C105 -/

/-- A patch of a patch file: orders `m`, `n` and control points `P i j` for `i ≤ m`, `j ≤ n`. -/
structure Spec.BptPatch (F : Type) where
  m : Nat
  n : Nat
  P : Nat → Nat → V3 F

/-- Its points in the order of the file: `P 0 0, …, P m 0, P 0 1, …, P m n`. -/
def Spec.BptPatch.pts {F : Type} (p : BptPatch F) : List (V3 F) :=
  (List.range (p.n + 1)).flatMap fun j => (List.range (p.m + 1)).map fun i => p.P i j

/-- The lines of a patch: a header with two numbers, one line per point. -/
def Spec.BptPatch.lines {F τ : Type} (showN : Nat → τ) (showF : F → τ) (p : BptPatch F) : List (List τ) :=
  [showN p.m, showN p.n] :: p.pts.map fun q => [showF q.x, showF q.y, showF q.z]

/-- A patch file: the number of patches, then the patches. -/
def Spec.bptFile {F τ : Type} (showN : Nat → τ) (showF : F → τ) (patches : List (BptPatch F)) : List (List τ) :=
  [showN patches.length] :: patches.flatMap (BptPatch.lines showN showF)

section
variable {F S τ : Type} {mk : Grid (V3 F) → Res S} {parseN : τ → Option Nat} {parseF : τ → Option F}
  {showN : Nat → τ} {showF : F → τ}

theorem foldlM_points (hF : ∀ x, parseF (showF x) = some x) (st : BptState F S) (pts : List (V3 F)) :
    (pts.map fun q => [showF q.x, showF q.y, showF q.z]).foldlM (bptLine mk parseN parseF) st
      = .ok { st with points := st.points ++ pts } := by
  induction pts generalizing st with
  | nil => simp [pure_eq_ok]
  | cons q pts ih =>
    rw [List.map_cons, List.foldlM_cons]
    have e : bptLine mk parseN parseF st [showF q.x, showF q.y, showF q.z]
        = .ok { st with points := st.points ++ [q] } := by
      simp only [bptLine, hF, unwrapR, ok_bind, pure_eq_ok]
    rw [e, ok_bind, ih]
    simp

theorem foldlM_patch (hN : ∀ k, parseN (showN k) = some k) (hF : ∀ x, parseF (showF x) = some x) (st : BptState F S)
    (h : st.points ≠ []) (p : BptPatch F) :
    (p.lines showN showF).foldlM (bptLine mk parseN parseF) st
      = (bptSurface mk st.points st.cols >>= fun s => .ok ⟨st.faces ++ [s], p.pts, p.m + 1⟩) := by
  unfold BptPatch.lines
  rw [List.foldlM_cons]
  have hl : st.points.length > 0 := List.length_pos_iff.2 h
  simp only [bptLine, hN, unwrapR, ok_bind, if_pos hl]
  cases bptSurface mk st.points st.cols with
  | error e => rfl
  | ok s =>
    simp only [ok_bind, pure_eq_ok]
    rw [foldlM_points hF]
    simp

theorem foldlM_patch_first (hN : ∀ k, parseN (showN k) = some k) (hF : ∀ x, parseF (showF x) = some x) (st : BptState F S)
    (h : st.points = []) (p : BptPatch F) :
    (p.lines showN showF).foldlM (bptLine mk parseN parseF) st = .ok ⟨st.faces, p.pts, p.m + 1⟩ := by
  unfold BptPatch.lines
  rw [List.foldlM_cons]
  simp only [bptLine, hN, unwrapR, ok_bind, h, List.length_nil, gt_iff_lt, lt_irrefl, if_false, pure_eq_ok]
  rw [foldlM_points hF]
  simp

theorem foldlM_patches (hN : ∀ k, parseN (showN k) = some k) (hF : ∀ x, parseF (showF x) = some x) (st : BptState F S)
    (h : st.points ≠ []) (ps : List (BptPatch F)) (hp : ∀ p ∈ ps, p.pts ≠ []) :
    ((ps.flatMap (BptPatch.lines showN showF)).foldlM (bptLine mk parseN parseF) st >>= fun st =>
        bptSurface mk st.points st.cols >>= fun s => .ok (st.faces ++ [s]))
      = (bptSurface mk st.points st.cols >>= fun s =>
          ps.mapM (fun p => bptSurface mk p.pts (p.m + 1)) >>= fun ss => .ok (st.faces ++ s :: ss)) := by
  induction ps generalizing st with
  | nil => simp [pure_eq_ok, ok_bind]
  | cons p ps ih =>
    rw [List.flatMap_cons, List.foldlM_append, foldlM_patch hN hF st h]
    cases bptSurface mk st.points st.cols with
    | error e => rfl
    | ok s =>
      simp only [ok_bind]
      rw [ih _ (hp p (by simp)) (fun q hq => hp q (by simp [hq])), mapM_cons]
      simp only []
      cases bptSurface mk p.pts (p.m + 1) with
      | error e => rfl
      | ok s' =>
        simp only [ok_bind]
        cases ps.mapM fun p => bptSurface mk p.pts (p.m + 1) with
        | error e => rfl
        | ok ss => simp [ok_bind]

theorem grid_at_tab {α : Type} {R C : Nat} (f : Nat → Nat → α) {i j : Nat} (hi : i < R) (hj : j < C) :
    (gridOf R C f).at i j = .ok (f i j) := by
  obtain ⟨h, e⟩ := grid_at (netTab_ok R C f) hi hj
  have e' := netTab_getElem? R C f hi hj
  rw [List.getElem?_eq_getElem h] at e'
  exact e.trans (congrArg _ (Option.some.inj e'))

theorem transpose_tab {α : Type} (R C : Nat) (f : Nat → Nat → α) :
    (gridOf R C f).transpose = .ok (gridOf C R fun i j => f j i) := by
  unfold Grid.transpose
  rw [mapM_pure (g := fun c => (List.range R).map fun r => f r c)]
  · simp only [ok_bind, pure_eq_ok, gridOf, netTab, List.flatMap_def]
  · intro c hc
    apply mapM_pure
    intro r hr
    exact grid_at_tab f (List.mem_range.1 hr) (List.mem_range.1 hc)

theorem bptSurface_patch (p : BptPatch F) :
    bptSurface mk p.pts (p.m + 1) = mk (gridOf (p.m + 1) (p.n + 1) p.P) := by
  unfold bptSurface
  have e : p.pts = netTab (p.n + 1) (p.m + 1) fun j i => p.P i j := rfl
  rw [e, fromVec_netTab (by omega) (by omega), ok_bind]
  have e2 := transpose_tab (p.n + 1) (p.m + 1) fun j i => p.P i j
  unfold gridOf at e2
  rw [e2]
  rfl

theorem pts_ne_nil (p : BptPatch F) : p.pts ≠ [] := by
  have e : p.pts = netTab (p.n + 1) (p.m + 1) fun j i => p.P i j := rfl
  rw [e, ← List.length_pos_iff, netTab_length]
  positivity

/-- Lines that have neither 1, 2 nor 3 tokens. -/
def Spec.Ignored (line : List τ) : Prop := line.length = 0 ∨ 4 ≤ line.length

theorem bptLine_ignored (st : BptState F S) {line : List τ} (h : Ignored line) :
    bptLine mk parseN parseF st line = .ok st := by
  unfold Ignored at h
  match line, h with
  | [], _ => rfl
  | [_], h => simp at h
  | [_, _], h => simp at h
  | [_, _, _], h => simp at h
  | _ :: _ :: _ :: _ :: _, _ => rfl

/-- **C105** Blank lines and lines with more than three tokens have no effect, wherever they are. -/
theorem C105_ignored (lines : List (List τ)) (keep : List τ → Bool) (h : ∀ l ∈ lines, keep l = false → Ignored l) :
    loadBpt mk parseN parseF lines = loadBpt mk parseN parseF (lines.filter keep) := by
  have key : ∀ (lines : List (List τ)), (∀ l ∈ lines, keep l = false → Ignored l) → ∀ st : BptState F S,
      lines.foldlM (bptLine mk parseN parseF) st = (lines.filter keep).foldlM (bptLine mk parseN parseF) st := by
    intro lines
    induction lines with
    | nil => intro _ st; rfl
    | cons a l ih =>
      intro h st
      have ih := ih fun x hx => h x (by simp [hx])
      rw [List.foldlM_cons]
      cases hk : keep a with
      | true =>
        rw [List.filter_cons_of_pos hk, List.foldlM_cons]
        cases bptLine mk parseN parseF st a with
        | error e => rfl
        | ok st' => exact ih st'
      | false =>
        rw [List.filter_cons_of_neg (by simp [hk]), bptLine_ignored st (h a (by simp) hk), ok_bind, ih]
  unfold loadBpt
  rw [key lines h]

/-- **C105** Loading a patch file of at least one patch makes one surface per patch, in order, each from the net with rows
`0 … m` and columns `0 … n` of its points; nothing else can fail. -/
theorem C105_load (hN : ∀ k, parseN (showN k) = some k) (hF : ∀ x, parseF (showF x) = some x)
    {patches : List (BptPatch F)} (h : patches ≠ []) :
    loadBpt mk parseN parseF (bptFile showN showF patches)
      = patches.mapM fun p => mk (gridOf (p.m + 1) (p.n + 1) p.P) := by
  cases patches with
  | nil => exact absurd rfl h
  | cons p ps =>
    unfold loadBpt bptFile
    rw [List.foldlM_cons]
    have e : bptLine mk parseN parseF ⟨[], [], 0⟩ [showN (p :: ps).length] = .ok (⟨[], [], 0⟩ : BptState F S) := by
      simp only [bptLine, hN, unwrapR, ok_bind, pure_eq_ok]
    rw [e, ok_bind, List.flatMap_cons, List.foldlM_append, foldlM_patch_first hN hF _ rfl, ok_bind]
    simp only [pure_eq_ok]
    rw [foldlM_patches hN hF _ (pts_ne_nil p) ps fun q _ => pts_ne_nil q, mapM_cons]
    simp only [bptSurface_patch]
    rfl

/-- **C105** Bézier patches of orders at least 1 (`examples/bezier.rs`). -/
theorem C105_bezier (hN : ∀ k, parseN (showN k) = some k) (hF : ∀ x, parseF (showF x) = some x)
    {patches : List (BptPatch F)} (h : patches ≠ []) (ho : ∀ p ∈ patches, 1 ≤ p.m ∧ 1 ≤ p.n) :
    loadBpt BezierSurface.new parseN parseF (bptFile showN showF patches)
      = .ok (patches.map fun p => ⟨gridOf (p.m + 1) (p.n + 1) p.P⟩) := by
  rw [C105_load hN hF h]
  apply mapM_pure
  intro p hp
  have := ho p hp
  unfold BezierSurface.new assertR gridOf
  rw [decide_eq_true (by simp only []; omega)]
  rfl

/-- **C105** A file without points makes the loader panic: the last surface is added without asking whether there is one. -/
theorem C105_no_points {lines : List (List τ)} (h : ∀ l ∈ lines, Ignored l) :
    loadBpt (BezierSurface.new (P := V3 F)) parseN parseF lines = .error .assertion := by
  rw [C105_ignored lines (fun _ => false) fun l hl _ => h l hl]
  simp only [List.filter_false]
  rfl

/-- **C105** In particular the file `0` with no patches. -/
theorem C105_zero (hN : ∀ k, parseN (showN k) = some k) :
    loadBpt (BezierSurface.new (P := V3 F)) parseN parseF (bptFile showN showF []) = .error .assertion := by
  unfold loadBpt bptFile
  simp only [List.foldlM_cons, List.flatMap_nil, List.foldlM_nil, bptLine, hN, unwrapR, ok_bind, pure_eq_ok]
  rfl

/-- **C105** The second number of a header is read but not used: with `n'` in place of `n` the same patch results, whatever
`n'` is. -/
theorem C105_order_unchecked (hN : ∀ k, parseN (showN k) = some k) (hF : ∀ x, parseF (showF x) = some x) (p : BptPatch F)
    (n' : Nat) (st : BptState F S) :
    ([showN p.m, showN n'] :: (p.lines showN showF).tail).foldlM (bptLine mk parseN parseF) st
      = (p.lines showN showF).foldlM (bptLine mk parseN parseF) st := by
  unfold BptPatch.lines
  rw [List.foldlM_cons, List.foldlM_cons]
  simp only [bptLine, hN, unwrapR, ok_bind, List.tail_cons]

end

/-- **C105** B-spline patches (`examples/bspline.rs`). -/
theorem C105_bspline {F τ : Type} [Add F] [Sub F] [Mul F] [Div F] [Neg F] [Zero F] [One F] [NatCast F] [LT F]
    [DecidableLT F] [LE F] [DecidableLE F] [Env F] {parseN : τ → Option Nat} {parseF : τ → Option F}
    {showN : Nat → τ} {showF : F → τ} (hN : ∀ k, parseN (showN k) = some k) (hF : ∀ x, parseF (showF x) = some x)
    {patches : List (BptPatch F)} (h : patches ≠ []) {d e : Nat} (hd : d < 256) (he : e < 256)
    (ho : ∀ p ∈ patches, d ≤ p.m ∧ e ≤ p.n) :
    loadBpt (fun g => BSplineSurface.uniformClamped (F := F) g (d, e)) parseN parseF (bptFile showN showF patches)
      = .ok (patches.map fun p => ⟨gridOf (p.m + 1) (p.n + 1) p.P,
          (KnotVector.uniformKnot d (p.m + 1 - d), KnotVector.uniformKnot e (p.n + 1 - e)), (d, e)⟩) := by
  rw [C105_load hN hF h]
  apply mapM_pure
  intro p hp
  have := ho p hp
  rw [uniformClamped_eq (g := gridOf (p.m + 1) (p.n + 1) p.P) (degree := (d, e)) (show d < p.m + 1 by omega)
    (show e < p.n + 1 by omega)]
  simp only [Nat.mod_eq_of_lt hd, Nat.mod_eq_of_lt he]
  rfl

/-- Non-vacuity: tokens are numbers; a file of two patches, of orders 1, 2 and 1, 1. -/
example : loadBpt BezierSurface.new (fun t : ℚ => if t.den = 1 ∧ 0 ≤ t then some t.num.toNat else none) some
    ([[2], [1, 2], [0, 0, 0], [1, 0, 0], [0, 1, 0], [1, 1, 0], [], [0, 2, 0], [1, 2, 5], [1, 1], [0, 0, 1], [1, 0, 1],
      [0, 1, 1], [1, 1, 1]] : List (List ℚ))
    = .ok [⟨⟨[⟨0, 0, 0⟩, ⟨0, 1, 0⟩, ⟨0, 2, 0⟩, ⟨1, 0, 0⟩, ⟨1, 1, 0⟩, ⟨1, 2, 5⟩], 2, 3⟩⟩,
      ⟨⟨[⟨0, 0, 1⟩, ⟨0, 1, 1⟩, ⟨1, 0, 1⟩, ⟨1, 1, 1⟩], 2, 2⟩⟩] := by
  have h := C105_bezier (F := ℚ) (τ := ℚ) (parseN := fun t : ℚ => if t.den = 1 ∧ 0 ≤ t then some t.num.toNat else none)
    (parseF := some) (showN := fun k => (k : ℚ)) (showF := id) (fun k => by simp) (fun x => rfl)
    (patches := [⟨1, 2, fun i j => ⟨i, j, if i = 1 ∧ j = 2 then 5 else 0⟩⟩, ⟨1, 1, fun i j => ⟨i, j, 1⟩⟩]) (by simp)
    (by decide)
  rw [C105_ignored _ (fun l => !l.isEmpty) (by intro l _ hl; exact Or.inl (by simpa using hl))]
  exact h

end Geom3d
