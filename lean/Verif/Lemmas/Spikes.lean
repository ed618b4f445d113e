import Verif.Lemmas.WrittenPath
import Verif.Props.ConvexFaces

/-!
# Loops in which no two edges in a row are used against their direction

The polygon that is read then is the loop itself with a detour along each such edge: forth, back and forth again. The two
vertices in the middle of the detour are on a line with their neighbours and the others have the corners of the loop.
-/

namespace Geom3d.Written
open Spec Winding List

set_option linter.unusedSectionVars false

variable {P : Type}

/-- The corners of the walk where edge `e.2` follows edge `e.1`, not both of them backward. -/
def spike (e : Use P × Use P) : List (P × P × P) :=
  if e.1.1 then
    if e.2.1 then [(e.1.2.1, e.1.2.2, e.2.2.2)] else [(e.1.2.1, e.1.2.2, e.2.2.2), (e.1.2.2, e.2.2.2, e.1.2.2)]
  else [(e.1.2.2, e.1.2.1, e.1.2.2), (e.1.2.1, e.1.2.2, e.2.2.2)]

/-- No two edges in a row are used backward. -/
def Isolated (L : List (Use P × Use P)) : Prop := ∀ e ∈ L, e.1.1 = true ∨ e.2.1 = true

theorem corners_spike : ∀ (R : List (Use P)) (u : Use P), Chained (pathEdges (u :: R)) → Isolated (pathEdges (u :: R)) →
    corners (first u) (along u R) (last ((u :: R).getLast (by simp))) = (pathEdges (u :: R)).flatMap spike
  | [], u, _, _ => rfl
  | v :: R, u, hc, hi => by
    have e0 : pathEdges (u :: v :: R) = (u, v) :: pathEdges (v :: R) := rfl
    have hh := headD_along v R
    have ih := corners_spike R v (fun e he => hc e (by rw [e0]; simp [he])) fun e he => hi e (by rw [e0]; simp [he])
    rw [List.getLast_cons (by simp)]
    have hcv := hc (u, v) (by rw [e0]; simp)
    have hiv := hi (u, v) (by rw [e0]; simp)
    rw [along_cons, e0, List.flatMap_cons, ← ih]
    unfold turn
    dsimp only at hcv hiv ⊢
    generalize (v :: R).getLast (by simp) = z at *
    split
    · rename_i hm
      have hmp := merge_point (e := (u, v)) hcv hm
      dsimp only at hmp
      rw [Bool.and_eq_true] at hm
      rw [List.singleton_append, corners, hh, hmp]
      simp [spike, hm.1, hm.2, first, last, hcv]
    · rename_i hm
      rw [List.cons_append, List.singleton_append, corners, corners, hh, List.headD_cons]
      rcases u with ⟨_ | _, a, b⟩ <;> rcases v with ⟨_ | _, b', c⟩ <;> simp_all [spike, first, last]

theorem corners_tab (d : P) : ∀ (L : List P) (p s : P),
    corners p L s = (List.range L.length).map fun j => ((p :: L).getD j d, L.getD j d, (L ++ [s]).getD (j + 1) d)
  | [], _, _ => rfl
  | x :: L, p, s => by
    rw [corners, corners_tab d L x s, List.length_cons, List.range_succ_eq_map, List.map_cons, List.map_map]
    congr 1
    · simp only [List.getD_cons_zero, List.cons_append, List.getD_cons_succ]
      cases L <;> rfl

/-- The vertices of a closed polygon, each with its neighbours. -/
def around (d : P) (L : List P) : List (P × P × P) :=
  (List.range L.length).map fun i => (L.getD ((L.length + i - 1) % L.length) d, L.getD i d, L.getD ((i + 1) % L.length) d)

theorem corners_around (d : P) {L : List P} (hL : L ≠ []) {p s : P} (hp : L.getLast? = some p) (hs : L.head? = some s) :
    corners p L s = around d L := by
  rw [corners_tab d]
  have hpos := List.length_pos_iff.2 hL
  refine List.map_congr_left fun j hj => ?_
  rw [List.mem_range] at hj
  have e1 : (p :: L).getD j d = L.getD ((L.length + j - 1) % L.length) d := by
    cases j with
    | zero =>
      rw [Nat.add_zero, Nat.mod_eq_of_lt (by omega), List.getD_cons_zero, List.getD_eq_getElem?_getD, ← List.getLast?_eq_getElem?, hp]
      rfl
    | succ j =>
      rw [show L.length + (j + 1) - 1 = j + L.length by omega, Nat.add_mod_right, Nat.mod_eq_of_lt (by omega), List.getD_cons_succ]
  have e2 : (L ++ [s]).getD (j + 1) d = L.getD ((j + 1) % L.length) d := by
    rcases Nat.lt_or_ge (j + 1) L.length with h | h
    · rw [Nat.mod_eq_of_lt h, List.getD_append _ _ _ _ h]
    · have : j + 1 = L.length := by omega
      rw [this, Nat.mod_self, List.getD_eq_getElem?_getD, List.getElem?_concat_length]
      rw [List.getD_eq_getElem?_getD, ← List.head?_eq_getElem?, hs]
  rw [e1, e2]

theorem walk_head (u : Use P) (R : List (Use P)) : (walk (u :: R)).head? = some (last u) := by
  have hw : walk (u :: R) = along u (R ++ [u]) := rfl
  rw [hw]
  cases R with
  | nil => rw [List.nil_append, along_cons, turn]; split <;> rfl
  | cons v R => rw [List.cons_append, along_cons, turn]; split <;> rfl

theorem walk_last {u : Use P} {R : List (Use P)} (hc : Chained (loopEdges (u :: R))) : (walk (u :: R)).getLast? = some (first u) := by
  have h4 : walk (u :: R) = along u R ++ turn ((u :: R).getLast (by simp), u) := by
    unfold walk
    rw [pathEdges_close, List.flatMap_append]
    simp [along]
  rw [h4, List.getLast?_append]
  have h5 := hc ((u :: R).getLast (by simp), u) (by rw [pathEdges_close]; simp)
  unfold turn
  split
  · rename_i hm
    have := merge_point h5 hm
    dsimp only at this ⊢
    rw [this]; rfl
  · rfl

theorem around_walk (d : P) {E : List (Use P)} (hne : E ≠ []) (hc : Chained (loopEdges E)) (hi : Isolated (loopEdges E)) :
    around d (walk E) = (loopEdges E).flatMap spike := by
  obtain ⟨u, R, rfl⟩ := List.exists_cons_of_ne_nil hne
  have h1 := corners_spike (R ++ [u]) u hc hi
  have hgl : (u :: (R ++ [u])).getLast (by simp) = u := by simp
  rw [hgl] at h1
  have hh := walk_head u R
  rw [← corners_around d (fun e => by rw [e] at hh; cases hh) (walk_last hc) hh]
  exact h1

theorem around_rotate (d : P) {l M : List P} (h : l ~r M) : around d l ~r around d M := by
  obtain ⟨k, hk⟩ := h
  refine ⟨k, ?_⟩
  have hlen : M.length = l.length := by rw [← hk, List.length_rotate]
  refine List.ext_getElem (by simp [around, hlen]) fun i h1 h2 => ?_
  have hi : i < l.length := by simpa [around] using h1
  have hpos : 0 < l.length := by omega
  rw [List.getElem_rotate]
  simp only [around, List.getElem_map, List.getElem_range, List.length_map, List.length_range, hlen]
  have e1 : (l.length + (i + k) % l.length - 1) % l.length = ((l.length + i - 1) % l.length + k) % l.length := by
    rw [Nat.mod_add_mod, show l.length + (i + k) % l.length - 1 = (i + k) % l.length + (l.length - 1) by omega, Nat.mod_add_mod]
    congr 1
    omega
  have e2 : ((i + k) % l.length + 1) % l.length = ((i + 1) % l.length + k) % l.length := by
    rw [Nat.mod_add_mod, Nat.mod_add_mod]
    congr 1
    omega
  rw [e1, e2, ConvexFaces.rotate_getD hk (Nat.mod_lt _ hpos), ConvexFaces.rotate_getD hk hi, ConvexFaces.rotate_getD hk (Nat.mod_lt _ hpos)]

theorem around_map {Q : Type} (f : P → Q) (d : P) {L : List P} :
    around (f d) (L.map f) = (around d L).map fun t => (f t.1, f t.2.1, f t.2.2) := by
  simp only [around, List.length_map, List.map_map]
  refine List.map_congr_left fun i _ => ?_
  simp only [List.getD_map, Function.comp]

theorem filter_isRotated {α : Type} {l m : List α} (q : α → Bool) (h : l ~r m) : l.filter q ~r m.filter q := by
  obtain ⟨n, rfl⟩ := h
  rw [List.rotate_eq_drop_append_take_mod, List.filter_append]
  conv_lhs => rw [← List.take_append_drop (n % l.length) l, List.filter_append]
  exact isRotated_append

/-- What a test on the corners leaves of the polygon. -/
theorem filter_spikes {α : Type} {L : List (Use P × Use P)} (f : P → α) (q : α × α × α → Bool)
    (hq : ∀ e ∈ L, q (f e.1.2.1, f e.1.2.2, f e.2.2.2) = true) (hn : ∀ a b, q (a, b, a) = false) :
    ((L.flatMap spike).map fun t => (f t.1, f t.2.1, f t.2.2)).filter q = L.map fun e => (f e.1.2.1, f e.1.2.2, f e.2.2.2) := by
  induction L with
  | nil => rfl
  | cons e L ih =>
    have h1 := hq e (by simp)
    rw [List.flatMap_cons, List.map_append, List.filter_append, ih fun e he => hq e (by simp [he]), List.map_cons]
    have : ((spike e).map fun t => (f t.1, f t.2.1, f t.2.2)).filter q = [(f e.1.2.1, f e.1.2.2, f e.2.2.2)] := by
      rcases e with ⟨⟨_ | _, a, b⟩, ⟨_ | _, b', c⟩⟩ <;> simp_all [spike]
    rw [this]
    rfl

end Geom3d.Written

namespace Geom3d.Winding
open Spec List

set_option linter.unusedSectionVars false

variable {K : Type} [Field K] [LinearOrder K] [IsStrictOrderedRing K]
  {F : Type} [Add F] [Sub F] [Mul F] [Div F] [Neg F] [Zero F] [One F] [NatCast F] [LT F] [DecidableLT F]
  [LE F] [DecidableLE F] [Env F]

/-- The clipping of a polygon that uses some of the points only. -/
theorem clips_on {bs : List Nat → Nat → Option Nat} (hbs : BinarySearch bs) {points : List (V2 F)} {g : Nat → V2 K} {V C : List Nat}
    (hd : DecidesOn (· ∈ V) points g) (hr : ∀ x ∈ V, x < points.length) (h3 : 3 ≤ V.length) (hS : Simple (V.map g))
    (ha : 0 < area2 (V.map g)) (hre : Reflex g V C) {fuel : Nat} (hf : V.length < fuel) :
    ∃ T, triangulatePolygon bs fuel points V C = .ok T ∧ (∃ k, T.length = 3 * k) ∧ Clips (V.map g) (corners g T) := by
  have good : Good (· ∈ V) points g (V.map g) ⟨V, C, [], V.length⟩ :=
    ⟨rfl, h3, hr, fun x hx => hx, hS, level_of_area hS (by simpa using h3) ha, hre, ⟨0, rfl⟩, fun ts h => h⟩
  obtain ⟨s', h1, h2, h4⟩ := good.loop hbs hd fuel (prevM := none) hf rfl
  refine ⟨s'.triangles, ?_, h2, h4⟩
  unfold triangulatePolygon triangulateState
  rw [usub_ok (by omega), ok_bind, h1, ok_bind]
  rfl

end Geom3d.Winding
