import Verif.Lemmas.EarEdge
import Verif.Props.Polyhedra

/-!
# The polygon that is read when some edges of a loop are used against their direction
-/

namespace Geom3d.Written
open Spec Winding List

set_option linter.unusedSectionVars false

variable {P : Type}

/-- One edge of a loop: from `u.2.1` to `u.2.2`, and whether this is the direction in which it is written. -/
abbrev Use (P : Type) := Bool × P × P

/-- The end that is written first. -/
def first (u : Use P) : P := if u.1 then u.2.1 else u.2.2

/-- The end that is written last. -/
def last (u : Use P) : P := if u.1 then u.2.2 else u.2.1

/-- What remains of the end of one edge and the beginning of the next. -/
def turn (e : Use P × Use P) : List P := if e.1.1 && e.2.1 then [last e.1] else [last e.1, first e.2]

/-- The polygon that is read, up to its beginning. -/
def walk (E : List (Use P)) : List P := (loopEdges E).flatMap turn

def rest (u : Use P) : List (Use P) → List P
  | [] => []
  | v :: R => (if u.1 && v.1 then [] else [first v]) ++ last v :: rest v R

def along (u : Use P) (R : List (Use P)) : List P := (pathEdges (u :: R)).flatMap turn

theorem along_cons (u v : Use P) (R : List (Use P)) : along u (v :: R) = turn (u, v) ++ along v R := rfl

theorem rest_eq : ∀ (R : List (Use P)) (u : Use P), last u :: rest u R = along u R ++ [last ((u :: R).getLast (by simp))]
  | [], u => rfl
  | v :: R, u => by
    have := rest_eq R v
    rw [along_cons, List.getLast_cons (by simp), List.append_assoc, ← this]
    rw [show rest u (v :: R) = (if u.1 && v.1 then [] else [first v]) ++ last v :: rest v R from rfl]
    unfold turn
    dsimp only
    split <;> simp

/-- Each edge begins where the one before it ends. -/
def Chained (L : List (Use P × Use P)) : Prop := ∀ e ∈ L, e.1.2.2 = e.2.2.1

theorem merge_point {e : Use P × Use P} (h : e.1.2.2 = e.2.2.1) (hm : (e.1.1 && e.2.1) = true) : last e.1 = first e.2 := by
  rw [Bool.and_eq_true] at hm
  simp [last, first, hm.1, hm.2, h]

theorem dedup_rest (same : P → P → Bool) : ∀ (R : List (Use P)) (u : Use P), Chained (pathEdges (u :: R)) →
    (∀ e ∈ pathEdges (u :: R), same (first e.2) (last e.1) = (e.1.1 && e.2.1)) → (∀ v ∈ R, same (last v) (first v) = false) →
    dedupAux same (last u) (R.flatMap fun v => [first v, last v]) = rest u R
  | [], u, _, _, _ => rfl
  | v :: R, u, hc, h, hn => by
    have e : pathEdges (u :: v :: R) = (u, v) :: pathEdges (v :: R) := rfl
    rw [e] at hc h
    have ih := dedup_rest same R v (fun e he => hc e (by simp [he])) (fun e he => h e (by simp [he])) fun w hw => hn w (by simp [hw])
    have h1 := h (u, v) (by simp)
    have h2 := hn v (by simp)
    dsimp only at h1
    rw [List.flatMap_cons]
    simp only [List.cons_append, List.nil_append]
    unfold rest
    rw [dedupAux, h1]
    by_cases hm : (u.1 && v.1) = true
    · have := merge_point (e := (u, v)) (hc _ (by simp)) hm
      dsimp only at this
      rw [if_pos hm, if_pos hm, this, dedupAux, h2, List.nil_append, ← ih]
      simp
    · rw [if_neg hm, if_neg hm, dedupAux, h2, ← ih]
      simp

theorem pathEdges_close (u : Use P) (R : List (Use P)) :
    loopEdges (u :: R) = pathEdges (u :: R) ++ [((u :: R).getLast (by simp), u)] := by
  have h := List.dropLast_append_getLast (l := u :: R) (by simp)
  have e : (u :: R) ++ [u] = (u :: R).dropLast ++ (u :: R).getLast (by simp) :: [u] := by
    conv_lhs => rw [← h]
    simp
  show pathEdges (u :: R ++ [u]) = _
  rw [e, Spec.pathEdges_append, h]
  rfl

/-- **The polygon read** is the walk, begun at some vertex of it. -/
theorem close_walk {E : List (Use (V3 ℝ))} (hne : E ≠ []) (hc : Chained (loopEdges E))
    (hs : ∀ e ∈ loopEdges E, near ((first e.2).distanceSq (last e.1)) 0 = (e.1.1 && e.2.1))
    (hn : ∀ v ∈ E, near ((last v).distanceSq (first v)) 0 = false) :
    ∃ l, closePolygon (E.flatMap fun v => [first v, last v]) = .ok l ∧ l ~r walk E := by
  obtain ⟨u, R, rfl⟩ := List.exists_cons_of_ne_nil hne
  rw [pathEdges_close] at hc hs
  have hd : dedupBy (fun a b : V3 ℝ => near (a.distanceSq b) 0) ((u :: R).flatMap fun v => [first v, last v])
      = first u :: (along u R ++ [last ((u :: R).getLast (by simp))]) := by
    rw [← rest_eq, List.flatMap_cons]
    simp only [List.cons_append, List.nil_append, dedupBy]
    rw [dedupAux, hn u (by simp)]
    simp only [Bool.false_eq_true, if_false]
    rw [dedup_rest (fun a b : V3 ℝ => near (a.distanceSq b) 0) R u (fun e he => hc e (by simp [he])) (fun e he => hs e (by simp [he]))
      fun v hv => hn v (by simp [hv])]
  have hw : walk (u :: R) = along u R ++ turn ((u :: R).getLast (by simp), u) := by
    unfold walk
    rw [pathEdges_close, List.flatMap_append]
    simp [along]
  have hlast := hs ((u :: R).getLast (by simp), u) (by simp)
  have hcl := hc ((u :: R).getLast (by simp), u) (by simp)
  dsimp only at hlast hcl
  generalize (u :: R).getLast (by simp) = z at *
  have hcp : closePolygon ((u :: R).flatMap fun v => [first v, last v])
      = .ok (if z.1 && u.1 then first u :: along u R else first u :: (along u R ++ [last z])) := by
    unfold closePolygon
    rw [hd]
    have hlast' : idx (first u :: (along u R ++ [last z])) ((along u R).length + 1) = .ok (last z) := by simp [idx]
    simp only [List.length_append, List.length_cons, List.length_nil]
    have hu : usub ((along u R).length + (0 + 1) + 1) 1 = .ok ((along u R).length + 1) := by simp [usub]
    have h0 : idx (first u :: (along u R ++ [last z])) 0 = .ok (first u) := rfl
    rw [hu, h0]
    simp only [ok_bind]
    rw [hlast']
    simp only [ok_bind, pure_eq_ok, hlast]
    congr 1
    split
    · rw [← List.cons_append, List.dropLast_concat]
    · rfl
  refine ⟨_, hcp, ?_⟩
  rw [hw]
  unfold turn
  dsimp only
  split
  · rename_i hm
    rw [← merge_point (e := (z, u)) hcl hm]
    exact isRotated_append (l := [last z])
  · have : along u R ++ [last z, first u] = (along u R ++ [last z]) ++ [first u] := by simp
    rw [this]
    exact isRotated_append (l := [first u])

/-! ### Corners -/

/-- The vertices of a list, each with its neighbours; `p` comes before the list and `s` after it. -/
def corners (p : P) : List P → P → List (P × P × P)
  | [], _ => []
  | x :: L, s => (p, x, L.headD s) :: corners x L s

/-- The corners of the walk where edge `e.2` follows edge `e.1`. -/
def Kind (e : Use P × Use P) (t : P × P × P) : Prop :=
  ((e.1.1 || e.2.1) = true ∧ (t = (e.1.2.1, e.1.2.2, e.2.2.2) ∨ t.1 = t.2.2)) ∨
  (e.1.1 = false ∧ e.2.1 = false ∧ (t = (e.1.2.2, e.1.2.1, e.2.2.2) ∨ t = (e.1.2.1, e.2.2.2, e.1.2.2)))

theorem headD_along (v : Use P) (R : List (Use P)) : (along v R).headD (last ((v :: R).getLast (by simp))) = last v := by
  have h := rest_eq R v
  cases ha : along v R with
  | nil => rw [ha] at h; simp only [List.nil_append, List.cons.injEq] at h; rw [List.headD_nil]; exact h.1.symm
  | cons x L => rw [ha] at h; simp only [List.cons_append, List.cons.injEq] at h; exact h.1.symm

theorem corners_along : ∀ (R : List (Use P)) (u : Use P), Chained (pathEdges (u :: R)) →
    ∀ t ∈ corners (first u) (along u R) (last ((u :: R).getLast (by simp))), ∃ e ∈ pathEdges (u :: R), Kind e t
  | [], u, _, t, ht => by cases ht
  | v :: R, u, hc, t, ht => by
    have e0 : pathEdges (u :: v :: R) = (u, v) :: pathEdges (v :: R) := rfl
    have hh := headD_along v R
    have ih := corners_along R v fun e he => hc e (by rw [e0]; simp [he])
    rw [List.getLast_cons (by simp)] at ht
    have hcv := hc (u, v) (by rw [e0]; simp)
    rw [along_cons] at ht
    rw [e0]
    unfold turn at ht
    dsimp only at ht hcv
    generalize (v :: R).getLast (by simp) = z at *
    split at ht
    · rename_i hm
      have hmp := merge_point (e := (u, v)) hcv hm
      dsimp only at hmp
      rw [Bool.and_eq_true] at hm
      rw [List.singleton_append, corners, hh, List.mem_cons] at ht
      rcases ht with rfl | ht
      · exact ⟨(u, v), by simp, .inl ⟨by simp [hm.1], .inl (by simp [first, last, hm.1, hm.2])⟩⟩
      · rw [hmp] at ht
        obtain ⟨f, hf, hk⟩ := ih t ht
        exact ⟨f, by simp [hf], hk⟩
    · rename_i hm
      rw [List.cons_append, List.singleton_append, corners, corners, hh, List.headD_cons, List.mem_cons, List.mem_cons] at ht
      rcases ht with rfl | rfl | ht
      · refine ⟨_, List.mem_cons_self .., ?_⟩
        rcases u with ⟨_ | _, a, b⟩ <;> rcases v with ⟨_ | _, b', c⟩ <;> simp_all [Kind, first, last]
      · refine ⟨_, List.mem_cons_self .., ?_⟩
        rcases u with ⟨_ | _, a, b⟩ <;> rcases v with ⟨_ | _, b', c⟩ <;> simp_all [Kind, first, last]
      · obtain ⟨f, hf, hk⟩ := ih t ht
        exact ⟨f, by simp [hf], hk⟩

theorem getElem?_corners : ∀ (L : List P) (p s : P) (j : Nat) {x y z : P}, (p :: L)[j]? = some x → L[j]? = some y →
    (L ++ [s])[j + 1]? = some z → (x, y, z) ∈ corners p L s
  | [], p, s, j, x, y, z, _, h2, _ => by simp at h2
  | a :: L, p, s, 0, x, y, z, h1, h2, h3 => by
    simp only [List.getElem?_cons_zero, Option.some.injEq] at h1 h2
    subst h1 h2
    rw [corners, List.mem_cons]
    left
    congr 2
    cases L with
    | nil => simpa using h3.symm
    | cons b L => simpa using h3.symm
  | a :: L, p, s, j + 1, x, y, z, h1, h2, h3 => by
    rw [corners, List.mem_cons]
    exact .inr (getElem?_corners L a s j (by simpa using h1) (by simpa using h2) (by simpa using h3))

/-- Every corner of the walk. -/
theorem walk_corner {E : List (Use P)} (hc : Chained (loopEdges E)) {j : Nat} (hj : j < (walk E).length) {x y z : P}
    (h1 : (walk E)[((walk E).length + j - 1) % (walk E).length]? = some x) (h2 : (walk E)[j]? = some y)
    (h3 : (walk E)[(j + 1) % (walk E).length]? = some z) : ∃ e ∈ loopEdges E, Kind e (x, y, z) := by
  cases E with
  | nil => simp [walk] at hj
  | cons u R =>
    have hw : walk (u :: R) = along u (R ++ [u]) := rfl
    have key := corners_along (R ++ [u]) u hc (x, y, z)
    have hgl : (u :: (R ++ [u])).getLast (by simp) = u := by simp
    rw [hgl, ← hw] at key
    refine key (getElem?_corners _ _ _ j ?_ h2 ?_)
    · cases j with
      | zero =>
        rw [Nat.add_zero, Nat.mod_eq_of_lt (by omega)] at h1
        rw [List.getElem?_cons_zero, ← h1, ← List.getLast?_eq_getElem?]
        have h4 : walk (u :: R) = along u R ++ turn ((u :: R).getLast (by simp), u) := by
          unfold walk
          rw [pathEdges_close, List.flatMap_append]
          simp [along]
        rw [h4, List.getLast?_append]
        have h5 := hc ((u :: R).getLast (by simp), u) (by rw [pathEdges_close]; simp)
        unfold turn
        split
        · rename_i hm
          have := merge_point h5 hm
          dsimp only at this ⊢
          rw [this]; rfl
        · rfl
      | succ j =>
        rw [show (walk (u :: R)).length + (j + 1) - 1 = j + (walk (u :: R)).length by omega, Nat.add_mod_right,
          Nat.mod_eq_of_lt (by omega)] at h1
        rw [List.getElem?_cons_succ]; exact h1
    · rcases Nat.lt_or_ge (j + 1) (walk (u :: R)).length with h | h
      · rw [Nat.mod_eq_of_lt h] at h3
        rw [List.getElem?_append_left h]; exact h3
      · have : j + 1 = (walk (u :: R)).length := by omega
        rw [this, Nat.mod_self] at h3
        rw [this, List.getElem?_concat_length, ← h3]
        have hh := headD_along u (R ++ [u])
        rw [hgl, ← hw] at hh
        rw [← hh]
        cases hx : walk (u :: R) with
        | nil => rw [hx] at hj; simp at hj
        | cons a L => simp

/-! ### Rotation -/

theorem loopEdges_isRotated {α : Type} (l m : List α) : loopEdges (l ++ m) ~r loopEdges (m ++ l) := by
  have one : ∀ (a : α) (t : List α), loopEdges (a :: t) ~r loopEdges (t ++ [a]) := by
    intro a t
    cases t with
    | nil => exact .refl _
    | cons b t =>
      rw [List.cons_append, Spec.loopEdges_cons, Spec.loopEdges_cons]
      have : b :: (t ++ [a] ++ [b]) = (b :: t) ++ a :: [b] := by simp
      rw [this, Spec.pathEdges_append]
      have e : (a :: (b :: t ++ [a])) = a :: b :: (t ++ [a]) := rfl
      rw [e, pathEdges_cons_cons]
      exact isRotated_append (l := [(a, b)])
  induction l generalizing m with
  | nil => simpa using IsRotated.refl _
  | cons a l ih =>
    have h1 := one a (l ++ m)
    have h2 := ih (m ++ [a])
    rw [List.append_assoc] at h1
    have e : m ++ a :: l = (m ++ [a]) ++ l := by simp
    rw [e]
    exact h1.trans h2

theorem flatMap_isRotated {α β : Type} {l m : List α} (f : α → List β) (h : l ~r m) : l.flatMap f ~r m.flatMap f := by
  obtain ⟨n, rfl⟩ := h
  rw [List.rotate_eq_drop_append_take_mod, List.flatMap_append]
  conv_lhs => rw [← List.take_append_drop (n % l.length) l, List.flatMap_append]
  exact isRotated_append

theorem walk_isRotated {E E' : List (Use P)} (h : E ~r E') : walk E ~r walk E' := by
  obtain ⟨n, rfl⟩ := h
  rw [List.rotate_eq_drop_append_take_mod]
  conv_lhs => rw [← List.take_append_drop (n % E.length) E]
  exact flatMap_isRotated _ (loopEdges_isRotated _ _)

/-- Two edges in a row are used backward, but not all: there is a first one. -/
theorem first_run : ∀ (w : List (Use P)) (t : Use P), t.1 = true → (∃ e ∈ pathEdges (t :: w), e.1.1 = false ∧ e.2.1 = false) →
    ∃ p z u v s, t :: w = p ++ z :: u :: v :: s ∧ z.1 = true ∧ u.1 = false ∧ v.1 = false
  | [], t, _, ⟨e, he, _⟩ => by cases he
  | [x], t, ht, ⟨e, he, h1, h2⟩ => by
    simp only [pathEdges_cons_cons, pathEdges_singleton, List.mem_singleton] at he
    subst he
    rw [ht] at h1; cases h1
  | x :: y :: w, t, ht, ⟨e, he, h1, h2⟩ => by
    rw [pathEdges_cons_cons, List.mem_cons] at he
    have he := he.resolve_left fun h => by subst h; rw [ht] at h1; cases h1
    rcases hx : x.1 with _ | _
    · rcases hy : y.1 with _ | _
      · exact ⟨[], t, x, y, w, rfl, ht, hx, hy⟩
      · rw [pathEdges_cons_cons, List.mem_cons] at he
        have he := he.resolve_left fun h => by subst h; rw [hy] at h2; cases h2
        obtain ⟨p, z, u, v, s, e1, e2⟩ := first_run w y hy ⟨e, he, h1, h2⟩
        exact ⟨t :: x :: p, z, u, v, s, by rw [e1]; rfl, e2⟩
    · obtain ⟨p, z, u, v, s, e1, e2⟩ := first_run (y :: w) x hx ⟨e, he, h1, h2⟩
      exact ⟨t :: p, z, u, v, s, by rw [e1]; rfl, e2⟩

theorem exists_run {E : List (Use P)} (hT : ∃ u ∈ E, u.1 = true) (hF : ∃ e ∈ loopEdges E, e.1.1 = false ∧ e.2.1 = false) :
    ∃ z u v s, E ~r z :: u :: v :: s ∧ z.1 = true ∧ u.1 = false ∧ v.1 = false := by
  obtain ⟨t, ht, h1⟩ := hT
  obtain ⟨w, hw⟩ := rot_of_mem ht
  obtain ⟨e, he, h2, h3⟩ := hF
  rw [(loopEdges_rot hw).mem_iff, pathEdges_close, List.mem_append, List.mem_singleton] at he
  have he := he.resolve_right fun h => by subst h; rw [h1] at h3; cases h3
  obtain ⟨p, z, u, v, s, e1, e2⟩ := first_run w t h1 ⟨e, he, h2, h3⟩
  refine ⟨z, u, v, s ++ p, hw.trans ?_, e2⟩
  rw [e1]
  exact isRotated_append

/-! ### The walk from a run of backward edges -/

theorem along_tail : ∀ (R : List (Use P)) (u : Use P) (hR : R ≠ []), Chained (pathEdges (u :: R)) → (R.getLast hR).1 = true →
    ∃ r, along u R = last u :: r ∧ ∀ x ∈ r, x ∈ R.map fun v => v.2.1
  | [], _, hR, _, _ => absurd rfl hR
  | [v], u, _, _, hl => by
    have hv : v.1 = true := hl
    rw [along_cons]
    unfold turn
    split
    · exact ⟨[], rfl, by simp⟩
    · exact ⟨[first v], rfl, by simp [first, hv]⟩
  | v :: w :: R, u, _, hc, hl => by
    have e : pathEdges (u :: v :: w :: R) = (u, v) :: (v, w) :: pathEdges (w :: R) := rfl
    rw [e] at hc
    obtain ⟨r, h1, h2⟩ := along_tail (w :: R) v (by simp) (fun e he => hc e (List.mem_cons_of_mem _ he)) (by
      rw [← List.getLast_cons (a := v) (by simp)]; exact hl)
    have hvw := hc (v, w) (by simp)
    dsimp only at hvw
    have hm : first v ∈ (v :: w :: R).map (fun v => v.2.1) ∧ last v ∈ (v :: w :: R).map fun v => v.2.1 := by
      unfold first last
      rw [hvw]
      split <;> simp
    rw [along_cons, h1]
    unfold turn
    split
    · exact ⟨last v :: r, rfl, fun x hx => by
        rw [List.mem_cons] at hx
        rcases hx with rfl | hx
        · exact hm.2
        · exact List.mem_cons_of_mem _ (h2 x hx)⟩
    · exact ⟨first v :: last v :: r, rfl, fun x hx => by
        rw [List.mem_cons, List.mem_cons] at hx
        rcases hx with rfl | rfl | hx
        · exact hm.1
        · exact hm.2
        · exact List.mem_cons_of_mem _ (h2 x hx)⟩

/-- From the first of a run of backward edges on: `a`, `b`, `a`, `c`, `b`, and then either `c` or the corner `d` after it and `c`.
`b` does not come again, and in the second case neither does `c`. -/
theorem walk_run {z u v : Use P} {s : List (Use P)} (hz : z.1 = true) (hu : u.1 = false) (hv : v.1 = false)
    (hc : Chained (loopEdges (z :: u :: v :: s))) (hn : ((z :: u :: v :: s).map fun v => v.2.1).Nodup) :
    (∃ r, walk (z :: u :: v :: s) = [u.2.1, v.2.1, u.2.1, v.2.2, v.2.1, v.2.2] ++ r ∧ v.2.1 ∉ r) ∨
    (∃ d r, walk (z :: u :: v :: s) = [u.2.1, v.2.1, u.2.1, v.2.2, v.2.1, d, v.2.2] ++ r ∧ v.2.1 ∉ r ∧ v.2.2 ∉ r ∧ d ≠ v.2.1 ∧
      d ≠ v.2.2 ∧ (v.2.2, d) ∈ loopEdges ((z :: u :: v :: s).map fun v => v.2.1)) := by
  have e0 : loopEdges (z :: u :: v :: s) = (z, u) :: (u, v) :: pathEdges (v :: (s ++ [z])) := rfl
  have hw : walk (z :: u :: v :: s) = turn (z, u) ++ (turn (u, v) ++ along v (s ++ [z])) := rfl
  have c1 := hc (z, u) (by rw [e0]; simp)
  have c2 := hc (u, v) (by rw [e0]; simp)
  dsimp only at c1 c2
  have t1 : turn (z, u) = [u.2.1, v.2.1] := by simp [turn, hz, hu, last, first, c1, c2]
  have t2 : turn (u, v) = [u.2.1, v.2.2] := by simp [turn, hu, hv, last, first]
  rw [t1, t2] at hw
  have hc' : Chained (pathEdges (v :: (s ++ [z]))) := fun e he => hc e (by rw [e0]; simp [he])
  simp only [List.map_cons, List.nodup_cons, List.mem_cons, not_or] at hn
  obtain ⟨⟨n1, n2, n3⟩, ⟨n4, n5⟩, n6, n7⟩ := hn
  cases s with
  | nil =>
    left
    have hvz := hc' (v, z) (by simp)
    dsimp only at hvz
    refine ⟨[], ?_, by simp⟩
    rw [hw]
    have : along v ([] ++ [z]) = [v.2.1, v.2.2] := by
      rw [List.nil_append, along_cons]
      simp [turn, hv, last, first, hz, hvz, along]
    rw [this]; rfl
  | cons x s =>
    have e1 : pathEdges (v :: (x :: s ++ [z])) = (v, x) :: pathEdges (x :: (s ++ [z])) := rfl
    have hvx := hc' (v, x) (by rw [e1]; simp)
    dsimp only at hvx
    have hcx : Chained (pathEdges (x :: (s ++ [z]))) := fun e he => hc' e (by rw [e1]; simp [he])
    obtain ⟨r, r1, r2⟩ := along_tail (s ++ [z]) x (by simp) hcx (by simp [hz])
    simp only [List.map_cons, List.mem_cons, not_or, List.nodup_cons] at n6 n7
    have n3' : ¬ z.2.1 = x.2.1 ∧ z.2.1 ∉ s.map fun v => v.2.1 := by
      simpa only [List.map_cons, List.mem_cons, not_or] using n3
    have hb : v.2.1 ∉ (s ++ [z]).map fun v => v.2.1 := by
      rw [List.map_append, List.mem_append, not_or]
      exact ⟨n6.2, by simpa using fun h => n2 h.symm⟩
    have hcc : v.2.2 ∉ (s ++ [z]).map fun v => v.2.1 := by
      rw [List.map_append, List.mem_append, not_or, hvx]
      exact ⟨n7.1, by simpa using fun h => n3'.1 h.symm⟩
    rw [show along v (x :: s ++ [z]) = turn (v, x) ++ along x (s ++ [z]) from rfl, r1] at hw
    have hq : ∃ y, y ∈ s ++ [z] ∧ x.2.2 = y.2.1 ∧ (x, y) ∈ pathEdges (x :: (s ++ [z])) := by
      cases s with
      | nil => exact ⟨z, by simp, hcx (x, z) (by simp), by simp⟩
      | cons y s => exact ⟨y, by simp, hcx (x, y) (by simp), by simp⟩
    obtain ⟨y, hy1, hy2, hy3⟩ := hq
    have hyq : x.2.2 ∈ (s ++ [z]).map fun v => v.2.1 := List.mem_map.2 ⟨y, hy1, hy2.symm⟩
    rcases hx : x.1 with _ | _
    · right
      refine ⟨x.2.2, r, ?_, fun h => hb (r2 _ h), fun h => hcc (r2 _ h), fun h => hb (h ▸ hyq), fun h => hcc (h ▸ hyq), ?_⟩
      · rw [hw]
        simp [turn, hv, hx, last, first, hvx]
      · rw [loopEdges_map, List.mem_map]
        refine ⟨(x, y), ?_, by simp [hvx, hy2]⟩
        rw [e0, e1]
        simp [hy3]
    · left
      refine ⟨x.2.2 :: r, ?_, ?_⟩
      · rw [hw]
        simp [turn, hv, hx, last, first, hvx]
      · rw [List.mem_cons, not_or]
        exact ⟨fun h => hb (h ▸ hyq), fun h => hb (r2 _ h)⟩

end Geom3d.Written
