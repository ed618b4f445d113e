import Verif.Lemmas.BentTrim
import Verif.Lemmas.ConvexFan

/-!
# Vertices on the sides of a planar face do no harm (C149)

`compute_vertex_convexity` (`src/utils/polygon.rs:15-36`) drops the vertices on a line with their neighbours before the ears are
clipped (`src/surface/plane.rs:25-91`). C121 is about loops no three vertices of which are on a line. Here: points may be put on
the sides of such a loop, any number of them, as long as the corners still turn by more than the tolerance as measured between
the points next to them. The face is tiled nevertheless. If the points next to a corner are too close to it the corner is cut off.
-/

namespace Geom3d
open Spec List

set_option linter.unusedSectionVars false

variable {K : Type} [Field K] [LinearOrder K] [IsStrictOrderedRing K] [Env K]

/-- The point that divides the way from `a` to `b` at `t`. -/
def Spec.onWay (a b : V2 K) (t : K) : V2 K := ⟨a.x + t * (b.x - a.x), a.y + t * (b.y - a.y)⟩

/-- Points between `a` and `b` in the order in which they are met. -/
def Spec.OnSide (a b : V2 K) (m : List (V2 K)) : Prop :=
  ∃ ts : List K, ts.Pairwise (· < ·) ∧ (∀ t ∈ ts, 0 < t ∧ t < 1) ∧ m = ts.map (onWay a b)

/-- The closed polygon `R` has the corners `S.map Prod.fst`; the other part of an entry of `S` are the vertices on the side that
begins at the corner. The turn at a corner, measured between the vertices next to it, exceeds the tolerance. -/
structure Spec.MarkedLoop (S : List (V2 K × List (V2 K))) (R : List (V2 K)) : Prop where
  points : R = S.flatMap fun s => s.1 :: s.2
  sides : ∀ e ∈ loopEdges S, OnSide e.1.1 e.2.1 e.1.2
  sharp : ∀ s t u, (s, t) ∈ loopEdges S → (t, u) ∈ loopEdges S → Env.tol < |triArea2 (s.2.getLastD s.1) t.1 (t.2.headD u.1)|

namespace Marked
open Written Bent ConvexFaces Winding

section lists
variable {α : Type}

abbrev flat (S : List (α × List α)) : List α := S.flatMap fun s => s.1 :: s.2

theorem pathEdges_flat (z : α × List α) : ∀ S : List (α × List α), pathEdges (flat S ++ [z.1])
    = (pathEdges (S ++ [z])).flatMap fun e => pathEdges (e.1.1 :: (e.1.2 ++ [e.2.1]))
  | [] => rfl
  | [s] => by simp [flat, show pathEdges [z] = [] from rfl]
  | s :: t :: S => by
    have ih := pathEdges_flat z (t :: S)
    have e : flat (s :: t :: S) ++ [z.1] = (s.1 :: s.2) ++ t.1 :: (t.2 ++ flat S ++ [z.1]) := by simp [flat]
    have e' : flat (t :: S) ++ [z.1] = t.1 :: (t.2 ++ flat S ++ [z.1]) := by simp [flat]
    rw [e, pathEdges_append, ← e', ih]
    rfl

theorem loopEdges_flat (S : List (α × List α)) : loopEdges (flat S)
    = (loopEdges S).flatMap fun e => pathEdges (e.1.1 :: (e.1.2 ++ [e.2.1])) := by
  cases S with
  | nil => rfl
  | cons h S =>
    have e : flat (h :: S) = h.1 :: (h.2 ++ flat S) := by simp [flat]
    rw [Winding.loopEdges_cons h S, ← pathEdges_flat, e, Winding.loopEdges_cons]

theorem corners_append : ∀ (L M : List α) (p s : α),
    Written.corners p (L ++ M) s = Written.corners p L (M.headD s) ++ Written.corners (L.getLastD p) M s
  | [], _, _, _ => rfl
  | x :: L, M, p, s => by
    rw [List.cons_append, Written.corners, corners_append L M x s, Written.corners, List.cons_append, List.getLastD_cons]
    cases L <;> rfl

theorem mem_corners : ∀ {L : List α} {p s : α} {c}, c ∈ Written.corners p L s →
    c.1 ∈ p :: (L ++ [s]) ∧ c.2.1 ∈ p :: (L ++ [s]) ∧ c.2.2 ∈ p :: (L ++ [s])
  | [], _, _, _, h => by cases h
  | x :: L, p, s, c, h => by
    rw [Written.corners, List.mem_cons] at h
    rcases h with rfl | h
    · cases L <;> simp
    · obtain ⟨h1, h2, h3⟩ := mem_corners h
      exact ⟨List.mem_cons_of_mem _ h1, List.mem_cons_of_mem _ h2, List.mem_cons_of_mem _ h3⟩

/-- The corners with the vertices next to them. -/
def heads (p : α) : List (α × List α) → α → List (α × α × α)
  | [], _ => []
  | t :: S, z => (p, t.1, t.2.headD ((flat S).headD z)) :: heads (t.2.getLastD t.1) S z

theorem filter_corners (q : α × α × α → Bool) (z : α × List α) : ∀ {S : List (α × List α)} {p : α}, (∀ c ∈ heads p S z.1, q c = true) →
    (∀ e ∈ pathEdges (S ++ [z]), ∀ c ∈ Written.corners e.1.1 e.1.2 e.2.1, q c = false) →
    (Written.corners p (flat S) z.1).filter q = heads p S z.1
  | [], _, _, _ => rfl
  | t :: S, p, h1, h2 => by
    have e : flat (t :: S) = (t.1 :: t.2) ++ flat S := by simp [flat]
    have hn : ((t, ((S ++ [z]).headD z)) : (α × List α) × (α × List α)) ∈ pathEdges (t :: S ++ [z]) := by
      cases S <;> simp
    have hz : (flat S).headD z.1 = ((S ++ [z]).headD z).1 := by cases S <;> simp [flat]
    have ih := filter_corners q z (S := S) (p := t.2.getLastD t.1) (fun c hc => h1 c (List.mem_cons_of_mem _ hc)) fun e he => h2 e (by
      cases S with
      | nil => cases he
      | cons u S => exact List.mem_cons_of_mem _ he)
    have h3 := h2 _ hn
    rw [e, corners_append, List.filter_append, List.getLastD_cons, ih, Written.corners, List.filter_cons_of_pos (h1 _ (by simp [heads])),
      List.filter_eq_nil_iff.2 (fun c hc => by rw [hz] at hc; rw [h3 c hc]; simp)]
    rfl

theorem mem_heads (z : α × List α) : ∀ {S : List (α × List α)} {s : α × List α} {c}, c ∈ heads (s.2.getLastD s.1) S z.1 →
    ∃ s' t u, (s', t) ∈ pathEdges (s :: (S ++ [z])) ∧ (t, u) ∈ pathEdges (s :: (S ++ [z])) ∧ c = (s'.2.getLastD s'.1, t.1, t.2.headD u.1)
  | [], _, _, h => by cases h
  | t :: S, s, c, h => by
    rw [heads, List.mem_cons] at h
    rcases h with rfl | h
    · refine ⟨s, t, (S ++ [z]).headD z, by simp, ?_, ?_⟩
      · cases S <;> simp
      · have hz : (flat S).headD z.1 = ((S ++ [z]).headD z).1 := by cases S <;> simp [flat]
        rw [hz]
    · obtain ⟨s', t', u, h1, h2, h3⟩ := mem_heads z h
      exact ⟨s', t', u, List.mem_cons_of_mem _ h1, List.mem_cons_of_mem _ h2, h3⟩

theorem heads_mid : ∀ (S : List (α × List α)) (p z : α), (heads p S z).map (fun c => c.2.1) = S.map Prod.fst
  | [], _, _ => rfl
  | t :: S, p, z => by rw [heads, List.map_cons, heads_mid, List.map_cons]

theorem flat_ends {S : List (α × List α)} {z : α × List α} : (flat (S ++ [z])).getLast? = some (z.2.getLastD z.1) := by
  simp only [flat, List.flatMap_append, List.flatMap_cons, List.flatMap_nil, List.append_nil, List.getLast?_append]
  rw [List.getLast?_cons, List.getLastD_eq_getLast?]
  simp

end lists

/-! ### Points on a side -/

theorem onWay_zero (a b : V2 K) : onWay a b 0 = a := by simp [onWay]
theorem onWay_one (a b : V2 K) : onWay a b 1 = b := by simp [onWay]

theorem tri_onWay (a b : V2 K) (r s : K) (x : V2 K) : triArea2 (onWay a b r) (onWay a b s) x = (s - r) * triArea2 a b x := by
  simp only [triArea2, onWay]; ring

theorem tri_onWay_right (a b c d : V2 K) (t : K) : triArea2 a b (onWay c d t) = (1 - t) * triArea2 a b c + t * triArea2 a b d := by
  simp only [triArea2, onWay]; ring

theorem tri_corner (a b c : V2 K) (r s : K) : triArea2 (onWay a b r) b (onWay b c s) = ((1 - r) * s) * triArea2 a b c := by
  simp only [triArea2, onWay]; ring

/-- The points of a side with its ends. -/
theorem side_params {a b : V2 K} {m : List (V2 K)} (h : OnSide a b m) : ∃ ts : List K, (0 :: (ts ++ [1])).Pairwise (· < ·) ∧
    a :: (m ++ [b]) = (0 :: (ts ++ [1])).map (onWay a b) ∧ m = ts.map (onWay a b) ∧ ∀ t ∈ ts, 0 < t ∧ t < 1 := by
  obtain ⟨ts, h1, h2, rfl⟩ := h
  refine ⟨ts, ?_, by simp [onWay_zero, onWay_one], rfl, h2⟩
  rw [List.pairwise_cons, List.pairwise_append]
  refine ⟨fun t ht => ?_, h1, by simp, fun s hs t ht => ?_⟩
  · rw [List.mem_append, List.mem_singleton] at ht
    rcases ht with ht | rfl
    · exact (h2 t ht).1
    · exact zero_lt_one
  · rw [List.mem_singleton] at ht
    subst ht
    exact (h2 s hs).2

theorem pathEdges_lt {l : List K} (h : l.Pairwise (· < ·)) : ∀ e ∈ pathEdges l, e.1 < e.2 := by
  intro e he
  obtain ⟨l₁, l₂, rfl⟩ := pathEdges_split (x := e.1) (y := e.2) he
  have := (List.pairwise_append.1 h).2.1
  exact (List.pairwise_cons.1 this).1 _ (by simp)

theorem sum_chain {M V : Type} [AddCommMonoid M] (f : V → V → M) (g : K → V)
    (hadd : ∀ r s t, r < s → s < t → f (g r) (g s) + f (g s) (g t) = f (g r) (g t)) :
    ∀ (ts : List K) (r z : K), (r :: (ts ++ [z])).Pairwise (· < ·) →
      ((pathEdges ((r :: (ts ++ [z])).map g)).map fun e => f e.1 e.2).sum = f (g r) (g z)
  | [], r, z, _ => by simp [pathEdges]
  | s :: ts, r, z, h => by
    have h' := List.pairwise_cons.1 h
    have ih := sum_chain f g hadd ts s z h'.2
    have h1 : r < s := h'.1 s (by simp)
    have h2 : s < z := (List.pairwise_cons.1 h'.2).1 z (by simp)
    simp only [List.cons_append, List.map_cons, pathEdges_cons, List.sum_cons] at ih ⊢
    rw [ih, hadd r s z h1 h2]

theorem crossing_add (x a b : V2 K) {r s t : K} (h1 : r < s) (h2 : s < t) :
    crossing x (onWay a b r) (onWay a b s) + crossing x (onWay a b s) (onWay a b t) = crossing x (onWay a b r) (onWay a b t) := by
  unfold crossing
  rw [tri_onWay, tri_onWay, tri_onWay]
  have p1 : 0 < s - r := by linarith
  have p2 : 0 < t - s := by linarith
  have p3 : 0 < t - r := by linarith
  simp only [mul_pos_iff_of_pos_left, p1, p2, p3, mul_neg_iff, not_lt.2 p1.le, not_lt.2 p2.le, not_lt.2 p3.le, true_and, false_and, or_false]
  have hy : ∀ t, (onWay a b t).y = a.y + t * (b.y - a.y) := fun _ => rfl
  have mono : ((onWay a b r).y ≤ (onWay a b s).y ∧ (onWay a b s).y ≤ (onWay a b t).y) ∨
      ((onWay a b s).y ≤ (onWay a b r).y ∧ (onWay a b t).y ≤ (onWay a b s).y) := by
    simp only [hy]
    rcases le_total a.y b.y with h | h
    · left; constructor <;> nlinarith
    · right; constructor <;> nlinarith
  generalize (onWay a b r).y = hr at *
  generalize (onWay a b s).y = hs at *
  generalize (onWay a b t).y = ht at *
  generalize triArea2 a b x = D
  rcases lt_trichotomy D 0 with hD | rfl | hD
  · simp only [not_lt.2 hD.le, hD, and_false, and_true, if_false]
    rcases mono with ⟨m1, m2⟩ | ⟨m1, m2⟩ <;> split_ifs <;> simp <;> grind
  · simp
  · simp only [not_lt.2 hD.le, hD, and_false, and_true, if_false]
    rcases mono with ⟨m1, m2⟩ | ⟨m1, m2⟩ <;> split_ifs <;> simp <;> grind

theorem cross_add (a b : V2 K) {r s t : K} :
    cross2 (onWay a b r) (onWay a b s) + cross2 (onWay a b s) (onWay a b t) = cross2 (onWay a b r) (onWay a b t) := by
  simp only [cross2, onWay]; ring

variable {S : List (V2 K × List (V2 K))} {R : List (V2 K)}

theorem sum_loop {M : Type} [AddCommMonoid M] (hm : MarkedLoop S R) (f : V2 K → V2 K → M)
    (hadd : ∀ a b r s t, r < s → s < t → f (onWay a b r) (onWay a b s) + f (onWay a b s) (onWay a b t) = f (onWay a b r) (onWay a b t)) :
    ((loopEdges R).map fun e => f e.1 e.2).sum = ((loopEdges (S.map Prod.fst)).map fun e => f e.1 e.2).sum := by
  rw [hm.points, loopEdges_flat, loopEdges_map, List.map_map, List.flatMap_def, List.map_flatten, List.sum_flatten, List.map_map, List.map_map]
  congr 1
  refine List.map_congr_left fun e he => ?_
  obtain ⟨ts, h1, h2, -, -⟩ := side_params (hm.sides e he)
  simp only [Function.comp]
  rw [h2, sum_chain f (onWay e.1.1 e.2.1) (hadd _ _) ts 0 1 h1, onWay_zero, onWay_one]
  rfl

theorem area_eq (hm : MarkedLoop S R) : area2 R = area2 (S.map Prod.fst) :=
  sum_loop hm cross2 fun a b _ _ _ _ _ => cross_add a b

theorem winding_marked (hm : MarkedLoop S R) (x : V2 K) : winding R x = winding (S.map Prod.fst) x :=
  sum_loop hm (crossing x) fun a b _ _ _ h1 h2 => crossing_add x a b h1 h2

/-! ### The corners remain -/

theorem bends_zero (htol : (0 : K) ≤ Env.tol) {a b c : V2 K} (h : triArea2 a b c = 0) : bends (a, b, c) = false := by
  have e : (b.x - a.x) * (c.y - b.y) - (b.y - a.y) * (c.x - b.x) = triArea2 a b c := by unfold triArea2; ring
  unfold bends
  simp only
  rw [computeConvexity_eq a b c htol]
  simp only [e, h, abs_zero, if_pos htol]
  simp

theorem bends_sharp (htol : (0 : K) ≤ Env.tol) {a b c : V2 K} (h : Env.tol < |triArea2 a b c|) : bends (a, b, c) = true := by
  unfold bends
  simp only
  rw [convexity_tri htol h]
  split <;> rfl

/-- The vertices that are not on a line with their neighbours are the corners. -/
theorem around_marked (htol : (0 : K) ≤ Env.tol) (hm : MarkedLoop S R) (hne : S ≠ []) :
    ((around 0 R).filter bends).map (fun c => c.2.1) = S.map Prod.fst ∧ ∀ c ∈ (around 0 R).filter bends, ∃ s t u, (s, t) ∈ loopEdges S ∧
      (t, u) ∈ loopEdges S ∧ c = (s.2.getLastD s.1, t.1, t.2.headD u.1) := by
  obtain ⟨h, S', rfl⟩ := List.exists_cons_of_ne_nil hne
  obtain ⟨L, z, hz⟩ := List.eq_nil_or_concat (h :: S') |>.resolve_left (by simp)
  rw [List.concat_eq_append] at hz
  have hR : R = flat (h :: S') := hm.points
  have hlast : R.getLast? = some (z.2.getLastD z.1) := by rw [hR, hz]; exact flat_ends
  have hhead : R.head? = some h.1 := by rw [hR]; rfl
  have hRne : R ≠ [] := fun e => by rw [e] at hhead; cases hhead
  have hloop : loopEdges (h :: S') = pathEdges ((h :: S') ++ [h]) := rfl
  have hsub : ∀ e ∈ pathEdges (z :: ((h :: S') ++ [h])), e ∈ loopEdges (h :: S') := by
    intro e he
    rw [List.cons_append, pathEdges_cons, List.mem_cons] at he
    rcases he with rfl | he
    · rw [hloop, hz, List.append_assoc, List.singleton_append, pathEdges_concat]
      simp
    · exact he
  have hheads : ∀ c ∈ heads (z.2.getLastD z.1) (h :: S') h.1, ∃ s t u, (s, t) ∈ loopEdges (h :: S') ∧
      (t, u) ∈ loopEdges (h :: S') ∧ c = (s.2.getLastD s.1, t.1, t.2.headD u.1) := by
    intro c hc
    obtain ⟨s, t, u, h1, h2, h3⟩ := mem_heads h hc
    exact ⟨s, t, u, hsub _ h1, hsub _ h2, h3⟩
  have hf : (around 0 R).filter bends = heads (z.2.getLastD z.1) (h :: S') h.1 := by
    rw [← corners_around 0 hRne hlast hhead, hR]
    refine filter_corners bends h (fun c hc => ?_) fun e he c hc => ?_
    · obtain ⟨s, t, u, h1, h2, rfl⟩ := hheads c hc
      exact bends_sharp htol (hm.sharp s t u h1 h2)
    · obtain ⟨ts, -, h2, -, -⟩ := side_params (hm.sides e he)
      obtain ⟨m1, m2, m3⟩ := mem_corners hc
      rw [h2, List.mem_map] at m1 m2 m3
      obtain ⟨⟨r, -, e1⟩, ⟨s, -, e2⟩, ⟨t, -, e3⟩⟩ := And.intro m1 (And.intro m2 m3)
      obtain ⟨c1, c2, c3⟩ := c
      dsimp only at e1 e2 e3
      rw [← e1, ← e2, ← e3]
      refine bends_zero htol ?_
      rw [tri_onWay]
      simp only [triArea2, onWay]; ring
  rw [hf]
  exact ⟨heads_mid _ _ _, hheads⟩

/-- The vertex before a corner. -/
theorem before {s t : V2 K × List (V2 K)} (h : OnSide s.1 t.1 s.2) : ∃ r, r < 1 ∧ s.2.getLastD s.1 = onWay s.1 t.1 r := by
  obtain ⟨ts, -, -, h3, h4⟩ := side_params h
  rcases List.eq_nil_or_concat ts with rfl | ⟨l, r, rfl⟩
  · exact ⟨0, zero_lt_one, by rw [h3, onWay_zero]; rfl⟩
  · refine ⟨r, (h4 r (by simp)).2, ?_⟩
    rw [h3, List.concat_eq_append, List.map_append]
    simp

/-- The vertex behind a corner. -/
theorem behind {t u : V2 K × List (V2 K)} (h : OnSide t.1 u.1 t.2) : ∃ r, 0 < r ∧ t.2.headD u.1 = onWay t.1 u.1 r := by
  obtain ⟨ts, -, -, h3, h4⟩ := side_params h
  rcases ts with _ | ⟨r, l⟩
  · exact ⟨1, zero_lt_one, by rw [h3, onWay_one]; rfl⟩
  · exact ⟨r, (h4 r (by simp)).1, by rw [h3]; rfl⟩

theorem edge_fst {s t : V2 K × List (V2 K)} (h : (s, t) ∈ loopEdges S) : (s.1, t.1) ∈ loopEdges (S.map Prod.fst) := by
  rw [loopEdges_map, List.mem_map]
  exact ⟨_, h, rfl⟩

theorem bent_marked (htol : (0 : K) ≤ Env.tol) (hm : MarkedLoop S R) (hne : S ≠ []) : (bent R).map (pt R) = S.map Prod.fst := by
  rw [bent_around]
  exact (around_marked htol hm hne).1

theorem turn_marked (htol : (0 : K) ≤ Env.tol) (hm : MarkedLoop S R) (hS : (S.map Prod.fst).Nodup) (h3 : 3 ≤ (S.map Prod.fst).length)
    {x y z : Nat} (h1 : (y, x) ∈ loopEdges (bent R)) (h2 : (x, z) ∈ loopEdges (bent R)) :
    turnAt R x = if 0 < triArea2 (pt R y) (pt R x) (pt R z) then .convex else .concave := by
  have hne : S ≠ [] := fun e => by rw [e] at h3; simp at h3
  have hb := bent_marked htol hm hne
  have edge : ∀ {a b}, (a, b) ∈ loopEdges (bent R) → (pt R a, pt R b) ∈ loopEdges (S.map Prod.fst) := by
    intro a b hab
    rw [← hb, loopEdges_map, List.mem_map]
    exact ⟨_, hab, rfl⟩
  have hx : x ∈ bent R := (mem_of_loopEdges h2).1
  have mt : (R.getD ((R.length + x - 1) % R.length) 0, R.getD x 0, R.getD ((x + 1) % R.length) 0) ∈ (around 0 R).filter bends := by
    rw [List.mem_filter]
    exact ⟨List.mem_map.2 ⟨x, (List.mem_filter.1 hx).1, rfl⟩, (List.mem_filter.1 hx).2⟩
  obtain ⟨s, t, u, e1, e2, e3⟩ := (around_marked htol hm hne).2 _ mt
  simp only [Prod.mk.injEq] at e3
  obtain ⟨f1, f2, f3⟩ := e3
  have hpx : pt R x = t.1 := f2
  have g1 := edge h1
  have g2 := edge h2
  rw [hpx] at g1 g2
  obtain ⟨u1, u2⟩ := corner_unique hS h3 (edge_fst e1) (edge_fst e2) g1 g2
  have hsh := hm.sharp s t u e1 e2
  unfold turnAt
  rw [f1, f2, f3, convexity_tri htol hsh, hpx, u1, u2]
  obtain ⟨r, hr, er⟩ := before (hm.sides _ e1)
  obtain ⟨r', hr', er'⟩ := behind (hm.sides _ e2)
  rw [er, er', tri_corner]
  simp only [mul_pos_iff_of_pos_left (show 0 < (1 - r) * r' from mul_pos (by linarith) hr')]

theorem mem_marked (hm : MarkedLoop S R) {v : V2 K} (hv : v ∈ R) : ∃ s t r, (s, t) ∈ loopEdges S ∧ 0 ≤ r ∧ r ≤ 1 ∧ v = onWay s.1 t.1 r := by
  rw [hm.points, List.mem_flatMap] at hv
  obtain ⟨s, hs, hv⟩ := hv
  obtain ⟨t, ht⟩ : ∃ t, (s, t) ∈ loopEdges S := by
    have : s ∈ (loopEdges S).map Prod.fst := by rw [EarEdge.map_fst_loopEdges]; exact hs
    obtain ⟨e, he, rfl⟩ := List.mem_map.1 this
    exact ⟨e.2, he⟩
  rw [List.mem_cons] at hv
  rcases hv with rfl | hv
  · exact ⟨s, t, 0, ht, le_rfl, zero_le_one, (onWay_zero _ _).symm⟩
  · obtain ⟨ts, -, -, h2, h3⟩ := side_params (hm.sides _ ht)
    obtain ⟨r, hr, rfl⟩ := List.mem_map.1 (by rw [h2] at hv; exact hv)
    exact ⟨s, t, r, ht, (h3 r hr).1.le, (h3 r hr).2.le, rfl⟩

theorem corner_mem (hm : MarkedLoop S R) {v : V2 K} (hv : v ∈ S.map Prod.fst) : v ∈ R := by
  obtain ⟨s, hs, rfl⟩ := List.mem_map.1 hv
  rw [hm.points, List.mem_flatMap]
  exact ⟨s, hs, by simp⟩

/-- The edges of the loop if the polygon of the corners is convex. -/
theorem convex_marked (hm : MarkedLoop S R) (hc : ∀ e ∈ loopEdges (S.map Prod.fst), (∀ v ∈ S.map Prod.fst, 0 ≤ triArea2 e.1 e.2 v) ∧
      ∃ v ∈ S.map Prod.fst, 0 < triArea2 e.1 e.2 v) :
    ∀ e ∈ loopEdges R, (∀ v ∈ R, 0 ≤ triArea2 e.1 e.2 v) ∧ ∃ v ∈ R, 0 < triArea2 e.1 e.2 v := by
  intro e he
  rw [hm.points, loopEdges_flat, List.mem_flatMap] at he
  obtain ⟨E, hE, he⟩ := he
  obtain ⟨ts, h1, h2, -, -⟩ := side_params (hm.sides E hE)
  rw [h2, pathEdges_map, List.mem_map] at he
  obtain ⟨⟨r, r'⟩, hr, rfl⟩ := he
  have hlt : r < r' := pathEdges_lt h1 _ hr
  obtain ⟨c1, v, hv, c2⟩ := hc _ (edge_fst (s := E.1) (t := E.2) hE)
  simp only [Prod.map_apply, tri_onWay]
  refine ⟨fun w hw => mul_nonneg (by linarith) ?_, v, corner_mem hm hv, mul_pos (by linarith) c2⟩
  obtain ⟨s, t, q, hst, q0, q1, rfl⟩ := mem_marked hm hw
  obtain ⟨m1, m2⟩ := mem_of_loopEdges (edge_fst hst)
  rw [tri_onWay_right]
  exact add_nonneg (mul_nonneg (by linarith) (c1 _ m1)) (mul_nonneg q0 (c1 _ m2))

end Marked

open Marked Bent ConvexFaces Winding in
/-- **C149** The face of a single simple loop, counter-clockwise in the plane, with any number of vertices on its sides is tiled. -/
theorem C149_tiling (htol : (0 : K) ≤ Env.tol) {p : Plane K} {o : TrimOracle K} (hbs : BinarySearch o.bs)
    {bounds : List (EdgeLoop K)} {vs : List (V3 K)} (hc : collectLoops o bounds = .ok (vs, [0, vs.length]))
    {S : List (V2 K × List (V2 K))} (hm : MarkedLoop S (vs.map p.project)) (hfuel : S.length < o.earFuel) (hn : 3 ≤ S.length)
    (hs : Spec.Simple (S.map Prod.fst)) (hg : Spec.General (S.map Prod.fst)) (ha : 0 < Spec.area2 (S.map Prod.fst)) :
    ∃ mesh, p.trim o bounds = .ok mesh ∧ mesh.normals = [] ∧
      ((mesh.vertices = vs ∧ mesh.triangles.length = 3 * (S.length - 2)) ∨
        (mesh.vertices = vs ++ [Spec.centroid vs] ∧ mesh.triangles.length = 3 * vs.length)) ∧
      Spec.Tiles (S.map Prod.fst) (mesh.vertices.map p.project) mesh.triangles := by
  set Q := S.map Prod.fst with hQ
  have hQl : Q.length = S.length := by simp [hQ]
  have hQn : 3 ≤ Q.length := by omega
  have hSne : S ≠ [] := fun e => by rw [e] at hn; simp at hn
  have hS : Winding.Simple Q := simple_of_spec htol hQn hs hg
  have hlev := level_of_area hS hQn ha
  have hb : (bent (vs.map p.project)).map (pt (vs.map p.project)) = Q := bent_marked htol hm hSne
  have hturn := fun {x y z} => turn_marked htol hm hS.nodup hQn (x := x) (y := y) (z := z)
  have hoff : ∀ {P x}, (∀ v ∈ Q, v ∈ P) → OffLines P x → OffLines Q x := by
    intro P x hP hx i j hi hj hij
    rw [getD_of_lt 0 hi, getD_of_lt 0 hj]
    exact generic_of_offLines hx _ (hP _ (List.getElem_mem hi)) _ (hP _ (List.getElem_mem hj)) fun h =>
      hij ((List.Nodup.getElem_inj_iff hS.nodup).1 h)
  by_cases hre : ∃ a b c, (a, b) ∈ loopEdges Q ∧ (b, c) ∈ loopEdges Q ∧ triArea2 a b c < 0
  · obtain ⟨T, t1, t2, t3, t4, t5⟩ := trim_bent htol hbs hc hS hg hQn ha hre (by omega) (hb ▸ .refl _) hturn
    exact ⟨_, t1, rfl, .inl ⟨rfl, by rw [t2, hQl]⟩, t3, t4, fun x hx => t5 x (hoff (fun v hv => corner_mem hm hv) hx)⟩
  · push Not at hre
    have hleft : LeftTurns Q := by
      intro a v c h1 h2
      obtain ⟨n1, n2, n3⟩ := corner_ne hS.nodup hQn h1 h2
      have := general_points hg (mem_of_loopEdges h1).1 (mem_of_loopEdges h1).2 (mem_of_loopEdges h2).2 n1 n2 n3
      rw [abs_of_nonneg (hre a v c h1 h2)] at this
      exact htol.trans_lt this
    obtain ⟨V0, C0, T0, _, _, _, _, _, hT4⟩ := complete_of_decides hbs rfl (decides_of_general htol hg) hQn hs ha (Nat.lt_succ_self _)
    have hvs : 0 < vs.length := by
      rcases Nat.eq_zero_or_pos vs.length with h0 | h0
      · obtain ⟨v, hv⟩ : ∃ v, v ∈ Q := List.exists_mem_of_length_pos (by omega)
        have := corner_mem hm hv
        rw [List.eq_nil_of_length_eq_zero h0] at this
        cases this
      · exact h0
    obtain ⟨T, f1, f2, f3⟩ := fanTriangles_eq (n := vs.length) hvs
    have hconv := convex_marked hm (convex_of_leftTurns hS hQn hlev hleft)
    have htile := fan_tiles_of_edges hvs rfl hconv (fun x hx => by
      rw [winding_marked hm]
      exact (hT4 x (hoff (fun v hv => corner_mem hm hv) hx)).1) f3
    have hbl : (bent (vs.map p.project)).length = Q.length := by
      have := congrArg List.length hb
      rwa [List.length_map] at this
    have hC : inward (vs.map p.project) = [] := by
      rw [List.filter_eq_nil_iff]
      intro x hx hcon
      have hcon : turnAt (vs.map p.project) x = .concave := by simpa using hcon
      have hx' : x ∈ bent (vs.map p.project) := List.mem_filter.2 ⟨hx, by rw [hcon]; rfl⟩
      obtain ⟨⟨z, hz⟩, ⟨y, hy⟩⟩ := exists_edge_from (by omega) hx'
      have edge : ∀ {a b}, (a, b) ∈ loopEdges (bent (vs.map p.project)) → (pt (vs.map p.project) a, pt (vs.map p.project) b) ∈ loopEdges Q := by
        intro a b hab
        rw [← hb, loopEdges_map, List.mem_map]
        exact ⟨_, hab, rfl⟩
      rw [hturn hy hz, if_pos (hleft _ _ _ (edge hy) (edge hz))] at hcon
      cases hcon
    refine ⟨⟨vs ++ [Spec.centroid vs], [], T⟩, ?_, rfl, .inr ⟨rfl, f2⟩, htile.pos, ?_, fun x hx => ?_⟩
    · unfold Plane.trim
      rw [hc, ok_bind]
      simp only [List.length_cons, List.length_nil, Nat.zero_add, if_true]
      rw [convexity_lists, ok_bind]
      simp only
      change (if (bent (vs.map p.project)).length = (inward (vs.map p.project)).length then _ else
        if inward (vs.map p.project) = [] then _ else _) = _
      rw [hC, if_neg (by rw [hbl, List.length_nil]; omega), if_pos rfl, f1, ok_bind, sumV3_div]
      rfl
    · rw [htile.area, area_eq hm]
    · have := htile.cover x hx
      rwa [winding_marked hm] at this

/-- **C149** One face of a STEP file, bounded by straight edges used in their direction, some of which meet at an angle of 180°. -/
theorem C149_face {file : StepFile ℝ} {face : StepAdvancedFace} {p : Plane ℝ} {uses : List (Ref × Bool)} {vs : List (V3 ℝ)}
    (h : SaysPolygon file face p uses vs) (hu : ∀ u ∈ uses, u.2 = true) (hap : StepsApart vs) {S : List (V2 ℝ × List (V2 ℝ))}
    (hm : MarkedLoop S (vs.map p.project)) (hn : 3 ≤ S.length) (hs : Spec.Simple (S.map Prod.fst))
    (hg : Spec.General (S.map Prod.fst)) (ha : 0 < Spec.area2 (S.map Prod.fst)) :
    ∃ t, SaysFace file face t ∧ ∀ o : TrimOracle ℝ, BinarySearch o.bs → 0 < o.divFuel → S.length < o.earFuel →
      ∃ mesh, t.getTriangleMesh o = .ok mesh ∧ ValidMesh mesh ∧
        (mesh.vertices = vs ∨ mesh.vertices = vs ++ [Spec.centroid vs]) ∧
        Spec.Tiles (S.map Prod.fst) (mesh.vertices.map p.project) mesh.triangles := by
  obtain ⟨t, ht, hr⟩ := polygon_read h
  have hne : vs ≠ [] := fun e => by
    obtain ⟨v, hv⟩ : ∃ v, v ∈ S.map Prod.fst := List.exists_mem_of_length_pos (by simp; omega)
    have := Marked.corner_mem hm hv
    rw [e] at this
    cases this
  refine ⟨t, ht, fun o hbs hdiv hear => ?_⟩
  obtain ⟨e, hc⟩ := hr o hdiv
  have hl := C138_polygon hne (flags := uses.map Prod.snd) (by rw [List.length_map]; exact h.2.1)
    (fun f hf => by obtain ⟨u, h1, rfl⟩ := List.mem_map.1 hf; exact hu u h1) hap
  obtain ⟨mesh, h1, h2, h3, h4⟩ := C149_tiling (by norm_num [Env.tol]) hbs (hc vs hl hne) hm hear hn hs hg ha
  obtain ⟨⟨k, v1⟩, v2, v3⟩ := C53_valid h1
  exact ⟨mesh, e.trans h1, ⟨by omega, v2, .inl v3⟩, h3.imp And.left And.left, h4⟩

/-! ### Examples -/

theorem sharp_of_check {S : List (V2 ℚ × List (V2 ℚ))} (h : ∀ e ∈ loopEdges S, ∀ f ∈ loopEdges S, e.2 = f.1 →
      Env.tol < |triArea2 (e.1.2.getLastD e.1.1) f.1.1 (f.1.2.headD f.2.1)|) {s t u : V2 ℚ × List (V2 ℚ)} (h1 : (s, t) ∈ loopEdges S)
    (h2 : (t, u) ∈ loopEdges S) : Env.tol < |triArea2 (s.2.getLastD s.1) t.1 (t.2.headD u.1)| :=
  h (s, t) h1 (t, u) h2 rfl

/-- The quadrilateral of C121 with vertices on two of its sides. -/
def markedDart : List (V2 ℚ × List (V2 ℚ)) :=
  [(⟨0, 0⟩, [1 / 2].map (onWay ⟨0, 0⟩ ⟨3, 1⟩)), (⟨3, 1⟩, []), (⟨6, 0⟩, [1 / 3, 2 / 3].map (onWay ⟨6, 0⟩ ⟨3, 5⟩)), (⟨3, 5⟩, [])]

/-- A triangle with two vertices on a side. -/
def markedTriangle : List (V2 ℚ × List (V2 ℚ)) :=
  [(⟨0, 0⟩, [1 / 4, 1 / 2].map (onWay ⟨0, 0⟩ ⟨4, 0⟩)), (⟨4, 0⟩, []), (⟨0, 3⟩, [])]

def inSpace (S : List (V2 ℚ × List (V2 ℚ))) : List (V3 ℚ) := (S.flatMap fun s => s.1 :: s.2).map fun v => ⟨v.x, v.y, 0⟩


theorem markedDart_loop : MarkedLoop markedDart ((inSpace markedDart).map Spec.xyPlane.project) where
  points := by decide +kernel
  sides := by
    intro e he
    have : e ∈ [(markedDart[0], markedDart[1]), (markedDart[1], markedDart[2]), (markedDart[2], markedDart[3]), (markedDart[3], markedDart[0])] := he
    simp only [List.mem_cons, List.not_mem_nil, or_false] at this
    rcases this with rfl | rfl | rfl | rfl
    · exact ⟨[1 / 2], by simp, by norm_num, rfl⟩
    · exact ⟨[], by simp, by simp, rfl⟩
    · exact ⟨[1 / 3, 2 / 3], by norm_num, by norm_num, rfl⟩
    · exact ⟨[], by simp, by simp, rfl⟩
  sharp s t u := sharp_of_check (by decide +kernel)

theorem markedTriangle_loop : MarkedLoop markedTriangle ((inSpace markedTriangle).map Spec.xyPlane.project) where
  points := by decide +kernel
  sides := by
    intro e he
    have : e ∈ [(markedTriangle[0], markedTriangle[1]), (markedTriangle[1], markedTriangle[2]), (markedTriangle[2], markedTriangle[0])] := he
    simp only [List.mem_cons, List.not_mem_nil, or_false] at this
    rcases this with rfl | rfl | rfl
    · exact ⟨[1 / 4, 1 / 2], by norm_num, by norm_num, rfl⟩
    · exact ⟨[], by simp, by simp, rfl⟩
    · exact ⟨[], by simp, by simp, rfl⟩
  sharp s t u := sharp_of_check (by decide +kernel)

/-- Non-vacuity of **C149**: both shapes are meshed, the first without the vertices on the sides, the second as a fan with them. -/
example : collectLoops Spec.oracle [Spec.edgeLoop (inSpace markedDart)] = .ok (inSpace markedDart, [0, (inSpace markedDart).length]) ∧
    MarkedLoop markedDart ((inSpace markedDart).map Spec.xyPlane.project) ∧
    Spec.Simple (markedDart.map Prod.fst) ∧ Spec.General (markedDart.map Prod.fst) ∧ 0 < Spec.area2 (markedDart.map Prod.fst) ∧
    (Spec.xyPlane.trim Spec.oracle [Spec.edgeLoop (inSpace markedDart)]).map (·.triangles) = .ok [6, 0, 2, 2, 3, 6] ∧
    MarkedLoop markedTriangle ((inSpace markedTriangle).map Spec.xyPlane.project) ∧
    Spec.Simple (markedTriangle.map Prod.fst) ∧ Spec.General (markedTriangle.map Prod.fst) ∧ 0 < Spec.area2 (markedTriangle.map Prod.fst) ∧
    (Spec.xyPlane.trim Spec.oracle [Spec.edgeLoop (inSpace markedTriangle)]).map (·.triangles)
      = .ok [5, 0, 1, 5, 1, 2, 5, 2, 3, 5, 3, 4, 5, 4, 0] :=
  ⟨by decide +kernel, markedDart_loop, simple_of_check (by decide +kernel), general_of_check (by decide +kernel), by decide +kernel,
    by decide +kernel, markedTriangle_loop, simple_of_check (by decide +kernel), general_of_check (by decide +kernel), by decide +kernel,
    by decide +kernel⟩

/-- A quadrilateral with vertices close to its top. -/
def dullDart : List (V2 ℚ × List (V2 ℚ)) :=
  [(⟨0, 0⟩, []), (⟨3, 1⟩, []), (⟨6, 0⟩, [69999 / 70000].map (onWay ⟨6, 0⟩ ⟨3, 30⟩)), (⟨3, 30⟩, [1 / 70000].map (onWay ⟨3, 30⟩ ⟨0, 0⟩))]

/-- **C149** Finding: with a vertex on either side close to the top, the top is taken to be on a line with them and dropped, and
they are dropped as well, being on the sides. What is left are three corners. The mesh is a triangle outside of the face: the
loop winds around the point `(3, 15)`, which is not covered, and does not wind around the point `(3, 1 / 2)`, which is. -/
theorem C149_dull : (∀ e ∈ loopEdges dullDart, OnSide e.1.1 e.2.1 e.1.2) ∧
    Spec.Simple (dullDart.map Prod.fst) ∧ Spec.General (dullDart.map Prod.fst) ∧ Spec.area2 (dullDart.map Prod.fst) = 174 ∧
    Spec.xyPlane.trim Spec.oracle [Spec.edgeLoop (inSpace dullDart)] = .ok ⟨inSpace dullDart, [], [0, 1, 2]⟩ ∧
    Spec.winding (dullDart.map Prod.fst) ⟨3, 1 / 2⟩ = 0 ∧ Spec.InTriangle (⟨0, 0⟩ : V2 ℚ) ⟨3, 1⟩ ⟨6, 0⟩ ⟨3, 1 / 2⟩ ∧
    Spec.winding (dullDart.map Prod.fst) ⟨3, 15⟩ = 1 ∧ ¬ Spec.InTriangle (⟨0, 0⟩ : V2 ℚ) ⟨3, 1⟩ ⟨6, 0⟩ ⟨3, 15⟩ := by
  refine ⟨?_, simple_of_check (by decide +kernel), general_of_check (by decide +kernel), by decide +kernel, by decide +kernel,
    by decide +kernel, ⟨1 / 4, 1 / 2, 1 / 4, by norm_num⟩, by decide +kernel, ?_⟩
  · intro e he
    have : e ∈ [(dullDart[0], dullDart[1]), (dullDart[1], dullDart[2]), (dullDart[2], dullDart[3]), (dullDart[3], dullDart[0])] := he
    simp only [List.mem_cons, List.not_mem_nil, or_false] at this
    rcases this with rfl | rfl | rfl | rfl
    · exact ⟨[], by simp, by simp, rfl⟩
    · exact ⟨[], by simp, by simp, rfl⟩
    · exact ⟨[69999 / 70000], by simp, by norm_num, rfl⟩
    · exact ⟨[1 / 70000], by simp, by norm_num, rfl⟩
  · rintro ⟨r, s, t, hr, hs, ht, h1, -, h2⟩
    simp only at h2
    linarith

end Geom3d
