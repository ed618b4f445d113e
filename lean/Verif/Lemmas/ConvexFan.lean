import Verif.Props.Covering
import Verif.Lemmas.EarEdge
import Verif.Lemmas.ConvexLoop

/-!
# Polygons whose corners, taken in order, turn left, and the fan around their centre
-/

set_option linter.unusedSectionVars false

namespace Geom3d
open Spec

variable {K : Type} [Field K] [LinearOrder K] [IsStrictOrderedRing K]

/-- Three points taken in order from the list never turn right. -/
def Spec.AllLeft (Q : List (V2 K)) : Prop := ∀ a b c, [a, b, c].Sublist Q → 0 ≤ triArea2 a b c

theorem tri_aab (a b : V2 K) : triArea2 a a b = 0 := by unfold triArea2; ring
theorem tri_aba (a b : V2 K) : triArea2 a b a = 0 := by unfold triArea2; ring
theorem tri_abb (a b : V2 K) : triArea2 a b b = 0 := by unfold triArea2; ring

theorem pathEdges_split {α : Type} {x y : α} : ∀ {l : List α}, (x, y) ∈ pathEdges l → ∃ l₁ l₂, l = l₁ ++ x :: y :: l₂
  | [], h => by cases h
  | [_], h => by cases h
  | a :: b :: l, h => by
    have h' : (x, y) ∈ (a, b) :: pathEdges (b :: l) := h
    rcases List.mem_cons.1 h' with e | h'
    · cases e
      exact ⟨[], l, rfl⟩
    · obtain ⟨l₁, l₂, e⟩ := pathEdges_split h'
      exact ⟨a :: l₁, l₂, by rw [e]; rfl⟩

/-- Every corner is on the left of every edge or on its line. -/
theorem Spec.AllLeft.edge {Q : List (V2 K)} (h : AllLeft Q) {e : V2 K × V2 K} (he : e ∈ loopEdges Q) {v : V2 K} (hv : v ∈ Q) :
    0 ≤ triArea2 e.1 e.2 v := by
  obtain ⟨x, y⟩ := e
  show 0 ≤ triArea2 x y v
  rcases Q with _ | ⟨a, t⟩
  · cases hv
  obtain ⟨l₁, l₂, e⟩ := pathEdges_split (l := a :: t ++ [a]) he
  rcases List.eq_nil_or_concat l₂ with rfl | ⟨l₂', z, rfl⟩
  · have e' : (a :: t) ++ [a] = (l₁ ++ [x]) ++ [y] := by rw [e]; simp
    obtain ⟨e1, e2⟩ := List.append_inj' e' rfl
    cases e2
    rw [e1] at hv h
    rcases l₁ with _ | ⟨b, l₁⟩
    · cases e1
      rw [tri_aab]
    · cases e1
      rcases List.mem_cons.1 hv with rfl | hv
      · rw [tri_abb]
      rcases List.mem_append.1 hv with hv | hv
      · have := h y v x ((List.singleton_sublist.2 hv |>.append (.refl [x])).cons_cons y)
        rwa [Winding.tri_rot x y v] at this
      · rw [List.mem_singleton.1 hv, tri_aba]
  · have e' : (a :: t) ++ [a] = (l₁ ++ x :: y :: l₂') ++ [z] := by rw [e]; simp
    obtain ⟨e1, -⟩ := List.append_inj' e' rfl
    rw [e1] at hv h
    rcases List.mem_append.1 hv with hv | hv
    · have := h v x y ((List.singleton_sublist.2 hv).append ((List.nil_sublist _).cons_cons y |>.cons_cons x))
      rwa [Winding.tri_rot]
    · rcases List.mem_cons.1 hv with rfl | hv
      · rw [tri_aba]
      · rcases List.mem_cons.1 hv with rfl | hv
        · rw [tri_abb]
        · exact h x y v ((((List.singleton_sublist.2 hv).cons_cons y).cons_cons x).trans (List.sublist_append_right ..))

theorem loopEdge_at [Env K] {Q : List (V2 K)} {i : Nat} (hi : i < Q.length) :
    (Q.getD i 0, Q.getD ((i + 1) % Q.length) 0) ∈ loopEdges Q := by
  rw [← loopEdges_points Q, List.mem_map]
  refine ⟨(i, (i + 1) % Q.length), ?_, rfl⟩
  exact (mem_loopEdges_range (by omega)).2 ⟨hi, rfl⟩

theorem turn_eq_tri (Q : List (V2 K)) (i : Nat) :
    turn Q i = triArea2 (Q.getD i 0) (Q.getD ((i + 1) % Q.length) 0) (Q.getD ((i + Q.length - 1) % Q.length) 0) := by
  unfold turn triArea2
  ring

theorem Spec.AllLeft.turn_nonneg [Env K] {Q : List (V2 K)} (h : AllLeft Q) {i : Nat} (hi : i < Q.length) : 0 ≤ turn Q i := by
  rw [turn_eq_tri]
  refine h.edge (loopEdge_at hi) ?_
  have : (i + Q.length - 1) % Q.length < Q.length := Nat.mod_lt _ (by omega)
  rw [getD_of_lt 0 this]
  exact List.getElem_mem this

/-- If all corners are on the line of one edge, there are no turns. -/
theorem off_line {a b : V2 K} (hab : a ≠ b) {p q r : V2 K} (hp : triArea2 a b p = 0) (hq : triArea2 a b q = 0)
    (hr : triArea2 a b r = 0) : triArea2 p q r = 0 := by
  unfold triArea2 at *
  by_cases hx : b.x - a.x = 0
  · by_cases hy : b.y - a.y = 0
    · exact absurd (V2.ext (sub_eq_zero.1 hx).symm (sub_eq_zero.1 hy).symm) hab
    · have h1 : (b.y - a.y) * ((q.x - p.x) * (r.y - p.y) - (r.x - p.x) * (q.y - p.y)) = 0 := by
        linear_combination (-(r.y - p.y)) * (hq - hp) + (q.y - p.y) * (hr - hp)
      exact (mul_eq_zero.1 h1).resolve_left hy
  · have h1 : (b.x - a.x) * ((q.x - p.x) * (r.y - p.y) - (r.x - p.x) * (q.y - p.y)) = 0 := by
      linear_combination (q.x - p.x) * (hr - hp) - (r.x - p.x) * (hq - hp)
    exact (mul_eq_zero.1 h1).resolve_left hx

/-! ### Winding numbers -/

/-- Triangles of the fan around the first corner have no point in common off the chords. -/
theorem fan_apart {g a b a' b' x : V2 K} (h1 : 0 ≤ triArea2 g a a') (h2 : 0 ≤ triArea2 g b a') (hx : InTriangle g a b x)
    (hpos : 0 < triArea2 g a' b') (hx' : InTriangle g a' b' x) (hoff : triArea2 g a' x ≠ 0) : False := by
  obtain ⟨u, v, w, hu, hv, hw, hs, ex, ey⟩ := hx
  obtain ⟨u', v', w', hu', hv', hw', hs', ex', ey'⟩ := hx'
  have e1 : triArea2 g a' x = -(v * triArea2 g a a' + w * triArea2 g b a') := by
    unfold triArea2
    rw [ex, ey]
    linear_combination ((a'.x - g.x) * g.y - g.x * (a'.y - g.y)) * hs
  have e2 : triArea2 g a' x = w' * triArea2 g a' b' := by
    unfold triArea2
    rw [ex', ey']
    linear_combination ((a'.x - g.x) * g.y - g.x * (a'.y - g.y)) * hs'
  refine hoff (le_antisymm ?_ ?_)
  · rw [e1]
    have := mul_nonneg hv h1
    have := mul_nonneg hw h2
    linarith
  · rw [e2]
    exact mul_nonneg hw' hpos.le

theorem pathEdges_pairwise {α : Type} {S : α → α → Prop} (hS : ∀ a, S a a) : ∀ {l : List α}, l.Pairwise S →
    (pathEdges l).Pairwise fun e e' => S e.1 e'.1 ∧ S e.2 e'.1
  | [], _ => .nil
  | [_], _ => .nil
  | a :: b :: l, h => by
    show ((a, b) :: pathEdges (b :: l)).Pairwise _
    refine .cons (fun e he => ?_) (pathEdges_pairwise hS h.tail)
    have hm := (Winding.mem_of_pathEdges he).1
    refine ⟨List.rel_of_pairwise_cons h hm, ?_⟩
    rcases List.mem_cons.1 hm with h1 | h1
    · rw [h1]; exact hS b
    · exact List.rel_of_pairwise_cons h.tail h1

/-- Of events that exclude each other at most one occurs. -/
theorem sum_indicator {α : Type} (p : α → Prop) [DecidablePred p] : ∀ {l : List α}, l.Pairwise (fun a b => ¬ (p a ∧ p b)) →
    (l.map fun a => if p a then (1 : ℤ) else 0).sum = 0 ∨ (l.map fun a => if p a then (1 : ℤ) else 0).sum = 1
  | [], _ => .inl rfl
  | a :: l, h => by
    rw [List.map_cons, List.sum_cons]
    by_cases ha : p a
    · right
      rw [if_pos ha]
      have : l.map (fun a => if p a then (1 : ℤ) else 0) = l.map fun _ => 0 := by
        apply List.map_congr_left
        intro b hb
        exact if_neg fun hb' => List.rel_of_pairwise_cons h hb ⟨ha, hb'⟩
      rw [this]
      simp
    · rw [if_neg ha, zero_add]
      exact sum_indicator p h.tail

/-- The winding number as seen from any point. -/
theorem winding_fan (g : V2 K) (Q : List (V2 K)) (x : V2 K) : winding Q x
    = ((loopEdges Q).map fun e => crossing x g e.1 + (crossing x e.1 e.2 + crossing x e.2 g)).sum := by
  have h0 := Winding.telescope_loop (fun v => crossing x g v) Q
  have h1 : ((loopEdges Q).map fun e => crossing x g e.1 + (crossing x e.1 e.2 + crossing x e.2 g))
      = (loopEdges Q).map fun e => crossing x e.1 e.2 + (crossing x g e.1 - crossing x g e.2) := by
    apply List.map_congr_left
    intro e _
    rw [crossing_swap x e.2 g]
    ring
  rw [h1, List.sum_map_add, h0, add_zero]
  rfl

/-- **Such a polygon winds around a point at most once.** -/
theorem Spec.AllLeft.winding [Env K] {Q : List (V2 K)} (h : AllLeft Q) {x : V2 K} (hx : OffChords Q x) :
    winding Q x = 0 ∨ winding Q x = 1 := by
  classical
  rcases Q with _ | ⟨g, t⟩
  · exact .inl rfl
  have hmem : ∀ e ∈ loopEdges (g :: t), e.1 ∈ g :: t ∧ e.2 ∈ g :: t := fun e he => mem_of_mem_loopEdges he
  have hS : (g :: t ++ [g]).Pairwise fun a b => 0 ≤ triArea2 g a b := by
    rw [List.cons_append, List.pairwise_cons, List.pairwise_append]
    refine ⟨fun b _ => by rw [tri_aab], List.pairwise_iff_forall_sublist.2 fun {a b} hab => h g a b (hab.cons_cons g), by simp, ?_⟩
    intro a _ b hb
    rw [List.mem_singleton.1 hb, tri_aba]
  have hp := pathEdges_pairwise (S := fun a b => 0 ≤ triArea2 g a b) (fun a => by rw [tri_abb]) hS
  have hs := sum_indicator (fun e : V2 K × V2 K => 0 < triArea2 g e.1 e.2 ∧ InTriangle g e.1 e.2 x) (l := loopEdges (g :: t))
    (hp.imp_of_mem fun {e e'} _ he' hr ⟨⟨_, h2⟩, h3, h4⟩ => by
      refine fan_apart hr.1 hr.2 h2 h3 h4 (hx g (by simp) _ (hmem e' he').1 ?_)
      rintro h0
      rw [← h0, tri_aab] at h3
      exact lt_irrefl _ h3)
  rw [winding_fan g]
  have e : ((loopEdges (g :: t)).map fun e => crossing x g e.1 + (crossing x e.1 e.2 + crossing x e.2 g))
      = (loopEdges (g :: t)).map fun e => if 0 < triArea2 g e.1 e.2 ∧ InTriangle g e.1 e.2 x then (1 : ℤ) else 0 := by
    apply List.map_congr_left
    intro e he
    rw [crossing_tri (by
      intro p hp q hq
      refine hx p ?_ q ?_
      · simp only [List.mem_cons, List.not_mem_nil, or_false] at hp
        rcases hp with rfl | rfl | rfl
        exacts [by simp, (hmem e he).1, (hmem e he).2]
      · simp only [List.mem_cons, List.not_mem_nil, or_false] at hq
        rcases hq with rfl | rfl | rfl
        exacts [by simp, (hmem e he).1, (hmem e he).2])]
    have : ¬ (triArea2 g e.1 e.2 < 0 ∧ InTriangle g e.1 e.2 x) := by
      rintro ⟨h1, -⟩
      have := h.edge he (v := g) (by simp)
      rw [Winding.tri_rot g] at this
      exact absurd this (not_le.2 h1)
    rw [if_neg this, sub_zero]
  rw [e]
  exact hs

end Geom3d
