import Verif.Lemmas.Chain
import Verif.Lemmas.Clips
import Verif.Lemmas.EarRun
import Verif.Props.Mesh
import Verif.Props.Planar
import Verif.Spec.Covering

/-!
# From boundaries to coverings

The crossings of the three edges of a triangle with a ray from `x` add up to the sign of the triangle if `x` is in it,
and to zero otherwise.  Hence triangles and loops with the same boundary cover `x` equally often, with sign.
-/

namespace Geom3d

set_option linter.unusedSectionVars false

variable {K : Type} [Field K] [LinearOrder K] [IsStrictOrderedRing K]

theorem crossing_swap (x a b : V2 K) : Spec.crossing x a b = - Spec.crossing x b a := Winding.up_swap x b a

theorem crossing_skew (x : V2 K) : Spec.Skew (Spec.crossing x) where
  anti := crossing_swap x
  self a := by have := crossing_swap x a a; omega

/-- A point of a triangle stays in it when the corners are named in another order. -/
theorem inTriangle_swap {a b c x : V2 K} : Spec.InTriangle a c b x ↔ Spec.InTriangle a b c x := by
  constructor <;>
  · rintro ⟨u, v, w, h1, h2, h3, h4, h5, h6⟩
    exact ⟨u, w, v, h1, h3, h2, by rw [← h4]; ring, by rw [h5]; ring, by rw [h6]; ring⟩

theorem flat_core {hx ha hb hc A B C : K} (h1 : A + B + C = 0)
    (h2 : A * (hc - hx) + B * (ha - hx) + C * (hb - hx) = 0)
    (nA : ha ≠ hb → A ≠ 0) (nB : hb ≠ hc → B ≠ 0) (nC : hc ≠ ha → C ≠ 0) :
    Winding.upf hx ha hb A + (Winding.upf hx hb hc B + Winding.upf hx hc ha C) = 0 := by
  have e1 : A * (hc - hb) + B * (ha - hb) = 0 := by linear_combination h2 - (hb - hx) * h1
  have e2 : B * (ha - hc) + C * (hb - hc) = 0 := by linear_combination h2 - (hc - hx) * h1
  have e3 : C * (hb - ha) + A * (hc - ha) = 0 := by linear_combination h2 - (ha - hx) * h1
  -- two products of opposite signs
  have opp : ∀ {X Y s t : K}, X * s + Y * t = 0 → 0 < s * t → X ≠ 0 → Y ≠ 0 → (0 < X ↔ Y < 0) ∧ (X < 0 ↔ 0 < Y) := by
    intro X Y s t h hst hX hY
    have hXY : X * Y < 0 := by
      have : (X * s) * (Y * t) < 0 := by
        have hs : X * s ≠ 0 := mul_ne_zero hX (by rintro rfl; simp at hst)
        have : Y * t = -(X * s) := by linarith
        rw [this]
        have := mul_self_pos.2 hs
        linarith
      have h' : (X * Y) * (s * t) < 0 := by linarith [show (X * s) * (Y * t) = (X * Y) * (s * t) by ring]
      exact neg_of_mul_neg_left h' hst.le
    rcases mul_neg_iff.1 hXY with ⟨p, q⟩ | ⟨p, q⟩
    · exact ⟨⟨fun _ => q, fun _ => p⟩, ⟨fun h => absurd h (not_lt.2 p.le), fun h => absurd h (not_lt.2 q.le)⟩⟩
    · exact ⟨⟨fun h => absurd h (not_lt.2 p.le), fun h => absurd h (not_lt.2 q.le)⟩, ⟨fun _ => q, fun _ => p⟩⟩
  unfold Winding.upf
  by_cases p1 : ha ≤ hx <;> by_cases p2 : hb ≤ hx <;> by_cases p3 : hc ≤ hx <;>
    simp only [p1, p2, p3, not_le.1, not_lt.2, ← not_le, not_true_eq_false, not_false_eq_true, true_and, false_and,
      if_false, add_zero, zero_add]
  · -- `c` above
    rw [not_le] at p3
    have hb' := nB (by intro h; rw [h] at p2; exact absurd p2 (not_le.2 p3))
    have hc' := nC (by intro h; rw [← h] at p1; exact absurd p1 (not_le.2 p3))
    have := opp e2 (by nlinarith) hb' hc'
    simp only [not_le, this.1]
    split <;> simp
  · rw [not_le] at p2
    have ha' := nA (by intro h; rw [h] at p1; exact absurd p1 (not_le.2 p2))
    have hb' := nB (by intro h; rw [← h] at p3; exact absurd p3 (not_le.2 p2))
    have := opp e1 (by nlinarith) ha' hb'
    simp only [not_le, this.1]
    split <;> simp
  · rw [not_le] at p2 p3
    have ha' := nA (by intro h; rw [h] at p1; exact absurd p1 (not_le.2 p2))
    have hc' := nC (by intro h; rw [← h] at p1; exact absurd p1 (not_le.2 p3))
    have := opp e3 (by nlinarith) hc' ha'
    simp only [not_le, this.2]
    split <;> simp
  · rw [not_le] at p1
    have ha' := nA (by intro h; rw [← h] at p2; exact absurd p2 (not_le.2 p1))
    have hc' := nC (by intro h; rw [h] at p3; exact absurd p3 (not_le.2 p1))
    have := opp e3 (by nlinarith) hc' ha'
    simp only [not_le, this.1]
    split <;> simp
  · rw [not_le] at p1 p3
    have ha' := nA (by intro h; rw [← h] at p2; exact absurd p2 (not_le.2 p1))
    have hb' := nB (by intro h; rw [h] at p2; exact absurd p2 (not_le.2 p3))
    have := opp e1 (by nlinarith) ha' hb'
    simp only [not_le, this.2]
    split <;> simp
  · rw [not_le] at p1 p2
    have hb' := nB (by intro h; rw [← h] at p3; exact absurd p3 (not_le.2 p2))
    have hc' := nC (by intro h; rw [h] at p3; exact absurd p3 (not_le.2 p1))
    have := opp e2 (by nlinarith) hb' hc'
    simp only [not_le, this.2]
    split <;> simp

theorem crossing_flat {a b c x : V2 K} (h0 : Spec.triArea2 a b c = 0) (hg : Spec.OffChords [a, b, c] x) :
    Spec.crossing x a b + (Spec.crossing x b c + Spec.crossing x c a) = 0 := by
  refine flat_core (A := Spec.triArea2 a b x) (B := Spec.triArea2 b c x) (C := Spec.triArea2 c a x) ?_ ?_ ?_ ?_ ?_
  · rw [← h0]; unfold Spec.triArea2; ring
  · have : Spec.triArea2 a b x * (c.y - x.y) + Spec.triArea2 b c x * (a.y - x.y) + Spec.triArea2 c a x * (b.y - x.y) = 0 := by
      unfold Spec.triArea2; ring
    exact this
  · exact fun h => hg a (by simp) b (by simp) (fun e => h (by rw [e]))
  · exact fun h => hg b (by simp) c (by simp) (fun e => h (by rw [e]))
  · exact fun h => hg c (by simp) a (by simp) (fun e => h (by rw [e]))

open Classical in
theorem crossing_pos [Env K] {a b c x : V2 K} (h : 0 < Spec.triArea2 a b c) (hg : Spec.OffChords [a, b, c] x) :
    Spec.crossing x a b + (Spec.crossing x b c + Spec.crossing x c a) = if Spec.InTriangle a b c x then 1 else 0 := by
  have key := Winding.wind_tri (a := a) (v := b) (c := c) (x := x) (by rw [Winding.tri_rot]; exact h) (by
    intro p hp q hq
    refine hg p ?_ q ?_ <;> simp only [List.mem_cons, List.not_mem_nil, or_false] at * <;> tauto)
  have e : Winding.wind [a, b, c] x = Spec.crossing x a b + (Spec.crossing x b c + Spec.crossing x c a) := by
    show ([(a, b), (b, c), (c, a)].map fun e => Winding.up x e.1 e.2).sum = _
    simp only [List.map_cons, List.map_nil, List.sum_cons, List.sum_nil, add_zero]
    rfl
  rw [← e, key]
  simp only [← C33_exact h x, Winding.isInside_iff]

open Classical in
/-- The crossings of the edges of a triangle: `1` or `-1` in a triangle, according to its direction, and `0` outside. -/
theorem crossing_tri [Env K] {a b c x : V2 K} (hg : Spec.OffChords [a, b, c] x) :
    Spec.crossing x a b + (Spec.crossing x b c + Spec.crossing x c a)
      = (if 0 < Spec.triArea2 a b c ∧ Spec.InTriangle a b c x then 1 else 0)
        - (if Spec.triArea2 a b c < 0 ∧ Spec.InTriangle a b c x then 1 else 0) := by
  rcases lt_trichotomy (Spec.triArea2 a b c) 0 with h | h | h
  · have h' : 0 < Spec.triArea2 a c b := by rw [Winding.tri_swap']; linarith
    have := crossing_pos (x := x) h' (by
      intro p hp q hq
      refine hg p ?_ q ?_ <;> simp only [List.mem_cons, List.not_mem_nil, or_false] at * <;> tauto)
    rw [crossing_swap x a c, crossing_swap x c b, crossing_swap x b a] at this
    simp only [inTriangle_swap] at this
    simp only [h, not_lt.2 h.le, true_and, false_and, if_false]
    omega
  · rw [crossing_flat h hg]; simp [h]
  · rw [crossing_pos h hg]
    simp [h, not_lt.2 h.le]

/-- A list of triangles with vertices in `P`: the crossings of all edges count the counter-clockwise triangles around
`x` and subtract the clockwise ones. -/
theorem weight_crossing [Env K] {P : List (V2 K)} {x : V2 K} (hg : Spec.OffChords P x) (T : List Nat)
    (hT : ∀ t ∈ T, t < P.length) :
    Spec.weight (fun u v => Spec.crossing x (P.getD u 0) (P.getD v 0)) (Spec.triEdges T)
      = Spec.covering P (Spec.ccw P T) x - Spec.covering P (Spec.cw P T) x := by
  classical
  have hmem : ∀ t ∈ T, P.getD t 0 ∈ P := fun t ht => by
    rw [getD_of_lt 0 (hT t ht)]; exact List.getElem_mem (hT t ht)
  have key : ∀ S : List (Nat × Nat × Nat), (∀ t ∈ S, t.1 ∈ T ∧ t.2.1 ∈ T ∧ t.2.2 ∈ T) →
      Spec.weight (fun u v => Spec.crossing x (P.getD u 0) (P.getD v 0))
        (S.flatMap fun t => [(t.1, t.2.1), (t.2.1, t.2.2), (t.2.2, t.1)])
      = (Spec.covering P (S.filter fun t => 0 < Spec.triArea2 (P.getD t.1 0) (P.getD t.2.1 0) (P.getD t.2.2 0)) x : ℤ)
        - Spec.covering P (S.filter fun t => Spec.triArea2 (P.getD t.1 0) (P.getD t.2.1 0) (P.getD t.2.2 0) < 0) x := by
    intro S
    induction S with
    | nil => intro _; rfl
    | cons t S ih =>
      intro hS
      have ht := hS t (List.mem_cons_self ..)
      have := crossing_tri (a := P.getD t.1 0) (b := P.getD t.2.1 0) (c := P.getD t.2.2 0) (x := x) (by
        intro p hp q hq
        refine hg p ?_ q ?_
        · simp only [List.mem_cons, List.not_mem_nil, or_false] at hp
          rcases hp with rfl | rfl | rfl
          exacts [hmem _ ht.1, hmem _ ht.2.1, hmem _ ht.2.2]
        · simp only [List.mem_cons, List.not_mem_nil, or_false] at hq
          rcases hq with rfl | rfl | rfl
          exacts [hmem _ ht.1, hmem _ ht.2.1, hmem _ ht.2.2])
      rw [List.flatMap_cons, weight_append, ih fun t ht => hS t (List.mem_cons_of_mem _ ht)]
      simp only [Spec.weight, List.map_cons, List.map_nil, List.sum_cons, List.sum_nil, add_zero]
      rw [this]
      unfold Spec.covering
      simp only [List.filter_cons, List.filter_filter]
      by_cases p1 : 0 < Spec.triArea2 (P.getD t.1 0) (P.getD t.2.1 0) (P.getD t.2.2 0)
      · by_cases p3 : Spec.InTriangle (P.getD t.1 0) (P.getD t.2.1 0) (P.getD t.2.2 0) x
        · simp only [p1, p3, not_lt.2 p1.le, and_self, if_true, decide_true, decide_false, Bool.false_eq_true,
            if_false, List.length_cons, false_and, List.filter_cons, List.filter_filter]
          push_cast; ring
        · simp only [p1, p3, not_lt.2 p1.le, and_false, if_true, decide_true, decide_false, Bool.false_eq_true,
            if_false, List.filter_cons, List.filter_filter]
          push_cast; ring
      · by_cases p2 : Spec.triArea2 (P.getD t.1 0) (P.getD t.2.1 0) (P.getD t.2.2 0) < 0
        · by_cases p3 : Spec.InTriangle (P.getD t.1 0) (P.getD t.2.1 0) (P.getD t.2.2 0) x
          · simp only [p1, p2, p3, if_true, decide_true, decide_false, Bool.false_eq_true,
              if_false, List.length_cons, and_self, false_and, List.filter_cons, List.filter_filter]
            push_cast; ring
          · simp only [p1, p2, p3, if_true, decide_true, decide_false, Bool.false_eq_true,
              if_false, and_false, List.filter_cons, List.filter_filter]
            push_cast; ring
        · simp only [p1, p2, decide_false, Bool.false_eq_true, if_false, false_and, List.filter_filter]
          push_cast; ring
  rw [triEdges_eq_triples, key _ fun t ht => mem_triples ht]
  unfold Spec.ccw Spec.cw
  congr!

end Geom3d
