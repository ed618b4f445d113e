import Verif.Lemmas.WindingCore

/-!
# Winding numbers of polygons
-/

namespace Geom3d.Winding
open Spec

variable {K : Type} [Field K] [LinearOrder K] [IsStrictOrderedRing K]

/-- Signed crossing of the edge from `a` to `b` with the horizontal ray to the right from `x`. -/
def up (x a b : V2 K) : ℤ := upf x.y a.y b.y (triArea2 a b x)

/-- Side of `p` with respect to the strip to the right of the segment from `x` to `y`. -/
def side (x y p : V2 K) : ℤ := strip x.y y.y p.y (triArea2 x y p)

/-- The direction from `v` to `p` comes before that to `q`, turning from the horizontal to the left. -/
def Before (v p q : V2 K) : Prop :=
  (v.y < p.y ∧ q.y ≤ v.y) ∨ ((v.y < p.y ↔ v.y < q.y) ∧ 0 < triArea2 v p q)

open Classical in
/-- Indicator of `Before`. -/
noncomputable def bef (v p q : V2 K) : ℤ := if Before v p q then 1 else 0

/-- The two segments cross in their interiors (for points in general position). -/
def Cross (a b c d : V2 K) : Prop :=
  triArea2 a b c * triArea2 a b d < 0 ∧ triArea2 c d a * triArea2 c d b < 0

/-! ### Signed areas -/

theorem tri_rot (a b c : V2 K) : triArea2 b c a = triArea2 a b c := by unfold triArea2; ring
theorem tri_rot' (a b c : V2 K) : triArea2 c a b = triArea2 a b c := by unfold triArea2; ring
theorem tri_swap (a b c : V2 K) : triArea2 b a c = - triArea2 a b c := by unfold triArea2; ring
theorem tri_swap' (a b c : V2 K) : triArea2 a c b = - triArea2 a b c := by unfold triArea2; ring
theorem tri_swap'' (a b c : V2 K) : triArea2 c b a = - triArea2 a b c := by unfold triArea2; ring

theorem Cross.symm {a b c d : V2 K} (h : Cross a b c d) : Cross c d a b := ⟨h.2, h.1⟩
theorem Cross.swap {a b c d : V2 K} (h : Cross a b c d) : Cross b a c d := by
  refine ⟨?_, by rw [mul_comm]; exact h.2⟩
  rw [tri_swap a b c, tri_swap a b d, neg_mul_neg]; exact h.1
theorem Cross.swap' {a b c d : V2 K} (h : Cross a b c d) : Cross a b d c := h.symm.swap.symm

theorem up_swap (x a b : V2 K) : up x b a = - up x a b := by
  unfold up; rw [tri_swap a b x]; exact upf_swap _ _ _ _

theorem side_swap (x y p : V2 K) : side y x p = - side x y p := by
  unfold side; rw [tri_swap x y p]; exact strip_swap _ _ _ _

/-! ### Moving the start of the ray along a segment that the edge does not cross -/

theorem pos_or_of_not_cross {a b c d : V2 K} (h1 : triArea2 a b c ≠ 0) (h2 : triArea2 a b d ≠ 0) (h3 : triArea2 c d a ≠ 0)
    (h4 : triArea2 c d b ≠ 0) (h : ¬ Cross a b c d) :
    0 < triArea2 a b c * triArea2 a b d ∨ 0 < triArea2 c d a * triArea2 c d b := by
  by_contra hn
  rw [not_or, not_lt, not_lt] at hn
  exact h ⟨lt_of_le_of_ne hn.1 (mul_ne_zero h1 h2), lt_of_le_of_ne hn.2 (mul_ne_zero h3 h4)⟩

theorem up_step {x y a b : V2 K} (nA : triArea2 x y a ≠ 0) (nB : triArea2 x y b ≠ 0) (nC : triArea2 a b x ≠ 0)
    (nD : triArea2 a b y ≠ 0) (h : ¬ Cross x y a b) : up y a b - up x a b = side x y b - side x y a := by
  rcases le_total x.y y.y with hxy | hxy
  · exact no_cross_core (A := triArea2 x y a) (B := triArea2 x y b) (C := triArea2 a b x) (D := triArea2 a b y)
      (by unfold triArea2; ring) (by unfold triArea2; ring) nA nB nC nD (pos_or_of_not_cross nA nB nC nD h) hxy
  · have e := no_cross_core (A := triArea2 y x a) (B := triArea2 y x b) (C := triArea2 a b y) (D := triArea2 a b x)
      (ha := a.y) (hb := b.y) (hx := y.y) (hy := x.y)
      (by unfold triArea2; ring) (by unfold triArea2; ring) (by rw [tri_swap x y a]; exact neg_ne_zero.2 nA)
      (by rw [tri_swap x y b]; exact neg_ne_zero.2 nB) nD nC (pos_or_of_not_cross (by rw [tri_swap x y a]; exact neg_ne_zero.2 nA)
      (by rw [tri_swap x y b]; exact neg_ne_zero.2 nB) nD nC (fun hc => h hc.swap)) hxy
    have s1 := side_swap x y a
    have s2 := side_swap x y b
    unfold side at s1 s2
    unfold up side
    omega

/-- Lower, or to the right at the same height. -/
def Lower (x y : V2 K) : Prop := x.y < y.y ∨ (x.y = y.y ∧ y.x < x.x)

open Classical in
noncomputable def kap (x v : V2 K) : ℤ := if Lower x v then -1 else 0

theorem kap_add {x v : V2 K} (h : x ≠ v) : kap x v + kap v x = -1 := by
  unfold kap Lower
  rcases lt_trichotomy x.y v.y with h1 | h1 | h1
  · rw [if_pos (.inl h1), if_neg (by rintro (h | h) <;> [linarith; linarith [h.1]])]; rfl
  · rcases lt_trichotomy x.x v.x with h2 | h2 | h2
    · rw [if_neg (by rintro (h | h) <;> [linarith; linarith [h.2]]), if_pos (.inr ⟨h1.symm, h2⟩)]; rfl
    · exact absurd (by cases x; cases v; simp_all) h
    · rw [if_pos (.inr ⟨h1, h2⟩), if_neg (by rintro (h | h) <;> [linarith; linarith [h.2]])]; rfl
  · rw [if_neg (by rintro (h | h) <;> [linarith; linarith [h.1]]), if_pos (.inl h1)]; rfl

theorem corner_core {x v p : V2 K} (h : triArea2 x v p ≠ 0) :
    side x v p + up x v p = bef v p x + kap x v := by
  have e1 : triArea2 v p x = triArea2 x v p := tri_rot x v p
  have hd : triArea2 x v p = (v.x - x.x) * (p.y - x.y) - (p.x - x.x) * (v.y - x.y) := rfl
  unfold side up bef kap Before Lower upf strip
  rw [e1]
  generalize triArea2 x v p = o at *
  rcases lt_trichotomy x.y v.y with h1 | h1 | h1
  · simp only [← not_le]
    rcases lt_or_gt_of_ne h with o1 | o1 <;> by_cases h2 : p.y ≤ x.y <;> by_cases h3 : p.y ≤ v.y <;>
      first
      | (exfalso; linarith)
      | simp [h1.le, h1.ne, h2, h3, not_le.2 h1, o1.le, not_le.2 o1]
  · simp only [← not_le, h1, le_refl, not_true_eq_false, false_and, if_false, zero_add, true_and, false_or]
    rw [h1] at hd
    have hd' : o = (v.x - x.x) * (p.y - v.y) := by linear_combination hd
    rcases lt_or_gt_of_ne h with o1 | o1 <;> by_cases h3 : p.y ≤ v.y <;> by_cases h4 : x.x ≤ v.x <;>
      first
      | (exfalso; nlinarith)
      | simp [h3, h4, o1.le, not_le.2 o1]
  · simp only [← not_le]
    rcases lt_or_gt_of_ne h with o1 | o1 <;> by_cases h2 : p.y ≤ x.y <;> by_cases h3 : p.y ≤ v.y <;>
      first
      | (exfalso; linarith)
      | simp [h1.le, h1.ne', h2, h3, not_le.2 h1, o1.le, not_le.2 o1]

/-! ### Directions around a point -/

theorem bef_add {v p q : V2 K} (h : triArea2 v p q ≠ 0) : bef v p q + bef v q p = 1 := by
  have e : triArea2 v q p = - triArea2 v p q := tri_swap' v p q
  unfold bef Before
  rw [e]
  generalize triArea2 v p q = o at h
  simp only [← not_le]
  rcases lt_or_gt_of_ne h with o1 | o1 <;> by_cases h2 : p.y ≤ v.y <;> by_cases h3 : q.y ≤ v.y <;>
    simp [h2, h3, not_le.2 o1, o1.le]

theorem bef_cases (v p q : V2 K) : bef v p q = 0 ∨ bef v p q = 1 := by
  unfold bef; split
  · exact .inr rfl
  · exact .inl rfl

/-- How often the directions to `c`, `q`, `a` increase cyclically. -/
noncomputable def cyc3 (v c q a : V2 K) : ℤ := bef v c q + bef v q a + bef v a c

theorem cyc3_two {v c q a : V2 K} (h1 : triArea2 v c q ≠ 0) (h2 : triArea2 v q a ≠ 0) (h3 : triArea2 v a c ≠ 0)
    (h : (0 < triArea2 v c q ∧ 0 < triArea2 v q a) ∨ (0 < triArea2 v c q ∧ 0 < triArea2 v a c) ∨
      (0 < triArea2 v q a ∧ 0 < triArea2 v a c)) : cyc3 v c q a = 2 := by
  have e : triArea2 v q a * (c.y - v.y) + triArea2 v a c * (q.y - v.y) + triArea2 v c q * (a.y - v.y) = 0 := by
    unfold triArea2; ring
  have e1 : triArea2 v c q = (c.x - v.x) * (q.y - v.y) - (q.x - v.x) * (c.y - v.y) := rfl
  have hall : c.y ≤ v.y → q.y ≤ v.y → a.y ≤ v.y → 0 < triArea2 v c q → 0 < triArea2 v q a → 0 < triArea2 v a c → False := by
    intro p1 p2 p3 a1 a2 a3
    have n1 := mul_nonneg a2.le (sub_nonneg.2 p1)
    have n2 := mul_nonneg a3.le (sub_nonneg.2 p2)
    have n3 := mul_nonneg a1.le (sub_nonneg.2 p3)
    have z1 : triArea2 v q a * (v.y - c.y) = 0 := by linarith
    have z2 : triArea2 v a c * (v.y - q.y) = 0 := by linarith
    have y1 : v.y - c.y = 0 := (mul_eq_zero.1 z1).resolve_left h2
    have y2 : v.y - q.y = 0 := (mul_eq_zero.1 z2).resolve_left h3
    apply h1
    rw [e1]
    linear_combination - (c.x - v.x) * y2 + (q.x - v.x) * y1
  unfold cyc3 bef Before
  simp only [← not_le]
  generalize triArea2 v c q = A at *
  generalize triArea2 v q a = B at *
  generalize triArea2 v a c = C at *
  rcases lt_or_gt_of_ne h1 with oa | oa <;> rcases lt_or_gt_of_ne h2 with ob | ob <;> rcases lt_or_gt_of_ne h3 with oc | oc <;>
    first
    | (exfalso; rcases h with ⟨h, h'⟩ | ⟨h, h'⟩ | ⟨h, h'⟩ <;> linarith)
    | (by_cases p1 : c.y ≤ v.y <;> by_cases p2 : q.y ≤ v.y <;> by_cases p3 : a.y ≤ v.y <;>
        first
        | (simp [p1, p2, p3, not_le.2 oa, not_le.2 ob, not_le.2 oc, oa.le, ob.le, oc.le]; done)
        | (exfalso; rw [not_le] at *; nlinarith)
        | (exfalso; nlinarith)
        | exact absurd (hall p1 p2 p3 oa ob oc) id)

theorem cyc3_rev {v c q a : V2 K} (h1 : triArea2 v c q ≠ 0) (h2 : triArea2 v q a ≠ 0) (h3 : triArea2 v a c ≠ 0) :
    cyc3 v c q a + cyc3 v a q c = 3 := by
  have a1 := bef_add h1
  have a2 := bef_add h2
  have a3 := bef_add h3
  unfold cyc3
  omega

theorem cyc3_one {v c q a : V2 K} (h1 : triArea2 v c q ≠ 0) (h2 : triArea2 v q a ≠ 0) (h3 : triArea2 v a c ≠ 0)
    (h : (triArea2 v c q < 0 ∧ triArea2 v q a < 0) ∨ (triArea2 v c q < 0 ∧ triArea2 v a c < 0) ∨
      (triArea2 v q a < 0 ∧ triArea2 v a c < 0)) : cyc3 v c q a = 1 := by
  have e1 := tri_swap' v c q
  have e2 := tri_swap' v q a
  have e3 := tri_swap' v a c
  have := cyc3_two (v := v) (c := a) (q := q) (a := c) (by rw [e2]; exact neg_ne_zero.2 h2)
    (by rw [e1]; exact neg_ne_zero.2 h1) (by rw [e3]; exact neg_ne_zero.2 h3) (by
      rw [e1, e2, e3]
      simp only [Left.neg_pos_iff]
      tauto)
  have := cyc3_rev h1 h2 h3
  omega

/-! ### Sums over paths and loops -/

/-- Crossings of a path with the ray from `x`. -/
def pathUp (l : List (V2 K)) (x : V2 K) : ℤ := ((pathEdges l).map fun e => up x e.1 e.2).sum

/-- Winding number of a closed polygon. -/
def wind (l : List (V2 K)) (x : V2 K) : ℤ := ((loopEdges l).map fun e => up x e.1 e.2).sum

theorem pathEdges_cons {α : Type} (a b : α) (l : List α) : pathEdges (a :: b :: l) = (a, b) :: pathEdges (b :: l) := rfl

theorem pathEdges_append {α : Type} (l : List α) (q : α) (ys : List α) :
    pathEdges (l ++ q :: ys) = pathEdges (l ++ [q]) ++ pathEdges (q :: ys) := by
  induction l with
  | nil => cases ys <;> rfl
  | cons a l ih =>
    cases l with
    | nil => rfl
    | cons b l =>
      have := ih
      simp only [List.cons_append, pathEdges_cons] at this ⊢
      rw [this]

theorem loopEdges_cons {α : Type} (v : α) (l : List α) : loopEdges (v :: l) = pathEdges (v :: l ++ [v]) := rfl

theorem pathEdges_concat {α : Type} (l : List α) (a b : α) : pathEdges (l ++ [a, b]) = pathEdges (l ++ [a]) ++ [(a, b)] :=
  pathEdges_append l a [b]

theorem telescope (g : V2 K → ℤ) (l : List (V2 K)) (a b : V2 K) (hh : l.head? = some a) (hl : l.getLast? = some b) :
    ((pathEdges l).map fun e => g e.2 - g e.1).sum = g b - g a := by
  induction l generalizing a with
  | nil => cases hh
  | cons c l ih =>
    cases hh
    cases l with
    | nil => cases hl; simp [pathEdges]
    | cons d l =>
      have := ih d rfl (by simpa using hl)
      rw [pathEdges_cons, List.map_cons, List.sum_cons, this]
      ring

/-- The segment from `x` to `y` and the edge from `a` to `b` do not cross, and no three of the points are in line. -/
structure Clear (x y a b : V2 K) : Prop where
  xya : triArea2 x y a ≠ 0
  xyb : triArea2 x y b ≠ 0
  abx : triArea2 a b x ≠ 0
  aby : triArea2 a b y ≠ 0
  cross : ¬ Cross x y a b

theorem Clear.step {x y a b : V2 K} (h : Clear x y a b) : up y a b - up x a b = side x y b - side x y a :=
  up_step h.xya h.xyb h.abx h.aby h.cross

theorem pathUp_step {x y : V2 K} {l : List (V2 K)} {c a : V2 K} (h : ∀ e ∈ pathEdges l, Clear x y e.1 e.2)
    (hh : l.head? = some c) (hl : l.getLast? = some a) :
    pathUp l y - pathUp l x = side x y a - side x y c := by
  have e := telescope (side x y) l c a hh hl
  rw [← e]
  unfold pathUp
  clear e hh hl
  generalize pathEdges l = es at h
  induction es with
  | nil => rfl
  | cons e es ih =>
    have h1 := (h e (List.mem_cons_self ..)).step
    have h2 := ih fun e' he => h e' (List.mem_cons_of_mem _ he)
    simp only [List.map_cons, List.sum_cons]
    omega

theorem loopEdges_form {α : Type} {v c a : α} {l : List α} (hh : l.head? = some c) (hl : l.getLast? = some a) :
    loopEdges (v :: l) = (v, c) :: (pathEdges l ++ [(a, v)]) := by
  cases l with
  | nil => cases hh
  | cons d l =>
    cases hh
    rw [loopEdges_cons, List.cons_append, List.cons_append, pathEdges_cons]
    obtain ⟨l', e⟩ : ∃ l', c :: l = l' ++ [a] := by
      rw [List.getLast?_eq_some_iff] at hl; exact hl
    rw [← List.cons_append, e, List.append_assoc]
    show _ :: pathEdges (l' ++ [a, v]) = _
    rw [pathEdges_concat]

/-- The crossings of a closed polygon with the ray from its first vertex, corrected at that vertex: the winding number
of points just to the left of the boundary. -/
noncomputable def level : List (V2 K) → ℤ
  | [] => 0
  | v :: l => pathUp l v + bef v (l.headD v) (l.getLastD v)

theorem level_form {v c a : V2 K} {l : List (V2 K)} (hh : l.head? = some c) (hl : l.getLast? = some a) :
    level (v :: l) = pathUp l v + bef v c a := by
  show pathUp l v + bef v (l.headD v) (l.getLastD v) = _
  rw [List.headD_eq_head?_getD, hh, List.getLastD_eq_getLast?, hl]; rfl

theorem wind_form {v c a : V2 K} {l : List (V2 K)} (hh : l.head? = some c) (hl : l.getLast? = some a) (x : V2 K) :
    wind (v :: l) x = up x v c + pathUp l x + up x a v := by
  unfold wind pathUp
  rw [loopEdges_form hh hl]
  simp
  ring

/-- **Corner.** The winding number of a point seen from a vertex. -/
theorem wind_corner {v c a x : V2 K} {l : List (V2 K)} (hh : l.head? = some c) (hl : l.getLast? = some a)
    (h : ∀ e ∈ pathEdges l, Clear x v e.1 e.2) (nc : triArea2 x v c ≠ 0) (na : triArea2 x v a ≠ 0)
    (nac : triArea2 v a c ≠ 0) : wind (v :: l) x = level (v :: l) - 2 + cyc3 v c x a := by
  rw [wind_form hh hl, level_form hh hl]
  have e1 := pathUp_step h hh hl
  have e2 := corner_core nc
  have e3 := corner_core na
  have e4 := up_swap x v a
  have e5 := bef_add nac
  have e6 := bef_add (v := v) (p := a) (q := x) (by rw [tri_rot x v a]; exact na)
  unfold cyc3
  omega

/-- **Turning** to the next vertex does not change the level. -/
theorem level_rotate {v c a d : V2 K} {l : List (V2 K)} (hh : l.head? = some d) (hl : l.getLast? = some a)
    (h : ∀ e ∈ pathEdges l, Clear v c e.1 e.2) (na : triArea2 v c a ≠ 0) (nd : triArea2 v c d ≠ 0) :
    level (v :: c :: l) = level (c :: (l ++ [v])) := by
  have hvc : v ≠ c := by rintro rfl; apply na; unfold triArea2; ring
  have hne : l ≠ [] := by rintro rfl; cases hh
  rw [level_form (c := c) (a := a) rfl (by rw [List.getLast?_cons_of_ne_nil hne]; exact hl),
    level_form (c := d) (a := v) (by rw [List.head?_append, hh]; rfl) (by simp)]
  have p1 : pathUp (c :: l) v = up v c d + pathUp l v := by
    cases l with
    | nil => cases hh
    | cons d' l => cases hh; unfold pathUp; rw [pathEdges_cons]; simp
  have p2 : pathUp (l ++ [v]) c = pathUp l c + up c a v := by
    obtain ⟨l', rfl⟩ : ∃ l', l = l' ++ [a] := by
      rw [List.getLast?_eq_some_iff] at hl; exact hl
    unfold pathUp
    rw [List.append_assoc]
    show ((pathEdges (l' ++ [a, v])).map _).sum = _
    rw [pathEdges_concat]
    simp
  rw [p1, p2]
  have e1 := pathUp_step h hh hl
  have e2 := corner_core nd
  have e3 := corner_core (x := c) (v := v) (p := a) (by rw [tri_swap v c a]; exact neg_ne_zero.2 na)
  have e4 := side_swap v c a
  have e5 := up_swap c a v
  have e6 := kap_add hvc
  have e7 := bef_add na
  omega

/-- **Cutting** a polygon along a diagonal. -/
theorem level_cut {v c q a : V2 K} {l₁ l₂ : List (V2 K)} (h1 : (l₁ ++ [q]).head? = some c)
    (h2 : (q :: l₂).getLast? = some a) (nac : triArea2 v a c ≠ 0) :
    level (v :: (l₁ ++ q :: l₂)) = level (v :: (l₁ ++ [q])) + level (v :: q :: l₂) + 1 - cyc3 v c q a := by
  have hh : (l₁ ++ q :: l₂).head? = some c := by
    cases l₁ with
    | nil => exact h1
    | cons x l => exact h1
  rw [level_form (c := c) (a := a) hh (by rw [List.getLast?_append, h2]; rfl), level_form (c := c) (a := q) h1 (by simp),
    level_form (c := q) (a := a) rfl h2]
  have e : pathUp (l₁ ++ q :: l₂) v = pathUp (l₁ ++ [q]) v + pathUp (q :: l₂) v := by
    unfold pathUp
    rw [pathEdges_append]; simp
  have := bef_add nac
  unfold cyc3
  omega

/-- The winding number is the same at two points whose segment clears the polygon. -/
theorem wind_step {x y : V2 K} {l : List (V2 K)} (h : ∀ e ∈ loopEdges l, Clear x y e.1 e.2) : wind l x = wind l y := by
  cases l with
  | nil => rfl
  | cons v l =>
    have := pathUp_step (l := v :: l ++ [v]) (c := v) (a := v) h rfl (by rw [List.getLast?_append]; rfl)
    have e : ∀ z, wind (v :: l) z = pathUp (v :: l ++ [v]) z := fun z => rfl
    rw [e, e]
    omega

end Geom3d.Winding
