import Verif.Props.Metric
import Verif.Model.Curve
import Verif.Model.Instances

/-! # C23–C25: polylines -/

set_option linter.unusedSectionVars false

namespace Geom3d

/-! ### Specification -/

/-- `AtArc l s x`: `x` is the point of the polyline with vertices `l` at arc length `s` from the start. -/
inductive Spec.AtArc : List (V3 ℝ) → ℝ → V3 ℝ → Prop
  | here (a b : V3 ℝ) (l : List (V3 ℝ)) (lam : ℝ) (h0 : 0 ≤ lam) (h1 : lam ≤ 1) :
      Spec.AtArc (a :: b :: l) (lam * Spec.dist3 a b) (Spec.segPoint3 a b lam)
  | there (a b : V3 ℝ) (l : List (V3 ℝ)) (s : ℝ) (x : V3 ℝ) (h : Spec.AtArc (b :: l) s x) :
      Spec.AtArc (a :: b :: l) (Spec.dist3 a b + s) x

/-- Total length. -/
noncomputable def Spec.polyLength : List (V3 ℝ) → ℝ
  | a :: b :: l => Spec.dist3 a b + Spec.polyLength (b :: l)
  | _ => 0

/-- `x` lies on the polyline. -/
def Spec.OnPolyline (l : List (V3 ℝ)) (x : V3 ℝ) : Prop := ∃ s, Spec.AtArc l s x

theorem dist3_nonneg (a b : V3 ℝ) : 0 ≤ Spec.dist3 a b := Real.sqrt_nonneg _
theorem dist3_comm (a b : V3 ℝ) : Spec.dist3 a b = Spec.dist3 b a := by rw [dist3_eq, dist3_eq, V3.distance_comm]
theorem dist3_triangle (a b c : V3 ℝ) : Spec.dist3 a c ≤ Spec.dist3 a b + Spec.dist3 b c := by
  simp only [dist3_eq]; exact V3.distance_triangle a b c
theorem dist3_self (a : V3 ℝ) : Spec.dist3 a a = 0 := by rw [dist3_eq, V3.distance_self]
theorem eq_of_dist3 {a b : V3 ℝ} (h : Spec.dist3 a b ≤ 0) : a = b := by
  rw [dist3_eq] at h
  have := V3.length_eq_zero (le_antisymm h (V3.length_nonneg _))
  exact sub_eq_zero.1 this

theorem segPoint3_eq (a b : V3 ℝ) (s : ℝ) : Spec.segPoint3 a b s = a + s • (b - a) := by
  ext <;> simp [Spec.segPoint3]

theorem dist3_segPoints (a b : V3 ℝ) (s t : ℝ) :
    Spec.dist3 (Spec.segPoint3 a b s) (Spec.segPoint3 a b t) = |s - t| * Spec.dist3 a b := by
  rw [dist3_eq, dist3_eq, segPoint3_eq, segPoint3_eq]
  unfold V3.distance
  rw [show a + s • (b - a) - (a + t • (b - a)) = (t - s) • (a - b) by module, V3.length_smul, abs_sub_comm]

theorem segPoint3_zero (a b : V3 ℝ) : Spec.segPoint3 a b 0 = a := by rw [segPoint3_eq]; module
theorem segPoint3_one (a b : V3 ℝ) : Spec.segPoint3 a b 1 = b := by rw [segPoint3_eq]; module

theorem Spec.AtArc.nonneg {l : List (V3 ℝ)} {s : ℝ} {x : V3 ℝ} (h : Spec.AtArc l s x) : 0 ≤ s := by
  induction h with
  | here a b l lam h0 h1 => exact mul_nonneg h0 (dist3_nonneg a b)
  | there a b l s x _ ih => exact add_nonneg (dist3_nonneg a b) ih

theorem polyLength_nonneg (l : List (V3 ℝ)) : 0 ≤ Spec.polyLength l := by
  induction l with
  | nil => exact le_refl _
  | cons a l ih =>
    cases l with
    | nil => exact le_refl _
    | cons b l => exact add_nonneg (dist3_nonneg a b) ih

theorem Spec.AtArc.le {l : List (V3 ℝ)} {s : ℝ} {x : V3 ℝ} (h : Spec.AtArc l s x) : s ≤ Spec.polyLength l := by
  induction h with
  | here a b l lam h0 h1 =>
    have := polyLength_nonneg (b :: l)
    have := mul_le_mul_of_nonneg_right h1 (dist3_nonneg a b)
    simp only [Spec.polyLength]; linarith
  | there a b l s x _ ih => simp only [Spec.polyLength]; linarith

theorem atArc_start (a b : V3 ℝ) (l : List (V3 ℝ)) : Spec.AtArc (a :: b :: l) 0 a := by
  have := Spec.AtArc.here a b l 0 (le_refl _) zero_le_one
  rwa [zero_mul, segPoint3_zero] at this

theorem atArc_end (a b : V3 ℝ) (l : List (V3 ℝ)) :
    ∃ e, (a :: b :: l).getLast? = some e ∧ Spec.AtArc (a :: b :: l) (Spec.polyLength (a :: b :: l)) e := by
  induction l generalizing a b with
  | nil =>
    refine ⟨b, rfl, ?_⟩
    have := Spec.AtArc.here a b [] 1 zero_le_one (le_refl _)
    rw [one_mul, segPoint3_one] at this
    simpa [Spec.polyLength] using this
  | cons c l ih =>
    obtain ⟨e, h1, h2⟩ := ih b c
    exact ⟨e, by rw [List.getLast?_cons_cons]; exact h1, Spec.AtArc.there a b (c :: l) _ e h2⟩

theorem atArc_dist_start {l : List (V3 ℝ)} {s : ℝ} {x : V3 ℝ} (h : Spec.AtArc l s x) (b : V3 ℝ) (hb : l.head? = some b) :
    Spec.dist3 b x ≤ s := by
  induction h generalizing b with
  | here p q l mu m0 m1 =>
    cases hb
    have e := dist3_segPoints p q 0 mu
    rw [segPoint3_zero, zero_sub, abs_neg, abs_of_nonneg m0] at e
    exact le_of_eq e
  | there p q l u z hz ih =>
    cases hb
    have := ih q rfl
    have := dist3_triangle p q z
    linarith

/-- Arc length determines the point, and moving by `δ` along the polyline moves the point by at most `δ`. -/
theorem atArc_lipschitz {l : List (V3 ℝ)} {s t : ℝ} {x y : V3 ℝ} (hx : Spec.AtArc l s x) (hy : Spec.AtArc l t y) :
    Spec.dist3 x y ≤ |s - t| := by
  induction hx generalizing t y with
  | here a b l lam h0 h1 =>
    cases hy with
    | here _ _ _ mu m0 m1 =>
      rw [dist3_segPoints, ← sub_mul, abs_mul, abs_of_nonneg (dist3_nonneg a b)]
    | there _ _ _ t' y hy =>
      have e1 : Spec.dist3 (Spec.segPoint3 a b lam) b = (1 - lam) * Spec.dist3 a b := by
        have e := dist3_segPoints a b lam 1
        rwa [segPoint3_one, abs_sub_comm, abs_of_nonneg (by linarith)] at e
      have ht := hy.nonneg
      have e2 : Spec.dist3 b y ≤ t' := atArc_dist_start hy b rfl
      have := dist3_triangle (Spec.segPoint3 a b lam) b y
      rw [abs_sub_comm, abs_of_nonneg (by nlinarith [dist3_nonneg a b])]
      linarith
  | there a b l s x hx ih =>
    cases hy with
    | here _ _ _ mu m0 m1 =>
      have e1 : Spec.dist3 b (Spec.segPoint3 a b mu) = (1 - mu) * Spec.dist3 a b := by
        have e := dist3_segPoints a b 1 mu
        rwa [segPoint3_one, abs_of_nonneg (by linarith)] at e
      have ht := hx.nonneg
      have e2 : Spec.dist3 x b ≤ s := by
        rw [dist3_comm]
        exact atArc_dist_start hx b rfl
      have := dist3_triangle x b (Spec.segPoint3 a b mu)
      rw [abs_of_nonneg (by nlinarith [dist3_nonneg a b])]
      linarith
    | there _ _ _ t' y hy =>
      have := ih hy
      rwa [show Spec.dist3 a b + s - (Spec.dist3 a b + t') = s - t' by ring]

theorem atArc_unique {l : List (V3 ℝ)} {s : ℝ} {x y : V3 ℝ} (hx : Spec.AtArc l s x) (hy : Spec.AtArc l s y) : x = y := by
  apply eq_of_dist3
  have := atArc_lipschitz hx hy
  rwa [sub_self, abs_zero] at this

/-! ### The model -/

theorem sumF_eq {K : Type} [Field K] (l : List K) : sumF l = l.sum := by
  have : ∀ c : K, l.foldl (· + ·) c = c + l.sum := by
    induction l with
    | nil => simp
    | cons a l ih => intro c; rw [List.foldl_cons, ih, List.sum_cons]; ring
  unfold sumF
  rw [this, zero_add]

/-- The segment lengths computed by `Polyline::new`. -/
noncomputable def segLens (vs : List (V3 ℝ)) : List ℝ := (pairs vs).map fun pair => pair.2.distance pair.1

theorem segLens_cons (a b : V3 ℝ) (l : List (V3 ℝ)) : segLens (a :: b :: l) = Spec.dist3 a b :: segLens (b :: l) := by
  have : pairs (a :: b :: l) = (a, b) :: pairs (b :: l) := rfl
  unfold segLens
  rw [this, List.map_cons, dist3_eq, V3.distance_comm]

theorem segLens_sum (l : List (V3 ℝ)) : (segLens l).sum = Spec.polyLength l := by
  induction l with
  | nil => simp [segLens, pairs, Spec.polyLength]
  | cons a l ih =>
    cases l with
    | nil => simp [segLens, pairs, Spec.polyLength]
    | cons b l => rw [segLens_cons, List.sum_cons, ih]; rfl

/-- `Polyline::new` succeeds exactly on two or more vertices and records the total length. -/
theorem polyline_new {vs : List (V3 ℝ)} (h : 2 ≤ vs.length) :
    Polyline.new vs = .ok ⟨vs, segLens vs, Spec.polyLength vs⟩ := by
  unfold Polyline.new
  rw [show assertR (decide (2 ≤ vs.length)) = .ok () from assertR_eq_ok.2 (by simpa using h)]
  simp only [ok_bind, pure_eq_ok]
  rw [sumF_eq]
  change Except.ok (Polyline.mk vs (segLens vs) (segLens vs).sum) = _
  rw [segLens_sum]

theorem walk_spec (pre : List (V3 ℝ)) (l : List (V3 ℝ)) (len : ℝ) (h0 : 0 < len) (h1 : len ≤ Spec.polyLength l) :
    ∃ x, polylineWalk (pre ++ l) (segLens l) pre.length len = .ok x ∧ Spec.AtArc l len x := by
  induction l generalizing pre len with
  | nil => simp only [Spec.polyLength] at h1; linarith
  | cons a l ih =>
    cases l with
    | nil => simp only [Spec.polyLength] at h1; linarith
    | cons b l =>
      rw [segLens_cons, polylineWalk]
      split
      · rename_i h
        simp only [Spec.polyLength] at h1
        obtain ⟨x, e1, e2⟩ := ih (pre ++ [a]) (len - Spec.dist3 a b) (by linarith) (by linarith)
        refine ⟨x, ?_, ?_⟩
        · rw [← e1]; simp
        · have := Spec.AtArc.there a b l _ x e2
          rwa [add_sub_cancel] at this
      · rename_i h
        have h := not_lt.1 h
        have hd : 0 < Spec.dist3 a b := lt_of_lt_of_le h0 h
        rw [idx_of_getElem? (a := a) (by simp), ok_bind, idx_of_getElem? (a := b) (by
          rw [List.getElem?_append_right (by omega)]; simp), ok_bind]
        refine ⟨_, rfl, ?_⟩
        have := Spec.AtArc.here a b l (len / Spec.dist3 a b) (div_nonneg h0.le hd.le) ((div_le_one hd).2 h)
        rw [div_mul_cancel₀ _ (ne_of_gt hd), segPoint3_eq] at this
        unfold V3.lerp
        rwa [V3.rmul_eq]

/-- **C23**: the point returned is the point at arc length `t * length` (`t` clamped to `[0,1]`); in particular no panic,
and no division by a zero segment length. -/
theorem C23_arc_length {vs : List (V3 ℝ)} (h : 2 ≤ vs.length) (hL : 0 < Spec.polyLength vs) (t : ℝ) :
    ∃ c x, Polyline.new vs = .ok c ∧ c.getPoint t = .ok x ∧
      Spec.AtArc vs (max 0 (min t 1) * Spec.polyLength vs) x := by
  rw [polyline_new h]
  suffices ∃ x, (⟨vs, segLens vs, Spec.polyLength vs⟩ : Polyline ℝ).getPoint t = .ok x ∧
      Spec.AtArc vs (max 0 (min t 1) * Spec.polyLength vs) x by
    obtain ⟨x, h1, h2⟩ := this
    exact ⟨_, x, rfl, h1, h2⟩
  obtain ⟨a, b, l, rfl⟩ : ∃ a b l, vs = a :: b :: l := by
    match vs, h with
    | a :: b :: l, _ => exact ⟨a, b, l, rfl⟩
  unfold Polyline.getPoint
  by_cases h0 : t ≤ 0
  · rw [if_pos h0]
    refine ⟨a, rfl, ?_⟩
    rw [max_eq_left (le_trans (min_le_left _ _) h0), zero_mul]
    exact atArc_start a b l
  · rw [if_neg h0]
    by_cases h1 : 1 ≤ t
    · rw [if_pos h1, min_eq_right h1, max_eq_right zero_le_one, one_mul]
      obtain ⟨e, e1, e2⟩ := atArc_end a b l
      refine ⟨e, ?_, e2⟩
      unfold Polyline.stop
      rw [usub_ok (by simp)]
      simp only [ok_bind]
      apply idx_of_getElem?
      rwa [List.getLast?_eq_getElem?] at e1
    · rw [if_neg h1]
      have h0 := not_le.1 h0
      have h1 := not_le.1 h1
      rw [min_eq_left h1.le, max_eq_right h0.le]
      exact walk_spec [] (a :: b :: l) _ (mul_pos h0 hL) (by nlinarith)

/-- **C23**: end points (any polyline, law-free in the vertices: exact values, no rounding). -/
theorem C23_start {F : Type} [Add F] [Sub F] [Mul F] [Div F] [Zero F] [One F]
    [LT F] [DecidableLT F] [LE F] [DecidableLE F] (c : Polyline F) {t : F} (h : t ≤ 0) :
    c.getPoint t = idx c.vertices 0 := by
  unfold Polyline.getPoint
  rw [if_pos h]; rfl

theorem C23_end {F : Type} [Add F] [Sub F] [Mul F] [Div F] [Zero F] [One F]
    [LT F] [DecidableLT F] [LE F] [DecidableLE F] (c : Polyline F) {t : F} (h : ¬ t ≤ 0) (h1 : 1 ≤ t)
    (hc : 1 ≤ c.vertices.length) : c.getPoint t = idx c.vertices (c.vertices.length - 1) := by
  unfold Polyline.getPoint
  rw [if_neg h, if_pos h1]
  unfold Polyline.stop
  rw [usub_ok hc]; rfl

/-- **C23**: constant speed bound. -/
theorem C23_lipschitz {vs : List (V3 ℝ)} (h : 2 ≤ vs.length) (hL : 0 < Spec.polyLength vs) {c : Polyline ℝ}
    (hc : Polyline.new vs = .ok c) {t u : ℝ} {x y : V3 ℝ} (hx : c.getPoint t = .ok x) (hy : c.getPoint u = .ok y) :
    Spec.dist3 x y ≤ Spec.polyLength vs * |t - u| := by
  obtain ⟨c1, x1, e1, e2, e3⟩ := C23_arc_length h hL t
  obtain ⟨c2, y1, f1, f2, f3⟩ := C23_arc_length h hL u
  rw [hc] at e1 f1
  cases e1; cases f1
  rw [hx] at e2; cases e2
  rw [hy] at f2; cases f2
  refine le_trans (atArc_lipschitz e3 f3) ?_
  rw [← sub_mul, abs_mul, abs_of_pos hL, mul_comm]
  apply mul_le_mul_of_nonneg_left _ hL.le
  have e1 : |max 0 (min t 1) - max 0 (min u 1)| ≤ |min t 1 - min u 1| := by
    rw [max_comm 0, max_comm 0]; exact abs_max_sub_max_le_abs _ _ _
  have e2 : |min t 1 - min u 1| ≤ |t - u| := (abs_min_sub_min_le_max t 1 u 1).trans (by simp)
  exact e1.trans e2

/-- **C23** and **C30** combined: adaptive subdivision of a polyline of positive length terminates. -/
theorem C30_polyline_terminates {vs : List (V3 ℝ)} (h : 2 ≤ vs.length) (hL : 0 < Spec.polyLength vs) {c : Polyline ℝ}
    (hc : Polyline.new vs = .ok c) {tol : ℝ} (htol : 0 < tol) {rnd : List Bool → ℝ}
    (hr : ∀ path, 0 ≤ rnd path ∧ rnd path < 1) (range : ℝ × ℝ) :
    ∃ fuel l, parameterDivision c.getPoint rnd tol fuel [] range = .ok l := by
  have hok : ∀ t, ∃ x, c.getPoint t = .ok x := fun t => by
    obtain ⟨c1, x1, e1, e2, _⟩ := C23_arc_length h hL t
    rw [hc] at e1; cases e1
    exact ⟨x1, e2⟩
  choose f hf using hok
  have hfun : c.getPoint = fun u => .ok (f u) := funext hf
  rw [hfun]
  exact C30_terminates_exists (L := Spec.polyLength vs) htol (fun x y => by
    rw [← dist3_eq]; exact C23_lipschitz h hL hc (hf x) (hf y)) hr range

/-- Non-vacuity: an L-shaped polyline of length 3. -/
example : ∃ c x, Polyline.new [(⟨0, 0, 0⟩ : V3 ℝ), ⟨1, 0, 0⟩, ⟨1, 2, 0⟩] = .ok c ∧ c.getPoint (1 / 3) = .ok x ∧
    Spec.AtArc [⟨0, 0, 0⟩, ⟨1, 0, 0⟩, ⟨1, 2, 0⟩] 1 x := by
  have hl : Spec.polyLength [(⟨0, 0, 0⟩ : V3 ℝ), ⟨1, 0, 0⟩, ⟨1, 2, 0⟩] = 3 := by
    have : Real.sqrt 4 = 2 := by rw [show (4 : ℝ) = 2 ^ 2 by norm_num]; exact Real.sqrt_sq (by norm_num)
    norm_num [Spec.polyLength, Spec.dist3, this]
  obtain ⟨c, x, h1, h2, h3⟩ := C23_arc_length (vs := [(⟨0, 0, 0⟩ : V3 ℝ), ⟨1, 0, 0⟩, ⟨1, 2, 0⟩]) (by simp)
    (by rw [hl]; norm_num) (1 / 3)
  refine ⟨c, x, h1, h2, ?_⟩
  rw [hl] at h3
  norm_num at h3
  exact h3

/-! ### C24: binary64 -/

/-- `1.5 * 2^-53`. -/
def delta64 : Float := Float.ofBits 0x3CA8000000000000

/-- **C24 is false of the code**: with finite binary64 vertices and `t = 1 - 2^-53`, `get_point` reaches `unreachable!()`. -/
theorem C24_false : (do
    let c ← Polyline.new [(⟨1, 0, 0⟩ : V3 Float), ⟨0, 0, 0⟩, ⟨delta64, 0, 0⟩, ⟨0, 0, 0⟩, ⟨delta64, 0, 0⟩, ⟨0, 0, 0⟩,
      ⟨delta64, 0, 0⟩]
    c.getPoint (Float.ofBits 0x3FEFFFFFFFFFFFFF)) = .error .unreachable := by decide +kernel

/-- **C24**, exact panic condition (law-free, so also in `f64`): strictly between 0 and 1, `get_point` panics with
`unreachable!()` iff every segment is shorter than what remains of `t * length` after subtracting the earlier ones one by
one; it never panics otherwise. -/
theorem C24_panics_iff_partial {F : Type} [Add F] [Sub F] [Mul F] [Div F] [Zero F] [One F]
    [LT F] [DecidableLT F] [LE F] [DecidableLE F] (c : Polyline F) {t : F} (h0 : ¬ t ≤ 0) (h1 : ¬ 1 ≤ t)
    (hc : c.segmentLengths.length + 1 = c.vertices.length) :
    (c.getPoint t = .error .unreachable ↔ ∀ (i : Nat) (s : F), c.segmentLengths[i]? = some s →
        s < (c.segmentLengths.take i).foldl (· - ·) (t * c.length)) ∧
      (c.getPoint t = .error .unreachable ∨ ∃ x, c.getPoint t = .ok x) := by
  unfold Polyline.getPoint
  rw [if_neg h0, if_neg h1]
  generalize t * c.length = len
  have key : ∀ (segs : List F) (idx0 : Nat) (len : F), idx0 + segs.length + 1 = c.vertices.length →
      (polylineWalk c.vertices segs idx0 len = .error .unreachable ↔ ∀ (i : Nat) (s : F), segs[i]? = some s →
        s < (segs.take i).foldl (· - ·) len) ∧
      (polylineWalk c.vertices segs idx0 len = .error .unreachable ∨ ∃ x, polylineWalk c.vertices segs idx0 len = .ok x) := by
    intro segs
    induction segs with
    | nil => intro i len _; simp [polylineWalk]
    | cons s segs ih =>
      intro idx0 len hl
      rw [List.length_cons] at hl
      rw [polylineWalk]
      by_cases hs : s < len
      · rw [if_pos hs]
        obtain ⟨e1, e2⟩ := ih (idx0 + 1) (len - s) (by omega)
        refine ⟨?_, e2⟩
        rw [e1]
        constructor
        · intro h i x hx
          cases i with
          | zero => simp only [List.getElem?_cons_zero, Option.some.injEq] at hx; subst hx; simpa using hs
          | succ i => simpa using h i x (by simpa using hx)
        · intro h i x hx
          simpa using h (i + 1) x (by simpa using hx)
      · rw [if_neg hs, idx_ok (by omega), ok_bind, idx_ok (by omega), ok_bind]
        refine ⟨⟨fun h => by simp at h, fun h => absurd (h 0 s rfl) hs⟩, Or.inr ⟨_, rfl⟩⟩
  exact key c.segmentLengths 0 len (by omega)

/-! ### C25: projection -/

/-- The first-minimiser property of the segment search. -/
theorem nearestSegment_spec (p : V3 ℝ) (prs : List (V3 ℝ × V3 ℝ)) (i : Nat) (st : ℝ × Nat) :
    (nearestSegment p prs i st = st ∧ ∀ pr ∈ prs, st.1 ≤ distanceToLineSegment pr.1 pr.2 p) ∨
      ∃ (j : Nat) (pr : V3 ℝ × V3 ℝ), prs[j]? = some pr ∧
        nearestSegment p prs i st = (distanceToLineSegment pr.1 pr.2 p, i + j) ∧ distanceToLineSegment pr.1 pr.2 p < st.1 ∧
        (∀ pr' ∈ prs, distanceToLineSegment pr.1 pr.2 p ≤ distanceToLineSegment pr'.1 pr'.2 p) ∧
        ∀ (j' : Nat) (pr' : V3 ℝ × V3 ℝ), j' < j → prs[j']? = some pr' →
          distanceToLineSegment pr.1 pr.2 p < distanceToLineSegment pr'.1 pr'.2 p := by
  induction prs generalizing i st with
  | nil => exact Or.inl ⟨rfl, by simp⟩
  | cons q prs ih =>
    rw [nearestSegment]
    by_cases h : distanceToLineSegment q.1 q.2 p < st.1
    · rw [if_pos h]
      rcases ih (i + 1) (distanceToLineSegment q.1 q.2 p, i) with ⟨e, hall⟩ | ⟨j, pr, e1, e2, e3, e4, e5⟩
      · refine Or.inr ⟨0, q, rfl, by rw [e]; rfl, h, ?_, by omega⟩
        intro pr' hpr'
        rcases List.mem_cons.1 hpr' with rfl | h'
        · exact le_refl _
        · exact hall pr' h'
      · refine Or.inr ⟨j + 1, pr, by simpa using e1, by rw [e2]; congr 1; omega, lt_trans e3 h, ?_, ?_⟩
        · intro pr' hpr'
          rcases List.mem_cons.1 hpr' with rfl | h'
          · exact e3.le
          · exact e4 pr' h'
        · intro j' pr' hj' hpr'
          cases j' with
          | zero => simp only [List.getElem?_cons_zero, Option.some.injEq] at hpr'; subst hpr'; exact e3
          | succ j' => exact e5 j' pr' (by omega) (by simpa using hpr')
    · rw [if_neg h]
      have h := not_lt.1 h
      rcases ih (i + 1) st with ⟨e, hall⟩ | ⟨j, pr, e1, e2, e3, e4, e5⟩
      · refine Or.inl ⟨e, ?_⟩
        intro pr' hpr'
        rcases List.mem_cons.1 hpr' with rfl | h'
        · exact h
        · exact hall pr' h'
      · refine Or.inr ⟨j + 1, pr, by simpa using e1, by rw [e2]; congr 1; omega, e3, ?_, ?_⟩
        · intro pr' hpr'
          rcases List.mem_cons.1 hpr' with rfl | h'
          · exact le_trans e3.le h
          · exact e4 pr' h'
        · intro j' pr' hj' hpr'
          cases j' with
          | zero =>
            simp only [List.getElem?_cons_zero, Option.some.injEq] at hpr'
            subst hpr'; exact lt_of_lt_of_le e3 h
          | succ j' => exact e5 j' pr' (by omega) (by simpa using hpr')

theorem pairs_get_of {α : Type} {l : List α} {k : Nat} {a b : α} (ha : l[k]? = some a) (hb : l[k + 1]? = some b) :
    (pairs l)[k]? = some (a, b) := by
  unfold pairs
  rw [List.getElem?_zip_eq_some]
  exact ⟨ha, by simpa using hb⟩

theorem of_pairs_getElem? {α : Type} {l : List α} {k : Nat} {pr : α × α} (h : (pairs l)[k]? = some pr) :
    l[k]? = some pr.1 ∧ l[k + 1]? = some pr.2 := by
  unfold pairs at h
  rw [List.getElem?_zip_eq_some] at h
  exact ⟨h.1, by simpa using h.2⟩

/-- Points of the `k`-th segment and their arc length. -/
theorem atArc_index {vs : List (V3 ℝ)} {k : Nat} {a b : V3 ℝ} (ha : vs[k]? = some a) (hb : vs[k + 1]? = some b) {lam : ℝ}
    (h0 : 0 ≤ lam) (h1 : lam ≤ 1) :
    Spec.AtArc vs (((segLens vs).take k).sum + lam * Spec.dist3 a b) (Spec.segPoint3 a b lam) := by
  induction k generalizing vs with
  | zero =>
    match vs, ha, hb with
    | x :: y :: l, ha, hb =>
      simp only [List.getElem?_cons_zero, Option.some.injEq, zero_add, List.getElem?_cons_succ] at ha hb
      subst ha; subst hb
      simpa using Spec.AtArc.here x y l lam h0 h1
  | succ k ih =>
    match vs, ha, hb with
    | [x], ha, hb => simp at ha
    | x :: y :: l, ha, hb =>
      rw [List.getElem?_cons_succ] at ha hb
      rw [segLens_cons, List.take_succ_cons, List.sum_cons, add_assoc]
      exact Spec.AtArc.there x y l _ _ (ih ha hb)

theorem arc_last {vs : List (V3 ℝ)} {k : Nat} {a b : V3 ℝ} (ha : vs[k]? = some a) (hb : vs[k + 1]? = some b)
    (hn : k + 2 = vs.length) : ((segLens vs).take k).sum + Spec.dist3 a b = Spec.polyLength vs := by
  induction k generalizing vs with
  | zero =>
    match vs, ha, hb, hn with
    | [x, y], ha, hb, _ =>
      simp only [List.getElem?_cons_zero, Option.some.injEq, zero_add, List.getElem?_cons_succ] at ha hb
      subst ha; subst hb
      simp [Spec.polyLength]
  | succ k ih =>
    match vs, ha, hb, hn with
    | [x], ha, hb, _ => simp at ha
    | x :: y :: l, ha, hb, hn =>
      rw [List.getElem?_cons_succ] at ha hb
      rw [segLens_cons, List.take_succ_cons, List.sum_cons, add_assoc, ih ha hb (by simpa using hn)]
      rfl

theorem onPolyline_segment {vs : List (V3 ℝ)} {s : ℝ} {x : V3 ℝ} (h : Spec.AtArc vs s x) :
    ∃ pr ∈ pairs vs, ∃ lam, 0 ≤ lam ∧ lam ≤ 1 ∧ x = Spec.segPoint3 pr.1 pr.2 lam := by
  induction h with
  | here a b l lam h0 h1 => exact ⟨(a, b), by simp [pairs], lam, h0, h1, rfl⟩
  | there a b l s x _ ih =>
    obtain ⟨pr, h1, h2⟩ := ih
    exact ⟨pr, List.mem_cons_of_mem _ h1, h2⟩

/-- The distance to a segment is the distance to the clamped foot of the perpendicular. -/
theorem distance_foot (a b p : V3 ℝ) (hab : a ≠ b) :
    distanceToLineSegment a b p
      = Spec.dist3 p (Spec.segPoint3 a b (max 0 (min ((p - a).dot (b - a) / (b - a).dot (b - a)) 1))) := by
  have hN : 0 < (b - a).dot (b - a) := V3.dot_self_pos (fun h => hab (sub_eq_zero.1 h).symm)
  have hlag := V3.lagrange (p - a) (b - a)
  unfold distanceToLineSegment
  simp only [dist3_seg]
  split
  · rename_i h
    rw [min_eq_left (le_trans (div_nonpos_of_nonpos_of_nonneg h hN.le) zero_le_one),
      max_eq_left (div_nonpos_of_nonpos_of_nonneg h hN.le), V3.length_eq]
    congr 1; ring
  · split
    · rename_i h0 h
      have h : (b - a).dot (b - a) ≤ (p - a).dot (b - a) := h
      rw [min_eq_right ((one_le_div hN).2 h), max_eq_right zero_le_one, V3.length_eq]
      congr 1
      simp only [V3.dot, V3.sub_x, V3.sub_y, V3.sub_z]; ring
    · rename_i h0 h
      have hP : 0 < (p - a).dot (b - a) := not_le.1 h0
      have hPN : (p - a).dot (b - a) < (b - a).dot (b - a) := not_le.1 h
      rw [min_eq_left ((div_le_one hN).2 hPN.le), max_eq_right (div_nonneg hP.le hN.le), V3.length_eq, V3.length_eq,
        hlag, ← Real.sqrt_div' _ hN.le]
      congr 1
      field_simp
      ring

/-- Segment `k` (from `a` to `b`) is the first among the segments nearest to `p`. -/
structure Spec.FirstNearestSegment (vs : List (V3 ℝ)) (p : V3 ℝ) (k : Nat) (a b : V3 ℝ) : Prop where
  start : vs[k]? = some a
  stop : vs[k + 1]? = some b
  nearest : ∀ (j : Nat) (c d : V3 ℝ), vs[j]? = some c → vs[j + 1]? = some d →
    distanceToLineSegment a b p ≤ distanceToLineSegment c d p
  first : ∀ (j : Nat) (c d : V3 ℝ), j < k → vs[j]? = some c → vs[j + 1]? = some d →
    distanceToLineSegment a b p < distanceToLineSegment c d p

/-- **C25**, the part that holds: if the first nearest segment is not degenerate, and the foot of the perpendicular does
not fall before it unless it is the first segment, nor behind it unless it is the last, then `get_point(project(p))` is a
nearest point of the polyline.  What is missing for the full claim: a foot outside the chosen segment at an inner vertex. -/
theorem C25_nearest_partial {vs : List (V3 ℝ)} {p : V3 ℝ} {k : Nat} {a b : V3 ℝ}
    (h : Spec.FirstNearestSegment vs p k a b) (hab : a ≠ b) (hmax : distanceToLineSegment a b p < Env.maxV)
    (hlo : 0 ≤ (p - a).dot (b - a) ∨ k = 0) (hhi : (p - a).dot (b - a) ≤ (b - a).dot (b - a) ∨ k + 2 = vs.length) :
    ∃ c t x, Polyline.new vs = .ok c ∧ c.project p = .ok t ∧ c.getPoint t = .ok x ∧ Spec.OnPolyline vs x ∧
      ∀ y, Spec.OnPolyline vs y → Spec.dist3 p x ≤ Spec.dist3 p y := by
  have hk := h.start
  have hk1 := h.stop
  have hlen : k + 1 < vs.length := (List.getElem?_eq_some_iff.1 hk1).1
  have h2 : 2 ≤ vs.length := by omega
  have hd : 0 < Spec.dist3 a b := lt_of_le_of_ne (dist3_nonneg a b) (fun e => hab (eq_of_dist3 (le_of_eq e.symm)))
  -- the index found
  have hidx : (nearestSegment p (pairs vs) 0 (Env.maxV, 0)).2 = k := by
    rcases nearestSegment_spec p (pairs vs) 0 (Env.maxV, 0) with ⟨_, hall⟩ | ⟨j, pr, e1, e2, e3, e4, e5⟩
    · exact absurd (hall (a, b) (List.mem_of_getElem? (pairs_get_of hk hk1))) (not_le.2 hmax)
    · rw [e2, zero_add]
      obtain ⟨f1, f2⟩ := of_pairs_getElem? e1
      rcases lt_trichotomy j k with hlt | heq | hgt
      · have := h.first j pr.1 pr.2 hlt f1 f2
        exact absurd (e4 (a, b) (List.mem_of_getElem? (pairs_get_of hk hk1))) (not_le.2 this)
      · exact heq
      · have := e5 k (a, b) hgt (pairs_get_of hk hk1)
        exact absurd (h.nearest j pr.1 pr.2 f1 f2) (not_le.2 this)
  -- positive length
  have hA := atArc_index hk hk1 zero_le_one (le_refl _)
  have hS : 0 ≤ ((segLens vs).take k).sum := by
    have := (atArc_index hk hk1 (le_refl 0) zero_le_one).nonneg
    rwa [zero_mul, add_zero] at this
  have hL : 0 < Spec.polyLength vs := by
    have := hA.le
    rw [one_mul] at this; linarith
  -- abbreviations
  have hN : 0 < (b - a).dot (b - a) := V3.dot_self_pos (fun e => hab (sub_eq_zero.1 e).symm)
  have hdN : Spec.dist3 a b = (b - a).length := by rw [dist3_comm, dist3_eq]; rfl
  have hdd : Spec.dist3 a b * Spec.dist3 a b = (b - a).dot (b - a) := by rw [hdN, V3.length_mul_self]
  have hf : (p - a).dot (b - a).normalize = (p - a).dot (b - a) / (b - a).dot (b - a) * Spec.dist3 a b := by
    unfold V3.normalize
    rw [V3.rmul_eq, V3.dot_smul, ← hdN, ← hdd]
    field_simp
  obtain ⟨c, x, e1, e2, e3⟩ := C23_arc_length h2 hL ((((segLens vs).take k).sum
    + (p - a).dot (b - a) / (b - a).dot (b - a) * Spec.dist3 a b) / Spec.polyLength vs)
  have hc := polyline_new h2
  rw [hc] at e1
  cases e1
  have hproj : (⟨vs, segLens vs, Spec.polyLength vs⟩ : Polyline ℝ).project p
      = .ok (max 0 (min ((((segLens vs).take k).sum + (p - a).dot (b - a) / (b - a).dot (b - a) * Spec.dist3 a b)
        / Spec.polyLength vs) 1)) := by
    unfold Polyline.project
    simp only [hidx]
    rw [idx_of_getElem? hk, ok_bind, idx_of_getElem? hk1, ok_bind, sumF_eq, hf, clampF_ok zero_le_one]
  -- get_point clamps too
  obtain ⟨c', x', e1', e2', e3'⟩ := C23_arc_length h2 hL (max 0 (min ((((segLens vs).take k).sum
    + (p - a).dot (b - a) / (b - a).dot (b - a) * Spec.dist3 a b) / Spec.polyLength vs) 1))
  rw [hc] at e1'
  cases e1'
  refine ⟨_, _, x', hc, hproj, e2', ⟨_, e3'⟩, ?_⟩
  -- identify the point
  have hlam0 : 0 ≤ max 0 (min ((p - a).dot (b - a) / (b - a).dot (b - a)) 1) := le_max_left _ _
  have hlam1 : max 0 (min ((p - a).dot (b - a) / (b - a).dot (b - a)) 1) ≤ 1 := max_le zero_le_one (min_le_right _ _)
  have hq := atArc_index hk hk1 hlam0 hlam1
  have hx : x' = Spec.segPoint3 a b (max 0 (min ((p - a).dot (b - a) / (b - a).dot (b - a)) 1)) := by
    refine atArc_unique (l := vs) (s := ((segLens vs).take k).sum
      + max 0 (min ((p - a).dot (b - a) / (b - a).dot (b - a)) 1) * Spec.dist3 a b) ?_ hq
    convert e3' using 1
    generalize hr : (p - a).dot (b - a) / (b - a).dot (b - a) = r at *
    have hclamp : ∀ z : ℝ, max 0 (min (max 0 (min z 1)) 1) = max 0 (min z 1) := fun z => by
      rw [min_eq_left (max_le zero_le_one (min_le_right _ _)), max_eq_right (le_max_left _ _)]
    rw [hclamp]
    have hr0 : r < 0 → k = 0 := fun hneg => by
      rcases hlo with h | h
      · rw [← hr] at hneg
        exact absurd (div_nonneg h hN.le) (not_le.2 hneg)
      · exact h
    have hr1 : 1 < r → k + 2 = vs.length := fun hgt => by
      rcases hhi with h | h
      · rw [← hr] at hgt
        exact absurd ((div_le_one hN).2 h) (not_le.2 hgt)
      · exact h
    rcases lt_or_ge r 0 with hneg | hpos
    · have hk0 := hr0 hneg
      have e : ((segLens vs).take k).sum = 0 := by rw [hk0]; simp
      have : (((segLens vs).take k).sum + r * Spec.dist3 a b) / Spec.polyLength vs ≤ 0 := by
        rw [e, zero_add]
        exact div_nonpos_of_nonpos_of_nonneg (mul_nonpos_of_nonpos_of_nonneg hneg.le hd.le) hL.le
      rw [min_eq_left (le_trans this zero_le_one), max_eq_left this, min_eq_left (by linarith), max_eq_left hneg.le, e]
      ring
    · rcases le_or_gt r 1 with hle | hgt
      · have hin := (atArc_index hk hk1 hpos hle)
        have g0 := hin.nonneg
        have g1 := hin.le
        rw [min_eq_left hle, max_eq_right hpos, min_eq_left ((div_le_one hL).2 g1), max_eq_right (div_nonneg g0 hL.le),
          div_mul_cancel₀ _ (ne_of_gt hL)]
      · have hlast := arc_last hk hk1 (hr1 hgt)
        have : 1 ≤ (((segLens vs).take k).sum + r * Spec.dist3 a b) / Spec.polyLength vs := by
          rw [le_div_iff₀ hL, ← hlast]
          nlinarith
        rw [min_eq_right this, max_eq_right zero_le_one, min_eq_right hgt.le, max_eq_right zero_le_one, one_mul, one_mul,
          hlast]
  rintro y ⟨s, hy⟩
  obtain ⟨pr, m1, lam, l0, l1, rfl⟩ := onPolyline_segment hy
  obtain ⟨j, hj⟩ := List.mem_iff_getElem?.1 m1
  obtain ⟨f1, f2⟩ := of_pairs_getElem? hj
  rw [hx, ← distance_foot a b p hab]
  exact le_trans (h.nearest j pr.1 pr.2 f1 f2) ((C32_distance3 pr.1 pr.2 p).2 lam l0 l1)

/-- **C25** for two distinct vertices: no further condition. -/
theorem C25_segment_partial {a b p : V3 ℝ} (hab : a ≠ b) (hmax : distanceToLineSegment a b p < Env.maxV) :
    ∃ c t x, Polyline.new [a, b] = .ok c ∧ c.project p = .ok t ∧ c.getPoint t = .ok x ∧ Spec.OnPolyline [a, b] x ∧
      ∀ y, Spec.OnPolyline [a, b] y → Spec.dist3 p x ≤ Spec.dist3 p y := by
  apply C25_nearest_partial (k := 0) (a := a) (b := b) ⟨rfl, rfl, ?_, by omega⟩ hab hmax (Or.inr rfl) (Or.inr rfl)
  intro j c d h1 h2
  have hj : j = 0 := by
    have := (List.getElem?_eq_some_iff.1 h2).1
    simp at this
    omega
  subst hj
  cases h1; cases h2
  exact le_refl _

/-- **C25 is false of the code** (binary64): for `A=(0,0)`, `B=(1,0)`, `C=(1,-1)` and `p=(2,1)`, `project` returns 1, the
end point `C`, at squared distance 5 from `p`; the vertex `B` is at squared distance 2. -/
theorem C25_false_f64 : (do
    let c ← Polyline.new [(⟨0, 0, 0⟩ : V3 Float), ⟨1, 0, 0⟩, ⟨1, -1, 0⟩]
    let t ← c.project ⟨2, 1, 0⟩
    let x ← c.getPoint t
    pure (t, (x - (⟨2, 1, 0⟩ : V3 Float)).lengthSq, ((⟨1, 0, 0⟩ : V3 Float) - (⟨2, 1, 0⟩ : V3 Float)).lengthSq)) = .ok (1, 5, 2) := by
  decide +kernel

/-- **C25 is false of the code**, over the reals as well. -/
theorem C25_false : ¬ ∀ (vs : List (V3 ℝ)) (p : V3 ℝ) (c : Polyline ℝ) (t : ℝ) (x : V3 ℝ), Polyline.new vs = .ok c →
    c.project p = .ok t → c.getPoint t = .ok x → ∀ y ∈ vs, Spec.dist3 p x ≤ Spec.dist3 p y := by
  intro h
  have hd : ∀ a b : V3 ℝ, Spec.dist3 a b = Real.sqrt ((a.x - b.x) ^ 2 + (a.y - b.y) ^ 2 + (a.z - b.z) ^ 2) := fun _ _ => rfl
  have hL : Spec.polyLength [(⟨0, 0, 0⟩ : V3 ℝ), ⟨1, 0, 0⟩, ⟨1, -1, 0⟩] = 2 := by
    norm_num [Spec.polyLength, hd]
  have hd1 : distanceToLineSegment (⟨0, 0, 0⟩ : V3 ℝ) ⟨1, 0, 0⟩ ⟨2, 1, 0⟩ = Real.sqrt 2 := by
    rw [distance_foot _ _ _ (by simp)]
    norm_num [V3.dot, hd, Spec.segPoint3]
  have hd2 : distanceToLineSegment (⟨1, 0, 0⟩ : V3 ℝ) ⟨1, -1, 0⟩ ⟨2, 1, 0⟩ = Real.sqrt 2 := by
    rw [distance_foot _ _ _ (by simp)]
    norm_num [V3.dot, hd, Spec.segPoint3]
  have hs2 : Real.sqrt 2 < Env.maxV := by
    have : Real.sqrt 2 ≤ 2 := by rw [Real.sqrt_le_left (by norm_num)]; norm_num
    have h4 : (1 : ℝ) ≤ 2 ^ 971 := one_le_pow₀ (by norm_num)
    have h3 : (2 : ℝ) < Env.maxV := by
      change (2 : ℝ) < (2 ^ 53 - 1) * 2 ^ 971
      calc (2 : ℝ) < (2 ^ 53 - 1) * 1 := by norm_num
        _ ≤ _ := mul_le_mul_of_nonneg_left h4 (by norm_num)
    linarith
  have hidx : (nearestSegment (⟨2, 1, 0⟩ : V3 ℝ) (pairs [⟨0, 0, 0⟩, ⟨1, 0, 0⟩, ⟨1, -1, 0⟩]) 0 (Env.maxV, 0)).2 = 0 := by
    simp only [pairs, List.tail_cons, List.zip_cons_cons, List.zip_nil_right, nearestSegment, hd1, hd2, if_pos hs2,
      lt_irrefl, if_false]
  have hc := polyline_new (vs := [(⟨0, 0, 0⟩ : V3 ℝ), ⟨1, 0, 0⟩, ⟨1, -1, 0⟩]) (by simp)
  have hp : (⟨[(⟨0, 0, 0⟩ : V3 ℝ), ⟨1, 0, 0⟩, ⟨1, -1, 0⟩], segLens [(⟨0, 0, 0⟩ : V3 ℝ), ⟨1, 0, 0⟩, ⟨1, -1, 0⟩],
      Spec.polyLength [(⟨0, 0, 0⟩ : V3 ℝ), ⟨1, 0, 0⟩, ⟨1, -1, 0⟩]⟩ : Polyline ℝ).project ⟨2, 1, 0⟩ = .ok 1 := by
    unfold Polyline.project
    simp only [hidx]
    rw [idx_of_getElem? (a := ⟨0, 0, 0⟩) rfl, ok_bind, idx_of_getElem? (a := ⟨1, 0, 0⟩) rfl, ok_bind, sumF_eq,
      clampF_ok zero_le_one, hL]
    norm_num [V3.dot, V3.normalize, V3.length_eq, V3.rmul_eq]
  have hg : (⟨[(⟨0, 0, 0⟩ : V3 ℝ), ⟨1, 0, 0⟩, ⟨1, -1, 0⟩], segLens [(⟨0, 0, 0⟩ : V3 ℝ), ⟨1, 0, 0⟩, ⟨1, -1, 0⟩],
      Spec.polyLength [(⟨0, 0, 0⟩ : V3 ℝ), ⟨1, 0, 0⟩, ⟨1, -1, 0⟩]⟩ : Polyline ℝ).getPoint 1 = .ok ⟨1, -1, 0⟩ := by
    rw [C23_end _ (by norm_num) (le_refl _) (by simp)]
    rfl
  have := h _ _ _ _ _ hc hp hg ⟨1, 0, 0⟩ (by simp)
  rw [hd, hd, Real.sqrt_le_sqrt_iff (by norm_num)] at this
  norm_num at this

/-- **C31**: `nearest_vertex` is the smallest index of a vertex nearest to the point. -/
theorem C31_polyline {F : Type} [LinearOrder F] [Add F] [Sub F] [Mul F] [Div F] [Neg F] [Zero F] [One F] [NatCast F] [Env F]
    (c : Polyline F) (point : V3 F) (h : ∃ v ∈ c.vertices, (point - v).lengthSq < Env.maxV) :
    ∃ v, c.vertices[c.nearestVertex point]? = some v ∧
      (∀ w ∈ c.vertices, (point - v).lengthSq ≤ (point - w).lengthSq) ∧
      ∀ k w, k < c.nearestVertex point → c.vertices[k]? = some w → (point - v).lengthSq < (point - w).lengthSq :=
  C31_nearest c.vertices point h

example : (⟨[⟨0, 0, 0⟩, ⟨1, 0, 0⟩, ⟨5, 0, 0⟩], [1, 4], 5⟩ : Polyline ℚ).nearestVertex ⟨0, 1, 0⟩ = 0 ∧
    (⟨[⟨0, 0, 0⟩, ⟨1, 0, 0⟩, ⟨5, 0, 0⟩], [1, 4], 5⟩ : Polyline ℚ).nearestVertex ⟨4, 1, 0⟩ = 2 := by decide +kernel

end Geom3d
