import Verif.Props.FrontTiling
import Verif.Props.FrontPick
import Verif.Props.FrontTrim

/-!
# The advancing front keeps clear of its own nodes (C135)

No node of the front is ever on an edge of the front other than its own: the search for a node (`meshgen.rs:27-35`) ends
only when the triangle is free (C124).  Hence C122 holds for all loops that have this property at the beginning.
-/

namespace Geom3d
open Spec

set_option linter.unusedSectionVars false

section
variable {K : Type} [Field K] [LinearOrder K] [IsStrictOrderedRing K] [Env K]

/-! ### Leaving a triangle -/

theorem onSegment_of_areas {a b q z : V2 K} (h : 0 < triArea2 a b q) (h1 : 0 ≤ triArea2 b q z) (h2 : 0 ≤ triArea2 q a z)
    (h0 : triArea2 a b z = 0) : OnSegment a b z := by
  have hs : triArea2 b q z + triArea2 q a z = triArea2 a b q := by
    have : triArea2 b q z + triArea2 q a z + triArea2 a b z = triArea2 a b q := by unfold triArea2; ring
    linarith
  refine ⟨triArea2 q a z / triArea2 a b q, div_nonneg h2 h.le, (div_le_one h).2 (by linarith), ?_, ?_⟩
  · rw [div_mul_eq_mul_div, ← sub_eq_iff_eq_add', eq_div_iff h.ne']
    have h0' := h0
    unfold triArea2 at h0' ⊢
    linear_combination (q.x - a.x) * h0'
  · rw [div_mul_eq_mul_div, ← sub_eq_iff_eq_add', eq_div_iff h.ne']
    have h0' := h0
    unfold triArea2 at h0' ⊢
    linear_combination (q.y - a.y) * h0'

/-- A segment from the inside of a triangle to a point outside of it to the left of its base crosses one of the two
sides. -/
theorem leaves_triangle {a b q p d : V2 K} (h1 : 0 < triArea2 a b p) (h2 : 0 < triArea2 b q p) (h3 : 0 < triArea2 q a p)
    (hd : ¬ InTriangle a b q d) (hl : 0 < triArea2 a b d) :
    ∃ t : K, 0 ≤ t ∧ t ≤ 1 ∧ (OnSegment a q ⟨p.x + t * (d.x - p.x), p.y + t * (d.y - p.y)⟩ ∨
      OnSegment b q ⟨p.x + t * (d.x - p.x), p.y + t * (d.y - p.y)⟩) := by
  have hD : 0 < triArea2 a b q := by
    have : triArea2 b q p + triArea2 q a p + triArea2 a b p = triArea2 a b q := by unfold triArea2; ring
    linarith
  have hout : triArea2 b q d < 0 ∨ triArea2 q a d < 0 := by
    by_contra hn
    push Not at hn
    exact hd (inTriangle_of_areas hD (by rw [← Winding.tri_rot]; exact hl.le) (by rw [← Winding.tri_rot]; exact hn.1)
      (by rw [← Winding.tri_rot]; exact hn.2))
  have aff : ∀ (u v : V2 K) (t : K), triArea2 u v ⟨p.x + t * (d.x - p.x), p.y + t * (d.y - p.y)⟩
      = (1 - t) * triArea2 u v p + t * triArea2 u v d := fun u v t => tri_on_segment rfl rfl
  -- the side met first
  have key : ∀ {u v w : V2 K}, 0 < triArea2 u v p → triArea2 u v d < 0 → 0 < triArea2 v w p → 0 < triArea2 w u p →
      0 < triArea2 u v w →
      (triArea2 v w d < 0 → triArea2 u v p / (triArea2 u v p - triArea2 u v d) ≤ triArea2 v w p / (triArea2 v w p - triArea2 v w d)) →
      (triArea2 w u d < 0 → triArea2 u v p / (triArea2 u v p - triArea2 u v d) ≤ triArea2 w u p / (triArea2 w u p - triArea2 w u d)) →
      ∃ t : K, 0 ≤ t ∧ t ≤ 1 ∧ OnSegment u v ⟨p.x + t * (d.x - p.x), p.y + t * (d.y - p.y)⟩ := by
    intro u v w g1 g2 g3 g4 gD m1 m2
    have hpos : 0 < triArea2 u v p - triArea2 u v d := by linarith
    set t := triArea2 u v p / (triArea2 u v p - triArea2 u v d) with ht
    have t0 : 0 ≤ t := (div_pos g1 hpos).le
    have t1 : t ≤ 1 := (div_le_one hpos).2 (by linarith)
    have nn : ∀ {x y : K}, 0 < x → (y < 0 → t ≤ x / (x - y)) → 0 ≤ (1 - t) * x + t * y := by
      intro x y hx hy
      rcases lt_or_ge y 0 with h | h
      · have := hy h
        rw [le_div_iff₀ (by linarith)] at this
        nlinarith
      · have := mul_nonneg (sub_nonneg.2 t1) hx.le
        have := mul_nonneg t0 h
        linarith
    refine ⟨t, t0, t1, onSegment_of_areas gD ?_ ?_ ?_⟩
    · rw [aff]; exact nn g3 m1
    · rw [aff]; exact nn g4 m2
    · rw [aff, ht]; field_simp; ring
  by_cases hb : triArea2 b q d < 0
  · by_cases hq : triArea2 q a d < 0
    · rcases le_total (triArea2 b q p / (triArea2 b q p - triArea2 b q d))
        (triArea2 q a p / (triArea2 q a p - triArea2 q a d)) with hle | hle
      · obtain ⟨t, t0, t1, ht⟩ := key h2 hb h3 h1 (by rwa [Winding.tri_rot]) (fun _ => hle) (fun h => absurd h (not_lt.2 hl.le))
        exact ⟨t, t0, t1, .inr ht⟩
      · obtain ⟨t, t0, t1, ht⟩ := key h3 hq h1 h2 (by rwa [Winding.tri_rot']) (fun h => absurd h (not_lt.2 hl.le)) (fun _ => hle)
        exact ⟨t, t0, t1, .inl (onSegment_symm ht)⟩
    · obtain ⟨t, t0, t1, ht⟩ := key h2 hb h3 h1 (by rwa [Winding.tri_rot]) (fun h => absurd h hq) (fun h => absurd h (not_lt.2 hl.le))
      exact ⟨t, t0, t1, .inr ht⟩
  · have hq := hout.resolve_left hb
    obtain ⟨t, t0, t1, ht⟩ := key h3 hq h1 h2 (by rwa [Winding.tri_rot']) (fun h => absurd h (not_lt.2 hl.le)) (fun h => absurd h hb)
    exact ⟨t, t0, t1, .inl (onSegment_symm ht)⟩

/-- A point strictly inside a triangle is on no segment that neither ends inside, except at a corner of the base, nor meets
a side, except at a common corner. -/
theorem inside_off {a b q p c d : V2 K} (h1 : 0 < triArea2 a b p) (h2 : 0 < triArea2 b q p) (h3 : 0 < triArea2 q a p)
    (hc : c ≠ a → c ≠ b → ¬ InTriangle a b q c) (hd : d ≠ a → d ≠ b → ¬ InTriangle a b q d)
    (ha : c ≠ a → d ≠ a → ∀ z, OnSegment c d z → ¬ OnSegment a q z)
    (hb : c ≠ b → d ≠ b → ∀ z, OnSegment c d z → ¬ OnSegment b q z) : ¬ OnSegment c d p := by
  have main : ∀ {c d : V2 K}, (d ≠ a → d ≠ b → ¬ InTriangle a b q d) →
      (c ≠ a → d ≠ a → ∀ z, OnSegment c d z → ¬ OnSegment a q z) →
      (c ≠ b → d ≠ b → ∀ z, OnSegment c d z → ¬ OnSegment b q z) → 0 < triArea2 a b d → ¬ OnSegment c d p := by
    intro c d hd ha hb hl hp
    have da : d ≠ a := by rintro rfl; simp [triArea2] at hl
    have db : d ≠ b := by
      rintro rfl
      rw [show triArea2 a d d = 0 by unfold triArea2; ring] at hl
      exact lt_irrefl _ hl
    obtain ⟨t, t0, t1, ht⟩ := leaves_triangle h1 h2 h3 (hd da db) hl
    set z : V2 K := ⟨p.x + t * (d.x - p.x), p.y + t * (d.y - p.y)⟩ with hz
    obtain ⟨s, s0, s1, sx, sy⟩ := hp
    have hon : OnSegment c d z := by
      refine ⟨s + t * (1 - s), add_nonneg s0 (mul_nonneg t0 (by linarith)), by nlinarith, ?_, ?_⟩
      · show p.x + t * (d.x - p.x) = _
        rw [sx]; ring
      · show p.y + t * (d.y - p.y) = _
        rw [sy]; ring
    have beyond : ∀ u v : V2 K, triArea2 u v c = 0 → 0 < triArea2 u v p → 0 < triArea2 u v z := by
      intro u v g0 gp
      have e1 : triArea2 u v p = (1 - s) * triArea2 u v c + s * triArea2 u v d := tri_on_segment sx sy
      have e2 : triArea2 u v z = (1 - t) * triArea2 u v p + t * triArea2 u v d := tri_on_segment rfl rfl
      rw [g0, mul_zero, zero_add] at e1
      have hsd : 0 < triArea2 u v d := by
        by_contra hn
        have := mul_nonneg s0 (neg_nonneg.2 (not_lt.1 hn))
        linarith
      rw [e2]
      rcases t1.lt_or_eq with h | h
      · have := mul_pos (sub_pos.2 h) gp
        have := mul_nonneg t0 hsd.le
        linarith
      · rw [h]; linarith
    have onZero : ∀ {u v w : V2 K}, OnSegment u v w → triArea2 u v w = 0 := by
      rintro u v w ⟨r, -, -, rx, ry⟩
      unfold triArea2; rw [rx, ry]; ring
    rcases ht with ht | ht
    · by_cases hca : c = a
      · have := beyond q a (by rw [hca]; unfold triArea2; ring) h3
        rw [onZero (onSegment_symm ht)] at this
        exact lt_irrefl _ this
      · exact ha hca da z hon ht
    · by_cases hcb : c = b
      · have := beyond b q (by rw [hcb]; unfold triArea2; ring) h2
        rw [onZero ht] at this
        exact lt_irrefl _ this
      · exact hb hcb db z hon ht
  intro hp
  obtain ⟨s, s0, s1, sx, sy⟩ := id hp
  have e1 : triArea2 a b p = (1 - s) * triArea2 a b c + s * triArea2 a b d := tri_on_segment sx sy
  by_cases hl : 0 < triArea2 a b d
  · exact main hd ha hb hl hp
  · have : 0 < triArea2 a b c := by
      by_contra hn
      have g1 := mul_nonneg s0 (neg_nonneg.2 (not_lt.1 hl))
      have g2 := mul_nonneg (sub_nonneg.2 s1) (neg_nonneg.2 (not_lt.1 hn))
      linarith
    exact main hc (fun g1 g2 z hz => ha g2 g1 z (onSegment_symm hz)) (fun g1 g2 z hz => hb g2 g1 z (onSegment_symm hz)) this
      (onSegment_symm hp)

theorem inTriangle_of_side {a b q z : V2 K} (h : OnSegment a q z) : InTriangle a b q z := by
  obtain ⟨t, t0, t1, tx, ty⟩ := h
  exact ⟨1 - t, 0, t, by linarith, le_refl _, t0, by ring, by rw [tx]; ring, by rw [ty]; ring⟩

theorem inTriangle_of_side' {a b q z : V2 K} (h : OnSegment b q z) : InTriangle a b q z := by
  obtain ⟨t, t0, t1, tx, ty⟩ := h
  exact ⟨0, 1 - t, t, le_refl _, by linarith, t0, by ring, by rw [tx]; ring, by rw [ty]; ring⟩

theorem inTriangle_convex {a b q y z p : V2 K} (hy : InTriangle a b q y) (hz : InTriangle a b q z) (hp : OnSegment y z p) :
    InTriangle a b q p := by
  obtain ⟨t, t0, t1, tx, ty⟩ := hp
  obtain ⟨u, v, w, hu, hv, hw, hs, hx, hy⟩ := hy
  obtain ⟨u', v', w', hu', hv', hw', hs', hx', hy'⟩ := hz
  have t1' := sub_nonneg.2 t1
  refine ⟨(1 - t) * u + t * u', (1 - t) * v + t * v', (1 - t) * w + t * w', by positivity, by positivity, by positivity,
    by linear_combination (1 - t) * hs + t * hs', by rw [tx, hx, hx']; ring, by rw [ty, hy, hy']; ring⟩

/-- The new vertex is strictly inside the trial triangle. -/
theorem bisector_inside (hE : FrontEnv K) (hh : (Env.halfSqrt3 : K) < 1) {a b : V2 K} (hab : a ≠ b) :
    0 < triArea2 a b (pointOnNormalBisector a b Env.halfSqrt3) ∧
    0 < triArea2 b (pointOnNormalBisector a b 1) (pointOnNormalBisector a b Env.halfSqrt3) ∧
    0 < triArea2 (pointOnNormalBisector a b 1) a (pointOnNormalBisector a b Env.halfSqrt3) := by
  have hq : 0 < triArea2 a b (pointOnNormalBisector a b 1) := by
    obtain ⟨r, hr, e⟩ := bisector_area hE hab (1 : K)
    rw [e, mul_one]
    exact mul_pos (by linarith) (distSq_pos hab)
  set q := pointOnNormalBisector a b 1 with hqd
  set p := pointOnNormalBisector a b Env.halfSqrt3 with hpd
  have hx : p.x = (1 - Env.halfSqrt3) * ((a.x + b.x) / 2) + Env.halfSqrt3 * q.x := by
    rw [hpd, hqd]
    unfold pointOnNormalBisector
    simp only [V2.add_x, V2.rmul_x, V2.div_x, Nat.cast_ofNat]
    ring
  have hy : p.y = (1 - Env.halfSqrt3) * ((a.y + b.y) / 2) + Env.halfSqrt3 * q.y := by
    rw [hpd, hqd]
    unfold pointOnNormalBisector
    simp only [V2.add_y, V2.rmul_y, V2.div_y, Nat.cast_ofNat]
    ring
  have h0 := hE.half
  refine ⟨?_, ?_, ?_⟩
  · have : triArea2 a b p = Env.halfSqrt3 * triArea2 a b q := by unfold triArea2; rw [hx, hy]; ring
    rw [this]; exact mul_pos h0 hq
  · have : triArea2 b q p = (1 - Env.halfSqrt3) / 2 * triArea2 a b q := by unfold triArea2; rw [hx, hy]; ring
    rw [this]; exact mul_pos (by linarith) hq
  · have : triArea2 q a p = (1 - Env.halfSqrt3) / 2 * triArea2 a b q := by unfold triArea2; rw [hx, hy]; ring
    rw [this]; exact mul_pos (by linarith) hq

/-! ### The search for a node -/

/-- Vertices that are clear of the tolerance: three of them are on a line or span twice the tolerance, and different ones are
the square root of the tolerance apart. -/
structure Spec.Clear (V : List (V2 K)) : Prop where
  clear : ∀ i j k, i < V.length → j < V.length → k < V.length →
    triArea2 (V.getD i 0) (V.getD j 0) (V.getD k 0) = 0 ∨ Env.tol < |triArea2 (V.getD i 0) (V.getD j 0) (V.getD k 0)|
  apart : ∀ i j, i < V.length → j < V.length → i ≠ j →
    Env.tol < ((V.getD i 0).x - (V.getD j 0).x) ^ 2 + ((V.getD i 0).y - (V.getD j 0).y) ^ 2

theorem Spec.Clear.ne {V : List (V2 K)} (hE : FrontEnv K) (hc : Clear V) {i j : Nat}
    (hi : i < V.length) (hj : j < V.length) (hij : i ≠ j) : V.getD i 0 ≠ V.getD j 0 := by
  intro h
  have := hc.apart i j hi hj hij
  rw [h] at this
  have h0 := hE.tol
  simp only [sub_self] at this
  norm_num at this
  linarith

/-- No start of an edge is on another edge. -/
def Spec.NodesOff (V : List (V2 K)) (E : List (Nat × Nat)) : Prop :=
  ∀ e ∈ E, ∀ f ∈ E, f.1 ≠ e.1 → f.1 ≠ e.2 → ¬ OnSegment (V.getD e.1 0) (V.getD e.2 0) (V.getD f.1 0)

/-- The selected node is strictly to the left of the edge. -/
theorem selectNode_left (hE : FrontEnv K) {pick : List (Nat × K) → Option Nat} (hp : PickOk pick) {V : List (V2 K)}
    (hc : Clear V) {edge : Nat × Nat} (hedge : edge.1 ≠ edge.2)
    {front : List (Nat × Nat)} {vertices : List (V2 K)} (hV : vertices <+: V)
    (off1 : ∀ e ∈ front, e.1 ≠ edge.1 → e.1 ≠ edge.2 → ¬ OnSegment (V.getD edge.1 0) (V.getD edge.2 0) (V.getD e.1 0))
    (off2 : ∀ e ∈ front, e.1 ≠ edge.1 → e.2 ≠ edge.1 → ¬ OnSegment (V.getD e.1 0) (V.getD e.2 0) (V.getD edge.1 0))
    (off3 : ∀ e ∈ front, e.1 ≠ edge.2 → e.2 ≠ edge.2 → ¬ OnSegment (V.getD e.1 0) (V.getD e.2 0) (V.getD edge.2 0))
    (fuel : Nat) {selected : Option Nat} {n : Nat}
    (h0 : ∀ m, selected = some m → m < vertices.length ∧
      0 < triArea2 (V.getD edge.1 0) (V.getD edge.2 0) (V.getD m 0) ∧ ∃ e ∈ front, m = e.1 ∨ m = e.2)
    (h : selectNode pick edge.1 edge.2 front vertices fuel selected = .ok (some n)) :
    n < vertices.length ∧ 0 < triArea2 (V.getD edge.1 0) (V.getD edge.2 0) (V.getD n 0) ∧ ∃ e ∈ front, n = e.1 ∨ n = e.2 := by
  induction fuel generalizing selected with
  | zero => cases h
  | succ fuel ih =>
    unfold selectNode at h
    rw [bind_eq_ok] at h
    obtain ⟨o, ho, h⟩ := h
    cases o with
    | none =>
      simp only [pure_eq_ok, Except.ok.injEq] at h
      exact h0 n h
    | some node =>
      refine ih ?_ h
      rintro m ⟨⟩
      obtain ⟨a, b, q, ha, hb, hq, e, he, f, hf⟩ := findIntersection_candidate hp ho
      obtain ⟨ga, la⟩ := getD_of_prefix hV ha
      obtain ⟨gb, lb⟩ := getD_of_prefix hV hb
      have hab : a ≠ b := by rw [← ga, ← gb]; exact hc.ne hE la lb hedge
      have hq' : 0 < triArea2 a b q ∧ ∀ k, k < V.length → k ≠ edge.1 → k ≠ edge.2 →
          triArea2 a b (V.getD k 0) = 0 →
          (triArea2 (V.getD k 0) b q < 0 → triArea2 (V.getD k 0) b q < -Env.tol) ∧
          (triArea2 (V.getD k 0) q a < 0 → triArea2 (V.getD k 0) q a < -Env.tol) := by
        cases selected with
        | none =>
          simp only [pure_eq_ok, Except.ok.injEq] at hq
          subst hq
          constructor
          · obtain ⟨r, hr, e⟩ := bisector_area hE hab (1 : K)
            rw [e, mul_one]
            exact mul_pos (by linarith) (distSq_pos hab)
          · intro k hk k1 k2 hk0
            refine trial_far hE hab ?_ ?_ ?_ hk0
            · have := hc.apart _ _ lb la hedge.symm; rwa [ga, gb] at this
            · have := hc.apart _ _ hk la k1; rwa [ga] at this
            · have := hc.apart _ _ hk lb k2; rwa [gb] at this
        | some m =>
          obtain ⟨gq, lq⟩ := getD_of_prefix hV hq
          have := (h0 m rfl).2.1
          rw [ga, gb, gq] at this
          refine ⟨this, fun k hk _ _ _ => ⟨fun hn => ?_, fun hn => ?_⟩⟩
          · have := hc.clear k edge.2 m hk lb lq
            rw [gb, gq] at this
            rcases this with h | h
            · linarith
            · rw [abs_of_neg hn] at h; linarith
          · have := hc.clear k m edge.1 hk lq la
            rw [ga, gq] at this
            rcases this with h | h
            · linarith
            · rw [abs_of_neg hn] at h; linarith
      obtain ⟨v, hv, hpos⟩ := candidate_pos ha hb hq'.1 (e := e)
        (by
          intro v e1 e2 hv hin
          obtain ⟨gv, lv⟩ := getD_of_prefix hV hv
          refine inner_pos hE.tol hab hq'.1 ?_ ?_ ?_ ?_ hin
          · have := hc.clear edge.1 edge.2 e.1 la lb lv
            rwa [ga, gb, gv] at this
          · have := off1 e he e1 e2
            rwa [ga, gb, gv] at this
          · have := fun h => (hq'.2 e.1 lv e1 e2 h).1
            rwa [gv] at this
          · have := fun h => (hq'.2 e.1 lv e1 e2 h).2
            rwa [gv] at this)
        (by
          intro e1 e2 c d hc' hd
          obtain ⟨gc, lc⟩ := getD_of_prefix hV hc'
          obtain ⟨gd, ld⟩ := getD_of_prefix hV hd
          have := off2 e he e1 e2
          rwa [gc, gd, ga] at this)
        (by
          intro e1 e2 c d hc' hd
          obtain ⟨gc, lc⟩ := getD_of_prefix hV hc'
          obtain ⟨gd, ld⟩ := getD_of_prefix hV hd
          have := off3 e he e1 e2
          rwa [gc, gd, gb] at this) hf
      obtain ⟨gv, lv⟩ := getD_of_prefix hV hv
      rw [ga, gb, gv]
      exact ⟨idx_lt hv, hpos, e, he, (frontCandidate_valid hf).2⟩

/-! ### The invariant of the front -/

/-- As many edges start at each node as end there. -/
def Balanced (E : List (Nat × Nat)) : Prop :=
  ∀ k : Nat, (E.map fun e => (if e.1 = k then (1 : ℤ) else 0) - if e.2 = k then 1 else 0).sum = 0

theorem Balanced.start {E : List (Nat × Nat)} (h : Balanced E) {e : Nat × Nat} (he : e ∈ E) : ∃ f ∈ E, f.1 = e.2 := by
  by_contra hn
  push Not at hn
  have h0 := h e.2
  have : ∀ L : List (Nat × Nat), (∀ f ∈ L, f.1 ≠ e.2) →
      (L.map fun f => (if f.1 = e.2 then (1 : ℤ) else 0) - if f.2 = e.2 then 1 else 0).sum ≤ 0 ∧
      (e ∈ L → (L.map fun f => (if f.1 = e.2 then (1 : ℤ) else 0) - if f.2 = e.2 then 1 else 0).sum < 0) := by
    intro L
    induction L with
    | nil => intro _; simp
    | cons f L ih =>
      intro hL
      obtain ⟨i1, i2⟩ := ih fun g hg => hL g (List.mem_cons_of_mem _ hg)
      have hf := hL f (by simp)
      rw [List.map_cons, List.sum_cons, if_neg hf]
      constructor
      · split <;> linarith
      · intro hm
        rcases List.mem_cons.1 hm with rfl | hm
        · rw [if_pos rfl]; linarith
        · have := i2 hm
          split <;> linarith
  have := (this E hn).2 he
  linarith

theorem Balanced.step {f : List (Nat × Nat)} {e : Nat × Nat} (h : Balanced (f ++ [e])) (n : Nat) :
    Balanced (frontAdd (frontAdd f e.1 n) n e.2) ∧ Balanced ((n, e.2) :: (e.1, n) :: f) := by
  have hs : ∀ k u v : Nat, ((if u = k then (1 : ℤ) else 0) - if v = k then 1 else 0)
      = -((if v = k then (1 : ℤ) else 0) - if u = k then 1 else 0) := fun k u v => by ring
  constructor <;> intro k <;> have := h k
  · rw [sum_frontAdd (fun u v => (if u = k then (1 : ℤ) else 0) - if v = k then 1 else 0) (hs k),
      sum_frontAdd (fun u v => (if u = k then (1 : ℤ) else 0) - if v = k then 1 else 0) (hs k)]
    simp only [List.map_append, List.sum_append, List.map_cons, List.map_nil, List.sum_cons, List.sum_nil] at this
    linarith
  · simp only [List.map_append, List.sum_append, List.map_cons, List.map_nil, List.sum_cons, List.sum_nil] at this ⊢
    linarith

/-- What holds after each step. -/
structure FrontClear (V : List (V2 K)) (s : FrontState K) : Prop where
  three : ∃ k, s.triangles.length = 3 * k
  ne : ∀ e ∈ s.front, e.1 ≠ e.2
  bal : Balanced s.front
  off : NodesOff V s.front
  pos : ∀ t ∈ triples s.triangles, 0 < triArea2 (V.getD t.1 0) (V.getD t.2.1 0) (V.getD t.2.2 0)

/-- Adding a triangle to the left of the last edge that no other node is in, and whose apex is on no edge. -/
theorem frontClear_add {V : List (V2 K)} {front : List (Nat × Nat)} {edge : Nat × Nat} {vs : List (V2 K)} {T : List Nat}
    (hI : FrontClear V ⟨front ++ [edge], vs, T⟩) {n : Nat}
    (hn : 0 < triArea2 (V.getD edge.1 0) (V.getD edge.2 0) (V.getD n 0))
    (hin : ∀ e ∈ front, e.1 ≠ edge.1 → e.1 ≠ edge.2 → e.1 ≠ n →
      ¬ InTriangle (V.getD edge.1 0) (V.getD edge.2 0) (V.getD n 0) (V.getD e.1 0))
    (hoff : ∀ e ∈ front, n ≠ e.1 → n ≠ e.2 → ¬ OnSegment (V.getD e.1 0) (V.getD e.2 0) (V.getD n 0))
    {front' : List (Nat × Nat)} (hf : ∀ e ∈ front', e ∈ front ∨ e = (edge.1, n) ∨ e = (n, edge.2)) (hb : Balanced front')
    (vs' : List (V2 K)) : FrontClear V ⟨front', vs', T ++ [edge.1, edge.2, n]⟩ := by
  obtain ⟨k, hk⟩ := hI.three
  have n1 : n ≠ edge.1 := by
    rintro rfl
    rw [show triArea2 (V.getD edge.1 0) (V.getD edge.2 0) (V.getD edge.1 0) = 0 by unfold triArea2; ring] at hn
    exact lt_irrefl _ hn
  have n2 : n ≠ edge.2 := by
    rintro rfl
    rw [show triArea2 (V.getD edge.1 0) (V.getD edge.2 0) (V.getD edge.2 0) = 0 by unfold triArea2; ring] at hn
    exact lt_irrefl _ hn
  have hmem : edge ∈ front ++ [edge] := by simp
  have hE2 : ∀ e ∈ front, e ∈ front ++ [edge] := fun e he => by simp [he]
  have hba : ¬ OnSegment (V.getD edge.1 0) (V.getD n 0) (V.getD edge.2 0) := by
    rintro ⟨t, t0, t1, tx, ty⟩
    have : triArea2 (V.getD edge.1 0) (V.getD edge.2 0) (V.getD n 0) = 0 := by unfold triArea2; rw [tx, ty]; ring
    exact hn.ne' this
  have hab : ¬ OnSegment (V.getD n 0) (V.getD edge.2 0) (V.getD edge.1 0) := by
    rintro ⟨t, t0, t1, tx, ty⟩
    have : triArea2 (V.getD edge.1 0) (V.getD edge.2 0) (V.getD n 0) = 0 := by unfold triArea2; rw [tx, ty]; ring
    exact hn.ne' this
  refine ⟨⟨k + 1, by simp only [List.length_append] at *; simp; omega⟩, ?_, hb, ?_, ?_⟩
  · intro e he
    rcases hf e he with he | rfl | rfl
    · exact hI.ne e (hE2 e he)
    · exact n1.symm
    · exact n2
  · intro e he f hf' h1 h2
    rcases hf e he with he | rfl | rfl
    · rcases hf f hf' with hf' | rfl | rfl
      · exact hI.off e (hE2 e he) f (hE2 f hf') h1 h2
      · exact hI.off e (hE2 e he) edge hmem h1 h2
      · exact hoff e he h1 h2
    · by_cases hb2 : f.1 = edge.2
      · rw [hb2]; exact hba
      · have hff : f ∈ front := by
          rcases hf f hf' with hf' | rfl | rfl
          · exact hf'
          · exact absurd rfl h1
          · exact absurd rfl h2
        exact fun hs => hin f hff h1 hb2 h2 (inTriangle_of_side hs)
    · by_cases hb2 : f.1 = edge.1
      · rw [hb2]; exact hab
      · have hff : f ∈ front := by
          rcases hf f hf' with hf' | rfl | rfl
          · exact hf'
          · exact absurd rfl hb2
          · exact absurd rfl h1
        exact fun hs => hin f hff hb2 h2 h1 (inTriangle_of_side' (onSegment_symm hs))
  · intro t ht
    simp only at ht
    rw [triples_append hk] at ht
    rcases List.mem_append.1 ht with ht | ht
    · exact hI.pos t ht
    · simp only [triples, List.mem_singleton] at ht
      subst ht; exact hn

theorem frontStep_clear (hE : FrontEnv K) (hh : (Env.halfSqrt3 : K) < 1) {pick : List (Nat × K) → Option Nat} (hp : PickOk pick)
    {fuel : Nat} {V : List (V2 K)} (hc : Clear V) {s s' : FrontState K} {edge : Nat × Nat}
    (h : frontStep pick fuel s edge = .ok s') (hV : s'.vertices <+: V)
    (hI : FrontClear V ⟨s.front ++ [edge], s.vertices, s.triangles⟩) : FrontClear V s' := by
  have hpre := frontStep_prefix h
  have hVs := hpre.1.trans hV
  unfold frontStep at h
  simp only [bind_eq_ok] at h
  obtain ⟨a, ha, b, hb, o, ho, h⟩ := h
  obtain ⟨ga, la⟩ := getD_of_prefix hVs ha
  obtain ⟨gb, lb⟩ := getD_of_prefix hVs hb
  have hmem : edge ∈ s.front ++ [edge] := by simp
  have hE2 : ∀ e ∈ s.front, e ∈ s.front ++ [edge] := fun e he => by simp [he]
  have hedge : edge.1 ≠ edge.2 := hI.ne edge hmem
  -- every node is the start of an edge
  have starts : ∀ e ∈ s.front ++ [edge], ∀ n, n = e.1 ∨ n = e.2 → ∃ f ∈ s.front ++ [edge], f.1 = n := by
    rintro e he n (rfl | rfl)
    · exact ⟨e, he, rfl⟩
    · exact hI.bal.start he
  have offNode : ∀ e ∈ s.front ++ [edge], ∀ g ∈ s.front ++ [edge], ∀ n, n = g.1 ∨ n = g.2 → n ≠ e.1 → n ≠ e.2 →
      ¬ OnSegment (V.getD e.1 0) (V.getD e.2 0) (V.getD n 0) := by
    intro e he g hg n hn h1 h2
    obtain ⟨f, hf, rfl⟩ := starts g hg n hn
    exact hI.off e he f hf h1 h2
  obtain ⟨a', b', q, ha', hb', hq, free⟩ := C124_free hp ho
  rw [ha] at ha'; rw [hb] at hb'
  cases ha'; cases hb'
  have hab : a ≠ b := by rw [← ga, ← gb]; exact hc.ne hE la lb hedge
  cases o with
  | some n =>
    cases h
    obtain ⟨-, hn, e0, he0, hn0⟩ := selectNode_left hE hp hc hedge hVs
      (fun e he h1 h2 => offNode edge hmem e (hE2 e he) e.1 (.inl rfl) h1 h2)
      (fun e he h1 h2 => offNode e (hE2 e he) edge hmem edge.1 (.inl rfl) h1.symm h2.symm)
      (fun e he h1 h2 => offNode e (hE2 e he) edge hmem edge.2 (.inr rfl) h1.symm h2.symm) fuel (selected := none) (by simp) ho
    obtain ⟨gq, lq⟩ := getD_of_prefix hVs hq
    refine frontClear_add hI hn (fun e he h1 h2 h3 => ?_) (fun e he h1 h2 => ?_) (fun e he => ?_) (hI.bal.step n).1 _
    · rw [ga, gb, gq] at hn
      obtain ⟨v, hv, hv'⟩ := (free e he (by simpa using h3.symm)).1 hn.le h1 h2
      obtain ⟨gv, -⟩ := getD_of_prefix hVs hv
      rwa [ga, gb, gq, gv]
    · exact offNode e (hE2 e he) e0 (hE2 e0 he0) n hn0 h1 h2
    · rcases mem_frontAdd he with he | he
      · rcases mem_frontAdd he with he | he
        · exact .inl he
        · exact .inr (.inl he)
      · exact .inr (.inr he)
  | none =>
    cases h
    simp only [Spec.apex, Except.ok.injEq] at hq
    have gp : V.getD s.vertices.length 0 = pointOnNormalBisector a b Env.halfSqrt3 := by
      obtain ⟨t, rfl⟩ := hV
      rw [List.getD_eq_getElem?_getD, List.getElem?_append_left (by simp), List.getElem?_concat_length]; rfl
    obtain ⟨i1, i2, i3⟩ := bisector_inside hE hh hab
    rw [hq] at i2 i3
    have hD : 0 < triArea2 a b q := by
      have : triArea2 b q (pointOnNormalBisector a b Env.halfSqrt3) + triArea2 q a (pointOnNormalBisector a b Env.halfSqrt3)
        + triArea2 a b (pointOnNormalBisector a b Env.halfSqrt3) = triArea2 a b q := by unfold triArea2; ring
      linarith
    have nodeOut : ∀ e ∈ s.front, ∀ n, n = e.1 ∨ n = e.2 → n ≠ edge.1 → n ≠ edge.2 →
        ¬ InTriangle a b q (V.getD n 0) := by
      intro e he n hn h1 h2
      obtain ⟨f, hf, rfl⟩ := starts e (hE2 e he) n hn
      have hf' : f ∈ s.front := by
        rcases List.mem_append.1 hf with hf | hf
        · exact hf
        · rw [List.mem_singleton] at hf
          exact absurd (by rw [hf]) h1
      obtain ⟨v, hv, hv'⟩ := (free f hf' (by simp)).1 hD.le h1 h2
      obtain ⟨gv, -⟩ := getD_of_prefix hVs hv
      rwa [gv]
    refine frontClear_add hI (by rw [ga, gb, gp]; exact i1) (fun e he h1 h2 h3 hin => ?_) (fun e he h1 h2 => ?_)
      (fun e he => by simp only [List.mem_cons] at he; tauto) (hI.bal.step _).2 _
    · refine nodeOut e he e.1 (.inl rfl) h1 h2 ?_
      rw [ga, gb, gp] at hin
      have hpin : InTriangle a b q (pointOnNormalBisector a b Env.halfSqrt3) :=
        inTriangle_of_areas hD (by rw [← Winding.tri_rot]; exact i1.le) (by rw [← Winding.tri_rot]; exact i2.le)
          (by rw [← Winding.tri_rot]; exact i3.le)
      obtain ⟨u, v, w, hu, hv, hw, hs, hx, hy⟩ := hin
      obtain ⟨u', v', w', hu', hv', hw', hs', hx', hy'⟩ := hpin
      exact ⟨u + w * u', v + w * v', w * w', by positivity, by positivity, by positivity,
        by linear_combination hs + w * hs', by rw [hx, hx']; ring, by rw [hy, hy']; ring⟩
    · rw [gp]
      obtain ⟨c, d, hc', hd', f1, f2⟩ := (free e he (by simp)).2 (by simp)
      obtain ⟨gc, lc⟩ := getD_of_prefix hVs hc'
      obtain ⟨gd, ld⟩ := getD_of_prefix hVs hd'
      rw [gc, gd]
      have ne : ∀ {i j : Nat} {x y : V2 K}, V.getD i 0 = x → V.getD j 0 = y → x ≠ y → i ≠ j := by
        rintro i j x y rfl rfl hxy rfl
        exact hxy rfl
      refine inside_off i1 i2 i3 (fun g1 g2 => ?_) (fun g1 g2 => ?_) (fun g1 g2 => ?_) (fun g1 g2 => ?_)
      · have := nodeOut e he e.1 (.inl rfl) (ne gc ga g1) (ne gc gb g2)
        rwa [gc] at this
      · have := nodeOut e he e.2 (.inr rfl) (ne gd ga g1) (ne gd gb g2)
        rwa [gd] at this
      · exact f1 (ne gc ga g1) (ne gd ga g2)
      · exact f2 (ne gc gb g1) (ne gd gb g2)

theorem frontLoop_clear (hE : FrontEnv K) (hh : (Env.halfSqrt3 : K) < 1) {pick : List (Nat × K) → Option Nat} (hp : PickOk pick)
    {innerFuel : Nat} (fuel : Nat) {s s' : FrontState K} (hc : Clear s'.vertices)
    (h : frontLoop pick innerFuel fuel s = .ok s') (hI : FrontClear s'.vertices s) : FrontClear s'.vertices s' := by
  induction fuel generalizing s with
  | zero => cases h
  | succ fuel ih =>
    unfold frontLoop at h
    split at h
    · cases h; exact hI
    · rename_i e hl
      rw [bind_eq_ok] at h
      obtain ⟨s1, h1, h2⟩ := h
      refine ih h2 (frontStep_clear hE hh hp hc h1 (frontLoop_prefix fuel h2).1 ?_)
      simp only
      rw [List.dropLast_append_getLast? e hl]
      exact hI

/-! ### Whole runs -/

theorem loopEdges_telescope (g : Nat → ℤ) (l : List Nat) : ((loopEdges l).map fun e => g e.1 - g e.2).sum = 0 := by
  have path : ∀ (l : List Nat) (a b : Nat), ((pathEdges (a :: (l ++ [b]))).map fun e => g e.1 - g e.2).sum = g a - g b := by
    intro l
    induction l with
    | nil => intro a b; simp [pathEdges]
    | cons c l ih =>
      intro a b
      rw [List.cons_append, pathEdges_cons_cons, List.map_cons, List.sum_cons, ih]
      ring
  cases l with
  | nil => rfl
  | cons a t => rw [loopEdges_cons, path, sub_self]

theorem balanced_loops (polygons : List Nat) : Balanced (allLoopEdges polygons) := by
  intro k
  unfold allLoopEdges
  generalize pairs polygons = L
  induction L with
  | nil => rfl
  | cons p L ih =>
    rw [List.flatMap_cons, List.map_append, List.sum_append, ih, add_zero]
    exact loopEdges_telescope (fun i => if i = k then 1 else 0) _

theorem mem_of_loopEdges {α : Type} {l : List α} {e : α × α} (h : e ∈ loopEdges l) : e.1 ∈ l ∧ e.2 ∈ l := by
  cases l with
  | nil => simp at h
  | cons a t =>
    rw [loopEdges_cons] at h
    unfold pathEdges at h
    obtain ⟨h1, h2⟩ := List.of_mem_zip (a := e.1) (b := e.2) h
    have key : ∀ x, x ∈ a :: (t ++ [a]) → x ∈ a :: t := by
      intro x hx
      simp only [List.mem_cons, List.mem_append, List.not_mem_nil, or_false] at hx ⊢
      tauto
    exact ⟨key _ h1, key _ (List.mem_of_mem_tail h2)⟩

theorem mem_allLoopEdges_lt {polygons : List Nat} {n : Nat} (hn : ∀ p ∈ pairs polygons, p.2 ≤ n) {e : Nat × Nat}
    (he : e ∈ allLoopEdges polygons) : e.1 < n ∧ e.2 < n := by
  unfold allLoopEdges at he
  obtain ⟨p, hp, he⟩ := List.mem_flatMap.1 he
  obtain ⟨h1, h2⟩ := mem_of_loopEdges he
  have := hn p hp
  unfold loopRange at h1 h2
  rw [List.mem_range'_1] at h1 h2
  omega

/-- **C135**: let the loops be such that no vertex of a loop is on an edge of a loop other than its own, and let the mesh
generator return vertices that are clear of the tolerance.  Then all triangles are counter-clockwise, and every point off
the lines through two vertices is in exactly as many triangles as the loops wind around it. -/
theorem C135_tiling (hE : FrontEnv K) (hh : (Env.halfSqrt3 : K) < 1) {pick : List (Nat × K) → Option Nat} (hp : PickOk pick)
    {innerFuel fuel : Nat} {points : List (V2 K)} {polygons : List Nat} {V : List (V2 K)} {T : List Nat}
    (h : generateTriangularMesh pick innerFuel fuel points polygons = .ok (V, T))
    (hpoly : ∀ p ∈ pairs polygons, p.1 + 1 < p.2 ∧ p.2 ≤ points.length)
    (hoff : NodesOff points (allLoopEdges polygons)) (hc : Clear V) :
    (∀ t ∈ triples T, 0 < triArea2 (V.getD t.1 0) (V.getD t.2.1 0) (V.getD t.2.2 0)) ∧
    ∀ x, OffChords V x → (covering V (triples T) x : ℤ)
      = ((pairs polygons).map fun p => winding (loopPoints V (loopRange p)) x).sum := by
  classical
  have hpoly' : ∀ p ∈ pairs polygons, p.1 < p.2 := fun p hp => by have := (hpoly p hp).1; omega
  have hpos : ∀ t ∈ triples T, 0 < triArea2 (V.getD t.1 0) (V.getD t.2.1 0) (V.getD t.2.2 0) := by
    have hpre := (C41_valid hp h).1
    have h' := h
    unfold generateTriangularMesh at h'
    simp only [bind_eq_ok] at h'
    obtain ⟨front, hf, s, hs, h'⟩ := h'
    cases h'
    have hfe := initialFront_eq hf hpoly'
    refine (frontLoop_clear hE hh hp fuel hc hs ⟨⟨0, rfl⟩, ?_, ?_, ?_, by simp [triples]⟩).pos
    · intro e he
      simp only at he
      rw [hfe] at he
      obtain ⟨⟨a, b⟩, hab, he⟩ := List.mem_flatMap.1 he
      exact loopEdges_range'_ne (hpoly _ hab).1 he
    · simp only
      rw [hfe]; exact balanced_loops polygons
    · simp only
      rw [hfe]
      have hlt : ∀ e ∈ allLoopEdges polygons, e.1 < points.length ∧ e.2 < points.length := fun e he =>
        mem_allLoopEdges_lt (fun p hp => (hpoly p hp).2) he
      have hg : ∀ i, i < points.length → s.vertices.getD i 0 = points.getD i 0 := by
        intro i hi
        obtain ⟨t, ht⟩ := hpre
        rw [← ht, List.getD_eq_getElem?_getD, List.getD_eq_getElem?_getD, List.getElem?_append_left hi]
      intro e he f hf h1 h2
      rw [hg _ (hlt e he).1, hg _ (hlt e he).2, hg _ (hlt f hf).1]
      exact hoff e he f hf h1 h2
  refine ⟨hpos, fun x hx => ?_⟩
  rw [← C122_signed hp h hpoly' hx]
  have e1 : ccw V T = triples T := List.filter_eq_self.2 fun t ht => by simpa using hpos t ht
  have e2 : cw V T = [] := List.filter_eq_nil_iff.2 fun t ht => by simpa using (hpos t ht).le
  rw [e1, e2]
  simp [covering]

/-- **C135**: loops that enclose a negative area in total, such as a clockwise loop, or that wind around some point a
negative number of times, such as a loop in the shape of an 8, never get vertices that are clear of the tolerance. -/
theorem C135_never (hE : FrontEnv K) (hh : (Env.halfSqrt3 : K) < 1) {pick : List (Nat × K) → Option Nat} (hp : PickOk pick)
    {innerFuel fuel : Nat} {points : List (V2 K)} {polygons : List Nat} {V : List (V2 K)} {T : List Nat}
    (h : generateTriangularMesh pick innerFuel fuel points polygons = .ok (V, T))
    (hpoly : ∀ p ∈ pairs polygons, p.1 + 1 < p.2 ∧ p.2 ≤ points.length)
    (hoff : NodesOff points (allLoopEdges polygons)) {x : V2 K} (hx : OffChords V x)
    (hneg : ((pairs polygons).map fun p => winding (loopPoints V (loopRange p)) x).sum < 0) : ¬ Clear V := by
  intro hc
  rw [← (C135_tiling hE hh hp h hpoly hoff hc).2 x hx] at hneg
  omega

/-! ### Loops given by their points -/

/-- No vertex of the loops is on an edge of the loops other than its own. -/
def Spec.LoopsOff (loops : List (List (V2 K))) : Prop :=
  ∀ e ∈ loops.flatMap loopEdges, ∀ v ∈ loops.flatten, v ≠ e.1 → v ≠ e.2 → ¬ OnSegment e.1 e.2 v

theorem map_getD_range' (P : List (V2 K)) (i n : Nat) (h : i + n ≤ P.length) :
    (List.range' i n).map (fun k => P.getD k 0) = (P.drop i).take n := by
  apply List.ext_getElem
  · simp; omega
  · intro k h1 h2
    simp only [List.length_map, List.length_range'] at h1
    simp only [List.getElem_map, List.getElem_range', one_mul, List.getElem_take, List.getElem_drop]
    rw [List.getD_eq_getElem?_getD, List.getElem?_eq_getElem (by omega)]; rfl

theorem nodesOff_of_loops (hE : FrontEnv K) {V : List (V2 K)} (hc : Clear V) {loops : List (List (V2 K))}
    (hV : loops.flatten <+: V) (h : LoopsOff loops) : NodesOff loops.flatten (allLoopEdges (offsets 0 loops)) := by
  intro e he f hf h1 h2
  have hlt : ∀ e ∈ allLoopEdges (offsets 0 loops), e.1 < loops.flatten.length ∧ e.2 < loops.flatten.length := fun e he =>
    mem_allLoopEdges_lt (fun p hp => by
      obtain ⟨b, -, -, h2, -⟩ := pairs_offsets loops [] hp
      simpa using h2) he
  have hl := hV.length_le
  have hg : ∀ i, i < loops.flatten.length → V.getD i 0 = loops.flatten.getD i 0 := by
    intro i hi
    obtain ⟨t, ht⟩ := hV
    rw [← ht, List.getD_eq_getElem?_getD, List.getD_eq_getElem?_getD, List.getElem?_append_left hi]
  have hmem : ∀ i, i < loops.flatten.length → loops.flatten.getD i 0 ∈ loops.flatten := by
    intro i hi
    rw [List.getD_eq_getElem?_getD, List.getElem?_eq_getElem hi]
    exact List.getElem_mem hi
  have hedge : (loops.flatten.getD e.1 0, loops.flatten.getD e.2 0) ∈ loops.flatMap loopEdges := by
    obtain ⟨p, hp, he⟩ := List.mem_flatMap.1 he
    obtain ⟨b, hb, b1, b2, b3⟩ := pairs_offsets loops [] hp
    rw [List.nil_append] at b2 b3
    refine List.mem_flatMap.2 ⟨b, hb, ?_⟩
    have : (loopRange p).map (fun k => loops.flatten.getD k 0) = b := by
      unfold loopRange
      rw [map_getD_range' _ _ _ (by omega), ← b3]
      congr 1; omega
    rw [← this, loopEdges_map]
    exact List.mem_map.2 ⟨e, he, rfl⟩
  have ne : ∀ {i j : Nat}, i < loops.flatten.length → j < loops.flatten.length → i ≠ j →
      loops.flatten.getD i 0 ≠ loops.flatten.getD j 0 := by
    intro i j hi hj hij
    rw [← hg i hi, ← hg j hj]
    exact hc.ne hE (by omega) (by omega) hij
  exact h _ hedge _ (hmem _ (hlt f hf).1) (ne (hlt f hf).1 (hlt e he).1 h1) (ne (hlt f hf).1 (hlt e he).2 h2)

theorem loopsOff_reverse {b : List (V2 K)} (h : LoopsOff [b]) : LoopsOff [b.reverse] := by
  intro e he v hv h1 h2 hs
  simp only [List.flatMap_cons, List.flatMap_nil, List.append_nil, List.flatten_cons, List.flatten_nil, List.mem_reverse] at he hv
  obtain ⟨e', he', rfl⟩ := List.mem_map.1 ((loopEdges_reverse b).subset he)
  exact h e' (by simpa using he') v (by simpa using hv) h2 h1 (onSegment_symm hs)

end

/-- **C135** over the reals, with the constants of the code. -/
theorem C135_real {pick : List (Nat × ℝ) → Option Nat} (hp : PickOk pick) {innerFuel fuel : Nat}
    {points : List (V2 ℝ)} {polygons : List Nat} {V : List (V2 ℝ)} {T : List Nat}
    (h : generateTriangularMesh pick innerFuel fuel points polygons = .ok (V, T))
    (hpoly : ∀ p ∈ pairs polygons, p.1 + 1 < p.2 ∧ p.2 ≤ points.length)
    (hoff : NodesOff points (allLoopEdges polygons)) (hc : Clear V) :
    (∀ t ∈ triples T, 0 < triArea2 (V.getD t.1 0) (V.getD t.2.1 0) (V.getD t.2.2 0)) ∧
    ∀ x, OffChords V x → (covering V (triples T) x : ℤ)
      = ((pairs polygons).map fun p => winding (loopPoints V (loopRange p)) x).sum :=
  C135_tiling frontEnv_real (by norm_num [Env.halfSqrt3]) hp h hpoly hoff hc

theorem frontRect_off : NodesOff Spec.frontRect (allLoopEdges [0, 6]) := by
  have : ∀ e ∈ allLoopEdges [0, 6], ∀ f ∈ allLoopEdges [0, 6], f.1 ≠ e.1 → f.1 ≠ e.2 →
      isSegmentsIntersect (Spec.frontRect.getD e.1 0) (Spec.frontRect.getD e.2 0)
        (Spec.frontRect.getD f.1 0) (Spec.frontRect.getD f.1 0) = false := by decide +kernel
  exact fun e he f hf h1 h2 => off_of_check (this e he f hf h1 h2)

/-- Non-vacuity of **C135**: the rectangle of C122. -/
theorem C135_example : ∀ x, OffChords Spec.frontRectV x →
    (covering Spec.frontRectV (triples Spec.frontRectT) x : ℤ) = winding Spec.frontRect x := by
  intro x hx
  have hc := frontRect_conforming
  have := (@C135_tiling ℚ _ _ _ Spec.frontEnvQ frontEnv_rat (by decide +kernel) _ pickMax_ok _ _ _ _ _ _ frontRect_run (by decide)
    frontRect_off (@Spec.Clear.mk ℚ _ _ Spec.frontEnvQ _ (@Spec.Conforming.clear ℚ _ _ Spec.frontEnvQ _ _ _ hc)
      (@Spec.Conforming.apart ℚ _ _ Spec.frontEnvQ _ _ _ hc))).2 x hx
  rw [this]
  show _ + 0 = _
  rw [add_zero]
  rfl

end Geom3d
