import Verif.Lemmas.F64Orient
import Verif.Props.Polygon
import Verif.Props.FloatUtils

/-!
# Planar predicates in binary64 (C113)

The determinants behind the convexity classification, the point-in-triangle tests, the segment intersection test and the
polygon orientation are rounded.  `orientErr` bounds the error of a determinant of two differences; outside of that
margin the predicates decide as exact arithmetic would, and inside of it they can be wrong.
-/

namespace Geom3d
open Spec F64

/-- `TOLERANCE` is the binary64 number nearest to `10 ^ -7`. -/
theorem F64.tol_val : IsFin (Env.tol : Float) ∧ val (Env.tol : Float) = 7555786372591432 * 2 ^ (-76 : Int) := by
  have e0 : (1.0e-7 : Float) = Float.ofBits 0x3E7AD7F29ABCAF48 := by decide +kernel
  have e : (Float.ofBits 0x3E7AD7F29ABCAF48).toModel.unpack = .finite .positive 7555786372591432 (-76) (by norm_num) := rfl
  show IsFin (1.0e-7 : Float) ∧ val (1.0e-7 : Float) = _
  rw [e0]
  refine ⟨?_, ?_⟩
  · rw [fin_unpack, e]; rfl
  · rw [val, e, uval]
    norm_num

theorem F64.tol_pos : 0 < val (Env.tol : Float) := by
  rw [tol_val.2]; positivity

theorem F64.near_zero_iff {x : Float} (h : IsFin x) : near x 0 = true ↔ |val x| ≤ val (Env.tol : Float) := by
  obtain ⟨f1, v1⟩ := sub_zero_val h
  obtain ⟨f2, v2⟩ := fabs_val f1
  unfold near
  rw [decide_eq_true_iff, le_iff f2 tol_val.1, v2, v1]

/-- **C113.** The determinant of two differences of points with coordinates up to `2 ^ 509` is finite and off by at most
`orientErr`. -/
theorem C113_perp {a b c d : V2 Float} (ha : Bounded2 (2 ^ (509 : Int)) a) (hb : Bounded2 (2 ^ (509 : Int)) b)
    (hc : Bounded2 (2 ^ (509 : Int)) c) (hd : Bounded2 (2 ^ (509 : Int)) d) :
    IsFin ((b - a).perpDot (d - c)) ∧
      |val ((b - a).perpDot (d - c)) - (toReal2 b - toReal2 a).perpDot (toReal2 d - toReal2 c)| ≤
        orientErr (toReal2 b - toReal2 a) (toReal2 d - toReal2 c) :=
  ⟨(perp_scaled (by norm_num) le_rfl ha hb hc hd).1, (perp_scaled (by norm_num) le_rfl ha hb hc hd).2.2.1⟩

/-! ### Convexity -/

theorem perp_corner (a b c : V2 ℝ) : (b - a).perpDot (c - b) = triArea2 a b c := by
  simp only [V2.perpDot, triArea2, V2.sub_x, V2.sub_y]; ring

theorem perp_spoke (p a b : V2 ℝ) : (a - p).perpDot (b - p) = triArea2 p a b := by
  simp only [V2.perpDot, triArea2, V2.sub_x, V2.sub_y]; ring

theorem computeConvexity_float {a b c : V2 Float} (ha : Bounded2 (2 ^ (509 : Int)) a) (hb : Bounded2 (2 ^ (509 : Int)) b)
    (hc : Bounded2 (2 ^ (509 : Int)) c) : computeConvexity a b c =
      if |val ((b - a).perpDot (c - b))| ≤ val (Env.tol : Float) then .colinear
      else if 0 < val ((b - a).perpDot (c - b)) then .convex else .concave := by
  have f := (C113_perp ha hb hb hc).1
  unfold computeConvexity
  have h1 := near_zero_iff f
  have h2 := lt_iff zero_val.1 f
  rw [zero_val.2] at h2
  simp only [h1, h2]

/-- **C113.** What a convexity class says about the exact corner: convex and concave corners turn by more than the
tolerance, colinear ones by at most the tolerance, up to the margin. -/
theorem C113_convexity {a b c : V2 Float} (ha : Bounded2 (2 ^ (509 : Int)) a) (hb : Bounded2 (2 ^ (509 : Int)) b)
    (hc : Bounded2 (2 ^ (509 : Int)) c) :
    (computeConvexity a b c = .convex →
      val (Env.tol : Float) < triArea2 (toReal2 a) (toReal2 b) (toReal2 c) + orientErr (toReal2 b - toReal2 a) (toReal2 c - toReal2 b)) ∧
    (computeConvexity a b c = .concave →
      triArea2 (toReal2 a) (toReal2 b) (toReal2 c) < orientErr (toReal2 b - toReal2 a) (toReal2 c - toReal2 b) - val (Env.tol : Float)) ∧
    (computeConvexity a b c = .colinear →
      |triArea2 (toReal2 a) (toReal2 b) (toReal2 c)| ≤ val (Env.tol : Float) + orientErr (toReal2 b - toReal2 a) (toReal2 c - toReal2 b)) := by
  obtain ⟨_, e⟩ := C113_perp ha hb hb hc
  rw [perp_corner] at e
  rw [computeConvexity_float ha hb hc]
  generalize triArea2 (toReal2 a) (toReal2 b) (toReal2 c) = A at *
  generalize orientErr (toReal2 b - toReal2 a) (toReal2 c - toReal2 b) = E at *
  generalize val ((b - a).perpDot (c - b)) = p at *
  have e' := abs_le.mp e
  refine ⟨?_, ?_, ?_⟩
  · split
    · simp
    · rename_i h
      split
      · rename_i h0
        intro _
        rw [abs_of_pos h0, not_le] at h
        linarith
      · simp
  · split
    · simp
    · rename_i h
      split
      · simp
      · rename_i h0
        intro _
        rw [abs_of_nonpos (not_lt.mp h0), not_le] at h
        linarith
  · split
    · rename_i h
      intro _
      have := abs_le.mp h
      rw [abs_le]
      constructor <;> linarith
    · split <;> simp

/-- **C113.** Corners that clear the tolerance by the margin are classified correctly. -/
theorem C113_convexity_decides {a b c : V2 Float} (ha : Bounded2 (2 ^ (509 : Int)) a)
    (hb : Bounded2 (2 ^ (509 : Int)) b) (hc : Bounded2 (2 ^ (509 : Int)) c) :
    (val (Env.tol : Float) + orientErr (toReal2 b - toReal2 a) (toReal2 c - toReal2 b) < triArea2 (toReal2 a) (toReal2 b) (toReal2 c) →
      computeConvexity a b c = .convex) ∧
    (triArea2 (toReal2 a) (toReal2 b) (toReal2 c) < -(val (Env.tol : Float) + orientErr (toReal2 b - toReal2 a) (toReal2 c - toReal2 b)) →
      computeConvexity a b c = .concave) ∧
    (|triArea2 (toReal2 a) (toReal2 b) (toReal2 c)| + orientErr (toReal2 b - toReal2 a) (toReal2 c - toReal2 b) ≤ val (Env.tol : Float) →
      computeConvexity a b c = .colinear) := by
  obtain ⟨h1, h2, h3⟩ := C113_convexity ha hb hc
  have ht := tol_pos
  have hE : 0 ≤ orientErr (toReal2 b - toReal2 a) (toReal2 c - toReal2 b) :=
    (abs_nonneg _).trans (C113_perp ha hb hb hc).2
  generalize triArea2 (toReal2 a) (toReal2 b) (toReal2 c) = A at *
  generalize orientErr (toReal2 b - toReal2 a) (toReal2 c - toReal2 b) = E at *
  cases h : computeConvexity a b c with
  | convex =>
    have := h1 h
    refine ⟨fun _ => rfl, fun _ => ?_, fun h' => ?_⟩
    · linarith
    · have := le_abs_self A; linarith
  | concave =>
    have := h2 h
    refine ⟨fun _ => ?_, fun _ => rfl, fun h' => ?_⟩
    · linarith
    · have := neg_abs_le A; linarith
  | colinear =>
    have := abs_le.mp (h3 h)
    refine ⟨fun _ => ?_, fun _ => ?_, fun _ => rfl⟩ <;> linarith

/-- **C113.** Walking a corner backwards exchanges convex and concave, rounding included. -/
theorem C113_convexity_reverse {a b c : V2 Float} (ha : Bounded2 (2 ^ (509 : Int)) a)
    (hb : Bounded2 (2 ^ (509 : Int)) b) (hc : Bounded2 (2 ^ (509 : Int)) c) :
    computeConvexity c b a = match computeConvexity a b c with
      | .convex => .concave
      | .concave => .convex
      | .colinear => .colinear := by
  have e : val ((b - c).perpDot (a - b)) = -val ((b - a).perpDot (c - b)) := by
    rw [perp_neg_left (by norm_num) le_rfl hb hc hb ha, perp_neg_right (by norm_num) le_rfl hb hc ha hb,
      perp_swap (by norm_num) le_rfl ha hb hb hc, neg_neg]
  rw [computeConvexity_float ha hb hc, computeConvexity_float hc hb ha, e, abs_neg]
  have ht := tol_pos
  by_cases h : |val ((b - a).perpDot (c - b))| ≤ val (Env.tol : Float)
  · rw [if_pos h, if_pos h]
  · rw [if_neg h, if_neg h]
    by_cases h0 : 0 < val ((b - a).perpDot (c - b))
    · rw [if_pos h0, if_neg (by linarith)]
    · have : val ((b - a).perpDot (c - b)) ≠ 0 := by
        intro h'
        rw [h', abs_zero] at h
        exact h ht.le
      have := lt_of_le_of_ne (not_lt.mp h0) this
      rw [if_neg h0, if_pos (by linarith)]

/-! ### Points in triangles -/

theorem isInsideTriangle_float {a b c p : V2 Float} (ha : Bounded2 (2 ^ (509 : Int)) a)
    (hb : Bounded2 (2 ^ (509 : Int)) b) (hc : Bounded2 (2 ^ (509 : Int)) c) (hp : Bounded2 (2 ^ (509 : Int)) p) :
    isInsideTriangle a b c p = true ↔ 0 ≤ val ((a - p).perpDot (b - p)) ∧ 0 ≤ val ((b - p).perpDot (c - p)) ∧
      0 ≤ val ((c - p).perpDot (a - p)) := by
  have h1 := le_iff zero_val.1 (C113_perp hp ha hp hb).1
  have h2 := le_iff zero_val.1 (C113_perp hp hb hp hc).1
  have h3 := le_iff zero_val.1 (C113_perp hp hc hp ha).1
  rw [zero_val.2] at h1 h2 h3
  simp only [isInsideTriangle, Bool.and_eq_true, decide_eq_true_eq, and_assoc, h1, h2, h3]

/-- **C113.** A point that lies on the inner side of the three edges by the margin is found inside, and a point found
inside lies outside of no edge by more than the margin. -/
theorem C113_inside {a b c p : V2 Float} (ha : Bounded2 (2 ^ (509 : Int)) a)
    (hb : Bounded2 (2 ^ (509 : Int)) b) (hc : Bounded2 (2 ^ (509 : Int)) c) (hp : Bounded2 (2 ^ (509 : Int)) p) :
    (orientErr (toReal2 a - toReal2 p) (toReal2 b - toReal2 p) ≤ triArea2 (toReal2 p) (toReal2 a) (toReal2 b) →
      orientErr (toReal2 b - toReal2 p) (toReal2 c - toReal2 p) ≤ triArea2 (toReal2 p) (toReal2 b) (toReal2 c) →
      orientErr (toReal2 c - toReal2 p) (toReal2 a - toReal2 p) ≤ triArea2 (toReal2 p) (toReal2 c) (toReal2 a) →
      isInsideTriangle a b c p = true) ∧
    (isInsideTriangle a b c p = true →
      -orientErr (toReal2 a - toReal2 p) (toReal2 b - toReal2 p) ≤ triArea2 (toReal2 p) (toReal2 a) (toReal2 b) ∧
      -orientErr (toReal2 b - toReal2 p) (toReal2 c - toReal2 p) ≤ triArea2 (toReal2 p) (toReal2 b) (toReal2 c) ∧
      -orientErr (toReal2 c - toReal2 p) (toReal2 a - toReal2 p) ≤ triArea2 (toReal2 p) (toReal2 c) (toReal2 a)) := by
  have e1 := abs_le.mp (C113_perp hp ha hp hb).2
  have e2 := abs_le.mp (C113_perp hp hb hp hc).2
  have e3 := abs_le.mp (C113_perp hp hc hp ha).2
  rw [perp_spoke] at e1 e2 e3
  rw [isInsideTriangle_float ha hb hc hp]
  refine ⟨fun h1 h2 h3 => ⟨?_, ?_, ?_⟩, fun ⟨h1, h2, h3⟩ => ⟨?_, ?_, ?_⟩⟩ <;> linarith

theorem isInsideTriangleTol_float {a b c p : V2 Float} (ha : Bounded2 (2 ^ (509 : Int)) a)
    (hb : Bounded2 (2 ^ (509 : Int)) b) (hc : Bounded2 (2 ^ (509 : Int)) c) (hp : Bounded2 (2 ^ (509 : Int)) p) :
    isInsideTriangleTol p a b c = true ↔ -val (Env.tol : Float) ≤ val ((a - p).perpDot (b - p)) ∧
      -val (Env.tol : Float) ≤ val ((b - p).perpDot (c - p)) ∧ -val (Env.tol : Float) ≤ val ((c - p).perpDot (a - p)) := by
  have key : ∀ x : Float, IsFin x → ((decide (0 ≤ x) || near x 0) = true ↔ -val (Env.tol : Float) ≤ val x) := by
    intro x hx
    have ht := tol_pos
    have h1 := le_iff zero_val.1 hx
    rw [zero_val.2] at h1
    rw [Bool.or_eq_true, decide_eq_true_iff, h1, near_zero_iff hx, abs_le]
    constructor
    · rintro (h | h)
      · linarith
      · exact h.1
    · intro h
      rcases le_total 0 (val x) with h0 | h0
      · exact .inl h0
      · exact .inr ⟨h, by linarith⟩
  unfold isInsideTriangleTol
  simp only [Bool.and_eq_true, key _ (C113_perp hp ha hp hb).1, key _ (C113_perp hp hb hp hc).1,
    key _ (C113_perp hp hc hp ha).1, and_assoc]

/-- **C113.** The same for the test with tolerance: it is shifted by the tolerance. -/
theorem C113_inside_tol {a b c p : V2 Float} (ha : Bounded2 (2 ^ (509 : Int)) a)
    (hb : Bounded2 (2 ^ (509 : Int)) b) (hc : Bounded2 (2 ^ (509 : Int)) c) (hp : Bounded2 (2 ^ (509 : Int)) p) :
    (orientErr (toReal2 a - toReal2 p) (toReal2 b - toReal2 p) - val (Env.tol : Float) ≤ triArea2 (toReal2 p) (toReal2 a) (toReal2 b) →
      orientErr (toReal2 b - toReal2 p) (toReal2 c - toReal2 p) - val (Env.tol : Float) ≤ triArea2 (toReal2 p) (toReal2 b) (toReal2 c) →
      orientErr (toReal2 c - toReal2 p) (toReal2 a - toReal2 p) - val (Env.tol : Float) ≤ triArea2 (toReal2 p) (toReal2 c) (toReal2 a) →
      isInsideTriangleTol p a b c = true) ∧
    (isInsideTriangleTol p a b c = true →
      -orientErr (toReal2 a - toReal2 p) (toReal2 b - toReal2 p) - val (Env.tol : Float) ≤ triArea2 (toReal2 p) (toReal2 a) (toReal2 b) ∧
      -orientErr (toReal2 b - toReal2 p) (toReal2 c - toReal2 p) - val (Env.tol : Float) ≤ triArea2 (toReal2 p) (toReal2 b) (toReal2 c) ∧
      -orientErr (toReal2 c - toReal2 p) (toReal2 a - toReal2 p) - val (Env.tol : Float) ≤ triArea2 (toReal2 p) (toReal2 c) (toReal2 a)) := by
  have e1 := abs_le.mp (C113_perp hp ha hp hb).2
  have e2 := abs_le.mp (C113_perp hp hb hp hc).2
  have e3 := abs_le.mp (C113_perp hp hc hp ha).2
  rw [perp_spoke] at e1 e2 e3
  rw [isInsideTriangleTol_float ha hb hc hp]
  refine ⟨fun h1 h2 h3 => ⟨?_, ?_, ?_⟩, fun ⟨h1, h2, h3⟩ => ⟨?_, ?_, ?_⟩⟩ <;> linarith

/-! ### Segments -/

theorem F64.fmin_val {a b : Float} (ha : IsFin a) (hb : IsFin b) : IsFin (fmin a b) ∧ val (fmin a b) = min (val a) (val b) := by
  unfold fmin
  split
  · rename_i h; exact ⟨hb, (min_eq_right ((lt_iff hb ha).mp h).le).symm⟩
  · rename_i h; exact ⟨ha, (min_eq_left (not_lt.mp fun c => h ((lt_iff hb ha).mpr c))).symm⟩

theorem F64.fmax_val {a b : Float} (ha : IsFin a) (hb : IsFin b) : IsFin (fmax a b) ∧ val (fmax a b) = max (val a) (val b) := by
  unfold fmax
  split
  · rename_i h; exact ⟨hb, (max_eq_right ((lt_iff ha hb).mp h).le).symm⟩
  · rename_i h; exact ⟨ha, (max_eq_left (not_lt.mp fun c => h ((lt_iff ha hb).mpr c))).symm⟩

/-- The bounding boxes of two segments have no point in common. -/
def F64.BoxesApart (a b c d : V2 ℝ) : Prop :=
  max c.x d.x < min a.x b.x ∨ max a.x b.x < min c.x d.x ∨ max c.y d.y < min a.y b.y ∨ max a.y b.y < min c.y d.y

/-- The sign test on a product of determinants: the product is finite, and negative only if the factors have strictly
opposite signs; it is negative if in addition it does not underflow. -/
theorem F64.product_sign {x y : Float} (fx : IsFin x) (fy : IsFin y) (bx : |val x| ≤ 2 ^ (511 : Int)) (by' : |val y| ≤ 2 ^ (511 : Int)) :
    IsFin (x * y) ∧ (val (x * y) < 0 → val x * val y < 0) ∧ (val x * val y ≤ -(2 : ℝ) ^ (-1074 : Int) → val (x * y) < 0) ∧
      val (x * y) = rnd (val x * val y) := by
  have h1 : |val x * val y| ≤ 2 ^ (1022 : Int) := by
    rw [abs_mul, show (1022 : Int) = 511 + 511 by norm_num, zpow_add₀ (by norm_num)]
    exact mul_le_mul bx by' (abs_nonneg _) (two_zpow_pos _).le
  obtain ⟨f, r⟩ := mul_rounds fx fy (small_le_max (h1.trans (two_zpow_le (by norm_num))))
  refine ⟨f, fun h => ?_, fun h => ?_, r.eq⟩
  · by_contra h'
    exact absurd (r.nonneg (not_lt.mp h')) (not_le.mpr h)
  · have := r.le _ (rep_pow (-1074) le_rfl).neg h
    have := two_zpow_pos (-1074)
    linarith

theorem isSegmentsIntersect_float {a b c d : V2 Float} (ha : Bounded2 (2 ^ (254 : Int)) a)
    (hb : Bounded2 (2 ^ (254 : Int)) b) (hc : Bounded2 (2 ^ (254 : Int)) c) (hd : Bounded2 (2 ^ (254 : Int)) d) :
    isSegmentsIntersect a b c d = true ↔ ¬ BoxesApart (toReal2 a) (toReal2 b) (toReal2 c) (toReal2 d) ∧
      ¬ val ((c - a).perpDot (d - a) * (d - b).perpDot (c - b)) < 0 ∧
      ¬ val ((c - a).perpDot (c - b) * (d - b).perpDot (d - a)) < 0 := by
  have h0 : (0 : Int) ≤ 254 := by norm_num
  have h1 : (254 : Int) ≤ 509 := by norm_num
  have m1 := fmin_val ha.1.1 hb.1.1
  have m2 := fmax_val ha.1.1 hb.1.1
  have m3 := fmin_val ha.2.1 hb.2.1
  have m4 := fmax_val ha.2.1 hb.2.1
  have n1 := fmin_val hc.1.1 hd.1.1
  have n2 := fmax_val hc.1.1 hd.1.1
  have n3 := fmin_val hc.2.1 hd.2.1
  have n4 := fmax_val hc.2.1 hd.2.1
  have hbox : (fmax c.x d.x < fmin a.x b.x ∨ fmax a.x b.x < fmin c.x d.x ∨ fmax c.y d.y < fmin a.y b.y ∨
      fmax a.y b.y < fmin c.y d.y) ↔ BoxesApart (toReal2 a) (toReal2 b) (toReal2 c) (toReal2 d) := by
    rw [lt_iff n2.1 m1.1, lt_iff m2.1 n1.1, lt_iff n4.1 m3.1, lt_iff m4.1 n3.1, m1.2, m2.2, m3.2, m4.2, n1.2, n2.2, n3.2, n4.2]
    exact Iff.rfl
  have p1 := perp_scaled h0 h1 ha hc ha hd
  have p2 := perp_scaled h0 h1 hb hd hb hc
  have p3 := perp_scaled h0 h1 ha hc hb hc
  have p4 := perp_scaled h0 h1 hb hd ha hd
  have q1 := (product_sign p1.1 p2.1 p1.2.1 p2.2.1).1
  have q2 := (product_sign p3.1 p4.1 p3.2.1 p4.2.1).1
  have l1 := lt_iff q1 zero_val.1
  have l2 := lt_iff q2 zero_val.1
  rw [zero_val.2] at l1 l2
  unfold isSegmentsIntersect
  simp only [l1, l2]
  split
  · rename_i h
    exact ⟨fun h' => absurd h' (by simp), fun h' => absurd (hbox.mp h) h'.1⟩
  · rename_i h
    split
    · rename_i h2
      exact ⟨fun h' => absurd h' (by simp), fun h' => absurd h2 h'.2.1⟩
    · rename_i h2
      split
      · rename_i h3
        exact ⟨fun h' => absurd h' (by simp), fun h' => absurd h3 h'.2.2⟩
      · rename_i h3
        exact ⟨fun _ => ⟨fun c => h (hbox.mpr c), h2, h3⟩, fun _ => rfl⟩

/-- Beyond the margin, and not so small that a product of two of them underflows. -/
def F64.Clear (A E : ℝ) : Prop := E < |A| ∧ (2 : ℝ) ^ (-537 : Int) + E ≤ |A|

theorem F64.clear_sign {A E p : ℝ} (h : |p - A| ≤ E) (hc : Clear A E) :
    (0 < p ↔ 0 < A) ∧ (p < 0 ↔ A < 0) ∧ (2 : ℝ) ^ (-537 : Int) ≤ |p| := by
  have h' := abs_le.mp h
  have := two_zpow_pos (-537)
  obtain ⟨h1, h2⟩ := hc
  refine ⟨⟨fun hp => ?_, fun hA => ?_⟩, ⟨fun hp => ?_, fun hA => ?_⟩, ?_⟩
  · by_contra hA
    rw [abs_of_nonpos (not_lt.mp hA)] at h1
    linarith
  · rw [abs_of_pos hA] at h1; linarith
  · by_contra hA
    rw [abs_of_nonneg (not_lt.mp hA)] at h1
    linarith
  · rw [abs_of_neg hA] at h1; linarith
  · have := abs_sub_abs_le_abs_sub A p
    rw [abs_sub_comm] at this
    linarith

/-- Two determinants beyond their margins are multiplied to the right sign. -/
theorem F64.clear_product {x y : Float} {A B E E' : ℝ} (fx : IsFin x) (fy : IsFin y) (bx : |val x| ≤ 2 ^ (511 : Int))
    (by' : |val y| ≤ 2 ^ (511 : Int)) (hx : |val x - A| ≤ E) (hy : |val y - B| ≤ E') (cA : Clear A E) (cB : Clear B E') :
    val (x * y) < 0 ↔ A * B < 0 := by
  obtain ⟨a1, a2, a3⟩ := clear_sign hx cA
  obtain ⟨b1, b2, b3⟩ := clear_sign hy cB
  obtain ⟨_, h1, h2, _⟩ := product_sign fx fy bx by'
  have hs : val x * val y < 0 ↔ A * B < 0 := by rw [mul_neg_iff, mul_neg_iff, a1, a2, b1, b2]
  refine ⟨fun h => hs.mp (h1 h), fun h => h2 ?_⟩
  have hn := hs.mpr h
  have : (2 : ℝ) ^ (-1074 : Int) ≤ |val x * val y| := by
    rw [abs_mul, show (-1074 : Int) = -537 + -537 by norm_num, zpow_add₀ (by norm_num)]
    exact mul_le_mul a3 b3 (two_zpow_pos _).le (abs_nonneg _)
  rw [abs_of_neg hn] at this
  linarith

/-- **C113.** If each end of a segment is off the line of the other segment by more than the margin, the segment test
answers correctly. -/
theorem C113_segments {a b c d : V2 Float} (ha : Bounded2 (2 ^ (254 : Int)) a)
    (hb : Bounded2 (2 ^ (254 : Int)) b) (hc : Bounded2 (2 ^ (254 : Int)) c) (hd : Bounded2 (2 ^ (254 : Int)) d)
    (ca : Clear (triArea2 (toReal2 a) (toReal2 c) (toReal2 d)) (orientErr (toReal2 c - toReal2 a) (toReal2 d - toReal2 a)))
    (cb : Clear (triArea2 (toReal2 b) (toReal2 d) (toReal2 c)) (orientErr (toReal2 d - toReal2 b) (toReal2 c - toReal2 b)))
    (cc : Clear (triArea2 (toReal2 c) (toReal2 a) (toReal2 b)) (orientErr (toReal2 c - toReal2 a) (toReal2 c - toReal2 b)))
    (cd : Clear (triArea2 (toReal2 d) (toReal2 b) (toReal2 a)) (orientErr (toReal2 d - toReal2 b) (toReal2 d - toReal2 a))) :
    isSegmentsIntersect a b c d = true ↔
      ∃ p, OnSegment (toReal2 a) (toReal2 b) p ∧ OnSegment (toReal2 c) (toReal2 d) p := by
  have h0 : (0 : Int) ≤ 254 := by norm_num
  have h1 : (254 : Int) ≤ 509 := by norm_num
  have p1 := perp_scaled h0 h1 ha hc ha hd
  have p2 := perp_scaled h0 h1 hb hd hb hc
  have p3 := perp_scaled h0 h1 ha hc hb hc
  have p4 := perp_scaled h0 h1 hb hd ha hd
  have s3 : (toReal2 c - toReal2 a).perpDot (toReal2 c - toReal2 b) = triArea2 (toReal2 c) (toReal2 a) (toReal2 b) := by
    simp only [V2.perpDot, triArea2, V2.sub_x, V2.sub_y]; ring
  have s4 : (toReal2 d - toReal2 b).perpDot (toReal2 d - toReal2 a) = triArea2 (toReal2 d) (toReal2 b) (toReal2 a) := by
    simp only [V2.perpDot, triArea2, V2.sub_x, V2.sub_y]; ring
  have e1 := p1.2.2.1
  have e2 := p2.2.2.1
  have e3 := p3.2.2.1
  have e4 := p4.2.2.1
  rw [perp_spoke] at e1 e2
  rw [s3] at e3
  rw [s4] at e4
  have k1 := clear_product p1.1 p2.1 p1.2.1 p2.2.1 e1 e2 ca cb
  have k2 := clear_product p3.1 p4.1 p3.2.1 p4.2.1 e3 e4 cc cd
  rw [isSegmentsIntersect_float ha hb hc hd, k1, k2, ← C34_exact, isSegmentsIntersect_iff]
  have t1 : triArea2 (toReal2 b) (toReal2 d) (toReal2 c) = -triArea2 (toReal2 b) (toReal2 c) (toReal2 d) := by
    simp only [triArea2]; ring
  have t2 : triArea2 (toReal2 d) (toReal2 b) (toReal2 a) = -triArea2 (toReal2 d) (toReal2 a) (toReal2 b) := by
    simp only [triArea2]; ring
  rw [t1, t2, mul_neg, mul_neg, not_lt, not_lt, Left.nonneg_neg_iff, Left.nonneg_neg_iff]
  unfold BoxesApart
  simp only [not_or, not_lt]

/-- **C113.** Whatever the rounding, segments with disjoint bounding boxes are told apart, and the answer depends neither
on the order of the segments nor on their directions. -/
theorem C113_segments_symmetric {a b c d : V2 Float} (ha : Bounded2 (2 ^ (254 : Int)) a)
    (hb : Bounded2 (2 ^ (254 : Int)) b) (hc : Bounded2 (2 ^ (254 : Int)) c) (hd : Bounded2 (2 ^ (254 : Int)) d) :
    (BoxesApart (toReal2 a) (toReal2 b) (toReal2 c) (toReal2 d) → isSegmentsIntersect a b c d = false) ∧
    isSegmentsIntersect c d a b = isSegmentsIntersect a b c d ∧ isSegmentsIntersect b a c d = isSegmentsIntersect a b c d := by
  have h0 : (0 : Int) ≤ 254 := by norm_num
  have h1 : (254 : Int) ≤ 509 := by norm_num
  have pr : ∀ {a b c d a' b' c' d' : V2 Float}, Bounded2 (2 ^ (254 : Int)) a → Bounded2 (2 ^ (254 : Int)) b →
      Bounded2 (2 ^ (254 : Int)) c → Bounded2 (2 ^ (254 : Int)) d → Bounded2 (2 ^ (254 : Int)) a' →
      Bounded2 (2 ^ (254 : Int)) b' → Bounded2 (2 ^ (254 : Int)) c' → Bounded2 (2 ^ (254 : Int)) d' →
      val ((b - a).perpDot (d - c) * (b' - a').perpDot (d' - c')) =
        rnd (val ((b - a).perpDot (d - c)) * val ((b' - a').perpDot (d' - c'))) := by
    intro a b c d a' b' c' d' ha hb hc hd ha' hb' hc' hd'
    have p1 := perp_scaled h0 h1 ha hb hc hd
    have p2 := perp_scaled h0 h1 ha' hb' hc' hd'
    exact (product_sign p1.1 p2.1 p1.2.1 p2.2.1).2.2.2
  refine ⟨fun h => ?_, ?_, ?_⟩
  · rw [← Bool.not_eq_true, isSegmentsIntersect_float ha hb hc hd]
    exact fun h' => h'.1 h
  · rw [Bool.eq_iff_iff, isSegmentsIntersect_float ha hb hc hd, isSegmentsIntersect_float hc hd ha hb]
    have e1 : val ((a - c).perpDot (b - c) * (b - d).perpDot (a - d)) = val ((c - a).perpDot (c - b) * (d - b).perpDot (d - a)) := by
      rw [pr hc ha hc hb hd hb hd ha, pr ha hc hb hc hb hd ha hd, perp_neg_left h0 h1 ha hc hc hb,
        perp_neg_right h0 h1 ha hc hb hc, perp_neg_left h0 h1 hb hd hd ha, perp_neg_right h0 h1 hb hd ha hd, neg_neg, neg_neg]
    have e2 : val ((a - c).perpDot (a - d) * (b - d).perpDot (b - c)) = val ((c - a).perpDot (d - a) * (d - b).perpDot (c - b)) := by
      rw [pr hc ha hd ha hd hb hc hb, pr ha hc ha hd hb hd hb hc, perp_neg_left h0 h1 ha hc hd ha,
        perp_neg_right h0 h1 ha hc ha hd, perp_neg_left h0 h1 hb hd hc hb, perp_neg_right h0 h1 hb hd hb hc, neg_neg, neg_neg]
    have hbox : BoxesApart (toReal2 c) (toReal2 d) (toReal2 a) (toReal2 b) ↔ BoxesApart (toReal2 a) (toReal2 b) (toReal2 c) (toReal2 d) := by
      unfold BoxesApart; tauto
    rw [e1, e2, hbox]
    tauto
  · rw [Bool.eq_iff_iff, isSegmentsIntersect_float ha hb hc hd, isSegmentsIntersect_float hb ha hc hd]
    have e1 : val ((c - b).perpDot (d - b) * (d - a).perpDot (c - a)) = val ((c - a).perpDot (d - a) * (d - b).perpDot (c - b)) := by
      rw [pr hb hc hb hd ha hd ha hc, pr ha hc ha hd hb hd hb hc, perp_swap h0 h1 hb hd hb hc, perp_swap h0 h1 ha hc ha hd,
        neg_mul_neg, mul_comm]
    have e2 : val ((c - b).perpDot (c - a) * (d - a).perpDot (d - b)) = val ((c - a).perpDot (c - b) * (d - b).perpDot (d - a)) := by
      rw [pr hb hc ha hc ha hd hb hd, pr ha hc hb hc hb hd ha hd, perp_swap h0 h1 ha hc hb hc, perp_swap h0 h1 hb hd ha hd,
        neg_mul_neg]
    have hbox : BoxesApart (toReal2 b) (toReal2 a) (toReal2 c) (toReal2 d) ↔ BoxesApart (toReal2 a) (toReal2 b) (toReal2 c) (toReal2 d) := by
      unfold BoxesApart
      rw [min_comm (toReal2 b).x, max_comm (toReal2 b).x, min_comm (toReal2 b).y, max_comm (toReal2 b).y]
    rw [e1, e2, hbox]

/-! ### Orientation of polygons -/

/-- The trapezoid below an edge, as summed by the orientation test. -/
def trapezoid (e : V2 ℝ × V2 ℝ) : ℝ := (e.2.x - e.1.x) * (e.1.y + e.2.y)

theorem loopEdges_snoc {α : Type} (a : α) (t : List α) :
    loopEdges (a :: t) = pathEdges (a :: t) ++ [((a :: t).getLast (by simp), a)] := by
  rw [Spec.loopEdges_cons]
  obtain ⟨l, z, hz⟩ : ∃ l z, a :: t = l ++ [z] := ⟨_, _, (List.dropLast_append_getLast (l := a :: t) (by simp)).symm⟩
  have hz' : (a :: t).getLast (by simp) = z := by simp [hz]
  rw [hz', ← List.cons_append, hz, List.append_assoc]
  show pathEdges (l ++ z :: [a]) = _
  rw [Spec.pathEdges_append l z [a]]
  rfl

theorem sum_trapezoid (l : List (V2 ℝ)) : ((loopEdges l).map trapezoid).sum = -area2 l := by
  have : ((loopEdges l).map trapezoid).sum + area2 l = ((loopEdges l).map fun e => e.2.x * e.2.y - e.1.x * e.1.y).sum := by
    unfold area2
    rw [← List.sum_map_add]
    apply congrArg
    apply List.map_congr_left
    intro e _
    simp only [trapezoid, cross2]; ring
  rw [Spec.sum_loopEdges_sub (fun p : V2 ℝ => p.x * p.y)] at this
  linarith

/-- The error bound of the orientation test. -/
noncomputable def F64.ccwErr (pts : List (V2 ℝ)) : ℝ :=
  (2 * pts.length + 4) * eps * ((loopEdges pts).map fun e => |trapezoid e|).sum + 2 * pts.length * eta

/-- The state of the sum after `k` edges. -/
structure F64.SumOk (k : Nat) (S A : ℝ) (s : Float) : Prop where
  fin : IsFin s
  err : |val s - S| ≤ (2 * k + 4) * eps * A + 2 * k * eta
  abs : |S| ≤ A
  bound : A ≤ k * 2 ^ (962 : Int)

theorem F64.SumOk.step {k : Nat} {S A : ℝ} {s : Float} (h : SumOk k S A s) (hk : k ≤ 2 ^ 50) {p q : V2 Float}
    (hp : Bounded2 (2 ^ (480 : Int)) p) (hq : Bounded2 (2 ^ (480 : Int)) q) :
    SumOk (k + 1) (S + trapezoid (toReal2 p, toReal2 q)) (A + |trapezoid (toReal2 p, toReal2 q)|)
      (s + (q.x - p.x) * (p.y + q.y)) := by
  obtain ⟨f1, b1, e1, _⟩ := sub_scaled (by norm_num) (by norm_num) hq.1.1 hp.1.1 hq.1.2 hp.1.2
  obtain ⟨f2, b2, e2⟩ := add_scaled (by norm_num) (by norm_num) hp.2.1 hq.2.1 hp.2.2 hq.2.2
  obtain ⟨f, b, e, _⟩ := mul_scaled (by norm_num) (by norm_num) f1 f2 b1 b2 e1 e2
  have bT : |trapezoid (toReal2 p, toReal2 q)| ≤ 2 ^ (962 : Int) := by
    have h1 : |val q.x - val p.x| ≤ 2 ^ (481 : Int) := by
      refine (abs_sub _ _).trans ?_
      rw [show (481 : Int) = 1 + 480 by norm_num, ← two_mul_zpow]
      linarith [hq.1.2, hp.1.2]
    have h2 : |val p.y + val q.y| ≤ 2 ^ (481 : Int) := by
      refine (abs_add_le _ _).trans ?_
      rw [show (481 : Int) = 1 + 480 by norm_num, ← two_mul_zpow]
      linarith [hq.2.2, hp.2.2]
    show |(val q.x - val p.x) * (val p.y + val q.y)| ≤ _
    rw [abs_mul, show (962 : Int) = 481 + 481 by norm_num, zpow_add₀ (by norm_num)]
    exact mul_le_mul h1 h2 (abs_nonneg _) (two_zpow_pos _).le
  have e' : |val ((q.x - p.x) * (p.y + q.y)) - trapezoid (toReal2 p, toReal2 q)| ≤
      (3 * eps + 4 * eps ^ 2) * |trapezoid (toReal2 p, toReal2 q)| + eta := e
  generalize trapezoid (toReal2 p, toReal2 q) = T at *
  have hT := abs_nonneg T
  have hA : 0 ≤ A := (abs_nonneg _).trans h.abs
  have p0 := eps_pos
  have p1 := eps_le
  have n0 := eta_pos
  have hk' : (k : ℝ) ≤ 2 ^ 50 := by exact_mod_cast hk
  have hk0 : (0 : ℝ) ≤ k := Nat.cast_nonneg _
  have hke : (2 * (k : ℝ) + 4) * eps ≤ 1 := by
    rw [eps_eq, mul_one_div, div_le_one (by norm_num)]
    linarith
  have hke' : (2 * (k : ℝ) + 1) * eps ≤ 1 := le_trans (mul_le_mul_of_nonneg_right (by linarith) p0.le) hke
  have r : |val s + val ((q.x - p.x) * (p.y + q.y)) - (S + T)| ≤ (2 * k + 4) * eps * (A + |T|) + (2 * k + 1) * eta := by
    have e1 := h.err
    have : val s + val ((q.x - p.x) * (p.y + q.y)) - (S + T) = (val s - S) + (val ((q.x - p.x) * (p.y + q.y)) - T) := by ring
    rw [this]
    refine (abs_add_le _ _).trans ?_
    have h3 : (3 * eps + 4 * eps ^ 2) * |T| ≤ (2 * k + 4) * eps * |T| := by
      refine mul_le_mul_of_nonneg_right ?_ hT
      nlinarith
    nlinarith
  have hS : |S + T| ≤ A + |T| := (abs_add_le _ _).trans (by linarith [h.abs])
  have hv : |val s + val ((q.x - p.x) * (p.y + q.y))| ≤ (A + |T|) + ((2 * k + 4) * eps * (A + |T|) + (2 * k + 1) * eta) := by
    have := abs_sub_abs_le_abs_sub (val s + val ((q.x - p.x) * (p.y + q.y))) (S + T)
    linarith
  have hbd : A + |T| ≤ ((k + 1 : Nat) : ℝ) * 2 ^ (962 : Int) := by
    push_cast
    rw [add_mul, one_mul]
    exact add_le_add h.bound bT
  have hmax : |val s + val ((q.x - p.x) * (p.y + q.y))| ≤ maxFinite := by
    refine small_le_max (hv.trans ?_)
    have hAT : 0 ≤ A + |T| := by linarith
    have h1 := mul_le_mul_of_nonneg_right hke hAT
    have h2 : (2 * (k : ℝ) + 1) * eta ≤ 1 := by
      have : eta ≤ eps := by
        rw [eta, eps]; exact two_zpow_le (by norm_num)
      exact (mul_le_mul_of_nonneg_left this (by linarith)).trans hke'
    have h3 : ((k + 1 : Nat) : ℝ) * 2 ^ (962 : Int) ≤ 2 ^ (51 : Int) * 2 ^ (962 : Int) := by
      refine mul_le_mul_of_nonneg_right ?_ (two_zpow_pos _).le
      have h51 : (2 : ℝ) ^ (51 : Int) = 2 * 2 ^ 50 := by norm_num
      have h50 : (1 : ℝ) ≤ 2 ^ 50 := by norm_num
      push_cast
      rw [h51]
      linarith
    rw [← zpow_add₀ (by norm_num)] at h3
    have h4 : (2 : ℝ) ^ (1023 : Int) = 2 ^ (10 : Int) * 2 ^ (51 + 962 : Int) := by rw [← zpow_add₀ (by norm_num)]; norm_num
    have h5 : (1 : ℝ) ≤ 2 ^ (51 + 962 : Int) := one_le_zpow₀ (by norm_num) (by norm_num)
    have h6 : (2 : ℝ) ^ (10 : Int) = 1024 := by norm_num
    rw [h4, h6]
    have h7 := hbd.trans h3
    rw [one_mul] at h1
    revert h1 h2 h5 h7
    generalize (2 : ℝ) ^ (51 + 962 : Int) = Z
    generalize (2 * (k : ℝ) + 4) * eps * (A + |T|) = X
    generalize (2 * (k : ℝ) + 1) * eta = Y
    intro h1 h2 h5 h7
    linarith only [h1, h2, h5, h7]
  obtain ⟨g, _⟩ := add_rounds h.fin f hmax
  have w := add_err h.fin f hmax
  refine ⟨g, ?_, hS, hbd⟩
  generalize val (s + (q.x - p.x) * (p.y + q.y)) = v at *
  generalize val s + val ((q.x - p.x) * (p.y + q.y)) = m at *
  have t := abs_sub_le v m (S + T)
  have hAT : 0 ≤ A + |T| := by linarith
  generalize A + |T| = Z at *
  have w' : eps * |m| ≤ eps * (Z + ((2 * k + 4) * eps * Z + (2 * k + 1) * eta)) := mul_le_mul_of_nonneg_left hv p0.le
  have i1 : eps * ((2 * k + 4) * eps * Z) ≤ eps * Z := by
    refine mul_le_mul_of_nonneg_left ?_ p0.le
    calc (2 * (k : ℝ) + 4) * eps * Z ≤ 1 * Z := mul_le_mul_of_nonneg_right hke hAT
      _ = Z := one_mul _
  have i2 : eps * ((2 * k + 1) * eta) ≤ eta := by
    calc eps * ((2 * k + 1) * eta) = (2 * k + 1) * eps * eta := by ring
      _ ≤ 1 * eta := mul_le_mul_of_nonneg_right hke' n0.le
      _ = eta := one_mul _
  push_cast
  linarith

theorem isPolygonCcw_float {pts : List (V2 Float)} (h : pts ≠ []) (hn : pts.length ≤ 2 ^ 50)
    (hb : ∀ p ∈ pts, Bounded2 (2 ^ (480 : Int)) p) :
    ∃ s : ℝ, isPolygonCcw pts = .ok (decide (s < 0)) ∧ |s + area2 (pts.map toReal2)| ≤ ccwErr (pts.map toReal2) := by
  obtain ⟨a, t, rfl⟩ := List.exists_cons_of_ne_nil h
  unfold isPolygonCcw
  have hl : usub (a :: t).length 1 = .ok t.length := by rw [usub_ok (by simp)]; simp
  rw [hl]
  simp only [ok_bind]
  have edges : ∀ i q0 q1, (a :: t)[i]? = some q0 → (a :: t)[i + 1]? = some q1 →
      (pathEdges ((a :: t).map toReal2))[i]? = some (toReal2 q0, toReal2 q1) := by
    intro i q0 q1 e0 e1
    exact Spec.getElem?_pathEdges _ _ _ _ (by rw [List.getElem?_map, e0]; rfl) (by rw [List.getElem?_map, e1]; rfl)
  obtain ⟨s, h1, h2⟩ := forRange_inv (a := 0) (b := t.length) (s := (0 : Float))
    (body := fun sum i => do
      let p1 ← idx (a :: t) (i + 1)
      let p0 ← idx (a :: t) i
      pure (sum + (p1.x - p0.x) * (p0.y + p1.y)))
    (fun i s => SumOk i (((pathEdges ((a :: t).map toReal2)).take i).map trapezoid).sum
      (((pathEdges ((a :: t).map toReal2)).take i).map fun e => |trapezoid e|).sum s)
    (Nat.zero_le _) ⟨zero_val.1, by simp [zero_val.2], by simp, by simp⟩ (by
      intro i s _ hi hs
      obtain ⟨q1, e1⟩ : ∃ q, (a :: t)[i + 1]? = some q := ⟨_, List.getElem?_eq_getElem (by simpa using hi)⟩
      obtain ⟨q0, e0⟩ : ∃ q, (a :: t)[i]? = some q := ⟨_, List.getElem?_eq_getElem (by simp; omega)⟩
      refine ⟨_, by rw [idx_of_getElem? e1, idx_of_getElem? e0]; rfl, ?_⟩
      have := hs.step (by simp at hn; omega) (hb q0 (List.mem_of_getElem? e0)) (hb q1 (List.mem_of_getElem? e1))
      rw [List.take_add_one, edges i q0 q1 e0 e1]
      simpa using this)
  rw [h1]
  simp only [ok_bind]
  rw [idx_of_getElem? (show (a :: t)[0]? = some a from rfl), idx_of_getElem? (getLast?_cons_eq a t)]
  simp only [ok_bind, pure_eq_ok]
  have hlen : (pathEdges ((a :: t).map toReal2)).take t.length = pathEdges ((a :: t).map toReal2) := by
    apply List.take_of_length_le
    rw [Spec.length_pathEdges]; simp
  rw [hlen] at h2
  have h3 := h2.step (by simp at hn; omega) (hb ((a :: t).getLast (by simp)) (List.getLast_mem _)) (hb a (by simp))
  have hlast : ((a :: t).map toReal2).getLast (by simp) = toReal2 ((a :: t).getLast (by simp)) := by rw [List.getLast_map]
  have hloop : loopEdges ((a :: t).map toReal2) =
      pathEdges ((a :: t).map toReal2) ++ [(toReal2 ((a :: t).getLast (by simp)), toReal2 a)] := by
    rw [← hlast]
    exact loopEdges_snoc (toReal2 a) (t.map toReal2)
  have hS : ((pathEdges ((a :: t).map toReal2)).map trapezoid).sum + trapezoid (toReal2 ((a :: t).getLast (by simp)), toReal2 a)
      = -area2 ((a :: t).map toReal2) := by
    rw [← sum_trapezoid, hloop]; simp
  have hA : ((pathEdges ((a :: t).map toReal2)).map fun e => |trapezoid e|).sum +
      |trapezoid (toReal2 ((a :: t).getLast (by simp)), toReal2 a)| =
      ((loopEdges ((a :: t).map toReal2)).map fun e => |trapezoid e|).sum := by
    rw [hloop]; simp
  rw [hS, hA] at h3
  refine ⟨val (s + (a.x - ((a :: t).getLast (by simp)).x) * (((a :: t).getLast (by simp)).y + a.y)), ?_, ?_⟩
  · have := lt_iff h3.fin zero_val.1
    rw [zero_val.2] at this
    rw [decide_eq_decide.mpr this]
  · have := h3.err
    rw [sub_neg_eq_add] at this
    unfold ccwErr
    rw [List.length_map, List.length_cons]
    exact this

/-- **C113.** The orientation test answers, and answers correctly if the signed area is beyond the margin. -/
theorem C113_ccw {pts : List (V2 Float)} (h : pts ≠ []) (hn : pts.length ≤ 2 ^ 50)
    (hb : ∀ p ∈ pts, Bounded2 (2 ^ (480 : Int)) p) :
    ∃ r, isPolygonCcw pts = .ok r ∧ (ccwErr (pts.map toReal2) < area2 (pts.map toReal2) → r = true) ∧
      (area2 (pts.map toReal2) ≤ -ccwErr (pts.map toReal2) → r = false) := by
  obtain ⟨s, h1, h2⟩ := isPolygonCcw_float h hn hb
  refine ⟨_, h1, fun h' => ?_, fun h' => ?_⟩
  · have := abs_le.mp h2
    rw [decide_eq_true_iff]; linarith
  · have := abs_le.mp h2
    rw [decide_eq_false_iff_not, not_lt]; linarith

/-! ### Inside the margins -/

theorem F64.val_bits {b : UInt64} {m : Nat} {e : Int} {h : 0 < m}
    (hu : (Float.ofBits b).toModel.unpack = .finite .positive m e h) :
    IsFin (Float.ofBits b) ∧ val (Float.ofBits b) = m * 2 ^ e := by
  refine ⟨?_, ?_⟩
  · rw [fin_unpack, hu]; rfl
  · rw [val, hu, uval]

/-- A point with natural coordinates. -/
def F64.natPt (m n : Nat) : V2 Float := ⟨Float.ofNat m, Float.ofNat n⟩

theorem F64.natPt_real {m n : Nat} (hm : m < 2 ^ 53) (hn : n < 2 ^ 53) : toReal2 (natPt m n) = ⟨m, n⟩ := by
  show (⟨val (Float.ofNat m), val (Float.ofNat n)⟩ : V2 ℝ) = _
  rw [(ofNat_val hm).2, (ofNat_val hn).2]

theorem F64.natPt_bounded {m n : Nat} {k : Int} (hm : m < 2 ^ 53) (hn : n < 2 ^ 53) (hk : 53 ≤ k) :
    Bounded2 (2 ^ k) (natPt m n) := by
  have key : ∀ j : Nat, j < 2 ^ 53 → IsFin (Float.ofNat j) ∧ |val (Float.ofNat j)| ≤ 2 ^ k := by
    intro j hj
    refine ⟨(ofNat_val hj).1, ?_⟩
    rw [(ofNat_val hj).2, abs_of_nonneg (Nat.cast_nonneg _)]
    refine le_trans ?_ (two_zpow_le hk)
    have : (j : ℝ) ≤ ((2 ^ 53 : Nat) : ℝ) := by exact_mod_cast hj.le
    refine this.trans (le_of_eq ?_)
    norm_num
  exact ⟨key m hm, key n hn⟩

theorem F64.eta_small : eta ≤ eps := by
  rw [eta, eps]; exact two_zpow_le (by norm_num)

/-- **C113.** Inside the margin the classification can be wrong: the corner `(0, 0)`, `(2 ^ 27 + 1, 2 ^ 27)`,
`(2 ^ 28 + 1, 2 ^ 28 - 1)` of twice the area `-1` is called colinear. -/
theorem C113_convexity_wrong :
    computeConvexity (natPt 0 0) (natPt 134217729 134217728) (natPt 268435457 268435455) = .colinear ∧
    triArea2 (toReal2 (natPt 0 0)) (toReal2 (natPt 134217729 134217728)) (toReal2 (natPt 268435457 268435455)) = -1 := by
  constructor
  · decide +kernel
  · rw [natPt_real (by norm_num) (by norm_num), natPt_real (by norm_num) (by norm_num), natPt_real (by norm_num) (by norm_num)]
    norm_num [triArea2]

/-- **C113.** A point outside of a triangle that is found inside. -/
theorem C113_inside_wrong :
    isInsideTriangle (⟨24, 24⟩ : V2 Float) ⟨-24, -24⟩ ⟨24, -24⟩ ⟨Float.ofBits 0x3FE0000000000000, Float.ofBits 0x3FE0000000000001⟩ = true ∧
    ¬ InTriangle (toReal2 ⟨24, 24⟩) (toReal2 ⟨-24, -24⟩) (toReal2 ⟨24, -24⟩)
      (toReal2 ⟨Float.ofBits 0x3FE0000000000000, Float.ofBits 0x3FE0000000000001⟩) := by
  constructor
  · decide +kernel
  · rintro ⟨u, v, w, hu, hv, hw, h1, hx, hy⟩
    have e1 := (val_bits (b := 0x3FE0000000000000) (m := 2 ^ 52) (e := -53) (h := by norm_num) rfl).2
    have e2 := (val_bits (b := 0x3FE0000000000001) (m := 2 ^ 52 + 1) (e := -53) (h := by norm_num) rfl).2
    have e3 : val (24 : Float) = 24 := (ofNat_val (n := 24) (by norm_num)).2.trans (by norm_num)
    have e4 : val (-24 : Float) = -24 :=
      (neg_val (ofNat_val (n := 24) (by norm_num)).1).2.trans (congrArg Neg.neg e3)
    simp only [toReal2, e1, e2, e3, e4] at hx hy
    norm_num at hx hy
    linarith

/-- **C113.** A product of determinants can underflow: the segments from `(0, 0)` to `(4, 4)` and from `(3, 1)` to
`(4, 0)`, scaled by `2 ^ -300`, have no common point but are found to intersect. -/
theorem C113_segments_wrong : ∃ a b c d : V2 Float, isSegmentsIntersect a b c d = true ∧
    (∀ r : ℝ, r = 2 ^ (-300 : Int) → toReal2 a = ⟨0, 0⟩ ∧ toReal2 b = ⟨4 * r, 4 * r⟩ ∧ toReal2 c = ⟨3 * r, r⟩ ∧
      toReal2 d = ⟨4 * r, 0⟩) ∧
    ¬ ∃ p, OnSegment (toReal2 a) (toReal2 b) p ∧ OnSegment (toReal2 c) (toReal2 d) p := by
  have e1 := (val_bits (b := 0x2D30000000000000) (m := 2 ^ 52) (e := -352) (h := by norm_num) rfl).2
  have e3 := (val_bits (b := 0x2D48000000000000) (m := 3 * 2 ^ 51) (e := -351) (h := by norm_num) rfl).2
  have e4 := (val_bits (b := 0x2D50000000000000) (m := 2 ^ 52) (e := -350) (h := by norm_num) rfl).2
  have hr : ∀ r : ℝ, r = 2 ^ (-300 : Int) → val (Float.ofBits 0x2D30000000000000) = r ∧
      val (Float.ofBits 0x2D48000000000000) = 3 * r ∧ val (Float.ofBits 0x2D50000000000000) = 4 * r := by
    intro r hr
    have s1 : (2 : ℝ) ^ (-352 : Int) = r / 2 ^ 52 := by
      rw [hr, show (-352 : Int) = -300 - 52 by norm_num, zpow_sub₀ (by norm_num)]; rfl
    have s2 : (2 : ℝ) ^ (-351 : Int) = r / 2 ^ 51 := by
      rw [hr, show (-351 : Int) = -300 - 51 by norm_num, zpow_sub₀ (by norm_num)]; rfl
    have s3 : (2 : ℝ) ^ (-350 : Int) = r / 2 ^ 50 := by
      rw [hr, show (-350 : Int) = -300 - 50 by norm_num, zpow_sub₀ (by norm_num)]; rfl
    rw [e1, e3, e4, s1, s2, s3]
    push_cast
    refine ⟨?_, ?_, ?_⟩ <;> ring
  have hall : ∀ r : ℝ, r = 2 ^ (-300 : Int) → toReal2 ⟨0, 0⟩ = ⟨0, 0⟩ ∧
      toReal2 ⟨Float.ofBits 0x2D50000000000000, Float.ofBits 0x2D50000000000000⟩ = ⟨4 * r, 4 * r⟩ ∧
      toReal2 ⟨Float.ofBits 0x2D48000000000000, Float.ofBits 0x2D30000000000000⟩ = ⟨3 * r, r⟩ ∧
      toReal2 ⟨Float.ofBits 0x2D50000000000000, 0⟩ = ⟨4 * r, 0⟩ := by
    intro r h
    obtain ⟨h1, h3, h4⟩ := hr r h
    simp only [toReal2, h1, h3, h4, zero_val.2, and_self]
  refine ⟨⟨0, 0⟩, ⟨Float.ofBits 0x2D50000000000000, Float.ofBits 0x2D50000000000000⟩,
    ⟨Float.ofBits 0x2D48000000000000, Float.ofBits 0x2D30000000000000⟩, ⟨Float.ofBits 0x2D50000000000000, 0⟩,
    by decide +kernel, hall, ?_⟩
  obtain ⟨h1, h2, h3, h4⟩ := hall _ rfl
  rw [h1, h2, h3, h4]
  have hp := two_zpow_pos (-300)
  generalize (2 : ℝ) ^ (-300 : Int) = r at *
  rintro ⟨p, ⟨s, s0, s1, hx, hy⟩, ⟨t, t0, t1, hx', hy'⟩⟩
  simp only at hx hy hx' hy'
  nlinarith

/-- **C113.** A counter-clockwise triangle at `(2 ^ 53, 2 ^ 53)` that is not found to be one. -/
theorem C113_ccw_wrong : ∃ a b c : V2 Float, isPolygonCcw [a, b, c] = .ok false ∧
    toReal2 a = ⟨2 ^ 53, 2 ^ 53⟩ ∧ toReal2 b = ⟨2 ^ 53 + 2, 2 ^ 53⟩ ∧ toReal2 c = ⟨2 ^ 53, 2 ^ 53 + 2⟩ ∧
    area2 [toReal2 a, toReal2 b, toReal2 c] = 4 := by
  have e1 := (val_bits (b := 0x4340000000000000) (m := 2 ^ 52) (e := 1) (h := by norm_num) rfl).2
  have e2 := (val_bits (b := 0x4340000000000001) (m := 2 ^ 52 + 1) (e := 1) (h := by norm_num) rfl).2
  have v1 : val (Float.ofBits 0x4340000000000000) = 2 ^ 53 := by rw [e1]; norm_num
  have v2 : val (Float.ofBits 0x4340000000000001) = 2 ^ 53 + 2 := by rw [e2]; norm_num
  refine ⟨⟨Float.ofBits 0x4340000000000000, Float.ofBits 0x4340000000000000⟩,
    ⟨Float.ofBits 0x4340000000000001, Float.ofBits 0x4340000000000000⟩,
    ⟨Float.ofBits 0x4340000000000000, Float.ofBits 0x4340000000000001⟩, by decide +kernel, ?_, ?_, ?_, ?_⟩
  · rw [toReal2, v1]
  · rw [toReal2, v1, v2]
  · rw [toReal2, v1, v2]
  · simp only [toReal2, v1, v2]
    norm_num [area2, loopEdges, pathEdges, cross2]

/-- Non-vacuity of `C113_convexity_decides`: a right angle and its reverse. -/
example : computeConvexity (natPt 0 0) (natPt 4 0) (natPt 4 4) = .convex ∧
    computeConvexity (natPt 4 4) (natPt 4 0) (natPt 0 0) = .concave := by
  have h1 : computeConvexity (natPt 0 0) (natPt 4 0) (natPt 4 4) = .convex := by
    refine (C113_convexity_decides (natPt_bounded (by norm_num) (by norm_num) (by norm_num))
      (natPt_bounded (by norm_num) (by norm_num) (by norm_num)) (natPt_bounded (by norm_num) (by norm_num) (by norm_num))).1 ?_
    rw [natPt_real (by norm_num) (by norm_num), natPt_real (by norm_num) (by norm_num), natPt_real (by norm_num) (by norm_num),
      tol_val.2]
    have h1 := eps_le
    have h2 := eta_small
    have h3 : (7555786372591432 : ℝ) * 2 ^ (-76 : Int) ≤ 1 := by norm_num
    norm_num [orientErr, triArea2] at h3 ⊢
    linarith
  refine ⟨h1, ?_⟩
  rw [C113_convexity_reverse (natPt_bounded (by norm_num) (by norm_num) (by norm_num))
    (natPt_bounded (by norm_num) (by norm_num) (by norm_num)) (natPt_bounded (by norm_num) (by norm_num) (by norm_num)), h1]

/-- Non-vacuity of `C113_inside`. -/
example : isInsideTriangle (natPt 0 0) (natPt 8 0) (natPt 0 8) (natPt 2 3) = true := by
  refine (C113_inside (natPt_bounded (by norm_num) (by norm_num) (by norm_num))
    (natPt_bounded (by norm_num) (by norm_num) (by norm_num)) (natPt_bounded (by norm_num) (by norm_num) (by norm_num))
    (natPt_bounded (by norm_num) (by norm_num) (by norm_num))).1 ?_ ?_ ?_ <;>
  · rw [natPt_real (by norm_num) (by norm_num), natPt_real (by norm_num) (by norm_num), natPt_real (by norm_num) (by norm_num)]
    have h1 : eps ≤ 1 / 1000 := by rw [eps_eq]; norm_num
    have h2 := eta_small
    norm_num [orientErr, triArea2]
    linarith

/-- Non-vacuity of `C113_segments`: two crossing diagonals. -/
example : isSegmentsIntersect (natPt 0 0) (natPt 4 4) (natPt 4 0) (natPt 0 4) = true := by
  have h1 : eps ≤ 1 / 1000 := by rw [eps_eq]; norm_num
  have h2 := eta_small
  have h3 : (2 : ℝ) ^ (-537 : Int) ≤ 1 := by
    rw [show (1 : ℝ) = 2 ^ (0 : Int) by norm_num]; exact two_zpow_le (by norm_num)
  rw [C113_segments (natPt_bounded (by norm_num) (by norm_num) (by norm_num))
    (natPt_bounded (by norm_num) (by norm_num) (by norm_num)) (natPt_bounded (by norm_num) (by norm_num) (by norm_num))
    (natPt_bounded (by norm_num) (by norm_num) (by norm_num))]
  · simp only [natPt_real (show 0 < 2 ^ 53 by norm_num) (show 0 < 2 ^ 53 by norm_num),
      natPt_real (show 4 < 2 ^ 53 by norm_num) (show 4 < 2 ^ 53 by norm_num),
      natPt_real (show 4 < 2 ^ 53 by norm_num) (show 0 < 2 ^ 53 by norm_num),
      natPt_real (show 0 < 2 ^ 53 by norm_num) (show 4 < 2 ^ 53 by norm_num)]
    exact ⟨⟨2, 2⟩, ⟨1 / 2, by norm_num⟩, ⟨1 / 2, by norm_num⟩⟩
  all_goals
    simp only [natPt_real (show 0 < 2 ^ 53 by norm_num) (show 0 < 2 ^ 53 by norm_num),
      natPt_real (show 4 < 2 ^ 53 by norm_num) (show 4 < 2 ^ 53 by norm_num),
      natPt_real (show 4 < 2 ^ 53 by norm_num) (show 0 < 2 ^ 53 by norm_num),
      natPt_real (show 0 < 2 ^ 53 by norm_num) (show 4 < 2 ^ 53 by norm_num), Clear, orientErr, triArea2, V2.sub_x, V2.sub_y]
    generalize (2 : ℝ) ^ (-537 : Int) = z at *
    norm_num
    constructor <;> linarith

/-- Non-vacuity of `C113_ccw`. -/
example : isPolygonCcw [natPt 0 0, natPt 4 0, natPt 4 4, natPt 0 4] = .ok true := by
  obtain ⟨r, h, ht, _⟩ := C113_ccw (pts := [natPt 0 0, natPt 4 0, natPt 4 4, natPt 0 4]) (by simp) (by norm_num) (by
    intro p hp
    simp only [List.mem_cons, List.not_mem_nil, or_false] at hp
    rcases hp with rfl | rfl | rfl | rfl <;> exact natPt_bounded (by norm_num) (by norm_num) (by norm_num))
  rw [h, ht]
  have h1 : eps ≤ 1 / 100000 := by rw [eps_eq]; norm_num
  have h2 := eta_small
  have h3 := eta_pos
  have h4 := eps_pos
  simp only [List.map_cons, List.map_nil, natPt_real (show 0 < 2 ^ 53 by norm_num) (show 0 < 2 ^ 53 by norm_num),
      natPt_real (show 4 < 2 ^ 53 by norm_num) (show 4 < 2 ^ 53 by norm_num),
      natPt_real (show 4 < 2 ^ 53 by norm_num) (show 0 < 2 ^ 53 by norm_num),
      natPt_real (show 0 < 2 ^ 53 by norm_num) (show 4 < 2 ^ 53 by norm_num)]
  norm_num [ccwErr, area2, loopEdges, pathEdges, cross2, trapezoid]
  linarith

end Geom3d
