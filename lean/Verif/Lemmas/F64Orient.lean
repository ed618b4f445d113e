import Verif.Lemmas.F64BSpline
import Verif.Lemmas.F64Dist

/-!
# Planar determinants in binary64
-/

namespace Geom3d.F64
open Float.Model Float.Model.UnpackedFloat

/-- The real point of a planar point with finite coordinates. -/
noncomputable def toReal2 (p : V2 Float) : V2 ℝ := ⟨val p.x, val p.y⟩

/-- Both coordinates are finite and at most `M` in absolute value. -/
def Bounded2 (M : ℝ) (p : V2 Float) : Prop := (IsFin p.x ∧ |val p.x| ≤ M) ∧ (IsFin p.y ∧ |val p.y| ≤ M)

theorem Bounded2.mono {M N : ℝ} {p : V2 Float} (h : Bounded2 M p) (hMN : M ≤ N) : Bounded2 N p :=
  ⟨⟨h.1.1, h.1.2.trans hMN⟩, ⟨h.2.1, h.2.2.trans hMN⟩⟩

theorem eps_le : eps ≤ 1 / 16 := by rw [eps_eq]; norm_num

/-- Differences of coordinates. -/
theorem sub_scaled {a b : Float} {k : Int} (hk0 : -1074 ≤ k) (hk : k ≤ 1000) (ha : IsFin a) (hb : IsFin b) (ba : |val a| ≤ 2 ^ k)
    (bb : |val b| ≤ 2 ^ k) : IsFin (a - b) ∧ |val (a - b)| ≤ 2 ^ (k + 1) ∧
      |val (a - b) - (val a - val b)| ≤ eps * |val a - val b| ∧ val (a - b) = rnd (val a - val b) := by
  have h1 : |val a - val b| ≤ 2 ^ (k + 1) := by
    refine (abs_sub _ _).trans ?_
    rw [show k + 1 = 1 + k by ring, ← two_mul_zpow]
    linarith
  have h2 : |val a - val b| ≤ maxFinite := small_le_max (h1.trans (two_zpow_le (by omega)))
  obtain ⟨f, r⟩ := sub_rounds ha hb h2
  exact ⟨f, r.abs_le (rep_pow _ (by omega)) h1, sub_err ha hb h2, r.eq⟩

/-- Sums of coordinates. -/
theorem add_scaled {a b : Float} {k : Int} (hk0 : -1074 ≤ k) (hk : k ≤ 1000) (ha : IsFin a) (hb : IsFin b) (ba : |val a| ≤ 2 ^ k)
    (bb : |val b| ≤ 2 ^ k) : IsFin (a + b) ∧ |val (a + b)| ≤ 2 ^ (k + 1) ∧
      |val (a + b) - (val a + val b)| ≤ eps * |val a + val b| := by
  have h1 : |val a + val b| ≤ 2 ^ (k + 1) := by
    refine (abs_add_le _ _).trans ?_
    rw [show k + 1 = 1 + k by ring, ← two_mul_zpow]
    linarith
  have h2 : |val a + val b| ≤ maxFinite := small_le_max (h1.trans (two_zpow_le (by omega)))
  obtain ⟨f, r⟩ := add_rounds ha hb h2
  exact ⟨f, r.abs_le (rep_pow _ (by omega)) h1, add_err ha hb h2⟩

/-- Products of two factors with a relative error of one rounding each. -/
theorem mul_scaled {x y : Float} {X Y : ℝ} {k : Int} (hk0 : 0 ≤ k) (hk : k ≤ 511) (fx : IsFin x) (fy : IsFin y)
    (bx : |val x| ≤ 2 ^ k) (by' : |val y| ≤ 2 ^ k) (ex : |val x - X| ≤ eps * |X|) (ey : |val y - Y| ≤ eps * |Y|) :
    IsFin (x * y) ∧ |val (x * y)| ≤ 2 ^ (k + k) ∧
      |val (x * y) - X * Y| ≤ (3 * eps + 4 * eps ^ 2) * |X * Y| + eta ∧ val (x * y) = rnd (val x * val y) := by
  have h1 : |val x * val y| ≤ 2 ^ (k + k) := by
    rw [abs_mul, zpow_add₀ (by norm_num)]
    exact mul_le_mul bx by' (abs_nonneg _) (two_zpow_pos _).le
  obtain ⟨f, r⟩ := mul_rounds fx fy (small_le_max (h1.trans (two_zpow_le (by omega))))
  refine ⟨f, r.abs_le (rep_pow _ (by omega)) h1, ?_, r.eq⟩
  have e0 := eps_pos
  have e1 := eps_le
  have hX := abs_nonneg X
  have hY := abs_nonneg Y
  have u : |val x * val y - X * Y| ≤ (2 * eps + eps ^ 2) * (|X| * |Y|) := by
    have e : val x * val y - X * Y = (val x - X) * (val y - Y) + (val x - X) * Y + X * (val y - Y) := by ring
    rw [e]
    refine (abs_add_le _ _).trans ((add_le_add_left (abs_add_le _ _) _).trans ?_)
    rw [abs_mul, abs_mul, abs_mul]
    have m1 := mul_le_mul ex ey (abs_nonneg _) (by positivity)
    have m2 := mul_le_mul_of_nonneg_right ex hY
    have m3 := mul_le_mul_of_nonneg_left ey hX
    nlinarith
  have v : |val x * val y| ≤ (1 + 2 * eps + eps ^ 2) * (|X| * |Y|) := by
    have := abs_sub_abs_le_abs_sub (val x * val y) (X * Y)
    rw [abs_mul X Y] at this
    nlinarith
  have w := r.bound
  have t := abs_sub_le (val (x * y)) (val x * val y) (X * Y)
  have hXY : 0 ≤ |X| * |Y| := mul_nonneg hX hY
  rw [abs_mul X Y]
  have e2 : eps * |val x * val y| ≤ eps * ((1 + 2 * eps + eps ^ 2) * (|X| * |Y|)) := mul_le_mul_of_nonneg_left v e0.le
  have e3 : eps ^ 3 * (|X| * |Y|) ≤ eps ^ 2 * (|X| * |Y|) :=
    mul_le_mul_of_nonneg_right (pow_le_pow_of_le_one e0.le (by linarith) (by norm_num)) hXY
  nlinarith

/-- The error bound of a determinant. -/
noncomputable def orientErr (P Q : V2 ℝ) : ℝ := 5 * eps * (|P.x * Q.y| + |P.y * Q.x|) + 3 * eta

/-- The determinant of two differences of points. -/
theorem perp_scaled {k : Int} (hk0 : 0 ≤ k) (hk : k ≤ 509) {a b c d : V2 Float} (ha : Bounded2 (2 ^ k) a)
    (hb : Bounded2 (2 ^ k) b) (hc : Bounded2 (2 ^ k) c) (hd : Bounded2 (2 ^ k) d) :
    IsFin ((b - a).perpDot (d - c)) ∧ |val ((b - a).perpDot (d - c))| ≤ 2 ^ (k + k + 3) ∧
      |val ((b - a).perpDot (d - c)) - (toReal2 b - toReal2 a).perpDot (toReal2 d - toReal2 c)| ≤
        orientErr (toReal2 b - toReal2 a) (toReal2 d - toReal2 c) ∧
      val ((b - a).perpDot (d - c)) = rnd (rnd (rnd (val b.x - val a.x) * rnd (val d.y - val c.y)) -
        rnd (rnd (val b.y - val a.y) * rnd (val d.x - val c.x))) := by
  obtain ⟨⟨ax, bax⟩, ⟨ay, bay⟩⟩ := ha
  obtain ⟨⟨bx, bbx⟩, ⟨by', bby⟩⟩ := hb
  obtain ⟨⟨cx, bcx⟩, ⟨cy, bcy⟩⟩ := hc
  obtain ⟨⟨dx, bdx⟩, ⟨dy, bdy⟩⟩ := hd
  obtain ⟨f1, b1, e1, q1⟩ := sub_scaled (by omega) (by omega) bx ax bbx bax
  obtain ⟨f2, b2, e2, q2⟩ := sub_scaled (by omega) (by omega) by' ay bby bay
  obtain ⟨f3, b3, e3, q3⟩ := sub_scaled (by omega) (by omega) dx cx bdx bcx
  obtain ⟨f4, b4, e4, q4⟩ := sub_scaled (by omega) (by omega) dy cy bdy bcy
  obtain ⟨g1, c1, s1, r1⟩ := mul_scaled (by omega) (by omega) f1 f4 b1 b4 e1 e4
  obtain ⟨g2, c2, s2, r2⟩ := mul_scaled (by omega) (by omega) f2 f3 b2 b3 e2 e3
  have hb' : |val ((b.x - a.x) * (d.y - c.y)) - val ((b.y - a.y) * (d.x - c.x))| ≤ 2 ^ (k + k + 3) := by
    refine (abs_sub _ _).trans ?_
    rw [show k + k + 3 = 1 + (k + 1 + (k + 1)) by ring, ← two_mul_zpow]
    linarith
  have hmax := small_le_max (hb'.trans (two_zpow_le (by omega)))
  obtain ⟨f, r⟩ := sub_rounds g1 g2 hmax
  have w := sub_err g1 g2 hmax
  refine ⟨f, r.abs_le (rep_pow _ (by omega)) hb', ?_, ?_⟩
  · show |val ((b.x - a.x) * (d.y - c.y) - (b.y - a.y) * (d.x - c.x)) - ((val b.x - val a.x) * (val d.y - val c.y) -
      (val b.y - val a.y) * (val d.x - val c.x))| ≤ 5 * eps * (|(val b.x - val a.x) * (val d.y - val c.y)| +
        |(val b.y - val a.y) * (val d.x - val c.x)|) + 3 * eta
    generalize val ((b.x - a.x) * (d.y - c.y) - (b.y - a.y) * (d.x - c.x)) = p at *
    generalize val ((b.x - a.x) * (d.y - c.y)) = m1 at *
    generalize val ((b.y - a.y) * (d.x - c.x)) = m2 at *
    generalize (val b.x - val a.x) * (val d.y - val c.y) = M1 at *
    generalize (val b.y - val a.y) * (val d.x - val c.x) = M2 at *
    have e0 := eps_pos
    have e1 := eps_le
    have n0 := eta_pos
    have t1 : |m1 - m2 - (M1 - M2)| ≤ (3 * eps + 4 * eps ^ 2) * (|M1| + |M2|) + 2 * eta := by
      have : m1 - m2 - (M1 - M2) = (m1 - M1) - (m2 - M2) := by ring
      rw [this]
      exact (abs_sub _ _).trans (by linarith)
    have t2 : |m1 - m2| ≤ |M1| + |M2| + ((3 * eps + 4 * eps ^ 2) * (|M1| + |M2|) + 2 * eta) := by
      have h1 := abs_sub_abs_le_abs_sub (m1 - m2) (M1 - M2)
      have h2 := abs_sub M1 M2
      linarith
    have t3 := abs_sub_le p (m1 - m2) (M1 - M2)
    have t4 := mul_le_mul_of_nonneg_left t2 e0.le
    have hS : 0 ≤ |M1| + |M2| := add_nonneg (abs_nonneg _) (abs_nonneg _)
    generalize |M1| + |M2| = S at *
    have e2 : eps * eta ≤ 1 / 16 * eta := mul_le_mul_of_nonneg_right e1 n0.le
    have e3 : eps ^ 2 * S ≤ 1 / 16 * (eps * S) := by
      rw [pow_two, mul_assoc]; exact mul_le_mul_of_nonneg_right e1 (mul_nonneg e0.le hS)
    have e4 : eps ^ 3 * S ≤ 1 / 16 * (eps ^ 2 * S) := by
      rw [pow_succ', mul_assoc]; exact mul_le_mul_of_nonneg_right e1 (by positivity)
    nlinarith
  · have hr := r.eq
    rw [r1, r2, q1, q2, q3, q4] at hr
    exact hr

/-- Reversing both differences and exchanging them only changes the sign. -/
theorem perp_swap {k : Int} (hk0 : 0 ≤ k) (hk : k ≤ 509) {a b c d : V2 Float} (ha : Bounded2 (2 ^ k) a)
    (hb : Bounded2 (2 ^ k) b) (hc : Bounded2 (2 ^ k) c) (hd : Bounded2 (2 ^ k) d) :
    val ((d - c).perpDot (b - a)) = -val ((b - a).perpDot (d - c)) := by
  rw [(perp_scaled hk0 hk ha hb hc hd).2.2.2, (perp_scaled hk0 hk hc hd ha hb).2.2.2, ← rnd_neg, neg_sub]
  congr 1
  rw [mul_comm (rnd (val d.x - val c.x)), mul_comm (rnd (val d.y - val c.y))]

theorem perp_neg_left {k : Int} (hk0 : 0 ≤ k) (hk : k ≤ 509) {a b c d : V2 Float} (ha : Bounded2 (2 ^ k) a)
    (hb : Bounded2 (2 ^ k) b) (hc : Bounded2 (2 ^ k) c) (hd : Bounded2 (2 ^ k) d) :
    val ((a - b).perpDot (d - c)) = -val ((b - a).perpDot (d - c)) := by
  rw [(perp_scaled hk0 hk ha hb hc hd).2.2.2, (perp_scaled hk0 hk hb ha hc hd).2.2.2, ← rnd_neg, neg_sub,
    ← neg_sub (val b.x), ← neg_sub (val b.y), rnd_neg, rnd_neg, neg_mul, neg_mul, rnd_neg, rnd_neg]
  congr 1
  ring

theorem perp_neg_right {k : Int} (hk0 : 0 ≤ k) (hk : k ≤ 509) {a b c d : V2 Float} (ha : Bounded2 (2 ^ k) a)
    (hb : Bounded2 (2 ^ k) b) (hc : Bounded2 (2 ^ k) c) (hd : Bounded2 (2 ^ k) d) :
    val ((b - a).perpDot (c - d)) = -val ((b - a).perpDot (d - c)) := by
  rw [perp_swap hk0 hk hd hc ha hb, perp_neg_left hk0 hk hc hd ha hb, perp_swap hk0 hk ha hb hc hd, neg_neg]

end Geom3d.F64
