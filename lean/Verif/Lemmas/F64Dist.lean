import Verif.Lemmas.F64Order
import Mathlib.Tactic.LinearCombination

/-!
# Sums and squared lengths in binary64
-/

namespace Geom3d.F64
open Float.Model

theorem rep_multiple {c : ℝ} (h : Rep c) : ∃ k : Int, c = k * 2 ^ (-1074 : Int) := by
  obtain ⟨k, e, _, he, rfl⟩ := h
  obtain ⟨n, rfl⟩ : ∃ n : Nat, e = -1074 + n := ⟨(e + 1074).toNat, by omega⟩
  refine ⟨k * 2 ^ n, ?_⟩
  rw [zpow_nat_mul]
  push_cast
  ring

/-- A sum or difference of binary64 numbers never suffers from underflow. -/
theorem Rounds.sum_err {k : Int} {X v : ℝ} (h : Rounds X v) (hX : X = k * 2 ^ (-1074 : Int)) :
    |v - X| ≤ eps * |X| := by
  by_cases hk : |k| ≤ 2 ^ 53
  · rw [h.of_rep ⟨k, -1074, hk, le_rfl, hX⟩, sub_self, abs_zero]
    exact mul_nonneg eps_pos.le (abs_nonneg _)
  · refine h.err.trans (max_le le_rfl ?_)
    have h1 : ((2 : ℝ) ^ 53) ≤ |(k : ℝ)| := by
      rw [← Int.cast_abs]; exact_mod_cast (not_le.mp hk).le
    have hp := two_zpow_pos (-1074)
    have h2 : |X| = |(k : ℝ)| * 2 ^ (-1074 : Int) := by rw [hX, abs_mul, abs_of_pos hp]
    have h3 : (2 : ℝ) ^ 53 * 2 ^ (-1074 : Int) ≤ |X| := by
      rw [h2]; exact mul_le_mul_of_nonneg_right h1 hp.le
    have h4 : eta = (1 / 2) * 2 ^ (-1074 : Int) := by
      rw [eta, show (-1075 : Int) = -1 + -1074 by norm_num, zpow_add₀ (by norm_num)]; norm_num
    have h5 : eps * (2 : ℝ) ^ 53 = 1 := by rw [eps_eq]; norm_num
    calc eta ≤ 1 * 2 ^ (-1074 : Int) := by rw [h4]; exact mul_le_mul_of_nonneg_right (by norm_num) hp.le
      _ = eps * ((2 : ℝ) ^ 53 * 2 ^ (-1074 : Int)) := by rw [← mul_assoc, h5]
      _ ≤ eps * |X| := mul_le_mul_of_nonneg_left h3 eps_pos.le

theorem add_err {a b : Float} (ha : IsFin a) (hb : IsFin b) (h : |val a + val b| ≤ maxFinite) :
    |val (a + b) - (val a + val b)| ≤ eps * |val a + val b| := by
  obtain ⟨k, hk⟩ := rep_multiple (val_rep ha)
  obtain ⟨l, hl⟩ := rep_multiple (val_rep hb)
  exact (add_rounds ha hb h).2.sum_err (k := k + l) (by rw [hk, hl]; push_cast; ring)

theorem sub_err {a b : Float} (ha : IsFin a) (hb : IsFin b) (h : |val a - val b| ≤ maxFinite) :
    |val (a - b) - (val a - val b)| ≤ eps * |val a - val b| := by
  obtain ⟨k, hk⟩ := rep_multiple (val_rep ha)
  obtain ⟨l, hl⟩ := rep_multiple (val_rep hb)
  exact (sub_rounds ha hb h).2.sum_err (k := k - l) (by rw [hk, hl]; push_cast; ring)

theorem two_zpow_le {a b : Int} (h : a ≤ b) : (2 : ℝ) ^ a ≤ 2 ^ b := zpow_le_zpow_right₀ (by norm_num) h

theorem two_mul_zpow (a : Int) : 2 * (2 : ℝ) ^ a = 2 ^ (1 + a) := by
  rw [zpow_add₀ (by norm_num), zpow_one]

/-- Differences of moderately large coordinates. -/
theorem sub_bounded {a b : Float} (ha : IsFin a) (hb : IsFin b) (ba : |val a| ≤ 2 ^ (509 : Int))
    (bb : |val b| ≤ 2 ^ (509 : Int)) : IsFin (a - b) ∧ |val (a - b)| ≤ 2 ^ (510 : Int) ∧
      |val (a - b) - (val a - val b)| ≤ eps * |val a - val b| := by
  have h1 : |val a - val b| ≤ 2 ^ (510 : Int) := by
    refine (abs_sub _ _).trans ?_
    rw [show (510 : Int) = 1 + 509 by norm_num, ← two_mul_zpow]
    linarith
  have h2 : |val a - val b| ≤ maxFinite := small_le_max (h1.trans (two_zpow_le (by norm_num)))
  obtain ⟨f, r⟩ := sub_rounds ha hb h2
  exact ⟨f, r.abs_le (rep_pow _ (by norm_num)) h1, sub_err ha hb h2⟩

/-- Squares of differences. -/
theorem sq_bounded {d : Float} {D : ℝ} (hd : IsFin d) (bd : |val d| ≤ 2 ^ (510 : Int))
    (he : |val d - D| ≤ eps * |D|) : IsFin (d * d) ∧ 0 ≤ val (d * d) ∧ val (d * d) ≤ 2 ^ (1020 : Int) ∧
      Apx (4 * eps) eta (D * D) (val (d * d)) := by
  have h0 : 0 ≤ val d * val d := mul_self_nonneg _
  have h1 : val d * val d ≤ 2 ^ (1020 : Int) := by
    rw [show (1020 : Int) = 510 + 510 by norm_num, zpow_add₀ (by norm_num), ← abs_mul_abs_self]
    exact mul_self_le_mul_self (abs_nonneg _) bd
  obtain ⟨f, r⟩ := mul_rounds hd hd (small_le_max (by rw [abs_of_nonneg h0]; exact h1.trans (two_zpow_le (by norm_num))))
  refine ⟨f, r.nonneg h0, r.le _ (rep_pow _ (by norm_num)) h1, ?_⟩
  have ha : Apx (2 * eps + eps ^ 2) 0 (D * D) (val d * val d) := by
    unfold Apx
    have e1 : val d * val d - D * D = (val d - D) * (val d - D) + 2 * D * (val d - D) := by ring
    rw [e1]
    refine (abs_add_le _ _).trans ?_
    rw [abs_mul, abs_mul, abs_mul, show |(2 : ℝ)| = 2 by norm_num]
    have hD := abs_mul_abs_self D
    have hp := abs_nonneg D
    have hq := abs_nonneg (val d - D)
    have e2 : |val d - D| * |val d - D| ≤ eps * |D| * (eps * |D|) := mul_self_le_mul_self hq he
    have e3 : 2 * |D| * |val d - D| ≤ 2 * |D| * (eps * |D|) := mul_le_mul_of_nonneg_left he (by linarith)
    calc _ ≤ eps * |D| * (eps * |D|) + 2 * |D| * (eps * |D|) := add_le_add e2 e3
      _ = (2 * eps + eps ^ 2) * (|D| * |D|) + 0 := by ring
      _ = _ := by rw [hD]
  refine (ha.round h0 r).mono (mul_self_nonneg D) ?_ (by rw [mul_zero, zero_add])
  have := eps_pos
  have : eps ≤ 1 / 16 := by rw [eps_eq]; norm_num
  nlinarith

/-- The squared length of a difference of points with coordinates up to `2 ^ 509`: no overflow, no sign, and a
relative error of at most `2 ^ -50` next to the underflow. -/
theorem lengthSq_apx {p q : V3 Float} (hp : Bounded (2 ^ (509 : Int)) p) (hq : Bounded (2 ^ (509 : Int)) q) :
    IsFin (p - q).lengthSq ∧ 0 ≤ val (p - q).lengthSq ∧ val (p - q).lengthSq ≤ 2 ^ (1022 : Int) ∧
      Apx (8 * eps) (8 * eta) (toReal p - toReal q).lengthSq (val (p - q).lengthSq) := by
  obtain ⟨⟨px, bpx⟩, ⟨py, bpy⟩, ⟨pz, bpz⟩⟩ := hp
  obtain ⟨⟨qx, bqx⟩, ⟨qy, bqy⟩, ⟨qz, bqz⟩⟩ := hq
  obtain ⟨fx, bx, ex⟩ := sub_bounded px qx bpx bqx
  obtain ⟨fy, by', ey⟩ := sub_bounded py qy bpy bqy
  obtain ⟨fz, bz, ez⟩ := sub_bounded pz qz bpz bqz
  obtain ⟨gx, nx, ux, ax⟩ := sq_bounded fx bx ex
  obtain ⟨gy, ny, uy, ay⟩ := sq_bounded fy by' ey
  obtain ⟨gz, nz, uz, az⟩ := sq_bounded fz bz ez
  have e1021 : (2 : ℝ) ^ (1021 : Int) = 2 * 2 ^ (1020 : Int) := by rw [two_mul_zpow]; rfl
  have e1022 : (2 : ℝ) ^ (1022 : Int) = 2 * 2 ^ (1021 : Int) := by rw [two_mul_zpow]; rfl
  have s1 : val ((p.x - q.x) * (p.x - q.x)) + val ((p.y - q.y) * (p.y - q.y)) ≤ 2 ^ (1021 : Int) := by
    rw [e1021, two_mul]; exact add_le_add ux uy
  have s0 : 0 ≤ val ((p.x - q.x) * (p.x - q.x)) + val ((p.y - q.y) * (p.y - q.y)) := by linarith
  obtain ⟨g1, r1⟩ := add_rounds gx gy (small_le_max (by rw [abs_of_nonneg s0]; exact s1.trans (two_zpow_le (by norm_num))))
  have u1 := r1.le _ (rep_pow _ (by norm_num)) s1
  have n1 := r1.nonneg s0
  have p20 := two_zpow_pos 1020
  have s2 : val ((p.x - q.x) * (p.x - q.x) + (p.y - q.y) * (p.y - q.y)) + val ((p.z - q.z) * (p.z - q.z)) ≤ 2 ^ (1022 : Int) := by
    rw [e1022, two_mul]; exact add_le_add u1 (uz.trans (two_zpow_le (by norm_num)))
  have s20 : 0 ≤ val ((p.x - q.x) * (p.x - q.x) + (p.y - q.y) * (p.y - q.y)) + val ((p.z - q.z) * (p.z - q.z)) := by linarith
  obtain ⟨g2, r2⟩ := add_rounds g1 gz (small_le_max (by rw [abs_of_nonneg s20]; exact s2.trans (two_zpow_le (by norm_num))))
  have u2 := r2.le _ (rep_pow _ (by norm_num)) s2
  refine ⟨g2, r2.nonneg s20, u2, ?_⟩
  clear u1 u2 s1 s2 ux uy uz e1021 e1022 p20 bpx bpy bpz bqx bqy bqz bx by' bz
  have hX := mul_self_nonneg (val p.x - val q.x)
  have hY := mul_self_nonneg (val p.y - val q.y)
  have hZ := mul_self_nonneg (val p.z - val q.z)
  have he := eps_pos
  have he' : eps ≤ 1 / 16 := by rw [eps_eq]; norm_num
  have hn := eta_pos
  have a1 : Apx (6 * eps) (4 * eta) ((val p.x - val q.x) * (val p.x - val q.x) + (val p.y - val q.y) * (val p.y - val q.y))
      (val ((p.x - q.x) * (p.x - q.x) + (p.y - q.y) * (p.y - q.y))) :=
    ((ax.add ay).round s0 r1).mono (by linarith) (by nlinarith) (by nlinarith)
  exact ((a1.add (az.mono hZ (show 4 * eps ≤ 6 * eps by linarith) le_rfl)).round s20 r2).mono (by
    show 0 ≤ (val p.x - val q.x) * (val p.x - val q.x) + (val p.y - val q.y) * (val p.y - val q.y) + (val p.z - val q.z) * (val p.z - val q.z)
    linarith) (by nlinarith) (by nlinarith)

theorem maxV_val : IsFin (Env.maxV : Float) ∧ val (Env.maxV : Float) = maxFinite := by
  have h : (Env.maxV : Float).toModel.unpack = .finite .positive (2 ^ 53 - 1) 971 (by norm_num) := rfl
  unfold val
  rw [fin_unpack, h, uval_finite]
  exact ⟨rfl, by simp only [signed, maxFinite]; push_cast; norm_num⟩

theorem minV_val : IsFin (Env.minV : Float) ∧ val (Env.minV : Float) = -maxFinite := by
  have h : (Env.minV : Float).toModel.unpack = .finite .negative (2 ^ 53 - 1) 971 (by norm_num) := rfl
  unfold val
  rw [fin_unpack, h, uval_finite]
  exact ⟨rfl, by simp only [signed, maxFinite]; push_cast; norm_num⟩

end Geom3d.F64
