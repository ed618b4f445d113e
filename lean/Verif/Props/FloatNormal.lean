import Verif.Props.FloatDeriv
import Verif.Props.Orientation
import Verif.Props.Subdivide

/-! # C130: normals of B-spline surfaces in binary64 -/

namespace Geom3d
open F64 Spec

/-! ### Cross products -/

theorem F64.eta_le_eps : eta ≤ eps := two_zpow_le (by norm_num)

/-- A product of two inexact numbers. -/
theorem F64.product_err {x y : Float} {X Y e f α β : ℝ} (fx : IsFin x) (fy : IsFin y) (ex : |val x - X| ≤ e) (ey : |val y - Y| ≤ f)
    (hX : |X| ≤ α) (hy : |val y| ≤ β) (hx : |val x| ≤ α) (hm : α * β ≤ 2 ^ (1000 : Int)) :
    IsFin (x * y) ∧ |val (x * y) - X * Y| ≤ (e * β + f * α) + eps * (α * β) + eta ∧ |val (x * y)| ≤ (1 + eps) * (α * β) + eta := by
  have hα : 0 ≤ α := (abs_nonneg _).trans hX
  have hβ : 0 ≤ β := (abs_nonneg _).trans hy
  have h1 : |val x * val y| ≤ α * β := by rw [abs_mul]; exact mul_le_mul hx hy (abs_nonneg _) hα
  obtain ⟨g, r⟩ := mul_rounds fx fy (small_le_max ((h1.trans hm).trans (two_zpow_le (by norm_num))))
  have hb := r.bound
  have hε := mul_le_mul_of_nonneg_left h1 eps_pos.le
  refine ⟨g, ?_, ?_⟩
  · have h2 : |val x * val y - X * Y| ≤ e * β + f * α := by
      rw [show val x * val y - X * Y = (val x - X) * val y + X * (val y - Y) by ring]
      refine (abs_add_le _ _).trans ?_
      rw [abs_mul, abs_mul, mul_comm f α]
      exact add_le_add (mul_le_mul ex hy (abs_nonneg _) ((abs_nonneg _).trans ex)) (mul_le_mul hX ey (abs_nonneg _) hα)
    have := abs_sub_le (val (x * y)) (val x * val y) (X * Y)
    linarith
  · have := abs_sub_abs_le_abs_sub (val (x * y)) (val x * val y)
    linarith

/-- One coordinate of a cross product. -/
theorem F64.cross_coordinate {a b c d : Float} {A B C D e f α β : ℝ} (fa : IsFin a) (fb : IsFin b) (fc : IsFin c) (fd : IsFin d)
    (ea : |val a - A| ≤ e) (eb : |val b - B| ≤ f) (ec : |val c - C| ≤ f) (ed : |val d - D| ≤ e)
    (hA : |A| ≤ α) (hC : |C| ≤ β) (ha : |val a| ≤ α) (hb : |val b| ≤ β) (hc : |val c| ≤ β) (hd : |val d| ≤ α)
    (hm : α * β ≤ 2 ^ (1000 : Int)) :
    IsFin (a * b - c * d) ∧ |val (a * b - c * d) - (A * B - C * D)| ≤ 2 * (e * β + f * α) + 5 * eps * (α * β) + 3 * eta := by
  have hε := eps_pos
  have hη := eta_pos
  have hs : eps ≤ 1 / 1000 := by rw [eps_eq]; norm_num
  have hα : 0 ≤ α := (abs_nonneg _).trans hA
  have hβ : 0 ≤ β := (abs_nonneg _).trans hC
  have hαβ : 0 ≤ α * β := mul_nonneg hα hβ
  obtain ⟨g1, e1, b1⟩ := product_err fa fb ea eb hA hb ha hm
  obtain ⟨g2, e2, b2⟩ := product_err fc fd ec ed hC hd hc (by rw [mul_comm]; exact hm)
  rw [mul_comm β α] at e2 b2
  have hx : |val (a * b) - val (c * d)| ≤ 2 * ((1 + eps) * (α * β) + eta) := by
    refine (abs_sub _ _).trans ?_
    linarith
  have hx' : |val (a * b) - val (c * d)| ≤ 2 ^ (1002 : Int) := by
    refine hx.trans ?_
    have h4 : (2 : ℝ) ^ (1002 : Int) = 4 * 2 ^ (1000 : Int) := by
      rw [show (1002 : Int) = 2 + 1000 by norm_num, zpow_add₀ (by norm_num)]; norm_num
    have h1 : (1 : ℝ) ≤ 2 ^ (1000 : Int) := one_le_zpow₀ (by norm_num) (by norm_num)
    have h2 : eta ≤ 1 / 1000 := eta_le_eps.trans hs
    have h3 : eps * (α * β) ≤ 1 / 1000 * (α * β) := mul_le_mul_of_nonneg_right hs hαβ
    rw [h4]
    clear h4 hx
    generalize (2 : ℝ) ^ (1000 : Int) = X at *
    nlinarith
  have hmax := small_le_max (hx'.trans (two_zpow_le (by norm_num)))
  obtain ⟨g, -⟩ := sub_rounds g1 g2 hmax
  have hr := sub_err g1 g2 hmax
  refine ⟨g, ?_⟩
  have t1 := abs_sub_le (val (a * b - c * d)) (val (a * b) - val (c * d)) (A * B - C * D)
  have t2 : |val (a * b) - val (c * d) - (A * B - C * D)| ≤ |val (a * b) - A * B| + |val (c * d) - C * D| := by
    rw [show val (a * b) - val (c * d) - (A * B - C * D) = (val (a * b) - A * B) - (val (c * d) - C * D) by ring]
    exact abs_sub _ _
  have t3 := mul_le_mul_of_nonneg_left hx hε.le
  clear hx hx' hmax hm b1 b2
  have t4 : eps * (eps * (α * β)) ≤ 1 / 1000 * (eps * (α * β)) := mul_le_mul_of_nonneg_right hs (mul_nonneg hε.le hαβ)
  have t5 : eps * eta ≤ 1 / 1000 * eta := mul_le_mul_of_nonneg_right hs hη.le
  have t6 := mul_nonneg hε.le hαβ
  linarith

/-- The computed cross product of two inexact vectors. -/
theorem F64.cross_near {a b : V3 Float} {A B : V3 ℝ} {e f Da Db : ℝ} (ha : Near e a A) (hb : Near f b B)
    (hA : Within Da A) (hB : Within Db B) (hm : (Da + e) * (Db + f) ≤ 2 ^ (1000 : Int)) :
    Near (2 * (e * (Db + f) + f * (Da + e)) + 5 * eps * ((Da + e) * (Db + f)) + 3 * eta) (a.cross b) (A.cross B) := by
  have he : 0 ≤ e := (abs_nonneg _).trans ha.1.2
  have hf : 0 ≤ f := (abs_nonneg _).trans hb.1.2
  obtain ⟨⟨ax, bx⟩, ⟨ay, by'⟩, ⟨az, bz⟩⟩ := F64.Near.within ha hA
  obtain ⟨⟨cx, dx⟩, ⟨cy, dy⟩, ⟨cz, dz⟩⟩ := F64.Near.within hb hB
  have up : ∀ {v : ℝ}, |v| ≤ Da → |v| ≤ Da + e := fun h => by linarith
  have up' : ∀ {v : ℝ}, |v| ≤ Db → |v| ≤ Db + f := fun h => by linarith
  exact ⟨cross_coordinate ay cz cy az ha.2.1.2 hb.2.2.2 hb.2.1.2 ha.2.2.2 (up hA.2.1) (up' hB.2.1) by' dz dy bz hm,
    cross_coordinate az cx cz ax ha.2.2.2 hb.1.2 hb.2.2.2 ha.1.2 (up hA.2.2) (up' hB.2.2) bz dx dz bx hm,
    cross_coordinate ax cy cx ay ha.1.2 hb.2.1.2 hb.1.2 ha.2.1.2 (up hA.1) (up' hB.1) bx dy dx by' hm⟩

/-! ### Normalization -/

/-- Square of a coordinate. -/
theorem F64.square_apx {d : Float} (hd : IsFin d) (bd : |val d| ≤ 2 ^ (500 : Int)) :
    IsFin (d * d) ∧ 0 ≤ val (d * d) ∧ val (d * d) ≤ 2 ^ (1000 : Int) ∧ Apx eps eta (val d * val d) (val (d * d)) := by
  have h0 : 0 ≤ val d * val d := mul_self_nonneg _
  have h1 : val d * val d ≤ 2 ^ (1000 : Int) := by
    rw [show (1000 : Int) = 500 + 500 by norm_num, zpow_add₀ (by norm_num), ← abs_mul_abs_self]
    exact mul_self_le_mul_self (abs_nonneg _) bd
  obtain ⟨f, r⟩ := mul_rounds hd hd (small_le_max (by rw [abs_of_nonneg h0]; exact h1.trans (two_zpow_le (by norm_num))))
  refine ⟨f, r.nonneg h0, r.le _ (rep_pow _ (by norm_num)) h1, ?_⟩
  have := r.bound
  rwa [abs_of_nonneg h0] at this

theorem F64.dot_self_apx {n : V3 Float} (hn : Bounded (2 ^ (500 : Int)) n) :
    IsFin (n.dot n) ∧ 0 ≤ val (n.dot n) ∧ val (n.dot n) ≤ 2 ^ (1002 : Int) ∧
      Apx (4 * eps) (8 * eta) ((toReal n).dot (toReal n)) (val (n.dot n)) := by
  obtain ⟨⟨fx, bx⟩, ⟨fy, by'⟩, ⟨fz, bz⟩⟩ := hn
  obtain ⟨gx, nx, ux, ax⟩ := square_apx fx bx
  obtain ⟨gy, ny, uy, ay⟩ := square_apx fy by'
  obtain ⟨gz, nz, uz, az⟩ := square_apx fz bz
  have e1 : (2 : ℝ) ^ (1001 : Int) = 2 * 2 ^ (1000 : Int) := by rw [two_mul_zpow]; rfl
  have e2 : (2 : ℝ) ^ (1002 : Int) = 2 * 2 ^ (1001 : Int) := by rw [two_mul_zpow]; rfl
  have s1 : val (n.x * n.x) + val (n.y * n.y) ≤ 2 ^ (1001 : Int) := by rw [e1, two_mul]; exact add_le_add ux uy
  have s0 : 0 ≤ val (n.x * n.x) + val (n.y * n.y) := by linarith
  obtain ⟨g1, r1⟩ := add_rounds gx gy (small_le_max (by rw [abs_of_nonneg s0]; exact s1.trans (two_zpow_le (by norm_num))))
  have u1 := r1.le _ (rep_pow _ (by norm_num)) s1
  have n1 := r1.nonneg s0
  have s2 : val (n.x * n.x + n.y * n.y) + val (n.z * n.z) ≤ 2 ^ (1002 : Int) := by
    rw [e2, two_mul]; exact add_le_add u1 (uz.trans (two_zpow_le (by norm_num)))
  have s20 : 0 ≤ val (n.x * n.x + n.y * n.y) + val (n.z * n.z) := by linarith
  obtain ⟨g2, r2⟩ := add_rounds g1 gz (small_le_max (by rw [abs_of_nonneg s20]; exact s2.trans (two_zpow_le (by norm_num))))
  have u2 := r2.le _ (rep_pow _ (by norm_num)) s2
  refine ⟨g2, r2.nonneg s20, u2, ?_⟩
  clear u1 u2 s1 s2 ux uy uz e1 e2 bx by' bz
  have hX := mul_self_nonneg (val n.x)
  have hY := mul_self_nonneg (val n.y)
  have hZ := mul_self_nonneg (val n.z)
  have he := eps_pos
  have he' : eps ≤ 1 / 16 := by rw [eps_eq]; norm_num
  have hn := eta_pos
  have a1 : Apx (5 / 2 * eps) (4 * eta) (val n.x * val n.x + val n.y * val n.y) (val (n.x * n.x + n.y * n.y)) :=
    ((ax.add ay).round s0 r1).mono (by linarith) (by nlinarith) (by nlinarith)
  exact ((a1.add (az.mono hZ (show eps ≤ 5 / 2 * eps by linarith) le_rfl)).round s20 r2).mono (by
    show 0 ≤ val n.x * val n.x + val n.y * val n.y + val n.z * val n.z
    linarith) (by nlinarith) (by nlinarith)

/-- The computed length as the true one times a factor. -/
theorem F64.length_factor {n : V3 Float} (hn : Bounded (2 ^ (500 : Int)) n)
    (hl : (2 : ℝ) ^ (-450 : Int) ≤ (toReal n).length) :
    IsFin n.length ∧ ∃ d0 d1, |d0| ≤ 5 * eps ∧ |d1| ≤ eps ∧ val n.length = (toReal n).length * (1 + d0) * (1 + d1) := by
  obtain ⟨f, h0, h1, ha⟩ := dot_self_apx hn
  obtain ⟨g, r⟩ := sqrt_rounds f h0
  have hε := eps_pos
  have hs : eps ≤ 1 / 1000 := by rw [eps_eq]; norm_num
  have hp := two_zpow_pos (-450)
  have hL : 0 < (toReal n).length := lt_of_lt_of_le hp hl
  have hsq := V3.length_mul_self (toReal n)
  have hbig : (2 : ℝ) ^ (-900 : Int) ≤ (toReal n).dot (toReal n) := by
    rw [← hsq, show (-900 : Int) = -450 + -450 by norm_num, zpow_add₀ (by norm_num)]
    exact mul_self_le_mul_self hp.le hl
  have hη : 8 * eta ≤ eps * (toReal n).dot (toReal n) := by
    have e1 : 8 * eta = 2 ^ (-1072 : Int) := by
      rw [eta, show (8 : ℝ) = 2 ^ (3 : Int) by norm_num, ← zpow_add₀ (by norm_num)]; norm_num
    have e2 : eps * (2 : ℝ) ^ (-900 : Int) = 2 ^ (-953 : Int) := by
      rw [eps, ← zpow_add₀ (by norm_num)]; norm_num
    calc 8 * eta = 2 ^ (-1072 : Int) := e1
      _ ≤ 2 ^ (-953 : Int) := two_zpow_le (by norm_num)
      _ = eps * 2 ^ (-900 : Int) := e2.symm
      _ ≤ _ := mul_le_mul_of_nonneg_left hbig hε.le
  have h5 : |val (n.dot n) - (toReal n).dot (toReal n)| ≤ 5 * eps * (toReal n).dot (toReal n) := by
    refine ha.trans ?_
    linarith
  have hS : 0 ≤ Real.sqrt (val (n.dot n)) := Real.sqrt_nonneg _
  have hSS := Real.mul_self_sqrt h0
  have hd : |Real.sqrt (val (n.dot n)) - (toReal n).length| ≤ 5 * eps * (toReal n).length := by
    have e1 : (Real.sqrt (val (n.dot n)) - (toReal n).length) * (Real.sqrt (val (n.dot n)) + (toReal n).length)
        = val (n.dot n) - (toReal n).dot (toReal n) := by rw [← hsq]; linear_combination hSS
    have e2 : |Real.sqrt (val (n.dot n)) - (toReal n).length| * (Real.sqrt (val (n.dot n)) + (toReal n).length)
        ≤ 5 * eps * ((toReal n).length * (toReal n).length) := by
      rw [← abs_of_nonneg (show 0 ≤ Real.sqrt (val (n.dot n)) + (toReal n).length by linarith), ← abs_mul, e1, hsq]
      exact h5
    have e3 : |Real.sqrt (val (n.dot n)) - (toReal n).length| * (toReal n).length
        ≤ 5 * eps * (toReal n).length * (toReal n).length := by
      have := mul_nonneg (abs_nonneg (Real.sqrt (val (n.dot n)) - (toReal n).length)) hS
      linarith
    exact le_of_mul_le_mul_right e3 hL
  have hsmall : (2 : ℝ) ^ (-1022 : Int) ≤ |Real.sqrt (val (n.dot n))| := by
    rw [abs_of_nonneg hS]
    have h6 : (toReal n).length * (1 / 2) ≤ Real.sqrt (val (n.dot n)) := by
      have := (abs_le.mp hd).1
      nlinarith
    calc (2 : ℝ) ^ (-1022 : Int) ≤ 2 ^ (-451 : Int) := two_zpow_le (by norm_num)
      _ = 2 ^ (-450 : Int) * (1 / 2) := by
          rw [show (-451 : Int) = -450 + -1 by norm_num, zpow_add₀ (by norm_num)]; norm_num
      _ ≤ (toReal n).length * (1 / 2) := mul_le_mul_of_nonneg_right hl (by norm_num)
      _ ≤ _ := h6
  obtain ⟨d1, hd1, ed1⟩ := rel_factor (r.rel hsmall)
  refine ⟨g, (Real.sqrt (val (n.dot n)) - (toReal n).length) / (toReal n).length, d1, ?_, hd1, ?_⟩
  · rw [abs_div, abs_of_pos hL, div_le_iff₀ hL]
    exact hd
  · have e : (toReal n).length * (1 + (Real.sqrt (val (n.dot n)) - (toReal n).length) / (toReal n).length)
        = Real.sqrt (val (n.dot n)) := by field_simp; ring
    rw [e]
    exact ed1

theorem F64.factor_inv5 {d : ℝ} (hd : |d| ≤ 5 * eps) : |1 / (1 + d) - 1| ≤ 51 / 10 * eps := by
  have hs : eps ≤ 1 / 1000 := by rw [eps_eq]; norm_num
  have hε := eps_pos
  obtain ⟨h1, h2⟩ := abs_le.mp hd
  have hp : 0 < 1 + d := by linarith
  rw [show 1 / (1 + d) - 1 = -d / (1 + d) by field_simp; ring, abs_div, abs_neg, abs_of_pos hp, div_le_iff₀ hp]
  nlinarith

theorem V3.coordinate_le (a : V3 ℝ) : |a.x| ≤ a.length ∧ |a.y| ≤ a.length ∧ |a.z| ≤ a.length := by
  have h := V3.length_sq a
  have h0 := V3.length_nonneg a
  simp only [V3.dot] at h
  refine ⟨abs_le_of_sq_le_sq (by nlinarith [mul_self_nonneg a.y, mul_self_nonneg a.z]) h0,
    abs_le_of_sq_le_sq (by nlinarith [mul_self_nonneg a.x, mul_self_nonneg a.z]) h0,
    abs_le_of_sq_le_sq (by nlinarith [mul_self_nonneg a.x, mul_self_nonneg a.y]) h0⟩

/-- One coordinate of a normalized vector. -/
theorem F64.normalize_coordinate {x i : Float} {L t f : ℝ} (fx : IsFin x) (fi : IsFin i) (hL : 0 < L) (hx : |val x| ≤ L)
    (ei : val i = 1 / L * f) (hf : |f - 1| ≤ 8 * eps) (ht : t = val x / L) :
    IsFin (x * i) ∧ |val (x * i) - t| ≤ 2 ^ (-49 : Int) := by
  have hs : eps ≤ 1 / 1000 := by rw [eps_eq]; norm_num
  have hε := eps_pos
  have ht1 : |t| ≤ 1 := by
    rw [ht, abs_div, abs_of_pos hL, div_le_one hL]; exact hx
  have hm : val x * val i = t * f := by rw [ei, ht]; ring
  have hf1 : |f| ≤ 101 / 100 := by
    have := abs_sub_abs_le_abs_sub f 1
    rw [abs_one] at this
    linarith
  have htf : |t * f| ≤ 101 / 100 := by
    rw [abs_mul]
    calc |t| * |f| ≤ 1 * (101 / 100) := mul_le_mul ht1 hf1 (abs_nonneg _) (by norm_num)
      _ = _ := by norm_num
  obtain ⟨g, r⟩ := mul_rounds fx fi (small_le_max (by
    rw [hm]
    exact htf.trans (le_trans (by norm_num : (101 : ℝ) / 100 ≤ 2 ^ (1 : Int)) (two_zpow_le (by norm_num)))))
  refine ⟨g, ?_⟩
  have hb := r.bound
  rw [hm] at hb
  have h1 : |t * f - t| ≤ 8 * eps := by
    rw [show t * f - t = t * (f - 1) by ring, abs_mul]
    calc |t| * |f - 1| ≤ 1 * (8 * eps) := mul_le_mul ht1 hf (abs_nonneg _) (by norm_num)
      _ = _ := by ring
  have h2 := abs_sub_le (val (x * i)) (t * f) t
  have h3 := mul_le_mul_of_nonneg_left htf hε.le
  have h4 : (2 : ℝ) ^ (-49 : Int) = 16 * eps := by rw [eps_eq]; norm_num
  have h5 := eta_le_eps
  rw [h4]
  linarith

/-- The direction of a vector, computed. -/
theorem F64.normalize_err {n : V3 Float} (hn : Bounded (2 ^ (500 : Int)) n)
    (hl : (2 : ℝ) ^ (-450 : Int) ≤ (toReal n).length) : Near (2 ^ (-49 : Int)) n.normalize (toReal n).normalize := by
  obtain ⟨g, d0, d1, h0, h1, e1⟩ := length_factor hn hl
  have hε := eps_pos
  have hs : eps ≤ 1 / 1000 := by rw [eps_eq]; norm_num
  have hL : 0 < (toReal n).length := lt_of_lt_of_le (two_zpow_pos _) hl
  have k0 := abs_le.mp h0
  have k1 := abs_le.mp h1
  have p0 : 0 < 1 + d0 := by linarith
  have p1 : 0 < 1 + d1 := by linarith
  have hpos : 0 < val n.length := by rw [e1]; positivity
  have hq : val (1 : Float) / val n.length = 1 / (toReal n).length * (1 / (1 + d0) * (1 / (1 + d1))) := by
    rw [one_val.2, e1]; field_simp
  have hup : (toReal n).length ≤ 2 ^ (502 : Int) := by
    have h2 := V3.length_le_sum (toReal n)
    obtain ⟨⟨-, bx⟩, ⟨-, by'⟩, ⟨-, bz⟩⟩ := hn
    have e : (2 : ℝ) ^ (502 : Int) = 4 * 2 ^ (500 : Int) := by
      rw [show (502 : Int) = 2 + 500 by norm_num, zpow_add₀ (by norm_num)]; norm_num
    have hp := two_zpow_pos 500
    rw [e]
    simp only [toReal] at h2
    clear e hl
    generalize (2 : ℝ) ^ (500 : Int) = X at *
    simp only [toReal] at *
    linarith
  have hfac : |1 / (1 + d0) * (1 / (1 + d1)) - 1| ≤ 613 / 100 * eps := by
    have a := factor_inv5 h0
    have b := factor_inv h1
    rw [show 1 / (1 + d0) * (1 / (1 + d1)) - 1 = (1 / (1 + d0) - 1) + (1 / (1 + d1) - 1)
      + (1 / (1 + d0) - 1) * (1 / (1 + d1) - 1) by ring]
    refine (abs_add_le _ _).trans ((add_le_add (abs_add_le _ _) le_rfl).trans ?_)
    rw [abs_mul]
    have c := mul_le_mul a b (abs_nonneg _) (by linarith)
    nlinarith
  have hfp := abs_le.mp hfac
  have hinv : (2 : ℝ) ^ (-502 : Int) ≤ 1 / (toReal n).length := by
    rw [zpow_neg, ← one_div]
    exact one_div_le_one_div_of_le hL hup
  have hinv' : 1 / (toReal n).length ≤ 2 ^ (450 : Int) := by
    rw [show (450 : Int) = -(-450) by norm_num, zpow_neg, ← one_div]
    exact one_div_le_one_div_of_le (two_zpow_pos _) hl
  have hI : 0 < 1 / (toReal n).length := by positivity
  have habs : |val (1 : Float) / val n.length| = 1 / (toReal n).length * (1 / (1 + d0) * (1 / (1 + d1))) := by
    rw [hq, abs_of_pos]
    positivity
  obtain ⟨gi, ri⟩ := div_rounds one_val.1 g hpos.ne' (small_le_max (by
    rw [habs]
    calc 1 / (toReal n).length * (1 / (1 + d0) * (1 / (1 + d1))) ≤ 2 ^ (450 : Int) * 2 :=
          mul_le_mul hinv' (by linarith) (by positivity) (two_zpow_pos _).le
      _ = 2 ^ (451 : Int) := by rw [mul_comm, two_mul_zpow]; norm_num
      _ ≤ _ := two_zpow_le (by norm_num)))
  obtain ⟨d2, h2, e2⟩ := rel_factor (ri.rel (by
    rw [habs]
    calc (2 : ℝ) ^ (-1022 : Int) ≤ 2 ^ (-503 : Int) := two_zpow_le (by norm_num)
      _ = 2 ^ (-502 : Int) * (1 / 2) := by
          rw [show (-503 : Int) = -502 + -1 by norm_num, zpow_add₀ (by norm_num)]; norm_num
      _ ≤ _ := mul_le_mul hinv (by linarith) (by norm_num) hI.le))
  rw [hq] at e2
  have hf : |1 / (1 + d0) * (1 / (1 + d1)) * (1 + d2) - 1| ≤ 8 * eps :=
    (factor_step hfac (by norm_num) h2).trans (by linarith)
  have ei : val (1 / n.length) = 1 / (toReal n).length * (1 / (1 + d0) * (1 / (1 + d1)) * (1 + d2)) := by rw [e2]; ring
  have hc := V3.coordinate_le (toReal n)
  have hdef : (toReal n).normalize = (1 / (toReal n).length) • toReal n := by unfold V3.normalize; rw [V3.rmul_eq]
  rw [hdef]
  exact ⟨normalize_coordinate hn.1.1 gi hL hc.1 ei hf (by simp only [V3.smul_x, toReal]; ring),
    normalize_coordinate hn.2.1.1 gi hL hc.2.1 ei hf (by simp only [V3.smul_y, toReal]; ring),
    normalize_coordinate hn.2.2.1 gi hL hc.2.2 ei hf (by simp only [V3.smul_z, toReal]; ring)⟩

/-- Directions of near vectors are near. -/
theorem direction_close {n N : V3 ℝ} {e : ℝ} (h : Close e n N) (hn : 0 < n.length) (hN : 0 < N.length) :
    Close (3 * e / N.length) n.normalize N.normalize ∧ N.length ≤ n.length + 2 * e := by
  have he : 0 ≤ e := (abs_nonneg _).trans h.1
  obtain ⟨h1, h2, h3⟩ := h
  have hd : (n - N).length ≤ 2 * e := by
    rw [V3.length_eq, Real.sqrt_le_iff]
    refine ⟨by linarith, ?_⟩
    simp only [V3.dot, V3.sub_x, V3.sub_y, V3.sub_z]
    have a := abs_mul_abs_self (n.x - N.x)
    have b := abs_mul_abs_self (n.y - N.y)
    have c := abs_mul_abs_self (n.z - N.z)
    have a' := mul_self_le_mul_self (abs_nonneg _) h1
    have b' := mul_self_le_mul_self (abs_nonneg _) h2
    have c' := mul_self_le_mul_self (abs_nonneg _) h3
    nlinarith
  have t1 : N.length ≤ n.length + (n - N).length := by
    have := V3.length_add_le n (-(n - N))
    rw [V3.length_neg, show n + -(n - N) = N by abel] at this
    exact this
  have t2 : n.length ≤ N.length + (n - N).length := by
    have := V3.length_add_le N (n - N)
    rwa [show N + (n - N) = n by abel] at this
  have hc := V3.coordinate_le n
  have key : ∀ {x X : ℝ}, |x - X| ≤ e → |x| ≤ n.length → |1 / n.length * x - 1 / N.length * X| ≤ 3 * e / N.length := by
    intro x X hx hxn
    have e1 : 1 / n.length * x - 1 / N.length * X = ((x - X) + x / n.length * (N.length - n.length)) / N.length := by
      field_simp; ring
    rw [e1, abs_div, abs_of_pos hN]
    refine div_le_div_of_nonneg_right ?_ hN.le
    refine (abs_add_le _ _).trans ?_
    rw [abs_mul]
    have e2 : |x / n.length| ≤ 1 := by rw [abs_div, abs_of_pos hn, div_le_one hn]; exact hxn
    have e3 : |N.length - n.length| ≤ 2 * e := by rw [abs_le]; constructor <;> linarith
    have := mul_le_mul e2 e3 (abs_nonneg _) zero_le_one
    linarith
  have hdef : ∀ a : V3 ℝ, a.normalize = (1 / a.length) • a := fun a => by unfold V3.normalize; rw [V3.rmul_eq]
  refine ⟨?_, by linarith⟩
  rw [hdef, hdef]
  exact ⟨key h1 hc.1, key h2 hc.2.1, key h3 hc.2.2⟩

/-- The computed direction of an inexact vector. -/
theorem F64.normalize_near {n : V3 Float} {N : V3 ℝ} {e : ℝ} (h : Near e n N) (hN : (2 : ℝ) ^ (-442 : Int) ≤ N.length)
    (hN' : N.length ≤ 2 ^ (490 : Int)) (he : 4 * e ≤ N.length) :
    Near (3 * e / N.length + 2 ^ (-49 : Int)) n.normalize N.normalize := by
  have he0 : 0 ≤ e := (abs_nonneg _).trans h.1.2
  have hpos : 0 < N.length := lt_of_lt_of_le (two_zpow_pos _) hN
  have hc : Close e (toReal n) N := ⟨h.1.2, h.2.1.2, h.2.2.2⟩
  have hlow : N.length ≤ (toReal n).length + 2 * e := by
    by_cases h0 : 0 < (toReal n).length
    · exact (direction_close hc h0 hpos).2
    · have hz : toReal n = 0 := by
        by_contra hne
        exact h0 (V3.length_pos hne)
      rw [hz] at hc ⊢
      obtain ⟨h1, h2, h3⟩ := hc
      have e0 : (0 : V3 ℝ).x = 0 ∧ (0 : V3 ℝ).y = 0 ∧ (0 : V3 ℝ).z = 0 := ⟨rfl, rfl, rfl⟩
      rw [e0.1, zero_sub, abs_neg] at h1
      rw [e0.2.1, zero_sub, abs_neg] at h2
      rw [e0.2.2, zero_sub, abs_neg] at h3
      have := V3.length_le_sum N
      linarith
  have hhalf : N.length * (1 / 2) ≤ (toReal n).length := by linarith
  have hl : (2 : ℝ) ^ (-450 : Int) ≤ (toReal n).length :=
    calc (2 : ℝ) ^ (-450 : Int) ≤ 2 ^ (-443 : Int) := two_zpow_le (by norm_num)
      _ = 2 ^ (-442 : Int) * (1 / 2) := by
          rw [show (-443 : Int) = -442 + -1 by norm_num, zpow_add₀ (by norm_num)]; norm_num
      _ ≤ N.length * (1 / 2) := mul_le_mul_of_nonneg_right hN (by norm_num)
      _ ≤ _ := hhalf
  have hw := V3.coordinate_le N
  have hb : Bounded (2 ^ (500 : Int)) n := by
    have := F64.Near.within h (D := N.length) hw
    have e1 : N.length + e ≤ 2 ^ (500 : Int) := by
      have : (2 : ℝ) ^ (491 : Int) = 2 * 2 ^ (490 : Int) := by rw [two_mul_zpow]; rfl
      have h9 : (2 : ℝ) ^ (491 : Int) ≤ 2 ^ (500 : Int) := two_zpow_le (by norm_num)
      rw [this] at h9
      refine le_trans ?_ h9
      clear this h9 hN hl
      generalize (2 : ℝ) ^ (490 : Int) = X at *
      linarith
    exact ⟨⟨this.1.1, this.1.2.trans e1⟩, ⟨this.2.1.1, this.2.1.2.trans e1⟩, ⟨this.2.2.1, this.2.2.2.trans e1⟩⟩
  have := F64.Near.close (normalize_err hb hl) (direction_close hc (lt_of_lt_of_le (two_zpow_pos _) hl) hpos).1
  exact F64.Near.mono this (by linarith)

/-! ### C130 -/

/-- The error of the cross product of two derivatives. -/
theorem cross_total {k a b e f : ℝ} (h1 : 1 ≤ k) (h2 : k ≤ 2 ^ (40 : Int)) (ha : 0 ≤ a) (hb : 0 ≤ b)
    (he : e ≤ 101 / 100 * (k * 2 ^ (-47 : Int) * a)) (hf : f ≤ 101 / 100 * (k * 2 ^ (-47 : Int) * b)) (he0 : 0 ≤ e) (hf0 : 0 ≤ f)
    (hη : eta ≤ eps * (a * b)) :
    2 * (e * (b + f) + f * (a + e)) + 5 * eps * ((a + e) * (b + f)) + 3 * eta ≤ k * 2 ^ (-44 : Int) * (a * b) := by
  have hε := eps_pos
  have e47 : (2 : ℝ) ^ (-47 : Int) = 64 * eps := by rw [eps_eq]; norm_num
  have e44 : (2 : ℝ) ^ (-44 : Int) = 512 * eps := by rw [eps_eq]; norm_num
  rw [e47] at he hf
  rw [e44]
  have hke : k * eps ≤ 1 / 8000 := by
    calc k * eps ≤ 2 ^ (40 : Int) * eps := mul_le_mul_of_nonneg_right h2 hε.le
      _ ≤ 1 / 8000 := by rw [eps_eq]; norm_num
  have hka := mul_le_mul_of_nonneg_right hke ha
  have hkb := mul_le_mul_of_nonneg_right hke hb
  have he1 : a + e ≤ 102 / 100 * a := by linarith
  have hf1 : b + f ≤ 102 / 100 * b := by linarith
  have p1 : e * (b + f) ≤ 101 / 100 * (k * (64 * eps) * a) * (102 / 100 * b) :=
    mul_le_mul he hf1 (by linarith) (he0.trans he)
  have p2 : f * (a + e) ≤ 101 / 100 * (k * (64 * eps) * b) * (102 / 100 * a) :=
    mul_le_mul hf he1 (by linarith) (hf0.trans hf)
  have p3 : (a + e) * (b + f) ≤ 102 / 100 * a * (102 / 100 * b) := mul_le_mul he1 hf1 (by linarith) (by linarith)
  have p4 := mul_le_mul_of_nonneg_left p3 hε.le
  have p5 : eps * (a * b) ≤ k * (eps * (a * b)) := by
    have : 0 ≤ eps * (a * b) := mul_nonneg hε.le (mul_nonneg ha hb)
    nlinarith
  nlinarith

theorem F64.Near.nonneg {e : ℝ} {x : V3 Float} {q : V3 ℝ} (h : Near e x q) : 0 ≤ e := (abs_nonneg _).trans h.1.2

/-- The bound of the error of a derivative, simplified. -/
theorem derivative_bound {k m D : ℝ} (hk : k ≤ m) (hm : 0 ≤ m) (h : (2 : ℝ) ^ (-200 : Int) ≤ D) :
    k * 2 ^ (-47 : Int) * D + k * 2 ^ (-1072 : Int) ≤ 101 / 100 * (m * 2 ^ (-47 : Int) * D) := by
  have e1 : (2 : ℝ) ^ (-1072 : Int) ≤ 1 / 100 * (2 ^ (-47 : Int) * D) := by
    calc (2 : ℝ) ^ (-1072 : Int) = 2 ^ (-825 : Int) * (2 ^ (-47 : Int) * 2 ^ (-200 : Int)) := by
          rw [← zpow_add₀ (by norm_num), ← zpow_add₀ (by norm_num)]; norm_num
      _ ≤ 1 / 100 * (2 ^ (-47 : Int) * D) := by
          refine mul_le_mul ?_ (mul_le_mul_of_nonneg_left h (two_zpow_pos _).le)
            (mul_pos (two_zpow_pos _) (two_zpow_pos _)).le (by norm_num)
          calc (2 : ℝ) ^ (-825 : Int) ≤ 2 ^ (-7 : Int) := two_zpow_le (by norm_num)
            _ ≤ 1 / 100 := by norm_num
  have hD : 0 ≤ D := (two_zpow_pos _).le.trans h
  have p := two_zpow_pos (-47)
  have p' := two_zpow_pos (-1072)
  generalize (2 : ℝ) ^ (-47 : Int) = X at *
  generalize (2 : ℝ) ^ (-1072 : Int) = Y at *
  have h1 : k * X * D ≤ m * X * D := mul_le_mul_of_nonneg_right (mul_le_mul_of_nonneg_right hk p.le) hD
  have h2 : k * Y ≤ m * Y := mul_le_mul_of_nonneg_right hk p'.le
  have h3 := mul_le_mul_of_nonneg_left e1 hm
  linarith

/-- The computed normal of two inexact tangents. -/
theorem normal_near {a b : V3 Float} {A B : V3 ℝ} {e f k Da Db : ℝ} (h1 : 1 ≤ k) (h2 : k ≤ 2 ^ (40 : Int))
    (ha : Near e a A) (hb : Near f b B) (hA : Within Da A) (hB : Within Db B)
    (la : (2 : ℝ) ^ (-200 : Int) ≤ Da) (ua : Da ≤ 2 ^ (200 : Int)) (lb : (2 : ℝ) ^ (-200 : Int) ≤ Db) (ub : Db ≤ 2 ^ (200 : Int))
    (he : e ≤ 101 / 100 * (k * 2 ^ (-47 : Int) * Da)) (hf : f ≤ 101 / 100 * (k * 2 ^ (-47 : Int) * Db))
    (hN : k * 2 ^ (-42 : Int) * (Da * Db) ≤ (A.cross B).length) :
    Near (k * 2 ^ (-42 : Int) * (Da * Db) / (A.cross B).length + 2 ^ (-49 : Int)) (a.cross b).normalize (A.cross B).normalize := by
  have he0 := F64.Near.nonneg ha
  have hf0 := F64.Near.nonneg hb
  have hε := eps_pos
  have a0 : 0 < Da := lt_of_lt_of_le (two_zpow_pos _) la
  have b0 : 0 < Db := lt_of_lt_of_le (two_zpow_pos _) lb
  have hab : 0 < Da * Db := mul_pos a0 b0
  have hlow : (2 : ℝ) ^ (-400 : Int) ≤ Da * Db := by
    rw [show (-400 : Int) = -200 + -200 by norm_num, zpow_add₀ (by norm_num)]
    exact mul_le_mul la lb (two_zpow_pos _).le a0.le
  have hup : Da * Db ≤ 2 ^ (400 : Int) := by
    rw [show (400 : Int) = 200 + 200 by norm_num, zpow_add₀ (by norm_num)]
    exact mul_le_mul ua ub b0.le (two_zpow_pos _).le
  have hη : eta ≤ eps * (Da * Db) := by
    calc eta ≤ eps * 2 ^ (-400 : Int) := by
          rw [eta, eps, ← zpow_add₀ (by norm_num)]; exact two_zpow_le (by norm_num)
      _ ≤ _ := mul_le_mul_of_nonneg_left hlow hε.le
  have hct := cross_total h1 h2 a0.le b0.le he hf he0 hf0 hη
  have hkc : k * 2 ^ (-47 : Int) ≤ 1 / 100 := by
    calc k * 2 ^ (-47 : Int) ≤ 2 ^ (40 : Int) * 2 ^ (-47 : Int) := mul_le_mul_of_nonneg_right h2 (two_zpow_pos _).le
      _ ≤ 1 / 100 := by norm_num
  have hea : Da + e ≤ 2 * Da := by
    have := mul_le_mul_of_nonneg_right hkc a0.le
    linarith
  have hfb : Db + f ≤ 2 * Db := by
    have := mul_le_mul_of_nonneg_right hkc b0.le
    linarith
  have hm : (Da + e) * (Db + f) ≤ 2 ^ (1000 : Int) := by
    calc (Da + e) * (Db + f) ≤ 2 * Da * (2 * Db) := mul_le_mul hea hfb (by linarith) (by linarith)
      _ = 2 ^ (2 : Int) * (Da * Db) := by norm_num; ring
      _ ≤ 2 ^ (2 : Int) * 2 ^ (400 : Int) := mul_le_mul_of_nonneg_left hup (two_zpow_pos _).le
      _ ≤ _ := by rw [← zpow_add₀ (by norm_num)]; exact two_zpow_le (by norm_num)
  have hc := F64.Near.mono (cross_near ha hb hA hB hm) hct
  have hlen : (A.cross B).length ≤ 2 ^ (490 : Int) := by
    have h3 := V3.length_le_sum (A.cross B)
    have key : ∀ {x y z w : ℝ}, |x| ≤ Da → |y| ≤ Db → |z| ≤ Db → |w| ≤ Da → |x * y - z * w| ≤ 2 * (Da * Db) := by
      intro x y z w hx hy hz hw
      refine (abs_sub _ _).trans ?_
      rw [abs_mul, abs_mul]
      have t1 := mul_le_mul hx hy (abs_nonneg _) a0.le
      have t2 := mul_le_mul hz hw (abs_nonneg _) b0.le
      linarith
    have k1 := key hA.2.1 hB.2.2 hB.2.1 hA.2.2
    have k2 := key hA.2.2 hB.1 hB.2.2 hA.1
    have k3 := key hA.1 hB.2.1 hB.1 hA.2.1
    simp only [V3.cross] at h3 ⊢
    calc _ ≤ _ := h3
      _ ≤ 8 * (Da * Db) := by linarith
      _ = 2 ^ (3 : Int) * (Da * Db) := by norm_num
      _ ≤ 2 ^ (3 : Int) * 2 ^ (400 : Int) := mul_le_mul_of_nonneg_left hup (two_zpow_pos _).le
      _ ≤ _ := by rw [← zpow_add₀ (by norm_num)]; exact two_zpow_le (by norm_num)
  have e42 : (2 : ℝ) ^ (-42 : Int) = 4 * 2 ^ (-44 : Int) := by norm_num
  have h4e : 4 * (k * 2 ^ (-44 : Int) * (Da * Db)) ≤ (A.cross B).length := by
    rw [e42] at hN
    linarith
  have hlow' : (2 : ℝ) ^ (-442 : Int) ≤ k * 2 ^ (-42 : Int) * (Da * Db) := by
    rw [show (-442 : Int) = -42 + -400 by norm_num, zpow_add₀ (by norm_num)]
    refine mul_le_mul ?_ hlow (two_zpow_pos _).le (mul_nonneg (by linarith) (two_zpow_pos _).le)
    have := two_zpow_pos (-42)
    nlinarith
  have hpos : 0 < (A.cross B).length := lt_of_lt_of_le (two_zpow_pos _) (hlow'.trans hN)
  refine F64.Near.mono (normalize_near hc (hlow'.trans hN) hlen h4e)
    (add_le_add (div_le_div_of_nonneg_right ?_ hpos.le) le_rfl)
  rw [e42]
  have : 0 ≤ k * 2 ^ (-44 : Int) * (Da * Db) := mul_nonneg (mul_nonneg (by linarith) (two_zpow_pos _).le) hab.le
  linarith

/-- What the theorems assume of the sizes of the derivatives of the surface. -/
structure Spec.TangentBounds (s : BSplineSurface Float (V3 Float)) (Du Dv : ℝ) : Prop where
  lowU : (2 : ℝ) ^ (-200 : Int) ≤ Du
  highU : Du ≤ 2 ^ (200 : Int)
  lowV : (2 : ℝ) ^ (-200 : Int) ≤ Dv
  highV : Dv ≤ 2 ^ (200 : Int)
  netU : ∀ r, (realSurface s).derivativeU = .ok r → ∀ q ∈ r.controlPoints.data, Within Du q
  netV : ∀ r, (realSurface s).derivativeV = .ok r → ∀ q ∈ r.controlPoints.data, Within Dv q

/-- **C130.** In binary64 `get_normals` never panics on the domain of a surface, and each normal has, in every coordinate,
an error of at most `k * 2 ^ -42 * Du * Dv / |Su × Sv| + 2 ^ -49`, where `k` is the number of control points that matter
at a parameter pair, `Du` and `Dv` bound the control points of the exact derivatives, and `Su`, `Sv` are the exact
derivatives there, provided the first term is at most 1. The error is thus governed by how degenerate the tangents are. -/
theorem C130_normals {s : BSplineSurface Float (V3 Float)} (hs : SurfaceF s) (hp : 1 ≤ s.degree.1) (hq : 1 ≤ s.degree.2)
    (params : List (V2 Float)) (hdom : ∀ p ∈ params, DomainF s.knots.1 s.degree.1 p.x ∧ DomainF s.knots.2 s.degree.2 p.y)
    {Du Dv : ℝ} (hD : TangentBounds s Du Dv) :
    ∃ ns du dv, s.getNormals params = .ok ns ∧ (realSurface s).derivativeU = .ok du ∧ (realSurface s).derivativeV = .ok dv ∧
      List.Forall₂ (fun p n => ∃ su sv, du.getPoint (val p.x) (val p.y) = .ok su ∧ dv.getPoint (val p.x) (val p.y) = .ok sv ∧
        (((s.degree.1 + 1) * (s.degree.2 + 1) : Nat) * 2 ^ (-42 : Int) * (Du * Dv) ≤ (Spec.cross3 su sv).length →
          ∃ m, IsUnitNormal su sv m ∧
            Near (((s.degree.1 + 1) * (s.degree.2 + 1) : Nat) * 2 ^ (-42 : Int) * (Du * Dv) / (Spec.cross3 su sv).length
              + 2 ^ (-49 : Int)) n m)) params ns := by
  have hr := hs.rows
  have hc := hs.cols
  have e1 := surface_slopesU hs.net hs.lenU hp hr (by omega)
  have e2 := surface_slopesU (s := realSurface s) (mapNet_ok toReal hs.net)
    (by simp only [realSurface, mapNet, List.length_map]; exact hs.lenU) hp hr (by simp only [realSurface, mapNet]; omega)
  have e3 := surface_slopesV hs.net hs.lenV hq hc (by omega)
  have e4 := surface_slopesV (s := realSurface s) (mapNet_ok toReal hs.net)
    (by simp only [realSurface, mapNet, List.length_map]; exact hs.lenV) hq hc (by simp only [realSurface, mapNet]; omega)
  have hu1000 : Du ≤ 2 ^ (1000 : Int) := hD.highU.trans (two_zpow_le (by norm_num))
  have hv1000 : Dv ≤ 2 ^ (1000 : Int) := hD.highV.trans (two_zpow_le (by norm_num))
  have hk1 : (1 : ℝ) ≤ ((s.degree.1 + 1) * (s.degree.2 + 1) : Nat) := by
    exact_mod_cast Nat.mul_pos (Nat.succ_pos _) (Nat.succ_pos _)
  have hk2 : (((s.degree.1 + 1) * (s.degree.2 + 1) : Nat) : ℝ) ≤ 2 ^ (40 : Int) := by exact_mod_cast hs.size
  have hku : ((s.degree.1 * (s.degree.2 + 1) : Nat) : ℝ) ≤ ((s.degree.1 + 1) * (s.degree.2 + 1) : Nat) := by
    exact_mod_cast Nat.mul_le_mul_right _ (Nat.le_succ _)
  have hkv : (((s.degree.1 + 1) * s.degree.2 : Nat) : ℝ) ≤ ((s.degree.1 + 1) * (s.degree.2 + 1) : Nat) := by
    exact_mod_cast Nat.mul_le_mul_left _ (Nat.le_succ _)
  suffices h : ∃ ns, s.getNormals params = .ok ns ∧ _ from h.elim fun ns h => ⟨ns, _, _, h.1, e2, e4, h.2⟩
  unfold BSplineSurface.getNormals
  rw [e1, e3]
  simp only [ok_bind]
  induction params with
  | nil => exact ⟨[], rfl, .nil⟩
  | cons p ps ih =>
    obtain ⟨ns, en, hn⟩ := ih fun q hq => hdom q (List.mem_cons_of_mem _ hq)
    obtain ⟨hu, hv⟩ := hdom p (List.mem_cons_self ..)
    obtain ⟨d, r, x, q, f1, f2, f3, f4, f5, f6⟩ := C129_surface_u hs hp hu hv hu1000 hD.netU
    obtain ⟨d', r', x', q', g1, g2, g3, g4, g5, g6⟩ := C129_surface_v hs hq hu hv hv1000 hD.netV
    rw [e1] at f1
    rw [e2] at f2
    rw [e3] at g1
    rw [e4] at g2
    cases f1
    cases f2
    cases g1
    cases g2
    refine ⟨(x.cross x').normalize :: ns, ?_, .cons ⟨q, q', f4, g4, fun hN => ?_⟩ hn⟩
    · rw [List.mapM_cons, en, f3, g3]
      rfl
    · rw [← cross_eq_cross3] at hN ⊢
      have hpos : 0 < (q.cross q').length := by
        refine lt_of_lt_of_le ?_ hN
        exact mul_pos (mul_pos (by linarith) (two_zpow_pos _))
          (mul_pos (lt_of_lt_of_le (two_zpow_pos _) hD.lowU) (lt_of_lt_of_le (two_zpow_pos _) hD.lowV))
      refine ⟨(q.cross q').normalize, normalize_isUnitNormal fun h0 => ?_, ?_⟩
      · rw [← cross_eq_cross3] at h0
        rw [h0, V3.length_zero] at hpos
        exact lt_irrefl _ hpos
      · exact normal_near hk1 hk2 f5 g5 f6 g6 hD.lowU hD.highU hD.lowV hD.highV
          (derivative_bound hku (by linarith) hD.lowU) (derivative_bound hkv (by linarith) hD.lowV) hN

/-- A parameter inside a span of the domain of splines of degree `p`. -/
structure Spec.InSpanF (knots : List Float) (p : Nat) (u : Float) (a : Nat) : Prop where
  fin : IsFin u
  first : p ≤ a
  last : a + p + 1 < knots.length
  low : val (knot knots a) < val u
  high : val u < val (knot knots (a + 1))

theorem Spec.InSpanF.domain {knots : List Float} {p a : Nat} {u : Float} (hk : KnotsF knots) (h : InSpanF knots p u a) :
    DomainF knots p u := by
  have h1 := h.last
  have m1 : val (knot knots p) ≤ val (knot knots a) := hk.mono _ _ h.first (by omega)
  have m2 : val (knot knots (a + 1)) ≤ val (knot knots (knots.length - 1 - p)) := hk.mono _ _ (by omega) (by omega)
  exact ⟨h.fin, m1.trans h.low.le, Or.inl (lt_of_lt_of_le h.high m2)⟩

theorem knot_val {knots : List Float} {i : Nat} (hi : i < knots.length) : knot (knots.map val) i = val (knot knots i) := by
  simp [knot, List.getD, hi]

/-- The real surface is in order. -/
theorem Spec.SurfaceF.valid {s : BSplineSurface Float (V3 Float)} (hs : SurfaceF s) {u v : Float} {a b : Nat}
    (hu : InSpanF s.knots.1 s.degree.1 u a) (hv : InSpanF s.knots.2 s.degree.2 v b) : (realSurface s).Valid := by
  have lu := hs.lenU
  have lv := hs.lenV
  have h1 := hu.last
  have h2 := hv.last
  have r := hs.rows
  have c := hs.cols
  refine ⟨mapNet_ok toReal hs.net, ?_, ?_, ?_, ?_, resolved_real _, resolved_real _, ?_, ?_, by simp only [realSurface, mapNet]; omega,
    by simp only [realSurface, mapNet]; omega⟩
  · simp only [realSurface, mapNet, List.length_map]; exact lu
  · simp only [realSurface, mapNet, List.length_map]; exact lv
  · exact hs.knotsU.sorted
  · exact hs.knotsV.sorted
  · simp only [realSurface, mapNet]
    rw [knot_val (by omega), knot_val (by omega)]
    have m1 : val (knot s.knots.1 0) ≤ val (knot s.knots.1 a) := hs.knotsU.mono _ _ (by omega) (by omega)
    have m2 : val (knot s.knots.1 (a + 1)) ≤ val (knot s.knots.1 (s.controlPoints.rows + s.degree.1)) :=
      hs.knotsU.mono _ _ (by omega) (by omega)
    exact lt_of_le_of_lt m1 (hu.low.trans (lt_of_lt_of_le hu.high m2))
  · simp only [realSurface, mapNet]
    rw [knot_val (by omega), knot_val (by omega)]
    have m1 : val (knot s.knots.2 0) ≤ val (knot s.knots.2 b) := hs.knotsV.mono _ _ (by omega) (by omega)
    have m2 : val (knot s.knots.2 (b + 1)) ≤ val (knot s.knots.2 (s.controlPoints.cols + s.degree.2)) :=
      hs.knotsV.mono _ _ (by omega) (by omega)
    exact lt_of_le_of_lt m1 (hv.low.trans (lt_of_lt_of_le hv.high m2))

/-- **C130.** Inside the spans the exact tangents are the partial derivatives of the surface. -/
theorem C130_partials {s : BSplineSurface Float (V3 Float)} (hs : SurfaceF s) (hp : 1 ≤ s.degree.1) (hq : 1 ≤ s.degree.2)
    {u v : Float} {a b : Nat} (hu : InSpanF s.knots.1 s.degree.1 u a) (hv : InSpanF s.knots.2 s.degree.2 v b)
    {Du Dv : ℝ} (hD : TangentBounds s Du Dv) :
    ∃ n su sv, s.getNormals [⟨u, v⟩] = .ok [n] ∧ IsPartials (realSurface s) (val u) (val v) su sv ∧
      (((s.degree.1 + 1) * (s.degree.2 + 1) : Nat) * 2 ^ (-42 : Int) * (Du * Dv) ≤ (Spec.cross3 su sv).length →
        ∃ m, IsUnitNormal su sv m ∧
          Near (((s.degree.1 + 1) * (s.degree.2 + 1) : Nat) * 2 ^ (-42 : Int) * (Du * Dv) / (Spec.cross3 su sv).length
            + 2 ^ (-49 : Int)) n m) := by
  obtain ⟨ns, du, dv, e1, e2, e3, h⟩ := C130_normals hs hp hq [⟨u, v⟩]
    (by simpa using ⟨hu.domain hs.knotsU, hv.domain hs.knotsV⟩) hD
  have lu := hs.lenU
  have lv := hs.lenV
  have h1 := hu.last
  have h2 := hv.last
  have f1 := hu.first
  have f2 := hv.first
  have hval := hs.valid hu hv
  cases h with
  | cons h hnil =>
    cases hnil
    obtain ⟨su, sv, g1, g2, g3⟩ := h
    refine ⟨_, su, sv, e1, ?_, g3⟩
    obtain ⟨du', k1, -, -, -, k2⟩ := C60_derivativeU hval hp (by simp only [realSurface, mapNet]; omega)
    obtain ⟨dv', k3, -, -, -, k4⟩ := C60_derivativeV hval hq (by simp only [realSurface, mapNet]; omega)
    rw [e2] at k1
    rw [e3] at k3
    cases k1
    cases k3
    have z1 : knot (realSurface s).knots.1 0 ≤ val u := by
      simp only [realSurface]
      rw [knot_val (by omega)]
      have m1 : val (knot s.knots.1 0) ≤ val (knot s.knots.1 a) := hs.knotsU.mono _ _ (by omega) (by omega)
      exact m1.trans hu.low.le
    have z2 : knot (realSurface s).knots.2 0 ≤ val v := by
      simp only [realSurface]
      rw [knot_val (by omega)]
      have m1 : val (knot s.knots.2 0) ≤ val (knot s.knots.2 b) := hs.knotsV.mono _ _ (by omega) (by omega)
      exact m1.trans hv.low.le
    obtain ⟨d, p1, p2⟩ := k2 a (val u) (val v) f1 (by simp only [realSurface, mapNet]; omega)
      (by simp only [realSurface]; rw [knot_val (by omega)]; exact hu.low)
      (by simp only [realSurface]; rw [knot_val (by omega)]; exact hu.high) z2
    obtain ⟨d', p3, p4⟩ := k4 b (val u) (val v) f2 (by simp only [realSurface, mapNet]; omega)
      (by simp only [realSurface]; rw [knot_val (by omega)]; exact hv.low)
      (by simp only [realSurface]; rw [knot_val (by omega)]; exact hv.high) z1
    rw [g1] at p1
    rw [g2] at p3
    cases p1
    cases p3
    exact fun f => ⟨p2 f, p4 f⟩

/-! ### A concrete case -/

/-- A saddle over the square of side 3. -/
def normalExample : BSplineSurface Float (V3 Float) :=
  ⟨⟨[⟨0, 0, 0⟩, ⟨0, 3, 0⟩, ⟨3, 0, 0⟩, ⟨3, 3, 1⟩], 2, 2⟩, ([0, 0, 3, 3], [0, 0, 3, 3]), (1, 1)⟩

theorem normalExample_knots : KnotsF [0, 0, (3 : Float), 3] := by
  have v0 := zero_val
  have v3 : IsFin (3 : Float) ∧ val (3 : Float) = 3 := by
    obtain ⟨a, b⟩ := ofNat_val (n := 3) (by norm_num)
    exact ⟨a, b.trans (by norm_num)⟩
  have hb : (3 : ℝ) ≤ 2 ^ (900 : Int) :=
    le_trans (by norm_num : (3 : ℝ) ≤ 2 ^ (2 : Int)) (two_zpow_le (by norm_num))
  have e51 : (2 : ℝ) ^ (-51 : Int) ≤ 1 := by norm_num
  refine ⟨?_, ?_, ?_⟩
  · intro x hx
    simp only [List.mem_cons, List.not_mem_nil, or_false] at hx
    rcases hx with rfl | rfl | rfl | rfl
    · exact ⟨v0.1, by rw [v0.2, abs_zero]; exact (two_zpow_pos _).le⟩
    · exact ⟨v0.1, by rw [v0.2, abs_zero]; exact (two_zpow_pos _).le⟩
    · exact ⟨v3.1, by rw [v3.2, abs_of_pos (by norm_num)]; exact hb⟩
    · exact ⟨v3.1, by rw [v3.2, abs_of_pos (by norm_num)]; exact hb⟩
  · simp [v0.2, v3.2]
  · intro i hi
    simp only [List.length_cons, List.length_nil] at hi
    obtain rfl | rfl | rfl : i = 0 ∨ i = 1 ∨ i = 2 := by omega
    · simp [knot]
    · intro _; simp only [knot, List.getD, List.getElem?_cons_succ, List.getElem?_cons_zero, Option.getD_some, v0.2, v3.2]; linarith
    · simp [knot]

theorem normalExample_ok : SurfaceF normalExample := by
  have v0 := zero_val
  have v1 := one_val
  have v3 : IsFin (3 : Float) ∧ val (3 : Float) = 3 := by
    obtain ⟨a, b⟩ := ofNat_val (n := 3) (by norm_num)
    exact ⟨a, b.trans (by norm_num)⟩
  have hb : (3 : ℝ) ≤ 2 ^ (900 : Int) :=
    le_trans (by norm_num : (3 : ℝ) ≤ 2 ^ (2 : Int)) (two_zpow_le (by norm_num))
  have w0 : IsFin (0 : Float) ∧ |val (0 : Float)| ≤ 2 ^ (900 : Int) := ⟨v0.1, by rw [v0.2, abs_zero]; exact (two_zpow_pos _).le⟩
  have w1 : IsFin (1 : Float) ∧ |val (1 : Float)| ≤ 2 ^ (900 : Int) := ⟨v1.1, by rw [v1.2, abs_one]; exact le_trans (by norm_num) hb⟩
  have w3 : IsFin (3 : Float) ∧ |val (3 : Float)| ≤ 2 ^ (900 : Int) := ⟨v3.1, by rw [v3.2, abs_of_pos (by norm_num)]; exact hb⟩
  refine ⟨rfl, normalExample_knots, normalExample_knots, rfl, rfl, le_rfl, le_rfl, by simp [normalExample], by simp [normalExample],
    by simp [normalExample], fun p hp => ?_⟩
  simp only [normalExample, List.mem_cons, List.not_mem_nil, or_false] at hp
  rcases hp with rfl | rfl | rfl | rfl
  · exact ⟨w0, w0, w0⟩
  · exact ⟨w0, w3, w0⟩
  · exact ⟨w3, w0, w0⟩
  · exact ⟨w3, w3, w1⟩

theorem normalExample_span : InSpanF [0, 0, (3 : Float), 3] 1 1 1 := by
  have v0 := zero_val
  have v1 := one_val
  have v3 : IsFin (3 : Float) ∧ val (3 : Float) = 3 := by
    obtain ⟨a, b⟩ := ofNat_val (n := 3) (by norm_num)
    exact ⟨a, b.trans (by norm_num)⟩
  refine ⟨v1.1, le_rfl, by simp, ?_, ?_⟩
  · show val (0 : Float) < val (1 : Float)
    rw [v0.2, v1.2]; norm_num
  · show val (1 : Float) < val (3 : Float)
    rw [v3.2, v1.2]; norm_num

theorem normalExample_tangents : TangentBounds normalExample 1 1 := by
  have v0 := zero_val
  have v1 := one_val
  have v3 : IsFin (3 : Float) ∧ val (3 : Float) = 3 := by
    obtain ⟨a, b⟩ := ofNat_val (n := 3) (by norm_num)
    exact ⟨a, b.trans (by norm_num)⟩
  have hl : (2 : ℝ) ^ (-200 : Int) ≤ 1 := zpow_le_one_of_nonpos₀ (by norm_num) (by norm_num)
  have hh : (1 : ℝ) ≤ 2 ^ (200 : Int) := one_le_zpow₀ (by norm_num) (by norm_num)
  have hi : invOrZero (3 : ℝ) = 1 / 3 := by
    unfold invOrZero
    rw [if_neg (by simp [Env.ulpsEq])]
  refine ⟨hl, hh, hl, hh, ?_, ?_⟩
  · intro r hr q hq
    rw [surface_slopesU (s := realSurface normalExample) (mapNet_ok toReal normalExample_ok.net) rfl le_rfl le_rfl (by decide)] at hr
    cases hr
    simp only [realSurface, normalExample, mapNet, netTab, slopeOf, entry, knot, toReal, List.map_cons, List.map_nil,
      v0.2, v1.2, v3.2] at hq
    have e1 : List.range (2 - 1) = [0] := rfl
    have e2 : List.range 2 = [0, 1] := rfl
    simp only [e1, e2, List.flatMap_cons, List.flatMap_nil, List.map_cons, List.map_nil, List.append_nil, List.cons_append,
      List.nil_append, List.mem_cons, List.not_mem_nil, or_false, List.getD, List.getElem?_cons_succ, List.getElem?_cons_zero, Option.getD_some, Nat.reduceAdd,
      Nat.reduceMul, sub_zero, hi] at hq
    rcases hq with rfl | rfl <;> simp [Within] <;> norm_num
  · intro r hr q hq
    rw [surface_slopesV (s := realSurface normalExample) (mapNet_ok toReal normalExample_ok.net) rfl le_rfl le_rfl (by decide)] at hr
    cases hr
    simp only [realSurface, normalExample, mapNet, netTab, slopeOf, entry, knot, toReal, List.map_cons, List.map_nil,
      v0.2, v1.2, v3.2] at hq
    have e1 : List.range (2 - 1) = [0] := rfl
    have e2 : List.range 2 = [0, 1] := rfl
    simp only [e1, e2, List.flatMap_cons, List.flatMap_nil, List.map_cons, List.map_nil, List.append_nil, List.cons_append,
      List.nil_append, List.mem_cons, List.not_mem_nil, or_false, List.getD, List.getElem?_cons_succ, List.getElem?_cons_zero, Option.getD_some, Nat.reduceAdd,
      Nat.reduceMul, sub_zero, hi] at hq
    rcases hq with rfl | rfl <;> simp [Within] <;> norm_num

/-- The saddle meets the conditions at `(1, 1)`; its normal there. -/
theorem C130_example : SurfaceF normalExample ∧ InSpanF normalExample.knots.1 normalExample.degree.1 1 1 ∧
    InSpanF normalExample.knots.2 normalExample.degree.2 1 1 ∧ TangentBounds normalExample 1 1 ∧
    (normalExample.getNormals [⟨1, 1⟩]).toOption.map (·.map fun n => (n.x.toBits, n.y.toBits, n.z.toBits))
      = some [(13815945806004151419, 13815945806004151419, 4607073236592263434)] :=
  ⟨normalExample_ok, normalExample_span, normalExample_span, normalExample_tangents, by decide +kernel⟩

end Geom3d
