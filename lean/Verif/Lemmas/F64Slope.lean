import Verif.Lemmas.F64Sim
import Verif.Lemmas.F64Dist

/-! # Slopes of control polygons in binary64 -/

namespace Geom3d.F64
open Spec

/-- A relative error as a factor. -/
theorem rel_factor {x X : ℝ} (h : |x - X| ≤ eps * |X|) : ∃ δ, |δ| ≤ eps ∧ x = X * (1 + δ) := by
  by_cases hX : X = 0
  · subst hX
    rw [abs_zero, mul_zero] at h
    refine ⟨0, by rw [abs_zero]; exact eps_pos.le, ?_⟩
    have := abs_eq_zero.mp (le_antisymm h (abs_nonneg _))
    rw [sub_zero] at this
    rw [this, zero_mul]
  · refine ⟨(x - X) / X, ?_, by field_simp; ring⟩
    rw [abs_div]
    exact (div_le_iff₀ (abs_pos.mpr hX)).mpr h

theorem factor_mul {f δ u : ℝ} (h : |f - 1| ≤ u) (hδ : |δ| ≤ eps) : |f * (1 + δ) - 1| ≤ u + eps + u * eps := by
  have hu : 0 ≤ u := (abs_nonneg _).trans h
  rw [show f * (1 + δ) - 1 = (f - 1) + δ + (f - 1) * δ by ring]
  refine (abs_add_le _ _).trans (add_le_add ((abs_add_le _ _).trans (add_le_add h hδ)) ?_)
  rw [abs_mul]
  exact mul_le_mul h hδ (abs_nonneg _) hu

theorem factor_step {f δ k : ℝ} (h : |f - 1| ≤ k * eps) (hk : k ≤ 10) (hδ : |δ| ≤ eps) :
    |f * (1 + δ) - 1| ≤ (k + 101 / 100) * eps := by
  have hs : eps ≤ 1 / 1000 := by rw [eps_eq]; norm_num
  have hε := eps_pos
  refine (factor_mul h hδ).trans ?_
  have : k * eps * eps ≤ 10 * eps * (1 / 1000) := by
    refine mul_le_mul (mul_le_mul_of_nonneg_right hk hε.le) hs hε.le (by linarith)
  linarith

theorem factor_inv {δ : ℝ} (hδ : |δ| ≤ eps) : |1 / (1 + δ) - 1| ≤ 101 / 100 * eps := by
  have hs : eps ≤ 1 / 1000 := by rw [eps_eq]; norm_num
  have hε := eps_pos
  obtain ⟨h1, h2⟩ := abs_le.mp hδ
  have hp : 0 < 1 + δ := by linarith
  rw [show 1 / (1 + δ) - 1 = -δ / (1 + δ) by field_simp; ring, abs_div, abs_neg, abs_of_pos hp, div_le_iff₀ hp]
  nlinarith

/-- A rounded number that is not tiny. -/
theorem Rounds.rel {X v : ℝ} (h : Rounds X v) (hX : (2 : ℝ) ^ (-1022 : Int) ≤ |X|) : |v - X| ≤ eps * |X| := by
  refine h.err.trans (max_le le_rfl ?_)
  calc (2 : ℝ) ^ (-1075 : Int) = 2 ^ (-53 : Int) * 2 ^ (-1022 : Int) := by rw [← zpow_add₀ (by norm_num)]; norm_num
    _ ≤ _ := mul_le_mul_of_nonneg_left hX (two_zpow_pos _).le

/-- A whole multiple has no underflow. -/
theorem mul_nat_err {a : Float} {p : Nat} (ha : IsFin a) (hp : p < 2 ^ 53) (h : |val a * p| ≤ maxFinite) :
    IsFin (a * (Nat.cast p : Float)) ∧ |val (a * (Nat.cast p : Float)) - val a * p| ≤ eps * |val a * p| := by
  obtain ⟨fp, vp⟩ := natCast_val hp
  obtain ⟨f, r⟩ := mul_rounds ha fp (by rw [vp]; exact h)
  rw [vp] at r
  obtain ⟨k, hk⟩ := rep_multiple (val_rep ha)
  exact ⟨f, r.sum_err (k := k * p) (by rw [hk]; push_cast; ring)⟩

theorem slope_total {w S f : ℝ} (ew : |w - S * f| ≤ eps * |S * f| + eta)
    (hf : |f - 1| ≤ (101 / 100 + 101 / 100 + 101 / 100 + 101 / 100) * eps) : |w - S| ≤ 6 * eps * |S| + eta := by
  have hs : eps ≤ 1 / 1000 := by rw [eps_eq]; norm_num
  have hε := eps_pos
  have hf' : |f - 1| ≤ 41 / 10 * eps := hf.trans (by linarith)
  have hf1 : |f| ≤ 11 / 10 := by
    have := abs_sub_abs_le_abs_sub f 1
    rw [abs_one] at this
    linarith
  have hS := abs_nonneg S
  have hεS := mul_nonneg hε.le hS
  calc |w - S| ≤ |w - S * f| + |S * f - S| := abs_sub_le _ _ _
    _ ≤ (eps * |S * f| + eta) + |S| * |f - 1| := by
        refine add_le_add ew (le_of_eq ?_)
        rw [show S * f - S = S * (f - 1) by ring, abs_mul]
    _ ≤ (eps * (|S| * (11 / 10)) + eta) + |S| * (41 / 10 * eps) := by
        rw [abs_mul]
        gcongr
    _ ≤ _ := by linarith

/-- `(b - a) * p / (hi - lo)`. -/
theorem slope_err {a b hi lo : Float} {p : Nat} (fa : IsFin a) (fb : IsFin b) (fh : IsFin hi) (fl : IsFin lo)
    (ba : |val a| ≤ 2 ^ (900 : Int)) (bb : |val b| ≤ 2 ^ (900 : Int)) (bh : |val hi| ≤ 2 ^ (900 : Int))
    (bl : |val lo| ≤ 2 ^ (900 : Int)) (hp : p ≤ 2 ^ 40)
    (hgap : val hi = val lo ∨ (2 : ℝ) ^ (-51 : Int) ≤ val hi - val lo) :
    IsFin ((b - a) * (Nat.cast p : Float) * invOrZero (hi - lo)) ∧
      |val ((b - a) * (Nat.cast p : Float) * invOrZero (hi - lo)) - (val b - val a) * p * invOrZero (val hi - val lo)|
        ≤ 6 * eps * |(val b - val a) * p * invOrZero (val hi - val lo)| + eta := by
  have hε := eps_pos
  have hs : eps ≤ 1 / 1000 := by rw [eps_eq]; norm_num
  have h901 : (2 : ℝ) ^ (901 : Int) = 2 * 2 ^ (900 : Int) := by
    rw [show (901 : Int) = 1 + 900 by norm_num, ← two_mul_zpow]
  have hpR : (p : ℝ) ≤ 2 ^ (40 : Int) := by exact_mod_cast hp
  have hp0 : (0 : ℝ) ≤ p := Nat.cast_nonneg _
  have bD : |val b - val a| ≤ 2 ^ (901 : Int) := by
    rw [h901, abs_le]
    obtain ⟨a1, a2⟩ := abs_le.mp ba
    obtain ⟨b1, b2⟩ := abs_le.mp bb
    constructor <;> linarith
  have mD : |val b - val a| ≤ maxFinite := small_le_max (bD.trans (two_zpow_le (by norm_num)))
  obtain ⟨fd, rd⟩ := sub_rounds fb fa mD
  have ed := sub_err fb fa mD
  have bd : |val (b - a)| ≤ 2 ^ (901 : Int) := rd.abs_le (rep_pow _ (by norm_num)) bD
  have bm : |val (b - a) * p| ≤ 2 ^ (941 : Int) := by
    rw [abs_mul, abs_of_nonneg hp0, show (941 : Int) = 901 + 40 by norm_num, zpow_add₀ (by norm_num)]
    exact mul_le_mul bd hpR hp0 (two_zpow_pos _).le
  obtain ⟨fm, em⟩ := mul_nat_err fd (lt_of_le_of_lt hp (by norm_num)) (small_le_max (bm.trans (two_zpow_le (by norm_num))))
  rcases hgap with heq | hgap
  · have e2 : val hi - val lo = 0 := by linarith
    obtain ⟨f2, r2⟩ := sub_rounds fh fl (le_max_of_le_four (by rw [e2, abs_zero]; norm_num))
    rw [e2] at r2
    have v2 := r2.of_rep rep_zero
    have hz : invOrZero (hi - lo) = 0 := if_pos ((ulpsEq_zero_iff f2).mpr (by
      rw [v2, abs_zero]; exact (two_zpow_pos _).le))
    have hz' : invOrZero (val hi - val lo) = 0 := by rw [e2]; exact if_pos (decide_eq_true rfl)
    obtain ⟨f3, r3⟩ := mul_rounds fm zero_val.1 (by rw [zero_val.2, mul_zero, abs_zero]; linarith [one_le_maxFinite])
    rw [zero_val.2, mul_zero] at r3
    have v3 := r3.of_rep rep_zero
    rw [hz, hz', v3, mul_zero, sub_zero, abs_zero, mul_zero, zero_add]
    exact ⟨f3, eta_pos.le⟩
  · have hg0 := two_zpow_pos (-51)
    have hT0 : 0 < val hi - val lo := lt_of_lt_of_le hg0 hgap
    have hT1 : val hi - val lo ≤ 2 ^ (901 : Int) := by
      rw [h901]; linarith [(abs_le.mp bh).2, (abs_le.mp bl).1]
    have mT : |val hi - val lo| ≤ maxFinite :=
      small_le_max (by rw [abs_of_pos hT0]; exact hT1.trans (two_zpow_le (by norm_num)))
    obtain ⟨ft, rt⟩ := sub_rounds fh fl mT
    have et := sub_err fh fl mT
    have tlo : (2 : ℝ) ^ (-51 : Int) ≤ val (hi - lo) := rt.ge _ (rep_pow _ (by norm_num)) hgap
    have thi : val (hi - lo) ≤ 2 ^ (901 : Int) := rt.le _ (rep_pow _ (by norm_num)) hT1
    have t0 : 0 < val (hi - lo) := lt_of_lt_of_le hg0 tlo
    rw [invOrZero_of_large ft (by
      rw [abs_of_pos t0]
      refine lt_of_lt_of_le ?_ tlo
      norm_num)]
    have q0 : 0 < 1 / val (hi - lo) := one_div_pos.mpr t0
    have q1 : 1 / val (hi - lo) ≤ 2 ^ (51 : Int) := by
      rw [div_le_iff₀ t0]
      calc (1 : ℝ) = 2 ^ (51 : Int) * 2 ^ (-51 : Int) := by norm_num
        _ ≤ _ := mul_le_mul_of_nonneg_left tlo (two_zpow_pos _).le
    have q2 : (2 : ℝ) ^ (-901 : Int) ≤ 1 / val (hi - lo) := by
      rw [le_div_iff₀ t0]
      calc (2 : ℝ) ^ (-901 : Int) * val (hi - lo) ≤ 2 ^ (-901 : Int) * 2 ^ (901 : Int) :=
            mul_le_mul_of_nonneg_left thi (two_zpow_pos _).le
        _ = 1 := by rw [← zpow_add₀ (by norm_num)]; norm_num
    have eq : val (1 : Float) / val (hi - lo) = 1 / val (hi - lo) := by rw [one_val.2]
    obtain ⟨fv, rv⟩ := div_rounds one_val.1 ft t0.ne' (small_le_max (by
      rw [eq, abs_of_pos q0]; exact q1.trans (two_zpow_le (by norm_num))))
    rw [eq] at rv
    have ev := rv.rel (by rw [abs_of_pos q0]; exact (two_zpow_le (by norm_num)).trans q2)
    have bv : |val (1 / (hi - lo))| ≤ 2 ^ (51 : Int) :=
      rv.abs_le (rep_pow _ (by norm_num)) (by rw [abs_of_pos q0]; exact q1)
    have bm' : |val ((b - a) * (Nat.cast p : Float))| ≤ 2 ^ (942 : Int) := by
      have h2 : (2 : ℝ) ^ (942 : Int) = 2 * 2 ^ (941 : Int) := by
        rw [show (942 : Int) = 1 + 941 by norm_num, ← two_mul_zpow]
      have := abs_sub_abs_le_abs_sub (val ((b - a) * (Nat.cast p : Float))) (val (b - a) * p)
      have h3 : eps * |val (b - a) * p| ≤ 1 * |val (b - a) * p| :=
        mul_le_mul_of_nonneg_right (by linarith) (abs_nonneg _)
      rw [h2]; linarith
    obtain ⟨fw, rw'⟩ := mul_rounds fm fv (small_le_max (by
      rw [abs_mul]
      refine (mul_le_mul bm' bv (abs_nonneg _) (two_zpow_pos _).le).trans ?_
      rw [← zpow_add₀ (by norm_num)]
      exact two_zpow_le (by norm_num)))
    refine ⟨fw, ?_⟩
    have ew := rw'.bound
    obtain ⟨d1, h1, e1⟩ := rel_factor ed
    obtain ⟨d2, h2, e2⟩ := rel_factor em
    obtain ⟨d3, h3, e3⟩ := rel_factor et
    obtain ⟨d4, h4, e4⟩ := rel_factor ev
    have hreal : invOrZero (val hi - val lo) = 1 / (val hi - val lo) := by
      unfold invOrZero
      rw [if_neg (by simp only [Env.ulpsEq, decide_eq_true_eq]; exact hT0.ne')]
    rw [hreal]
    have n3 : (1 : ℝ) + d3 ≠ 0 := by
      have := (abs_le.mp h3).1
      intro h
      linarith
    have hf := factor_step (factor_step (factor_step (factor_inv h3) (by norm_num) h1) (by norm_num) h2) (by norm_num) h4
    have hX : val ((b - a) * (Nat.cast p : Float)) * val (1 / (hi - lo))
        = (val b - val a) * p * (1 / (val hi - val lo)) * (1 / (1 + d3) * (1 + d1) * (1 + d2) * (1 + d4)) := by
      rw [e4, e3, e2, e1]
      field_simp
    rw [hX] at ew
    generalize (val b - val a) * p * (1 / (val hi - val lo)) = S at ew ⊢
    generalize 1 / (1 + d3) * (1 + d1) * (1 + d2) * (1 + d4) = f at ew hf
    exact slope_total ew hf

/-- `(b - a) * p`. -/
theorem difference_err {a b : Float} {p : Nat} (fa : IsFin a) (fb : IsFin b) (ba : |val a| ≤ 2 ^ (900 : Int))
    (bb : |val b| ≤ 2 ^ (900 : Int)) (hp : p ≤ 2 ^ 40) :
    IsFin ((b - a) * (Nat.cast p : Float)) ∧
      |val ((b - a) * (Nat.cast p : Float)) - p * (val b - val a)| ≤ 6 * eps * |p * (val b - val a)| + eta := by
  have hε := eps_pos
  have h901 : (2 : ℝ) ^ (901 : Int) = 2 * 2 ^ (900 : Int) := by
    rw [show (901 : Int) = 1 + 900 by norm_num, ← two_mul_zpow]
  have hpR : (p : ℝ) ≤ 2 ^ (40 : Int) := by exact_mod_cast hp
  have hp0 : (0 : ℝ) ≤ p := Nat.cast_nonneg _
  have bD : |val b - val a| ≤ 2 ^ (901 : Int) := by
    rw [h901, abs_le]
    obtain ⟨a1, a2⟩ := abs_le.mp ba
    obtain ⟨b1, b2⟩ := abs_le.mp bb
    constructor <;> linarith
  have mD : |val b - val a| ≤ maxFinite := small_le_max (bD.trans (two_zpow_le (by norm_num)))
  obtain ⟨fd, rd⟩ := sub_rounds fb fa mD
  have ed := sub_err fb fa mD
  have bd : |val (b - a)| ≤ 2 ^ (901 : Int) := rd.abs_le (rep_pow _ (by norm_num)) bD
  have bm : |val (b - a) * p| ≤ 2 ^ (941 : Int) := by
    rw [abs_mul, abs_of_nonneg hp0, show (941 : Int) = 901 + 40 by norm_num, zpow_add₀ (by norm_num)]
    exact mul_le_mul bd hpR hp0 (two_zpow_pos _).le
  obtain ⟨fm, em⟩ := mul_nat_err fd (lt_of_le_of_lt hp (by norm_num)) (small_le_max (bm.trans (two_zpow_le (by norm_num))))
  refine ⟨fm, ?_⟩
  obtain ⟨d1, h1, e1⟩ := rel_factor ed
  have hf : |1 + d1 - 1| ≤ (101 / 100 + 101 / 100 + 101 / 100 + 101 / 100) * eps := by
    rw [add_sub_cancel_left]; linarith
  have hX : val (b - a) * p = (p * (val b - val a)) * (1 + d1) := by rw [e1]; ring
  rw [hX] at em
  exact slope_total (em.trans (by linarith [eta_pos])) hf

end Geom3d.F64
