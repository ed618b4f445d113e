import Verif.Lemmas.F64Ops

/-!
# Error bounds for binary64 computations
-/

namespace Geom3d.F64
open Float.Model Float.Model.UnpackedFloat

/-- Half a unit in the last place of `1`. -/
noncomputable def eps : ℝ := 2 ^ (-53 : Int)

/-- Half of the smallest positive number. -/
noncomputable def eta : ℝ := 2 ^ (-1075 : Int)

theorem eps_pos : 0 < eps := two_zpow_pos _
theorem eta_pos : 0 < eta := two_zpow_pos _
theorem eps_eq : eps = 1 / 9007199254740992 := by
  rw [eps]
  norm_num

theorem eta_le : eta ≤ eps ^ 20 := by
  rw [eta, eps, ← zpow_natCast, ← zpow_mul]
  exact zpow_le_zpow_right₀ (by norm_num) (by norm_num)

theorem Rounds.bound {X v : ℝ} (h : Rounds X v) : |v - X| ≤ eps * |X| + eta := by
  refine h.err.trans (max_le ?_ ?_)
  · exact le_add_of_nonneg_right eta_pos.le
  · exact le_add_of_nonneg_left (mul_nonneg eps_pos.le (abs_nonneg _))

theorem rep_zero : Rep 0 := ⟨0, 0, by norm_num, by norm_num, by simp⟩
theorem rep_one : Rep 1 := ⟨1, 0, by norm_num, by norm_num, by simp⟩

theorem rep_nat {n : Nat} (h : n ≤ 2 ^ 53) : Rep (n : ℝ) := by
  have := rep_int (n : Int) (by rw [abs_of_nonneg (by positivity)]; exact_mod_cast h)
  exact_mod_cast this

theorem Rounds.nonneg {X v : ℝ} (h : Rounds X v) (hX : 0 ≤ X) : 0 ≤ v := h.ge 0 rep_zero hX
theorem Rounds.le_one {X v : ℝ} (h : Rounds X v) (hX : X ≤ 1) : v ≤ 1 := h.le 1 rep_one hX

/-- Large enough for every intermediate result we look at. -/
theorem small_le_max {X : ℝ} (h : |X| ≤ 2 ^ (1023 : Int)) : |X| ≤ maxFinite := by
  refine h.trans ?_
  rw [maxFinite, show (1023 : Int) = 52 + 971 by norm_num, zpow_add₀ (by norm_num)]
  exact mul_le_mul_of_nonneg_right (by norm_num) (two_zpow_pos _).le

theorem le_max_of_le_four {X : ℝ} (h : |X| ≤ 4) : |X| ≤ maxFinite := by
  refine small_le_max (h.trans ?_)
  rw [show (4 : ℝ) = 2 ^ (2 : Int) by norm_num]
  exact zpow_le_zpow_right₀ (by norm_num) (by norm_num)

/-- A comparison with a finite number on both sides. -/
theorem fin_of_between {a u b : Float} (ha : IsFin a) (hb : IsFin b) (h1 : a ≤ u) (h2 : u ≤ b) : IsFin u := by
  have e1 : UnpackedFloat.le a.toModel.unpack u.toModel.unpack = true := by
    have : Float.le a u = true := h1
    rw [Float.le, decide_eq_true_iff] at this
    exact this
  have e2 : UnpackedFloat.le u.toModel.unpack b.toModel.unpack = true := by
    have : Float.le u b = true := h2
    rw [Float.le, decide_eq_true_iff] at this
    exact this
  have fa := ha.fits
  have fb := hb.fits
  rw [fin_unpack]
  generalize a.toModel.unpack = a' at *
  generalize b.toModel.unpack = b' at *
  generalize u.toModel.unpack = u' at *
  cases u' with
  | zero s => rfl
  | finite s m e h => rfl
  | notANumber => cases a' <;> simp [UnpackedFloat.le, UnpackedFloat.compare] at e1
  | infinity s =>
    cases s
    · cases a' with
      | infinity => exact fa.elim
      | notANumber => exact fa.elim
      | zero => simp [UnpackedFloat.le, UnpackedFloat.compare] at e1
      | finite s => cases s <;> simp [UnpackedFloat.le, UnpackedFloat.compare] at e1
    · cases b' with
      | infinity => exact fb.elim
      | notANumber => exact fb.elim
      | zero => simp [UnpackedFloat.le, UnpackedFloat.compare] at e2
      | finite s => cases s <;> simp [UnpackedFloat.le, UnpackedFloat.compare] at e2

/-- Floats in the unit interval. -/
theorem unit_float {u : Float} (h0 : 0 ≤ u) (h1 : u ≤ 1) : IsFin u ∧ 0 ≤ val u ∧ val u ≤ 1 := by
  have hf := fin_of_between zero_val.1 one_val.1 h0 h1
  have a := (le_iff zero_val.1 hf).mp h0
  have b := (le_iff hf one_val.1).mp h1
  rw [zero_val.2] at a
  rw [one_val.2] at b
  exact ⟨hf, a, b⟩

/-! ### Relative plus absolute error -/

/-- `x` is `X` up to a relative error `e` and an absolute error `c`. -/
def Apx (e c X x : ℝ) : Prop := |x - X| ≤ e * X + c

theorem Apx.mono {e c e' c' X x : ℝ} (h : Apx e c X x) (hX : 0 ≤ X) (he : e ≤ e') (hc : c ≤ c') : Apx e' c' X x :=
  h.trans (add_le_add (mul_le_mul_of_nonneg_right he hX) hc)

theorem Apx.upper {e c X x : ℝ} (h : Apx e c X x) : x ≤ (1 + e) * X + c := by
  have := (abs_le.mp h).2
  linarith

theorem Apx.scale {e c X x a : ℝ} (h : Apx e c X x) (ha : 0 ≤ a) : Apx e (a * c) (a * X) (a * x) := by
  unfold Apx at *
  rw [← mul_sub, abs_mul, abs_of_nonneg ha]
  calc a * |x - X| ≤ a * (e * X + c) := mul_le_mul_of_nonneg_left h ha
    _ = e * (a * X) + a * c := by ring

theorem Apx.add {e c d X x Y y : ℝ} (h : Apx e c X x) (h' : Apx e d Y y) : Apx e (c + d) (X + Y) (x + y) := by
  unfold Apx at *
  calc |x + y - (X + Y)| = |(x - X) + (y - Y)| := by congr 1; ring
    _ ≤ |x - X| + |y - Y| := abs_add_le _ _
    _ ≤ (e * X + c) + (e * Y + d) := add_le_add h h'
    _ = e * (X + Y) + (c + d) := by ring

theorem Apx.round {e c X x y : ℝ} (h : Apx e c X x) (hx : 0 ≤ x) (hr : Rounds x y) :
    Apx (e + eps + e * eps) ((1 + eps) * c + eta) X y := by
  have hb := hr.bound
  rw [abs_of_nonneg hx] at hb
  have hu := h.upper
  unfold Apx at *
  calc |y - X| = |(y - x) + (x - X)| := by congr 1; ring
    _ ≤ |y - x| + |x - X| := abs_add_le _ _
    _ ≤ (eps * x + eta) + (e * X + c) := add_le_add hb h
    _ ≤ (eps * ((1 + e) * X + c) + eta) + (e * X + c) := by
        have := mul_le_mul_of_nonneg_left hu eps_pos.le
        linarith
    _ = (e + eps + e * eps) * X + ((1 + eps) * c + eta) := by ring

theorem Apx.mul {e c f d X x Y y : ℝ} (h : Apx e c X x) (h' : Apx f d Y y) (hx : 0 ≤ x) (hY : 0 ≤ Y)
    (hf : 0 ≤ f) (hd : 0 ≤ d) :
    Apx (e + f + e * f) ((1 + e) * X * d + c * (f * Y + d + Y)) (X * Y) (x * y) := by
  have hu := h.upper
  unfold Apx at *
  calc |x * y - X * Y| = |x * (y - Y) + Y * (x - X)| := by congr 1; ring
    _ ≤ |x * (y - Y)| + |Y * (x - X)| := abs_add_le _ _
    _ = x * |y - Y| + Y * |x - X| := by rw [abs_mul, abs_mul, abs_of_nonneg hx, abs_of_nonneg hY]
    _ ≤ x * (f * Y + d) + Y * (e * X + c) :=
        add_le_add (mul_le_mul_of_nonneg_left h' hx) (mul_le_mul_of_nonneg_left h hY)
    _ ≤ ((1 + e) * X + c) * (f * Y + d) + Y * (e * X + c) := by
        have := mul_le_mul_of_nonneg_right hu (add_nonneg (mul_nonneg hf hY) hd)
        linarith
    _ = (e + f + e * f) * (X * Y) + ((1 + e) * X * d + c * (f * Y + d + Y)) := by ring

end Geom3d.F64
