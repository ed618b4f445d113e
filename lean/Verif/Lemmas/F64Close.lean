import Verif.Lemmas.F64Sim

/-! # Sums, products and scalar products of inexact binary64 numbers -/

namespace Geom3d.F64

/-- `x` is finite and differs by at most `e` from `X`. -/
def Close (e : ℝ) (x : Float) (X : ℝ) : Prop := IsFin x ∧ |val x - X| ≤ e

theorem Close.nonneg {e X : ℝ} {x : Float} (h : Close e x X) : 0 ≤ e := (abs_nonneg _).trans h.2

theorem Close.mono {e f X : ℝ} {x : Float} (h : Close e x X) (hef : e ≤ f) : Close f x X := ⟨h.1, h.2.trans hef⟩

theorem close_val {x : Float} (h : IsFin x) : Close 0 x (val x) := ⟨h, by simp⟩

theorem Close.size {e X B : ℝ} {x : Float} (h : Close e x X) (hX : |X| ≤ B) : |val x| ≤ B + e := by
  have := abs_sub_abs_le_abs_sub (val x) X
  linarith [h.2]

theorem Close.shift {e f X Y : ℝ} {x : Float} (h : Close e x X) (hXY : |X - Y| ≤ f) : Close (e + f) x Y :=
  ⟨h.1, (abs_sub_le _ X _).trans (add_le_add h.2 hXY)⟩

theorem le_max_of_hundred {X : ℝ} (h : |X| ≤ 2 ^ 200) : |X| ≤ maxFinite :=
  small_le_max (h.trans (by rw [← zpow_natCast]; exact two_zpow_le (by norm_num)))

theorem Close.add {e f X Y B : ℝ} {x y : Float} (hx : Close e x X) (hy : Close f y Y) (hB : |X + Y| ≤ B) (hef : e + f ≤ B)
    (hB' : B ≤ 2 ^ 100) : Close (e + f + B / 2 ^ 52) (x + y) (X + Y) := by
  have h1 : |val x + val y - (X + Y)| ≤ e + f := by
    rw [show val x + val y - (X + Y) = (val x - X) + (val y - Y) by ring]
    exact (abs_add_le _ _).trans (add_le_add hx.2 hy.2)
  have h2 : |val x + val y| ≤ 2 * B := by
    have := abs_sub_abs_le_abs_sub (val x + val y) (X + Y)
    linarith
  have hm : |val x + val y| ≤ maxFinite := le_max_of_hundred (h2.trans (by norm_num at hB' ⊢; linarith))
  refine ⟨(add_rounds hx.1 hy.1 hm).1, ?_⟩
  have h3 := add_err hx.1 hy.1 hm
  have h4 := mul_le_mul_of_nonneg_left h2 eps_pos.le
  have h5 := abs_sub_le (val (x + y)) (val x + val y) (X + Y)
  rw [eps_eq] at h3 h4
  norm_num at h3 h4 ⊢
  linarith

theorem Close.sub {e f X Y B : ℝ} {x y : Float} (hx : Close e x X) (hy : Close f y Y) (hB : |X - Y| ≤ B) (hef : e + f ≤ B)
    (hB' : B ≤ 2 ^ 100) : Close (e + f + B / 2 ^ 52) (x - y) (X - Y) := by
  have h1 : |val x - val y - (X - Y)| ≤ e + f := by
    rw [show val x - val y - (X - Y) = (val x - X) - (val y - Y) by ring]
    exact (abs_sub _ _).trans (add_le_add hx.2 hy.2)
  have h2 : |val x - val y| ≤ 2 * B := by
    have := abs_sub_abs_le_abs_sub (val x - val y) (X - Y)
    linarith
  have hm : |val x - val y| ≤ maxFinite := le_max_of_hundred (h2.trans (by norm_num at hB' ⊢; linarith))
  refine ⟨(sub_rounds hx.1 hy.1 hm).1, ?_⟩
  have h3 := sub_err hx.1 hy.1 hm
  have h4 := mul_le_mul_of_nonneg_left h2 eps_pos.le
  have h5 := abs_sub_le (val (x - y)) (val x - val y) (X - Y)
  rw [eps_eq] at h3 h4
  norm_num at h3 h4 ⊢
  linarith

theorem eta_le_hundred : eta ≤ 1 / 2 ^ 60 := by
  have h1 : eta ≤ 2 ^ (-60 : Int) := by rw [eta]; exact two_zpow_le (by norm_num)
  norm_num at h1 ⊢
  linarith

theorem Close.mul {e f X Y A B : ℝ} {x y : Float} (hx : Close e x X) (hy : Close f y Y) (hA : |X| ≤ A) (hB : |Y| ≤ B) (he : e ≤ A)
    (hf : f ≤ B) (h1 : 1 ≤ A * B) (hAB : A * B ≤ 2 ^ 100) : Close (e * (B + f) + f * A + A * B / 2 ^ 50) (x * y) (X * Y) := by
  have hA0 : 0 ≤ A := (abs_nonneg _).trans hA
  have hB0 : 0 ≤ B := (abs_nonneg _).trans hB
  have he0 := hx.nonneg
  have hf0 := hy.nonneg
  have sx := hx.size hA
  have sy := hy.size hB
  have hp : |val x * val y| ≤ 4 * (A * B) := by
    rw [abs_mul]
    calc |val x| * |val y| ≤ (A + e) * (B + f) := mul_le_mul sx sy (abs_nonneg _) (by linarith)
      _ ≤ (A + A) * (B + B) := mul_le_mul (by linarith) (by linarith) (by linarith) (by linarith)
      _ = _ := by ring
  have hm : |val x * val y| ≤ maxFinite := le_max_of_hundred (hp.trans (by norm_num at hAB ⊢; linarith))
  obtain ⟨g, r⟩ := mul_rounds hx.1 hy.1 hm
  refine ⟨g, ?_⟩
  have h3 := r.bound
  have h4 := mul_le_mul_of_nonneg_left hp eps_pos.le
  have h6 : |val x * val y - X * Y| ≤ e * (B + f) + f * A := by
    rw [show val x * val y - X * Y = (val x - X) * val y + X * (val y - Y) by ring]
    refine (abs_add_le _ _).trans ?_
    rw [abs_mul, abs_mul, mul_comm f A]
    exact add_le_add (mul_le_mul hx.2 sy (abs_nonneg _) he0) (mul_le_mul hA hy.2 (abs_nonneg _) hA0)
  have h5 := abs_sub_le (val (x * y)) (val x * val y) (X * Y)
  have h7 := eta_le_hundred
  rw [eps_eq] at h3 h4
  norm_num at h3 h4 h7 ⊢
  linarith

/-! ### Vectors -/

theorem near_iff_close {e : ℝ} {p : V3 Float} {q : V3 ℝ} :
    Near e p q ↔ Close e p.x q.x ∧ Close e p.y q.y ∧ Close e p.z q.z := Iff.rfl

theorem near_self {M : ℝ} {p : V3 Float} (h : Bounded M p) : Near 0 p (toReal p) :=
  ⟨close_val h.1.1, close_val h.2.1.1, close_val h.2.2.1⟩

theorem Near.sub {e f B : ℝ} {p q : V3 Float} {P Q : V3 ℝ} (hp : Near e p P) (hq : Near f q Q) (hB : Within B (P - Q))
    (hef : e + f ≤ B) (hB' : B ≤ 2 ^ 100) : Near (e + f + B / 2 ^ 52) (p - q) (P - Q) :=
  ⟨Close.sub hp.1 hq.1 hB.1 hef hB', Close.sub hp.2.1 hq.2.1 hB.2.1 hef hB', Close.sub hp.2.2 hq.2.2 hB.2.2 hef hB'⟩

theorem Near.add {e f B : ℝ} {p q : V3 Float} {P Q : V3 ℝ} (hp : Near e p P) (hq : Near f q Q) (hB : Within B (P + Q))
    (hef : e + f ≤ B) (hB' : B ≤ 2 ^ 100) : Near (e + f + B / 2 ^ 52) (p + q) (P + Q) :=
  ⟨Close.add hp.1 hq.1 hB.1 hef hB', Close.add hp.2.1 hq.2.1 hB.2.1 hef hB', Close.add hp.2.2 hq.2.2 hB.2.2 hef hB'⟩

theorem Near.smul {e f A B X : ℝ} {p : V3 Float} {P : V3 ℝ} {x : Float} (hp : Near e p P) (hx : Close f x X) (hA : Within A P)
    (hB : |X| ≤ B) (he : e ≤ A) (hf : f ≤ B) (h1 : 1 ≤ A * B) (hAB : A * B ≤ 2 ^ 100) :
    Near (e * (B + f) + f * A + A * B / 2 ^ 50) (p * x) (P * X) :=
  ⟨Close.mul hp.1 hx hA.1 hB he hf h1 hAB, Close.mul hp.2.1 hx hA.2.1 hB he hf h1 hAB, Close.mul hp.2.2 hx hA.2.2 hB he hf h1 hAB⟩

theorem Near.dot {e f A B : ℝ} {p q : V3 Float} {P Q : V3 ℝ} (hp : Near e p P) (hq : Near f q Q) (hA : Within A P)
    (hB : Within B Q) (he : e ≤ A) (hf : f ≤ B) (h1 : 1 ≤ A * B) (hAB : A * B ≤ 2 ^ 90) :
    Close (3 * (e * (B + f) + f * A) + A * B / 2 ^ 46) (p.dot q) (P.dot Q) := by
  have hA0 : 0 ≤ A := (abs_nonneg _).trans hA.1
  have hB0 : 0 ≤ B := (abs_nonneg _).trans hB.1
  have he0 : 0 ≤ e := Close.nonneg hp.1
  have hf0 : 0 ≤ f := Close.nonneg hq.1
  have hAB' : A * B ≤ 2 ^ 100 := hAB.trans (by norm_num)
  have m1 := Close.mul hp.1 hq.1 hA.1 hB.1 he hf h1 hAB'
  have m2 := Close.mul hp.2.1 hq.2.1 hA.2.1 hB.2.1 he hf h1 hAB'
  have m3 := Close.mul hp.2.2 hq.2.2 hA.2.2 hB.2.2 he hf h1 hAB'
  have b : ∀ {u v : ℝ}, |u| ≤ A → |v| ≤ B → |u * v| ≤ A * B := fun hu hv => by
    rw [abs_mul]; exact mul_le_mul hu hv (abs_nonneg _) hA0
  have b1 := b hA.1 hB.1
  have b2 := b hA.2.1 hB.2.1
  have b3 := b hA.2.2 hB.2.2
  have k1 : e * (B + f) ≤ 2 * (A * B) := by nlinarith [mul_le_mul he hf hf0 hA0, mul_le_mul_of_nonneg_right he hB0]
  have k2 : f * A ≤ A * B := by nlinarith
  set E := e * (B + f) + f * A with hE
  set C := A * B with hC
  have hE0 : 0 ≤ E := by positivity
  have s1 := m1.add m2 (B := 8 * C) ((abs_add_le _ _).trans (by linarith)) (by norm_num; linarith) (by norm_num at hAB ⊢; linarith)
  have s2 := s1.add m3 (B := 16 * C) ((abs_add_three _ _ _).trans (by linarith)) (by norm_num; linarith) (by norm_num at hAB ⊢; linarith)
  exact s2.mono (by norm_num; linarith)

end Geom3d.F64
