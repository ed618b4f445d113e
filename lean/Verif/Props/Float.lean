import Verif.Lemmas.F64Bernstein
import Verif.Lemmas.F64Sum
import Verif.Props.Curves

/-!
# C91, C92: Bernstein weights and Bézier curves in binary64

All theorems are about the operations of IEEE binary64 with all their rounding, for every input.
-/

namespace Geom3d
open Spec F64

/-! ### C91 -/

/-- **C91.** For every binary64 `u` in `[0, 1]` all weights are finite, not negative and equal to the Bernstein
polynomials up to a relative error of `(n - 1) * 2 ^ -51` (and an absolute error caused by underflow). -/
theorem C91_bernstein (n : Nat) (hn1 : 1 ≤ n) (hn : n ≤ 2 ^ 40) (u : Float) (h0 : 0 ≤ u) (h1 : u ≤ 1) :
    ∃ w, bernstein n u = .ok w ∧ w.length = n ∧ ∀ i, i < n → ∃ x, w[i]? = some x ∧ x.isFinite = true ∧ 0 ≤ val x ∧
      |val x - bernsteinPoly (n - 1) i (val u)|
        ≤ (n - 1 : Nat) * 2 ^ (-51 : Int) * bernsteinPoly (n - 1) i (val u) + (n - 1 : Nat) * 2 ^ (-1072 : Int) := by
  refine ⟨_, bernstein_tri n hn1 u, by simp, ?_⟩
  intro i hi
  obtain ⟨a, b, c⟩ := bernTri_apx h0 h1 (n - 1) i (by omega)
  refine ⟨_, by rw [tab_getElem?, if_pos hi], a, b, ?_⟩
  have h51 : (2 : ℝ) ^ (-51 : Int) = 4 * eps := by
    rw [eps, show (-51 : Int) = 2 + -53 by norm_num, zpow_add₀ (by norm_num)]
    norm_num
  have h72 : (2 : ℝ) ^ (-1072 : Int) = 8 * eta := by
    rw [eta, show (-1072 : Int) = 3 + -1075 by norm_num, zpow_add₀ (by norm_num)]
    norm_num
  rw [h51, h72]
  exact c

theorem sum_bernsteinPoly (d : Nat) (u : ℝ) : ∑ i ∈ Finset.range (d + 1), bernsteinPoly d i u = 1 := by
  have := C02_sum_eq_one (d + 1) (by omega) u _ (bernstein_eq _ (by omega) u)
  rwa [sum_tab] at this

/-- The total error of the weights. -/
theorem bernTri_total {u : Float} (h0 : 0 ≤ u) (h1 : u ≤ 1) (d : Nat) (hd : d ≤ 2 ^ 40) :
    ∑ i ∈ Finset.range (d + 1), |val (bernTri u (1 - u) d i) - bernsteinPoly d i (val u)|
      ≤ d * (4 * eps) + (d + 1 : Nat) * (d * (8 * eta)) := by
  calc _ ≤ ∑ i ∈ Finset.range (d + 1), (d * (4 * eps) * bernsteinPoly d i (val u) + d * (8 * eta)) :=
        Finset.sum_le_sum fun i _ => (bernTri_apx h0 h1 d i hd).2.2
    _ = _ := by rw [Finset.sum_add_distrib, ← Finset.mul_sum, sum_bernsteinPoly]; simp

/-- **C91.** The weights sum to one up to `(n - 1) * 2 ^ -51 + n * (n - 1) * 2 ^ -1072`. -/
theorem C91_sum (n : Nat) (hn1 : 1 ≤ n) (hn : n ≤ 2 ^ 40) (u : Float) (h0 : 0 ≤ u) (h1 : u ≤ 1) (w : List Float)
    (hw : bernstein n u = .ok w) :
    |(w.map val).sum - 1| ≤ (n - 1 : Nat) * 2 ^ (-51 : Int) + n * ((n - 1 : Nat) * 2 ^ (-1072 : Int)) := by
  rw [bernstein_tri n hn1 u] at hw
  injection hw with hw
  subst hw
  rw [map_tab, sum_tab]
  obtain ⟨d, rfl⟩ : ∃ d, n = d + 1 := ⟨n - 1, by omega⟩
  rw [Nat.add_sub_cancel, ← sum_bernsteinPoly d (val u), ← Finset.sum_sub_distrib]
  refine (Finset.abs_sum_le_sum_abs _ _).trans ((bernTri_total h0 h1 d (by omega)).trans (le_of_eq ?_))
  have h51 : (2 : ℝ) ^ (-51 : Int) = 4 * eps := by
    rw [eps, show (-51 : Int) = 2 + -53 by norm_num, zpow_add₀ (by norm_num)]
    norm_num
  have h72 : (2 : ℝ) ^ (-1072 : Int) = 8 * eta := by
    rw [eta, show (-1072 : Int) = 3 + -1075 by norm_num, zpow_add₀ (by norm_num)]
    norm_num
  rw [h51, h72]

/-- At a parameter with the value `0` or `1` no rounding takes place. -/
theorem bernTri_ends {u : Float} (h0 : 0 ≤ u) (h1 : u ≤ 1) (hu : val u = 0 ∨ val u = 1) (d i : Nat) (hd : d ≤ 2 ^ 40) :
    val (bernTri u (1 - u) d i) = bernsteinPoly d i (val u) := by
  obtain ⟨fu, u0, u1⟩ := unit_float h0 h1
  obtain ⟨fv, rv⟩ := sub_rounds one_val.1 fu (by
    rw [one_val.2]
    exact le_max_of_le_four (by rw [abs_of_nonneg (by linarith)]; linarith))
  have hv : val (1 - u) = 1 - val u := by
    rw [one_val.2] at rv
    apply rv.of_rep
    rcases hu with h | h <;> rw [h]
    · rw [sub_zero]; exact rep_one
    · rw [sub_self]; exact rep_zero
  have hfin : ∀ d i, d ≤ 2 ^ 40 → IsFin (bernTri u (1 - u) d i) := fun d i hd => (bernTri_apx h0 h1 d i hd).1
  have hprod : ∀ x y : Float, IsFin x → IsFin y → (val x = 0 ∨ val x = 1) →
      IsFin (x * y) ∧ val (x * y) = val x * val y := by
    intro x y fx fy hx
    have h : val x * val y = 0 ∨ val x * val y = val y := by
      rcases hx with h | h <;> rw [h]
      · left; ring
      · right; ring
    obtain ⟨f, r⟩ := mul_rounds fx fy (by
      rcases h with h | h <;> rw [h]
      · rw [abs_zero]; linarith [one_le_maxFinite]
      · exact val_abs_le fy)
    refine ⟨f, r.of_rep ?_⟩
    rcases h with h | h <;> rw [h]
    · exact rep_zero
    · exact val_rep fy
  have hu' : val (1 - u) = 0 ∨ val (1 - u) = 1 := by
    rw [hv]
    rcases hu with h | h <;> rw [h] <;> norm_num
  have hadd : ∀ x y : Float, IsFin x → IsFin y → (val x = 0 ∨ val y = 0) → val (x + y) = val x + val y := by
    intro x y fx fy hxy
    have h : val x + val y = val y ∨ val x + val y = val x := by
      rcases hxy with h | h <;> rw [h]
      · left; ring
      · right; ring
    obtain ⟨f, r⟩ := add_rounds fx fy (by
      rcases h with h | h <;> rw [h]
      · exact val_abs_le fy
      · exact val_abs_le fx)
    refine r.of_rep ?_
    rcases h with h | h <;> rw [h]
    · exact val_rep fy
    · exact val_rep fx
  induction d generalizing i with
  | zero =>
    cases i with
    | zero => rw [bernTri, if_pos rfl, one_val.2]; simp [bernsteinPoly]
    | succ i => rw [bernTri, if_neg (by omega), zero_val.2, bernsteinPoly_of_lt (by omega)]
  | succ d ih =>
    have ih' := fun i => ih i (by omega)
    have hf := fun i => hfin d i (by omega)
    by_cases hid : i ≤ d
    · rw [bernTri, if_pos hid]
      cases i with
      | zero =>
        obtain ⟨f1, e1⟩ := hprod _ _ fv (hf 0) hu'
        rw [if_pos rfl, hadd _ _ zero_val.1 f1 (Or.inl zero_val.2), zero_val.2, e1, ih', hv, bernsteinPoly_zero, zero_add]
      | succ i =>
        obtain ⟨f1, e1⟩ := hprod _ _ fv (hf (i + 1)) hu'
        obtain ⟨f2, e2⟩ := hprod _ _ fu (hf i) hu
        rw [if_neg (by omega), Nat.add_sub_cancel, hadd _ _ f2 f1 ?_, e1, e2, ih', ih', hv, bernsteinPoly_succ]
        rw [e1, e2, hv]
        rcases hu with h | h <;> rw [h] <;> norm_num
    · rw [bernTri, if_neg hid]
      by_cases hi : i = d + 1
      · obtain ⟨f2, e2⟩ := hprod _ _ fu (hf d) hu
        rw [if_pos hi, e2, ih', hi, bernsteinPoly_succ, bernsteinPoly_of_lt (i := d + 1) (by omega), mul_zero, add_zero]
      · rw [if_neg hi, zero_val.2, bernsteinPoly_of_lt (by omega)]

/-- **C91.** At the ends of the interval the weights are exact. -/
theorem C91_ends (n : Nat) (hn1 : 1 ≤ n) (hn : n ≤ 2 ^ 40) (w : List Float) :
    (bernstein n (0 : Float) = .ok w → w.map val = tab n (fun i => if i = 0 then 1 else 0)) ∧
    (bernstein n (1 : Float) = .ok w → w.map val = tab n (fun i => if i = n - 1 then 1 else 0)) := by
  have h00 : (0 : Float) ≤ 0 := (le_iff zero_val.1 zero_val.1).mpr le_rfl
  have h01 : (0 : Float) ≤ 1 := (le_iff zero_val.1 one_val.1).mpr (by rw [zero_val.2, one_val.2]; norm_num)
  have h11 : (1 : Float) ≤ 1 := (le_iff one_val.1 one_val.1).mpr le_rfl
  constructor
  · intro hw
    rw [bernstein_tri n hn1] at hw
    injection hw with hw
    rw [← hw, map_tab]
    have := (C02_ends (K := ℝ) n hn1).1
    rw [bernstein_eq n hn1] at this
    injection this with this
    rw [← this]
    apply tab_congr
    intro i _
    rw [bernTri_ends h00 h01 (Or.inl zero_val.2) _ _ (by omega), zero_val.2]
  · intro hw
    rw [bernstein_tri n hn1] at hw
    injection hw with hw
    rw [← hw, map_tab]
    have := (C02_ends (K := ℝ) n hn1).2
    rw [bernstein_eq n hn1] at this
    injection this with this
    rw [← this]
    apply tab_congr
    intro i _
    rw [bernTri_ends h01 h11 (Or.inr one_val.2) _ _ (by omega), one_val.2]

/-- Non-vacuity: the parameter `0.1` satisfies the hypotheses; its cube is rounded, so the bound on the error is
needed. -/
example : (0 : Float) ≤ 0.1 ∧ (0.1 : Float) ≤ 1 ∧
    (bernstein 4 (0.1 : Float)).toOption.map (fun w => w.map Float.toBits)
      = some [0x3fe753f7ced91688, 0x3fcf1a9fbe76c8b6, 0x3f9ba5e353f7ceda, 0x3f50624dd2f1a9fd] := by
  decide +kernel

/-! ### C92 -/

theorem v3_accum_x (b : Nat → Float) (pts : List (V3 Float)) :
    (linComb (tab pts.length b) pts).x = accum b (fun i => (pts.getD i 0).x) pts.length :=
  linComb_accum (fun p : V3 Float => p.x) rfl (fun _ _ => rfl) (fun _ _ => rfl) b pts

theorem v3_accum_y (b : Nat → Float) (pts : List (V3 Float)) :
    (linComb (tab pts.length b) pts).y = accum b (fun i => (pts.getD i 0).y) pts.length :=
  linComb_accum (fun p : V3 Float => p.y) rfl (fun _ _ => rfl) (fun _ _ => rfl) b pts

theorem v3_accum_z (b : Nat → Float) (pts : List (V3 Float)) :
    (linComb (tab pts.length b) pts).z = accum b (fun i => (pts.getD i 0).z) pts.length :=
  linComb_accum (fun p : V3 Float => p.z) rfl (fun _ _ => rfl) (fun _ _ => rfl) b pts

theorem getD_mem_of_lt {α : Type} {l : List α} {i : Nat} (h : i < l.length) (d : α) : l.getD i d ∈ l := by
  rw [List.getD, List.getElem?_eq_getElem h]
  exact List.getElem_mem h

/-- One coordinate of a Bézier curve. -/
theorem bezier_coord {u : Float} (h0 : 0 ≤ u) (h1 : u ≤ 1) {n : Nat} (hn1 : 1 ≤ n) (hn : n ≤ 2 ^ 40) {p : Nat → Float}
    {M : ℝ} (hM0 : 0 ≤ M) (hM : M ≤ 2 ^ (1022 : Int)) (hp : ∀ i, i < n → IsFin (p i) ∧ |val (p i)| ≤ M) :
    IsFin (accum (fun i => bernTri u (1 - u) (n - 1) i) p n) ∧
      |val (accum (fun i => bernTri u (1 - u) (n - 1) i) p n)
          - ∑ i ∈ Finset.range n, bernsteinPoly (n - 1) i (val u) * val (p i)|
        ≤ n * 2 ^ (-50 : Int) * M + n * 2 ^ (-1073 : Int) := by
  have hε := eps_pos
  have hη := eta_pos
  obtain ⟨d, rfl⟩ : ∃ d, n = d + 1 := ⟨n - 1, by omega⟩
  rw [Nat.add_sub_cancel]
  have hdR : (d : ℝ) ≤ 2 ^ 40 := by exact_mod_cast (by omega : d ≤ 2 ^ 40)
  have hd1R : ((d + 1 : Nat) : ℝ) ≤ 2 ^ 40 := by exact_mod_cast hn
  have hd0 : (0 : ℝ) ≤ d := Nat.cast_nonneg _
  have htot := bernTri_total h0 h1 d (by omega)
  have hηε : eta ≤ eps ^ 20 := eta_le
  -- the underflow part of the total error is negligible
  have hsmall : ((d + 1 : Nat) : ℝ) * (d * (8 * eta)) ≤ d * eps := by
    have h8 : ((d + 1 : Nat) : ℝ) * (8 * eta) ≤ eps := by
      calc ((d + 1 : Nat) : ℝ) * (8 * eta) ≤ 2 ^ 40 * (8 * eps ^ 20) :=
            mul_le_mul hd1R (by linarith) (by linarith) (by norm_num)
        _ ≤ eps := by rw [eps_eq]; norm_num
    calc ((d + 1 : Nat) : ℝ) * (d * (8 * eta)) = d * (((d + 1 : Nat) : ℝ) * (8 * eta)) := by ring
      _ ≤ d * eps := mul_le_mul_of_nonneg_left h8 hd0
  have htot5 : ∑ i ∈ Finset.range (d + 1), |val (bernTri u (1 - u) d i) - bernsteinPoly d i (val u)| ≤ 5 * (d * eps) := by
    linarith
  have hsum : ∑ i ∈ Finset.range (d + 1), val (bernTri u (1 - u) d i) ≤ 9 / 8 := by
    have h2 : ∑ i ∈ Finset.range (d + 1), val (bernTri u (1 - u) d i)
        = 1 + ∑ i ∈ Finset.range (d + 1), (val (bernTri u (1 - u) d i) - bernsteinPoly d i (val u)) := by
      rw [Finset.sum_sub_distrib, sum_bernsteinPoly]
      ring
    have h3 := (le_abs_self _).trans (Finset.abs_sum_le_sum_abs
      (fun i => val (bernTri u (1 - u) d i) - bernsteinPoly d i (val u)) (Finset.range (d + 1)))
    have h4 : (d : ℝ) * eps ≤ 2 ^ 40 * eps := mul_le_mul_of_nonneg_right hdR hε.le
    have h5 : 2 ^ 40 * eps ≤ 1 / 1000 := by rw [eps_eq]; norm_num
    linarith
  obtain ⟨ff, ef⟩ := accum_apx (b := fun i => bernTri u (1 - u) d i) hM0 hM (by omega)
    (fun i hi => ⟨(bernTri_apx h0 h1 d i (by omega)).1, (bernTri_apx h0 h1 d i (by omega)).2.1⟩) hp hsum
  refine ⟨ff, ?_⟩
  have hw : |∑ i ∈ Finset.range (d + 1), val (bernTri u (1 - u) d i) * val (p i)
      - ∑ i ∈ Finset.range (d + 1), bernsteinPoly d i (val u) * val (p i)| ≤ 5 * (d * eps) * M := by
    rw [← Finset.sum_sub_distrib]
    refine (Finset.abs_sum_le_sum_abs _ _).trans ?_
    calc _ ≤ ∑ i ∈ Finset.range (d + 1), |val (bernTri u (1 - u) d i) - bernsteinPoly d i (val u)| * M := by
          refine Finset.sum_le_sum fun i hi => ?_
          rw [Finset.mem_range] at hi
          rw [← sub_mul, abs_mul]
          exact mul_le_mul_of_nonneg_left (hp i hi).2 (abs_nonneg _)
      _ ≤ 5 * (d * eps) * M := by
          rw [← Finset.sum_mul]
          exact mul_le_mul_of_nonneg_right htot5 hM0
  have h50 : (2 : ℝ) ^ (-50 : Int) = 8 * eps := by
    rw [eps, show (-50 : Int) = 3 + -53 by norm_num, zpow_add₀ (by norm_num)]
    norm_num
  have h73 : (2 : ℝ) ^ (-1073 : Int) = 4 * eta := by
    rw [eta, show (-1073 : Int) = 2 + -1075 by norm_num, zpow_add₀ (by norm_num)]
    norm_num
  rw [h50, h73]
  refine (abs_sub_le _ (∑ i ∈ Finset.range (d + 1), val (bernTri u (1 - u) d i) * val (p i)) _).trans ?_
  refine (add_le_add ef hw).trans ?_
  push_cast
  have h1 := mul_nonneg hε.le hM0
  nlinarith [mul_nonneg hd0 hη.le, mul_nonneg hd0 h1]

/-- **C92.** For every binary64 `u` in `[0, 1]` and control points with finite coordinates of absolute value at most
`M`, evaluation of a Bézier curve gives a point with finite coordinates that differ from those of the exact point of
the curve by at most `n * 2 ^ -50 * M + n * 2 ^ -1073`. -/
theorem C92_error (c : BezierCurve (V3 Float)) (hc1 : 1 ≤ c.controlPoints.length) (hc : c.controlPoints.length ≤ 2 ^ 40)
    (u : Float) (h0 : 0 ≤ u) (h1 : u ≤ 1) (M : ℝ) (hM : M ≤ 2 ^ (1022 : Int))
    (hp : ∀ p ∈ c.controlPoints, Bounded M p) :
    ∃ x q, c.getPoint u = .ok x ∧ (BezierCurve.mk (c.controlPoints.map toReal)).getPoint (val u) = .ok q ∧
      Near (c.controlPoints.length * 2 ^ (-50 : Int) * M + c.controlPoints.length * 2 ^ (-1073 : Int)) x q := by
  obtain ⟨n, hn⟩ : ∃ n, c.controlPoints.length = n := ⟨_, rfl⟩
  have hM0 : 0 ≤ M := (abs_nonneg _).trans (hp _ (getD_mem_of_lt (i := 0) (by omega) 0)).1.2
  have hget : c.getPoint u = .ok (linComb (tab c.controlPoints.length fun i =>
      bernTri u (1 - u) (c.controlPoints.length - 1) i) c.controlPoints) := by
    unfold BezierCurve.getPoint
    rw [bernstein_tri _ hc1]
    rfl
  refine ⟨_, _, hget, bezier_getPoint _ (by simpa using hc1) _, ?_⟩
  rw [List.length_map]
  have hcoord : ∀ (π : V3 Float → Float), (∀ p ∈ c.controlPoints, IsFin (π p) ∧ |val (π p)| ≤ M) →
      IsFin (accum (fun i => bernTri u (1 - u) (c.controlPoints.length - 1) i) (fun i => π (c.controlPoints.getD i 0))
        c.controlPoints.length) ∧ _ :=
    fun π hπ => bezier_coord h0 h1 hc1 hc hM0 hM (fun i hi => hπ _ (getD_mem_of_lt hi 0))
  have hcp : ∀ i, i < c.controlPoints.length →
      cp (c.controlPoints.map toReal) i = toReal (c.controlPoints.getD i 0) := by
    intro i hi
    simp [cp, List.getD, hi]
  have hsum : ∑ i ∈ Finset.range c.controlPoints.length,
        bernsteinPoly (c.controlPoints.length - 1) i (val u) • cp (c.controlPoints.map toReal) i
      = ∑ i ∈ Finset.range c.controlPoints.length,
        bernsteinPoly (c.controlPoints.length - 1) i (val u) • toReal (c.controlPoints.getD i 0) :=
    Finset.sum_congr rfl fun i hi => by rw [hcp i (Finset.mem_range.mp hi)]
  have hx : ∀ (s : Finset Nat) (f : Nat → V3 ℝ), (∑ i ∈ s, f i).x = ∑ i ∈ s, (f i).x :=
    fun s f => map_sum (⟨⟨V3.x, rfl⟩, fun _ _ => rfl⟩ : V3 ℝ →+ ℝ) f s
  have hy : ∀ (s : Finset Nat) (f : Nat → V3 ℝ), (∑ i ∈ s, f i).y = ∑ i ∈ s, (f i).y :=
    fun s f => map_sum (⟨⟨V3.y, rfl⟩, fun _ _ => rfl⟩ : V3 ℝ →+ ℝ) f s
  have hz : ∀ (s : Finset Nat) (f : Nat → V3 ℝ), (∑ i ∈ s, f i).z = ∑ i ∈ s, (f i).z :=
    fun s f => map_sum (⟨⟨V3.z, rfl⟩, fun _ _ => rfl⟩ : V3 ℝ →+ ℝ) f s
  rw [hsum]
  refine ⟨?_, ?_, ?_⟩
  · rw [v3_accum_x, hx]
    exact hcoord (fun p => p.x) (fun p h => (hp p h).1)
  · rw [v3_accum_y, hy]
    exact hcoord (fun p => p.y) (fun p h => (hp p h).2.1)
  · rw [v3_accum_z, hz]
    exact hcoord (fun p => p.z) (fun p h => (hp p h).2.2)

/-- Weights `1` at position `k` and `0` elsewhere select the number at position `k`. -/
theorem accum_select {n k : Nat} {b p : Nat → Float} (hb : ∀ i, i < n → IsFin (b i) ∧ val (b i) = if i = k then 1 else 0)
    (hp : ∀ i, i < n → IsFin (p i)) :
    IsFin (accum b p n) ∧ val (accum b p n) = if k < n then val (p k) else 0 := by
  induction n with
  | zero => exact ⟨zero_val.1, by rw [accum, zero_val.2, if_neg (by omega)]⟩
  | succ n ih =>
    obtain ⟨fs, es⟩ := ih (fun i hi => hb i (by omega)) (fun i hi => hp i (by omega))
    obtain ⟨fb, eb⟩ := hb n (by omega)
    have fp := hp n (by omega)
    have hprod : val (b n) * val (p n) = if n = k then val (p n) else 0 := by
      rw [eb]
      split <;> simp
    have hrep : Rep (val (b n) * val (p n)) := by
      rw [hprod]
      split
      · exact val_rep fp
      · exact rep_zero
    obtain ⟨ft, rt⟩ := mul_rounds fb fp (by
      rw [hprod]
      split
      · exact val_abs_le fp
      · rw [abs_zero]; linarith [one_le_maxFinite])
    have et := rt.of_rep hrep
    rw [hprod] at et
    have hsum : val (accum b p n) + val (b n * p n) = if k < n + 1 then val (p k) else 0 := by
      rw [es, et]
      by_cases h : n = k
      · subst h; simp
      · by_cases h2 : k < n
        · simp [h, h2, show k < n + 1 by omega]
        · simp [h, h2, show ¬ k < n + 1 by omega]
    have hrep2 : Rep (val (accum b p n) + val (b n * p n)) ∧ |val (accum b p n) + val (b n * p n)| ≤ maxFinite := by
      rw [hsum]
      split
      · rename_i h
        exact ⟨val_rep (hp k h), val_abs_le (hp k h)⟩
      · exact ⟨rep_zero, by rw [abs_zero]; linarith [one_le_maxFinite]⟩
    obtain ⟨fr, rr⟩ := add_rounds fs ft hrep2.2
    exact ⟨fr, (rr.of_rep hrep2.1).trans hsum⟩

theorem bezier_select (c : BezierCurve (V3 Float)) (hc : c.controlPoints.length ≤ 2 ^ 40)
    (u : Float) (h0 : 0 ≤ u) (h1 : u ≤ 1) (k : Nat) (hk : k < c.controlPoints.length) (hu : val u = 0 ∨ val u = 1)
    (hB : ∀ i, i < c.controlPoints.length →
      bernsteinPoly (c.controlPoints.length - 1) i (val u) = if i = k then 1 else 0)
    (hp : ∀ p ∈ c.controlPoints, IsFin p.x ∧ IsFin p.y ∧ IsFin p.z) :
    ∃ x, c.getPoint u = .ok x ∧ IsFin x.x ∧ IsFin x.y ∧ IsFin x.z ∧ toReal x = toReal (c.controlPoints.getD k 0) := by
  have hget : c.getPoint u = .ok (linComb (tab c.controlPoints.length fun i =>
      bernTri u (1 - u) (c.controlPoints.length - 1) i) c.controlPoints) := by
    unfold BezierCurve.getPoint
    rw [bernstein_tri _ (by omega)]
    rfl
  refine ⟨_, hget, ?_⟩
  have hb : ∀ i, i < c.controlPoints.length → IsFin (bernTri u (1 - u) (c.controlPoints.length - 1) i) ∧
      val (bernTri u (1 - u) (c.controlPoints.length - 1) i) = if i = k then 1 else 0 := by
    intro i hi
    refine ⟨(bernTri_apx h0 h1 _ i (by omega)).1, ?_⟩
    rw [bernTri_ends h0 h1 hu _ _ (by omega), hB i hi]
  have key : ∀ π : V3 Float → Float, (∀ p ∈ c.controlPoints, IsFin (π p)) → _ :=
    fun π hπ => accum_select (p := fun i => π (c.controlPoints.getD i 0)) hb (fun i hi => hπ _ (getD_mem_of_lt hi 0))
  have kx := key (fun p => p.x) (fun p h => (hp p h).1)
  have ky := key (fun p => p.y) (fun p h => (hp p h).2.1)
  have kz := key (fun p => p.z) (fun p h => (hp p h).2.2)
  rw [if_pos hk] at kx ky kz
  unfold toReal
  rw [v3_accum_x, v3_accum_y, v3_accum_z]
  exact ⟨kx.1, ky.1, kz.1, by rw [kx.2, ky.2, kz.2]⟩

/-- **C92.** At the ends of the interval a Bézier curve with finite control points gives exactly its first and its last
control point. -/
theorem C92_ends (c : BezierCurve (V3 Float)) (hc1 : 1 ≤ c.controlPoints.length) (hc : c.controlPoints.length ≤ 2 ^ 40)
    (hp : ∀ p ∈ c.controlPoints, IsFin p.x ∧ IsFin p.y ∧ IsFin p.z) :
    (∃ x, c.getPoint (0 : Float) = .ok x ∧ IsFin x.x ∧ IsFin x.y ∧ IsFin x.z ∧ toReal x = toReal (c.controlPoints.getD 0 0)) ∧
    (∃ x, c.getPoint (1 : Float) = .ok x ∧ IsFin x.x ∧ IsFin x.y ∧ IsFin x.z ∧
      toReal x = toReal (c.controlPoints.getD (c.controlPoints.length - 1) 0)) := by
  have h00 : (0 : Float) ≤ 0 := (le_iff zero_val.1 zero_val.1).mpr le_rfl
  have h01 : (0 : Float) ≤ 1 := (le_iff zero_val.1 one_val.1).mpr (by rw [zero_val.2, one_val.2]; norm_num)
  have h11 : (1 : Float) ≤ 1 := (le_iff one_val.1 one_val.1).mpr le_rfl
  constructor
  · refine bezier_select c hc 0 h00 h01 0 (by omega) (Or.inl zero_val.2) ?_ hp
    intro i hi
    rw [zero_val.2]
    by_cases h : i = 0
    · subst h; simp [bernsteinPoly]
    · simp [bernsteinPoly, h]
  · refine bezier_select c hc 1 h01 h11 (c.controlPoints.length - 1) (by omega) (Or.inr one_val.2) ?_ hp
    intro i hi
    rw [one_val.2]
    by_cases h : i = c.controlPoints.length - 1
    · subst h; simp [bernsteinPoly]
    · simp only [bernsteinPoly, sub_self]
      rw [zero_pow (by omega)]; simp [h]

/-- **C92.** The computed point leaves a box containing the control points by at most the rounding error in every
coordinate. -/
theorem C92_box (c : BezierCurve (V3 Float)) (hc1 : 1 ≤ c.controlPoints.length) (hc : c.controlPoints.length ≤ 2 ^ 40)
    (u : Float) (h0 : 0 ≤ u) (h1 : u ≤ 1) (M : ℝ) (hM : M ≤ 2 ^ (1022 : Int))
    (hp : ∀ p ∈ c.controlPoints, Bounded M p) (lo hi : V3 ℝ)
    (hbox : ∀ p ∈ c.controlPoints, (lo.x ≤ val p.x ∧ val p.x ≤ hi.x) ∧ (lo.y ≤ val p.y ∧ val p.y ≤ hi.y) ∧
      (lo.z ≤ val p.z ∧ val p.z ≤ hi.z)) :
    ∃ x, c.getPoint u = .ok x ∧ ∀ e, e = c.controlPoints.length * 2 ^ (-50 : Int) * M
        + c.controlPoints.length * 2 ^ (-1073 : Int) →
      (lo.x - e ≤ val x.x ∧ val x.x ≤ hi.x + e) ∧ (lo.y - e ≤ val x.y ∧ val x.y ≤ hi.y + e) ∧
      (lo.z - e ≤ val x.z ∧ val x.z ≤ hi.z + e) := by
  obtain ⟨x, q, hx, hq, hn⟩ := C92_error c hc1 hc u h0 h1 M hM hp
  refine ⟨x, hx, ?_⟩
  rintro e rfl
  obtain ⟨hu, u0, u1⟩ := unit_float h0 h1
  have hb : ∀ (f : V3 ℝ →ₗ[ℝ] ℝ) (l h : ℝ), (∀ p ∈ c.controlPoints, l ≤ f (toReal p) ∧ f (toReal p) ≤ h) →
      l ≤ f q ∧ f q ≤ h := by
    intro f l h hl
    obtain ⟨q', hq', hle⟩ := C11_bounds (BezierCurve.mk (c.controlPoints.map toReal)) (by simpa using hc1) (val u) u0 u1 f l h
      (by
        intro p hp
        simp only [List.mem_map] at hp
        obtain ⟨r, hr, rfl⟩ := hp
        exact hl r hr)
    rw [hq] at hq'
    injection hq' with hq'
    rw [hq']
    exact hle
  have bx := hb ⟨⟨V3.x, fun _ _ => rfl⟩, fun _ _ => rfl⟩ lo.x hi.x (fun p h => (hbox p h).1)
  have by' := hb ⟨⟨V3.y, fun _ _ => rfl⟩, fun _ _ => rfl⟩ lo.y hi.y (fun p h => (hbox p h).2.1)
  have bz := hb ⟨⟨V3.z, fun _ _ => rfl⟩, fun _ _ => rfl⟩ lo.z hi.z (fun p h => (hbox p h).2.2)
  change lo.x ≤ q.x ∧ q.x ≤ hi.x at bx
  change lo.y ≤ q.y ∧ q.y ≤ hi.y at by'
  change lo.z ≤ q.z ∧ q.z ≤ hi.z at bz
  have nx := abs_le.mp hn.1.2
  have ny := abs_le.mp hn.2.1.2
  have nz := abs_le.mp hn.2.2.2
  exact ⟨⟨by linarith, by linarith⟩, ⟨by linarith, by linarith⟩, ⟨by linarith, by linarith⟩⟩

/-- Non-vacuity: a cubic with small integer control points satisfies the hypotheses with `M = 4`. -/
example : ∀ p ∈ (BezierCurve.mk [(⟨0, 0, 0⟩ : V3 Float), ⟨1, 2, 0⟩, ⟨3, 2, 0⟩, ⟨4, 0, 1⟩]).controlPoints, Bounded 4 p := by
  have h : ∀ n : Nat, n ≤ 4 → IsFin (Float.ofNat n) ∧ |val (Float.ofNat n)| ≤ 4 := by
    intro n hn
    obtain ⟨a, b⟩ := ofNat_val (n := n) (by omega)
    rw [b, abs_of_nonneg (Nat.cast_nonneg _)]
    exact ⟨a, by exact_mod_cast hn⟩
  intro p hp
  simp only [List.mem_cons, List.not_mem_nil, or_false] at hp
  rcases hp with rfl | rfl | rfl | rfl
  · exact ⟨h 0 (by omega), h 0 (by omega), h 0 (by omega)⟩
  · exact ⟨h 1 (by omega), h 2 (by omega), h 0 (by omega)⟩
  · exact ⟨h 3 (by omega), h 2 (by omega), h 0 (by omega)⟩
  · exact ⟨h 4 (by omega), h 0 (by omega), h 1 (by omega)⟩

end Geom3d
