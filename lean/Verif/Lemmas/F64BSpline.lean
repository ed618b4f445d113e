import Verif.Lemmas.F64Dist
import Verif.Lemmas.F64Sum
import Verif.Lemmas.CoxDeBoor

/-! The loops of `bspline_basis` as a table, for any number type, and their rounding error in binary64. -/

namespace Geom3d
open Spec

section
variable {F : Type} [Add F] [Sub F] [Mul F] [Div F] [Zero F] [One F] [Env F]

/-- The weight `b` of row `k + 1` (`src/knot.rs:77`). -/
def basisB (t : Nat → F) (u : F) (k i : Nat) : F := invOrZero (t (i + k + 2) - t (i + 1)) * (t (i + k + 2) - u)

/-- The weight `a` of row `k + 1` (`src/knot.rs:75`, `src/knot.rs:80`). -/
def basisA (t : Nat → F) (u : F) (s k i : Nat) : F :=
  if i + (k + 1) = s then invOrZero (t (i + k + 1) - t i) * (u - t i) else 1 - basisB t u k (i - 1)

/-- Row `k` of the table filled by the loops of `bspline_basis` on span `s`. -/
def basisTri (t : Nat → F) (u : F) (s : Nat) : Nat → Nat → F
  | 0, i => if i = s then 1 else 0
  | k + 1, i =>
    if s ≤ i + (k + 1) ∧ i ≤ s then
      basisA t u s k i * basisTri t u s k i + basisB t u k i * basisTri t u s k (i + 1)
    else 0

theorem basisTri_of_not (t : Nat → F) (u : F) {s k i : Nat} (h : i + k < s ∨ s < i) : basisTri t u s k i = 0 := by
  cases k with
  | zero => exact if_neg (by omega)
  | succ k => exact if_neg (by omega)

theorem basisOuter_tri {knots : List F} {n s : Nat} (hl : knots.length = n + 1) (u : F) {k : Nat}
    (h1 : k + 1 ≤ s) (h2 : s + (k + 1) < n) :
    basisOuter knots u n s (tab n (basisTri (knot knots) u s k)) (k + 1)
      = .ok (tab n (basisTri (knot knots) u s (k + 1))) := by
  have ik : ∀ i, i < n + 1 → idx knots i = .ok (knot knots i) := by
    intro i hi
    rw [idx_ok (by omega)]
    congr 1
    simp [knot, List.getD, hl, hi]
  set t := knot knots with ht
  unfold basisOuter
  simp only [if_neg (show ¬ s < k + 1 by omega), if_pos h2]
  rw [ik _ (by omega), ik _ (by omega)]
  simp only [ok_bind, pure_eq_ok]
  obtain ⟨s', e1, e2⟩ := forRange_inv (a := s - (k + 1)) (b := s + 1)
    (s := (tab n (basisTri t u s k), invOrZero (t (s - (k + 1) + (k + 1)) - t (s - (k + 1))) * (u - t (s - (k + 1)))))
    (body := basisInner knots u (k + 1))
    (fun j st => st = (tab n (fun i => if i < j then basisTri t u s (k + 1) i else basisTri t u s k i), basisA t u s k j))
    (by omega)
    (by
      congr 1
      · apply tab_congr
        intro i hi
        split
        · rw [basisTri_of_not t u (by omega), basisTri_of_not t u (by omega)]
        · rfl
      · rw [basisA, if_pos (by omega)]
        congr 3)
    (by
      rintro j st hj1 hj2 rfl
      refine ⟨_, ?_, rfl⟩
      simp only [basisInner]
      rw [ik _ (by omega), ik _ (by omega)]
      simp only [ok_bind]
      rw [idx_tab (by omega), idx_tab (by omega)]
      simp only [ok_bind]
      rw [upd_tab (by omega)]
      simp only [ok_bind, pure_eq_ok, lt_irrefl, if_false, Except.ok.injEq, Prod.mk.injEq]
      have eb : invOrZero (t (j + (k + 1) + 1) - t (j + 1)) * (t (j + (k + 1) + 1) - u) = basisB t u k j := rfl
      constructor
      · apply tab_congr
        intro i hi
        by_cases hij : i = j
        · subst hij
          rw [Function.update_self, if_pos (Nat.lt_succ_self _), if_neg (by omega), eb]
          conv_rhs => rw [basisTri, if_pos (by omega)]
        · rw [Function.update_of_ne hij]
          have : i < j + 1 ↔ i < j := by omega
          simp [this]
      · rw [eb, basisA, if_neg (by omega), Nat.add_sub_cancel])
  rw [e1, e2]
  simp only [ok_bind]
  congr 1
  apply tab_congr
  intro i hi
  split
  · rfl
  · rw [basisTri_of_not t u (by omega), basisTri_of_not t u (by omega)]

/-- `bspline_basis` on a span that is at least `p` knots away from both ends. -/
theorem bsplineBasis_tri {knots : List F} [LT F] [DecidableLT F] [LE F] [DecidableLE F] [NatCast F] [Neg F]
    {n s p : Nat} (hl : knots.length = n + 1) {u : F} (hs : KnotVector.spanIndex knots u = .ok s) (h1 : p ≤ s)
    (h2 : s + p < n) : KnotVector.bsplineBasis knots p u = .ok (tab (n - p) (basisTri (knot knots) u s p)) := by
  unfold KnotVector.bsplineBasis
  rw [usub_ok (by omega)]
  simp only [ok_bind, hs, hl, Nat.add_sub_cancel]
  rw [replicate_eq_tab, upd_tab (by omega)]
  simp only [ok_bind]
  obtain ⟨s', e1, e2⟩ := forRange_inv (a := 1) (b := p + 1)
    (s := tab n (Function.update (fun _ => (0 : F)) s 1)) (body := basisOuter knots u n s)
    (fun k st => st = tab n (basisTri (knot knots) u s (k - 1)))
    (by omega)
    (by
      apply tab_congr
      intro i _
      simp only [Nat.sub_self, basisTri, Function.update_apply])
    (by
      rintro k st hk1 hk2 rfl
      obtain ⟨k, rfl⟩ : ∃ m, k = m + 1 := ⟨k - 1, by omega⟩
      exact ⟨_, basisOuter_tri hl u (by omega) (by omega), rfl⟩)
  rw [e1, e2]
  simp only [ok_bind]
  rw [usub_ok (by omega)]
  simp only [ok_bind, pure_eq_ok]
  rw [take_tab _ _ _ (by omega)]
  rfl

end

namespace F64

/-! ### `inv_or_zero` -/

theorem fabs_val {x : Float} (h : IsFin x) : IsFin (fabs x) ∧ val (fabs x) = |val x| := by
  unfold fabs
  have hlt := lt_iff h zero_val.1
  rw [zero_val.2] at hlt
  split
  · rename_i h'
    obtain ⟨a, b⟩ := neg_val h
    exact ⟨a, by rw [b, abs_of_neg (hlt.mp h')]⟩
  · rename_i h'
    exact ⟨h, by rw [abs_of_nonneg (not_lt.mp fun c => h' (hlt.mpr c))]⟩

theorem sub_zero_val {x : Float} (h : IsFin x) : IsFin (x - 0) ∧ val (x - 0) = val x := by
  have e : val x - val 0 = val x := by rw [zero_val.2, sub_zero]
  obtain ⟨a, b⟩ := sub_rounds h zero_val.1 (by rw [e]; exact val_abs_le h)
  rw [e] at b
  exact ⟨a, b.of_rep (val_rep h)⟩

/-- `f64::EPSILON`. -/
theorem epsilon_val : IsFin (2.220446049250313e-16 : Float) ∧ val (2.220446049250313e-16 : Float) = 2 ^ (-52 : Int) := by
  have e0 : (2.220446049250313e-16 : Float) = Float.ofBits 0x3CB0000000000000 := by decide +kernel
  have e : (Float.ofBits 0x3CB0000000000000).toModel.unpack = .finite .positive (2 ^ 52) (-104) (by norm_num) := rfl
  rw [e0]
  refine ⟨?_, ?_⟩
  · rw [fin_unpack, e]; rfl
  · rw [val, e, uval]
    norm_num

theorem toBits_ext {x y : Float} (h : x.toBits = y.toBits) : x = y := by
  rcases x with ⟨⟨a, ha⟩⟩
  rcases y with ⟨⟨b, hb⟩⟩
  have : a = b := h
  subst this
  rfl

/-- Within four units in the last place of zero means tiny. -/
theorem ulpsEq_zero_iff {d : Float} (h : IsFin d) : ulpsEqF64 d 0 = true ↔ |val d| ≤ 2 ^ (-52 : Int) := by
  obtain ⟨f1, v1⟩ := sub_zero_val h
  obtain ⟨f2, v2⟩ := fabs_val f1
  have key : fabs (F := Float) (d - 0) ≤ (2.220446049250313e-16 : Float) ↔ |val d| ≤ 2 ^ (-52 : Int) := by
    rw [le_iff f2 epsilon_val.1, v2, v1, epsilon_val.2]
  rw [← key]
  unfold ulpsEqF64
  split
  · rename_i h'
    exact ⟨fun _ => h', fun _ => rfl⟩
  · rename_i hne
    simp only [hne, iff_false, Bool.not_eq_true]
    split
    · rfl
    · simp only [decide_eq_false_iff_not]
      rintro ⟨h1, -⟩
      refine hne ?_
      have h0 : (0 : Float).toBits.toNat = 0 := by decide +kernel
      rw [h0] at h1
      have hext : ∀ k : Fin 5, d.toBits.toNat = k → d = Float.ofBits (UInt64.ofNat k) := by
        intro k hk
        apply toBits_ext
        rw [← UInt64.toNat_inj, hk]
        clear hk
        revert k
        decide +kernel
      have hall : ∀ k : Fin 5, fabs (F := Float) (Float.ofBits (UInt64.ofNat k) - 0) ≤ (2.220446049250313e-16 : Float) := by
        decide +kernel
      rw [hext ⟨d.toBits.toNat, by omega⟩ rfl]
      exact hall _

theorem invOrZero_of_large {d : Float} (h : IsFin d) (h' : (2 : ℝ) ^ (-52 : Int) < |val d|) : invOrZero d = 1 / d := by
  unfold invOrZero
  rw [if_neg]
  intro hc
  exact absurd ((ulpsEq_zero_iff h).mp hc) (not_le.mpr h')

/-- Rounding `1 + 2 ^ -53` gives 1 (ties to even), so anything up to there is rounded to at most 1. -/
theorem Rounds.le_one_of_le {X v : ℝ} (h : Rounds X v) (hX : X ≤ 1 + eps) : v ≤ 1 := by
  have hr : Rounds (1 + eps) ((2 ^ 52 : Nat) * 2 ^ (-52 : Int)) := by
    have e : (1 + eps) / 2 ^ (-52 : Int) = 2 ^ 52 + 1 / 2 := by rw [eps_eq]; norm_num
    have fl : ⌊(2 : ℝ) ^ 52 + 1 / 2⌋₊ = 2 ^ 52 := by
      rw [Nat.floor_eq_iff (by norm_num)]
      constructor <;> norm_num
    refine rounds_of_multiple (by norm_num) (by linarith [eps_pos]) ?_ ?_ (Or.inr ?_) ?_
    · rw [eps_eq]; norm_num
    · rw [e, rne, fl]
      norm_num
    · rw [eps_eq]; norm_num
    · rw [eps_eq]; norm_num
  have := h.mono hr hX
  refine this.trans (le_of_eq ?_)
  norm_num

/-- The relative errors of `(hi - u) / (hi - lo)` computed as `1 / (hi - lo) * (hi - u)`. -/
theorem quotient_err {D y D' y' v b : ℝ} (hD : 0 < D) (hy0 : 0 ≤ y) (hyD : y ≤ D) (hD' : |D' - D| ≤ eps * D)
    (hy' : |y' - y| ≤ eps * y) (hv : |v - 1 / D'| ≤ eps * (1 / D')) (hv0 : 0 ≤ v) (hy0' : 0 ≤ y')
    (hb : |b - v * y'| ≤ eps * (v * y') + eta) : |b - y / D| ≤ 9 / 2 * eps := by
  have he := eps_pos
  have hs : eps ≤ 1 / 1000 := by rw [eps_eq]; norm_num
  have hη : eta ≤ 1 / 1000 * eps := eta_le.trans (by rw [eps_eq]; norm_num)
  have d1 := abs_le.mp hD'
  have hDp : 0 < D' := by nlinarith
  -- `v * D'` and `v * D`
  have w1 : |v * D' - 1| ≤ eps := by
    have : v * D' - 1 = (v - 1 / D') * D' := by field_simp
    rw [this, abs_mul, abs_of_pos hDp]
    calc |v - 1 / D'| * D' ≤ eps * (1 / D') * D' := mul_le_mul_of_nonneg_right hv hDp.le
      _ = eps := by field_simp
  have w1' := abs_le.mp w1
  obtain ⟨w, hw⟩ : ∃ w, v * D = w := ⟨_, rfl⟩
  have hw0 : 0 ≤ w := by rw [← hw]; exact mul_nonneg hv0 hD.le
  have g1 : v * ((1 - eps) * D) ≤ v * D' := mul_le_mul_of_nonneg_left (by linarith) hv0
  have g2 : v * D' ≤ v * ((1 + eps) * D) := mul_le_mul_of_nonneg_left (by linarith) hv0
  have g1' : (1 - eps) * w ≤ 1 + eps := by rw [← hw]; linarith
  have g2' : 1 - eps ≤ (1 + eps) * w := by rw [← hw]; linarith
  have w2 : w ≤ 1 + 201 / 100 * eps := by
    by_contra hc
    push Not at hc
    nlinarith
  have w3 : 1 - 2 * eps ≤ w := by
    by_contra hc
    push Not at hc
    nlinarith
  -- `y' / D`
  obtain ⟨z, hz⟩ : ∃ z, y' / D = z := ⟨_, rfl⟩
  obtain ⟨r, hr⟩ : ∃ r, y / D = r := ⟨_, rfl⟩
  have hr0 : 0 ≤ r := by rw [← hr]; exact div_nonneg hy0 hD.le
  have hr1 : r ≤ 1 := by rw [← hr, div_le_one hD]; exact hyD
  have hz0 : 0 ≤ z := by rw [← hz]; exact div_nonneg hy0' hD.le
  have hzr : |z - r| ≤ eps * r := by
    rw [← hz, ← hr, ← sub_div, abs_div, abs_of_pos hD, ← mul_div_assoc]
    exact div_le_div_of_nonneg_right hy' hD.le
  have hzr' := abs_le.mp hzr
  have hz1 : z ≤ 1 + eps := by nlinarith
  have evy : v * y' = w * z := by rw [← hw, ← hz]; field_simp
  rw [evy] at hb
  rw [hr]
  have hb' := abs_le.mp hb
  have hwz : |w * z - r| ≤ 31 / 10 * eps := by
    have : w * z - r = (w - 1) * z + (z - r) := by ring
    rw [this]
    refine (abs_add_le _ _).trans ?_
    rw [abs_mul, abs_of_nonneg hz0]
    have h1 : |w - 1| ≤ 201 / 100 * eps := by rw [abs_le]; constructor <;> linarith
    have h2 : |w - 1| * z ≤ 201 / 100 * eps * (1 + eps) := mul_le_mul h1 hz1 hz0 (by linarith)
    nlinarith
  have hwz' := abs_le.mp hwz
  have h3 : eps * (w * z) ≤ eps * (1 + 31 / 10 * eps) := mul_le_mul_of_nonneg_left (by linarith) he.le
  rw [abs_le]
  constructor <;> nlinarith

/-- The weight `(hi - u) / (hi - lo)` of the recursion where `u` is inside the support. -/
theorem weight_inside {hi lo u : Float} (fh : IsFin hi) (fl : IsFin lo) (fu : IsFin u) (bh : |val hi| ≤ 2 ^ (900 : Int))
    (bl : |val lo| ≤ 2 ^ (900 : Int)) (h1 : val lo ≤ val u) (h2 : val u ≤ val hi)
    (hgap : (2 : ℝ) ^ (-51 : Int) ≤ val hi - val lo) :
    IsFin (invOrZero (hi - lo) * (hi - u)) ∧ 0 ≤ val (invOrZero (hi - lo) * (hi - u)) ∧
      val (invOrZero (hi - lo) * (hi - u)) ≤ 1 ∧
      |val (invOrZero (hi - lo) * (hi - u)) - (val hi - val u) / (val hi - val lo)| ≤ 9 / 2 * eps := by
  have hT : (2 : ℝ) ^ (901 : Int) ≤ 2 ^ (1023 : Int) := two_zpow_le (by norm_num)
  have h901 : (2 : ℝ) ^ (901 : Int) = 2 * 2 ^ (900 : Int) := by
    rw [show (901 : Int) = 1 + 900 by norm_num, ← two_mul_zpow]
  have hg0 := two_zpow_pos (-51)
  have hD0 : 0 < val hi - val lo := lt_of_lt_of_le hg0 hgap
  have hy0 : 0 ≤ val hi - val u := sub_nonneg.mpr h2
  have hD1 : val hi - val lo ≤ 2 ^ (901 : Int) := by
    rw [h901]; linarith [(abs_le.mp bh).2, (abs_le.mp bl).1]
  have mD : |val hi - val lo| ≤ maxFinite := small_le_max (by rw [abs_of_pos hD0]; exact hD1.trans hT)
  have my : |val hi - val u| ≤ maxFinite :=
    small_le_max (by rw [abs_of_nonneg hy0]; exact (by linarith : _ ≤ val hi - val lo).trans (hD1.trans hT))
  obtain ⟨fD, rD⟩ := sub_rounds fh fl mD
  obtain ⟨fy, ry⟩ := sub_rounds fh fu my
  have eD := sub_err fh fl mD
  have ey := sub_err fh fu my
  rw [abs_of_pos hD0] at eD
  rw [abs_of_nonneg hy0] at ey
  have hDlo : (2 : ℝ) ^ (-51 : Int) ≤ val (hi - lo) := rD.ge _ (rep_pow _ (by norm_num)) hgap
  have hDhi : val (hi - lo) ≤ 2 ^ (901 : Int) := rD.le _ (rep_pow _ (by norm_num)) hD1
  have hyD : val (hi - u) ≤ val (hi - lo) := ry.mono rD (by linarith)
  have hy0' := ry.nonneg hy0
  have hDp : 0 < val (hi - lo) := lt_of_lt_of_le hg0 hDlo
  rw [invOrZero_of_large fD (by
    rw [abs_of_pos hDp]
    exact lt_of_lt_of_le (zpow_lt_zpow_right₀ (by norm_num) (by norm_num)) hDlo)]
  have q0 : 0 < 1 / val (hi - lo) := one_div_pos.mpr hDp
  have q1 : 1 / val (hi - lo) ≤ 2 ^ (51 : Int) := by
    rw [div_le_iff₀ hDp]
    calc (1 : ℝ) = 2 ^ (51 : Int) * 2 ^ (-51 : Int) := by norm_num
      _ ≤ _ := mul_le_mul_of_nonneg_left hDlo (two_zpow_pos _).le
  have q2 : (2 : ℝ) ^ (-901 : Int) ≤ 1 / val (hi - lo) := by
    rw [le_div_iff₀ hDp]
    calc (2 : ℝ) ^ (-901 : Int) * val (hi - lo) ≤ 2 ^ (-901 : Int) * 2 ^ (901 : Int) :=
          mul_le_mul_of_nonneg_left hDhi (two_zpow_pos _).le
      _ = 1 := by rw [← zpow_add₀ (by norm_num)]; norm_num
  have eq : val (1 : Float) / val (hi - lo) = 1 / val (hi - lo) := by rw [one_val.2]
  obtain ⟨fv, rv⟩ := div_rounds one_val.1 fD hDp.ne' (small_le_max (by
    rw [eq, abs_of_pos q0]; exact q1.trans (two_zpow_le (by norm_num))))
  rw [eq] at rv
  have ev := rv.err
  rw [abs_of_pos q0] at ev
  have ev' : |val (1 / (hi - lo)) - 1 / val (hi - lo)| ≤ eps * (1 / val (hi - lo)) := by
    refine ev.trans (max_le le_rfl ?_)
    calc (2 : ℝ) ^ (-1075 : Int) ≤ 2 ^ (-53 : Int) * 2 ^ (-901 : Int) := by
          rw [← zpow_add₀ (by norm_num)]; exact two_zpow_le (by norm_num)
      _ ≤ _ := mul_le_mul_of_nonneg_left q2 (two_zpow_pos _).le
  have hv0 := rv.nonneg q0.le
  have hX0 : 0 ≤ val (1 / (hi - lo)) * val (hi - u) := mul_nonneg hv0 hy0'
  have hX1 : val (1 / (hi - lo)) * val (hi - u) ≤ 1 + eps := by
    calc _ ≤ val (1 / (hi - lo)) * val (hi - lo) := mul_le_mul_of_nonneg_left hyD hv0
      _ ≤ (1 + eps) * (1 / val (hi - lo)) * val (hi - lo) := by
          refine mul_le_mul_of_nonneg_right ?_ hDp.le
          linarith [(abs_le.mp ev').2]
      _ = 1 + eps := by field_simp
  have hes : eps ≤ 1 := by rw [eps_eq]; norm_num
  obtain ⟨fb, rb⟩ := mul_rounds fv fy (le_max_of_le_four (by rw [abs_of_nonneg hX0]; linarith))
  have eb := rb.bound
  rw [abs_of_nonneg hX0] at eb
  exact ⟨fb, rb.nonneg hX0, rb.le_one_of_le hX1, quotient_err hD0 hy0 (by linarith) eD ey ev' hv0 hy0' eb⟩

theorem invOrZero_fin {d : Float} (fd : IsFin d) : IsFin (invOrZero d) ∧ |val (invOrZero d)| ≤ 2 ^ (52 : Int) := by
  by_cases h : |val d| ≤ (2 : ℝ) ^ (-52 : Int)
  · have : invOrZero d = 0 := if_pos ((ulpsEq_zero_iff fd).mpr h)
    rw [this, zero_val.2, abs_zero]
    exact ⟨zero_val.1, (two_zpow_pos _).le⟩
  · push Not at h
    rw [invOrZero_of_large fd h]
    have hd0 : 0 < |val d| := lt_of_lt_of_le (two_zpow_pos _) h.le
    have q1 : |val (1 : Float) / val d| ≤ 2 ^ (52 : Int) := by
      rw [one_val.2, abs_div, abs_one, div_le_iff₀ hd0]
      calc (1 : ℝ) = 2 ^ (52 : Int) * 2 ^ (-52 : Int) := by norm_num
        _ ≤ _ := mul_le_mul_of_nonneg_left h.le (two_zpow_pos _).le
    obtain ⟨fv, rv⟩ := div_rounds one_val.1 fd (abs_pos.mp hd0) (small_le_max (q1.trans (two_zpow_le (by norm_num))))
    exact ⟨fv, rv.abs_le (rep_pow 52 (by norm_num)) q1⟩

/-- The weights at the border of the support are multiplied by zero; they only have to be finite. -/
theorem weight_fin {d y : Float} (fd : IsFin d) (fy : IsFin y) (by' : |val y| ≤ 2 ^ (901 : Int)) :
    IsFin (invOrZero d * y) := by
  obtain ⟨fv, hv⟩ := invOrZero_fin fd
  refine (mul_rounds fv fy (small_le_max ?_)).1
  rw [abs_mul]
  calc _ ≤ (2 : ℝ) ^ (52 : Int) * 2 ^ (901 : Int) := mul_le_mul hv by' (abs_nonneg _) (two_zpow_pos _).le
    _ = 2 ^ (953 : Int) := by rw [← zpow_add₀ (by norm_num)]; norm_num
    _ ≤ _ := two_zpow_le (by norm_num)

/-- A product of a weight and an entry of the previous row. -/
theorem term_err {a w : Float} {α N : ℝ} (fa : IsFin a) (fw : IsFin w) (w0 : 0 ≤ val w) (w2 : val w ≤ 2) (hα : 0 ≤ α)
    (h : (val w = 0 ∧ N = 0) ∨ (0 ≤ val a ∧ val a ≤ 1 ∧ |val a - α| ≤ 11 / 2 * eps)) :
    IsFin (a * w) ∧ 0 ≤ val (a * w) ∧ val (a * w) ≤ val w ∧
      |val (a * w) - α * N| ≤ α * |val w - N| + 13 / 2 * eps * val w + eta := by
  rcases h with ⟨h1, h2⟩ | ⟨a0, a1, ha⟩
  · have e : val a * val w = 0 := by rw [h1, mul_zero]
    obtain ⟨f, r⟩ := mul_rounds fa fw (le_max_of_le_four (by rw [e, abs_zero]; norm_num))
    rw [e] at r
    have := r.of_rep rep_zero
    rw [this, h1, h2]
    refine ⟨f, le_rfl, le_rfl, ?_⟩
    have := eta_pos
    simp [this.le]
  · have h0 : 0 ≤ val a * val w := mul_nonneg a0 w0
    have h1 : val a * val w ≤ val w := mul_le_of_le_one_left w0 a1
    obtain ⟨f, r⟩ := mul_rounds fa fw (le_max_of_le_four (by rw [abs_of_nonneg h0]; linarith))
    have hb := r.bound
    rw [abs_of_nonneg h0] at hb
    refine ⟨f, r.nonneg h0, r.le _ (val_rep fw) h1, ?_⟩
    have : val (a * w) - α * N = (val (a * w) - val a * val w) + ((val a - α) * val w + α * (val w - N)) := by ring
    rw [this]
    refine (abs_add_le _ _).trans ((add_le_add le_rfl (abs_add_le _ _)).trans ?_)
    rw [abs_mul, abs_mul, abs_of_nonneg w0, abs_of_nonneg hα]
    have h2 := mul_le_mul_of_nonneg_right ha w0
    have h3 := mul_le_mul_of_nonneg_left h1 eps_pos.le
    linarith

/-! ### The rows of the table -/

/-- Finite sorted knots, a parameter and the span around it, which is not tiny. -/
structure SpanF (knots : List Float) (n s : Nat) (u : Float) : Prop where
  len : knots.length = n + 1
  fin : ∀ x ∈ knots, IsFin x ∧ |val x| ≤ 2 ^ (900 : Int)
  sorted : (knots.map val).Pairwise (· ≤ ·)
  lt : s < n
  fu : IsFin u
  lo : val (knot knots s) ≤ val u
  hi : val u ≤ val (knot knots (s + 1))
  gap : (2 : ℝ) ^ (-51 : Int) ≤ val (knot knots (s + 1)) - val (knot knots s)

/-- The knots as real numbers. -/
noncomputable def tval (knots : List Float) (i : Nat) : ℝ := val (knot knots i)

theorem SpanF.at {knots : List Float} {n s : Nat} {u : Float} (h : SpanF knots n s u) (i : Nat) (hi : i ≤ n) :
    IsFin (knot knots i) ∧ |tval knots i| ≤ 2 ^ (900 : Int) := by
  refine h.fin _ ?_
  have hl := h.len
  have : knot knots i = knots[i] := by simp [knot, List.getD, show i < knots.length by omega]
  rw [this]
  exact List.getElem_mem _

theorem SpanF.mono {knots : List Float} {n s : Nat} {u : Float} (h : SpanF knots n s u) (i j : Nat) (hij : i ≤ j)
    (hj : j ≤ n) : tval knots i ≤ tval knots j := by
  have hl := h.len
  rcases Nat.eq_or_lt_of_le hij with rfl | h'
  · exact le_rfl
  · have hs := h.sorted
    rw [List.pairwise_map, List.pairwise_iff_getElem] at hs
    have := hs i j (by omega) (by omega) h'
    simpa [tval, knot, List.getD, show i < knots.length by omega, show j < knots.length by omega] using this

theorem SpanF.spanAt {knots : List Float} {n s : Nat} {u : Float} (h : SpanF knots n s u) : SpanAt (tval knots) n s :=
  ⟨h.mono, h.lt, by have := h.gap; have := two_zpow_pos (-51); unfold tval; linarith⟩

/-- A weight `b` strictly inside the support. -/
theorem SpanF.basisB_inside {knots : List Float} {n s : Nat} {u : Float} (h : SpanF knots n s u) {k i : Nat}
    (h1 : i + 1 ≤ s) (h2 : s ≤ i + k + 1) (h3 : i + k + 2 ≤ n) :
    IsFin (basisB (knot knots) u k i) ∧ 0 ≤ val (basisB (knot knots) u k i) ∧ val (basisB (knot knots) u k i) ≤ 1 ∧
      |val (basisB (knot knots) u k i)
        - (tval knots (i + k + 2) - val u) / (tval knots (i + k + 2) - tval knots (i + 1))| ≤ 9 / 2 * eps := by
  have m1 := h.mono (i + 1) s h1 h.lt.le
  have m2 := h.mono (s + 1) (i + k + 2) (by omega) h3
  have hg := h.gap
  have hlo := h.lo
  have hhi := h.hi
  unfold tval at *
  exact weight_inside (h.at _ h3).1 (h.at _ (by omega)).1 h.fu (h.at _ h3).2 (h.at _ (by omega)).2 (by linarith)
    (by linarith) (by linarith)

theorem SpanF.u_bound {knots : List Float} {n s : Nat} {u : Float} (h : SpanF knots n s u) :
    |val u| ≤ 2 ^ (900 : Int) := by
  have a := (h.at s h.lt.le).2
  have b := (h.at (s + 1) h.lt).2
  have hlo := h.lo
  have hhi := h.hi
  unfold tval at *
  rw [abs_le] at *
  exact ⟨a.1.trans hlo, hhi.trans b.2⟩

/-- Any weight is finite. -/
theorem SpanF.weight {knots : List Float} {n s : Nat} {u : Float} (h : SpanF knots n s u) {x y a b : Float}
    (hx : IsFin x ∧ |val x| ≤ 2 ^ (900 : Int)) (hy : IsFin y ∧ |val y| ≤ 2 ^ (900 : Int))
    (ha : IsFin a ∧ |val a| ≤ 2 ^ (900 : Int)) (hb : IsFin b ∧ |val b| ≤ 2 ^ (900 : Int)) :
    IsFin (invOrZero (x - y) * (a - b)) := by
  have key : ∀ {x y : Float}, (IsFin x ∧ |val x| ≤ 2 ^ (900 : Int)) → (IsFin y ∧ |val y| ≤ 2 ^ (900 : Int)) →
      |val x - val y| ≤ 2 ^ (901 : Int) := by
    rintro x y ⟨-, hx⟩ ⟨-, hy⟩
    rw [show (901 : Int) = 1 + 900 by norm_num, ← two_mul_zpow]
    exact (abs_sub _ _).trans (by linarith)
  obtain ⟨f1, -⟩ := sub_rounds hx.1 hy.1 (small_le_max ((key hx hy).trans (two_zpow_le (by norm_num))))
  obtain ⟨f2, r2⟩ := sub_rounds ha.1 hb.1 (small_le_max ((key ha hb).trans (two_zpow_le (by norm_num))))
  exact weight_fin f1 f2 (r2.abs_le (rep_pow _ (by norm_num)) (key ha hb))

/-- An entry of row `k + 1`. -/
theorem SpanF.entry {knots : List Float} {n s : Nat} {u : Float} (h : SpanF knots n s u) {k i : Nat} (hk : k + 1 ≤ s)
    (hn : s + (k + 1) < n) (hi1 : s ≤ i + (k + 1)) (hi2 : i ≤ s)
    (hw : ∀ i, IsFin (basisTri (knot knots) u s k i) ∧ 0 ≤ val (basisTri (knot knots) u s k i) ∧
      val (basisTri (knot knots) u s k i) ≤ 3 / 2) :
    IsFin (basisTri (knot knots) u s (k + 1) i) ∧ 0 ≤ val (basisTri (knot knots) u s (k + 1) i) ∧
      |val (basisTri (knot knots) u s (k + 1) i) - piece (tval knots) s (k + 1) i (val u)|
        ≤ (val u - tval knots i) / (tval knots (i + k + 1) - tval knots i)
              * |val (basisTri (knot knots) u s k i) - piece (tval knots) s k i (val u)|
          + (tval knots (i + k + 2) - val u) / (tval knots (i + k + 2) - tval knots (i + 1))
              * |val (basisTri (knot knots) u s k (i + 1)) - piece (tval knots) s k (i + 1) (val u)|
          + 15 / 2 * eps * (val (basisTri (knot knots) u s k i) + val (basisTri (knot knots) u s k (i + 1)))
          + 2 * eta := by
  have hε := eps_pos
  have hlo : tval knots s ≤ val u := h.lo
  have hhi : val u ≤ tval knots (s + 1) := h.hi
  obtain ⟨f0, w0, w2⟩ := hw i
  obtain ⟨f1, w1, w3⟩ := hw (i + 1)
  have hα : 0 ≤ (val u - tval knots i) / (tval knots (i + k + 1) - tval knots i) :=
    div_nonneg (by linarith [h.mono i s hi2 h.lt.le]) (by linarith [h.mono i (i + k + 1) (by omega) (by omega)])
  have hβ : 0 ≤ (tval knots (i + k + 2) - val u) / (tval knots (i + k + 2) - tval knots (i + 1)) :=
    div_nonneg (by linarith [h.mono (s + 1) (i + k + 2) (by omega) (by omega)])
      (by linarith [h.mono (i + 1) (i + k + 2) (by omega) (by omega)])
  -- the left term
  have ta : IsFin (basisA (knot knots) u s k i) ∧
      ((val (basisTri (knot knots) u s k i) = 0 ∧ piece (tval knots) s k i (val u) = 0) ∨
        (0 ≤ val (basisA (knot knots) u s k i) ∧ val (basisA (knot knots) u s k i) ≤ 1 ∧
          |val (basisA (knot knots) u s k i) - (val u - tval knots i) / (tval knots (i + k + 1) - tval knots i)|
            ≤ 11 / 2 * eps)) := by
    by_cases hc : i + (k + 1) = s
    · rw [basisA, if_pos hc]
      refine ⟨h.weight (h.at _ (by omega)) (h.at _ (by omega)) ⟨h.fu, h.u_bound⟩ (h.at _ (by omega)), Or.inl ⟨?_, ?_⟩⟩
      · rw [basisTri_of_not _ _ (by omega)]; exact zero_val.2
      · exact piece_eq_zero _ _ _ _ _ (by omega)
    · rw [basisA, if_neg hc]
      obtain ⟨i, rfl⟩ : ∃ j, i = j + 1 := ⟨i - 1, by omega⟩
      rw [Nat.add_sub_cancel]
      obtain ⟨fb, b0, b1, eb⟩ := h.basisB_inside (k := k) (i := i) (by omega) (by omega) (by omega)
      have hm : |val (1 : Float) - val (basisB (knot knots) u k i)| ≤ maxFinite :=
        le_max_of_le_four (by rw [one_val.2, abs_of_nonneg (by linarith)]; linarith)
      obtain ⟨fa, ra⟩ := sub_rounds one_val.1 fb hm
      have ea := sub_err one_val.1 fb hm
      rw [one_val.2] at ra ea
      rw [abs_of_nonneg (by linarith : 0 ≤ 1 - val (basisB (knot knots) u k i))] at ea
      refine ⟨fa, Or.inr ⟨ra.nonneg (by linarith), ra.le_one (by linarith), ?_⟩⟩
      have hp := h.spanAt.pos (i := i + 1) (j := i + k + 2) (by omega) (by omega) (by omega)
      have eα : (val u - tval knots (i + 1)) / (tval knots (i + 1 + k + 1) - tval knots (i + 1))
          = 1 - (tval knots (i + k + 2) - val u) / (tval knots (i + k + 2) - tval knots (i + 1)) := by
        rw [show i + 1 + k + 1 = i + k + 2 by omega]
        field_simp
        ring
      rw [eα]
      have e1 := abs_le.mp ea
      have e2 := abs_le.mp eb
      have e3 : eps * (1 - val (basisB (knot knots) u k i)) ≤ eps * 1 := mul_le_mul_of_nonneg_left (by linarith) hε.le
      rw [abs_le]
      constructor <;> linarith
  -- the right term
  have tb : IsFin (basisB (knot knots) u k i) ∧
      ((val (basisTri (knot knots) u s k (i + 1)) = 0 ∧ piece (tval knots) s k (i + 1) (val u) = 0) ∨
        (0 ≤ val (basisB (knot knots) u k i) ∧ val (basisB (knot knots) u k i) ≤ 1 ∧
          |val (basisB (knot knots) u k i)
              - (tval knots (i + k + 2) - val u) / (tval knots (i + k + 2) - tval knots (i + 1))| ≤ 11 / 2 * eps)) := by
    by_cases hc : i = s
    · refine ⟨h.weight (h.at _ (by omega)) (h.at _ (by omega)) (h.at _ (by omega)) ⟨h.fu, h.u_bound⟩, Or.inl ⟨?_, ?_⟩⟩
      · rw [basisTri_of_not _ _ (by omega)]; exact zero_val.2
      · exact piece_eq_zero _ _ _ _ _ (by omega)
    · obtain ⟨fb, b0, b1, eb⟩ := h.basisB_inside (k := k) (i := i) (by omega) (by omega) (by omega)
      exact ⟨fb, Or.inr ⟨b0, b1, eb.trans (by linarith)⟩⟩
  obtain ⟨fa, ta⟩ := ta
  obtain ⟨fb, tb⟩ := tb
  obtain ⟨fP, P0, P1, eP⟩ := term_err fa f0 w0 (by linarith) hα ta
  obtain ⟨fQ, Q0, Q1, eQ⟩ := term_err fb f1 w1 (by linarith) hβ tb
  have e : basisTri (knot knots) u s (k + 1) i = basisA (knot knots) u s k i * basisTri (knot knots) u s k i
      + basisB (knot knots) u k i * basisTri (knot knots) u s k (i + 1) := by
    rw [basisTri, if_pos ⟨hi1, hi2⟩]
  rw [e, piece]
  generalize basisA (knot knots) u s k i * basisTri (knot knots) u s k i = x at *
  generalize basisB (knot knots) u k i * basisTri (knot knots) u s k (i + 1) = y at *
  have hm : |val x + val y| ≤ maxFinite := le_max_of_le_four (by rw [abs_of_nonneg (by linarith)]; linarith)
  obtain ⟨f, r⟩ := add_rounds fP fQ hm
  have es := add_err fP fQ hm
  rw [abs_of_nonneg (by linarith : 0 ≤ val x + val y)] at es
  refine ⟨f, r.nonneg (by linarith), ?_⟩
  have h5 : eps * (val x + val y)
      ≤ eps * (val (basisTri (knot knots) u s k i) + val (basisTri (knot knots) u s k (i + 1))) :=
    mul_le_mul_of_nonneg_left (by linarith) hε.le
  have a1 := abs_le.mp es
  have a2 := abs_le.mp eP
  have a3 := abs_le.mp eQ
  rw [abs_le]
  constructor <;> linarith

open Finset in
/-- All rows: finite, not negative, and the errors add up to at most `16 k 2 ^ -53`. -/
theorem SpanF.row {knots : List Float} {n s p : Nat} {u : Float} (h : SpanF knots n s u) (hp : p ≤ s) (hn : s + p < n)
    (hs : s ≤ 2 ^ 40) {k : Nat} (hk : k ≤ p) :
    (∀ i, IsFin (basisTri (knot knots) u s k i) ∧ 0 ≤ val (basisTri (knot knots) u s k i)) ∧
      ∑ i ∈ range (s + 2), |val (basisTri (knot knots) u s k i) - piece (tval knots) s k i (val u)| ≤ 16 * k * eps := by
  have hε := eps_pos
  have hη := eta_pos
  induction k with
  | zero =>
    have e : ∀ i, IsFin (basisTri (knot knots) u s 0 i) ∧
        val (basisTri (knot knots) u s 0 i) = piece (tval knots) s 0 i (val u) := by
      intro i
      rw [basisTri, piece]
      split
      · exact one_val
      · exact zero_val
    refine ⟨fun i => ⟨(e i).1, ?_⟩, ?_⟩
    · rw [(e i).2, piece]
      split <;> norm_num
    · rw [sum_eq_zero (fun i _ => by rw [(e i).2, sub_self, abs_zero])]
      simp
  | succ k ih =>
    obtain ⟨hw, hE⟩ := ih (by omega)
    set t := tval knots with ht
    set w : Nat → ℝ := fun i => val (basisTri (knot knots) u s k i) with hwd
    set c : Nat → ℝ := fun i => |w i - piece t s k i (val u)| with hcd
    have hkR : (k : ℝ) ≤ 2 ^ 40 := by exact_mod_cast (by omega : k ≤ 2 ^ 40)
    have hsR : (s : ℝ) ≤ 2 ^ 40 := by exact_mod_cast hs
    have hkε : 16 * k * eps ≤ 1 / 100 := by
      have : (k : ℝ) * eps ≤ 2 ^ 40 * eps := mul_le_mul_of_nonneg_right hkR hε.le
      have : (2 : ℝ) ^ 40 * eps ≤ 1 / 2000 := by rw [eps_eq]; norm_num
      linarith
    have hsum1 : ∑ i ∈ range (s + 2), piece t s k i (val u) = 1 :=
      piece_sum h.spanAt _ k _ (by omega) (by omega) (by omega)
    have hlo : t s ≤ val u := h.lo
    have hhi : val u ≤ t (s + 1) := h.hi
    have hN0 : ∀ i, 0 ≤ piece t s k i (val u) := by
      intro i
      by_cases hi : i ≤ s
      · exact piece_nonneg h.spanAt hlo hhi k i (by omega)
      · rw [piece_eq_zero _ _ _ _ _ (by omega)]
    have hsumw : ∑ i ∈ range (s + 2), w i ≤ 1 + 16 * k * eps := by
      calc ∑ i ∈ range (s + 2), w i ≤ ∑ i ∈ range (s + 2), (piece t s k i (val u) + c i) := by
            refine sum_le_sum fun i _ => ?_
            have := le_abs_self (w i - piece t s k i (val u))
            simp only [hcd]
            linarith
        _ = 1 + ∑ i ∈ range (s + 2), c i := by rw [sum_add_distrib, hsum1]
        _ ≤ _ := by linarith
    have hw0 : ∀ i, 0 ≤ w i := fun i => (hw i).2
    have hwz : ∀ i, i + k < s ∨ s < i → w i = 0 := by
      intro i hi
      simp only [hwd]
      rw [basisTri_of_not _ _ hi]; exact zero_val.2
    have hcz : ∀ i, i + k < s ∨ s < i → c i = 0 := by
      intro i hi
      simp only [hcd]
      rw [hwz i hi, piece_eq_zero _ _ _ _ _ (by omega), sub_self, abs_zero]
    have hw1 : ∀ i, w i ≤ 3 / 2 := by
      intro i
      by_cases hi : i ≤ s
      · have := single_le_sum (f := w) (fun j _ => hw0 j) (mem_range.mpr (by omega : i < s + 2))
        linarith
      · rw [hwz i (by omega)]; norm_num
    have hent := fun i (h1 : s ≤ i + (k + 1)) (h2 : i ≤ s) =>
      h.entry (k := k) (i := i) (by omega) (by omega) h1 h2 (fun j => ⟨(hw j).1, (hw j).2, hw1 j⟩)
    refine ⟨?_, ?_⟩
    · intro i
      by_cases hi : s ≤ i + (k + 1) ∧ i ≤ s
      · exact ⟨(hent i hi.1 hi.2).1, (hent i hi.1 hi.2).2.1⟩
      · rw [basisTri_of_not _ _ (by omega)]
        exact ⟨zero_val.1, zero_val.2.ge⟩
    · -- the bound of each entry
      set α : Nat → ℝ := fun i => (val u - t i) / (t (i + k + 1) - t i) with hα
      set β : Nat → ℝ := fun i => (t (i + k + 1) - val u) / (t (i + k + 1) - t i) with hβ
      have hb : ∀ i ∈ range (s + 2), |val (basisTri (knot knots) u s (k + 1) i) - piece t s (k + 1) i (val u)|
          ≤ α i * c i + β (i + 1) * c (i + 1) + 15 / 2 * eps * (w i + w (i + 1)) + 2 * eta := by
        intro i _
        by_cases hi : s ≤ i + (k + 1) ∧ i ≤ s
        · have := (hent i hi.1 hi.2).2.2
          simp only [hα, hβ]
          rw [show i + 1 + k + 1 = i + k + 2 by omega]
          exact this
        · rw [basisTri_of_not _ _ (by omega), piece_eq_zero _ _ _ _ _ (by omega), zero_val.2, sub_self, abs_zero,
            hcz i (by omega), hcz (i + 1) (by omega)]
          have := mul_nonneg (mul_nonneg (by norm_num : (0 : ℝ) ≤ 15 / 2) hε.le) (add_nonneg (hw0 i) (hw0 (i + 1)))
          linarith
      have shift : ∀ f : Nat → ℝ, f 0 = 0 → f (s + 2) = 0 → ∑ i ∈ range (s + 2), f (i + 1) = ∑ i ∈ range (s + 2), f i := by
        intro f h0 h1
        have a := sum_range_succ' f (s + 2)
        rw [sum_range_succ, h0, h1] at a
        linarith
      have s1 : ∑ i ∈ range (s + 2), β (i + 1) * c (i + 1) = ∑ i ∈ range (s + 2), β i * c i :=
        shift (fun i => β i * c i) (by show β 0 * c 0 = 0; rw [hcz 0 (by omega), mul_zero])
          (by show β (s + 2) * c (s + 2) = 0; rw [hcz (s + 2) (by omega), mul_zero])
      have s2 : ∑ i ∈ range (s + 2), w (i + 1) = ∑ i ∈ range (s + 2), w i :=
        shift w (hwz 0 (by omega)) (hwz (s + 2) (by omega))
      have s3 : ∑ i ∈ range (s + 2), (α i * c i + β i * c i) = ∑ i ∈ range (s + 2), c i := by
        refine sum_congr rfl fun i _ => ?_
        by_cases hi : s ≤ i + k ∧ i ≤ s
        · have hpos := h.spanAt.pos (i := i) (j := i + k + 1) (by omega) (by omega) (by omega)
          rw [← add_mul]
          simp only [hα, hβ]
          rw [← add_div, show val u - t i + (t (i + k + 1) - val u) = t (i + k + 1) - t i by ring,
            div_self (ne_of_gt hpos), one_mul]
        · rw [hcz i (by omega)]; ring
      have hηs : 2 * eta * ((s : ℝ) + 2) ≤ 1 / 2 * eps := by
        have : eta ≤ eps ^ 2 * (1 / 8) * (1 / 2 ^ 40) := eta_le.trans (by rw [eps_eq]; norm_num)
        have h1 : eta * ((s : ℝ) + 2) ≤ eps ^ 2 * (1 / 8) * (1 / 2 ^ 40) * (2 ^ 40 + 2) :=
          mul_le_mul this (by linarith) (by positivity) (by positivity)
        have h2 : eps ^ 2 * (1 / 8) * (1 / 2 ^ 40) * (2 ^ 40 + 2) ≤ 1 / 4 * eps := by rw [eps_eq]; norm_num
        linarith
      calc ∑ i ∈ range (s + 2), |val (basisTri (knot knots) u s (k + 1) i) - piece t s (k + 1) i (val u)|
          ≤ ∑ i ∈ range (s + 2), (α i * c i + β (i + 1) * c (i + 1) + 15 / 2 * eps * (w i + w (i + 1)) + 2 * eta) :=
            sum_le_sum hb
        _ = ∑ i ∈ range (s + 2), c i + 15 * eps * ∑ i ∈ range (s + 2), w i + 2 * eta * ((s : ℝ) + 2) := by
            rw [sum_add_distrib, sum_add_distrib, sum_add_distrib, s1, ← sum_add_distrib, s3, ← mul_sum,
              sum_add_distrib, s2, sum_const, card_range, nsmul_eq_mul]
            push_cast
            ring
        _ ≤ 16 * k * eps + 15 * eps * (1 + 1 / 100) + 1 / 2 * eps := by
            have := mul_le_mul_of_nonneg_left (hsumw.trans (by linarith : _ ≤ (1 : ℝ) + 1 / 100)) (by linarith : 0 ≤ 15 * eps)
            linarith
        _ ≤ 16 * ((k + 1 : Nat) : ℝ) * eps := by
            push_cast
            linarith

end F64
end Geom3d
