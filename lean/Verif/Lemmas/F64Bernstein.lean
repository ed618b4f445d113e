import Verif.Lemmas.F64Err
import Verif.Lemmas.Bernstein

/-! The in-place loop of `bernstein` as a triangular table, for any number type, and its rounding error in binary64. -/

namespace Geom3d
open Spec

section
variable {F : Type} [Add F] [Sub F] [Mul F] [Zero F] [One F]

/-- Row `j` of the table filled by the loop of `bernstein`. -/
def bernTri (u u1 : F) : Nat → Nat → F
  | 0, i => if i = 0 then 1 else 0
  | j + 1, i =>
    if i ≤ j then (if i = 0 then 0 else u * bernTri u u1 j (i - 1)) + u1 * bernTri u u1 j i
    else if i = j + 1 then u * bernTri u u1 j j else 0

theorem bernTri_of_lt (u u1 : F) {j i : Nat} (h : j < i) : bernTri u u1 j i = 0 := by
  cases j with
  | zero => exact if_neg (by omega)
  | succ j => rw [bernTri, if_neg (by omega), if_neg (by omega)]

theorem bernTri_inner (n : Nat) (u u1 : F) (j : Nat) (hj : j + 1 < n) :
    forRange 0 (j + 1) (tab n (fun i => bernTri u u1 j i), 0) (bernsteinInner u u1)
      = .ok (tab n (fun i => if i < j + 1 then bernTri u u1 (j + 1) i else bernTri u u1 j i), u * bernTri u u1 j j) := by
  obtain ⟨s', h1, h2⟩ := forRange_inv (a := 0) (b := j + 1)
    (s := (tab n (fun i => bernTri u u1 j i), (0 : F))) (body := bernsteinInner u u1)
    (fun k s => s = (tab n (fun i => if i < k then bernTri u u1 (j + 1) i else bernTri u u1 j i),
      if k = 0 then 0 else u * bernTri u u1 j (k - 1)))
    (by omega) (by simp)
    (by
      rintro k s - hk rfl
      refine ⟨_, ?_, rfl⟩
      simp only [bernsteinInner]
      rw [idx_tab (by omega)]
      simp only [ok_bind]
      rw [upd_tab (by omega)]
      simp only [ok_bind, pure_eq_ok, lt_irrefl, if_false, Except.ok.injEq, Prod.mk.injEq,
        Nat.add_sub_cancel, Nat.add_eq_zero_iff, one_ne_zero, and_false, and_true]
      apply tab_congr
      intro i hi
      by_cases hik : i = k
      · subst hik
        rw [Function.update_self, if_pos (Nat.lt_succ_self _)]
        conv_rhs => rw [bernTri, if_pos (show i ≤ j by omega)]
      · rw [Function.update_of_ne hik]
        have : i < k + 1 ↔ i < k := by omega
        simp [this])
  rw [h1, h2]; simp

theorem bernstein_tri (n : Nat) (hn : 1 ≤ n) (u : F) :
    bernstein n u = .ok (tab n (fun i => bernTri u (1 - u) (n - 1) i)) := by
  unfold bernstein
  rw [replicate_eq_tab]
  simp only []
  rw [upd_tab (by omega)]
  simp only [ok_bind]
  obtain ⟨s', h1, h2⟩ := forRange_inv (a := 1) (b := n)
    (s := tab n (Function.update (fun _ => (0 : F)) 0 1)) (body := bernsteinOuter u (1 - u))
    (fun j s => s = tab n (fun i => bernTri u (1 - u) (j - 1) i))
    hn
    (by
      apply tab_congr; intro i _
      by_cases h : i = 0
      · subst h; simp [bernTri]
      · rw [Function.update_of_ne h, bernTri_of_lt _ _ (by omega)])
    (by
      rintro j s hj1 hj rfl
      obtain ⟨j, rfl⟩ : ∃ m, j = m + 1 := ⟨j - 1, by omega⟩
      refine ⟨_, ?_, rfl⟩
      simp only [bernsteinOuter, Nat.add_sub_cancel]
      rw [bernTri_inner n u _ j hj]
      simp only [ok_bind]
      rw [upd_tab hj]
      congr 1
      apply tab_congr
      intro i hi
      by_cases hij : i = j + 1
      · subst hij
        rw [Function.update_self, bernTri, if_neg (by omega), if_pos rfl]
      · rw [Function.update_of_ne hij]
        split
        · rfl
        · rw [bernTri_of_lt _ _ (by omega), bernTri_of_lt _ _ (by omega)])
  rw [h1, h2]

end

namespace F64

/-- The step `saved + (1 - u) * temp` with `saved = u * previous`, all operations rounded. -/
theorem step_apx {u v P Q p q a b r e c : ℝ} (hu0 : 0 ≤ u) (hu1 : u ≤ 1) (hP0 : 0 ≤ P) (hQ0 : 0 ≤ Q)
    (hQ1 : Q ≤ 1) (hp0 : 0 ≤ p) (hq0 : 0 ≤ q) (hv0 : 0 ≤ v) (he0 : 0 ≤ e) (hc0 : 0 ≤ c)
    (he : e ≤ 1 / 16) (hc : 4 * eps * c ≤ eta) (hc1 : c ≤ 1 / 16)
    (hp : Apx e c P p) (hq : Apx e c Q q) (hv : Rounds (1 - u) v) (ha : Rounds (u * p) a) (hb : Rounds (v * q) b)
    (hr : Rounds (a + b) r) : Apx (e + 4 * eps) (c + 8 * eta) (u * P + (1 - u) * Q) r := by
  have hε := eps_pos
  have hη := eta_pos
  have hεs : eps ≤ 1 / 1000 := by rw [eps_eq]; norm_num
  have h1u : 0 ≤ 1 - u := by linarith
  have hv' : Apx eps eta (1 - u) v := by
    have := hv.bound
    rwa [abs_of_nonneg h1u] at this
  have ha1 : Apx (e + eps + e * eps) ((1 + eps) * (u * c) + eta) (u * P) a :=
    (hp.scale hu0).round (mul_nonneg hu0 hp0) ha
  have hvq := hv'.mul hq hv0 hQ0 he0 hc0
  have hb1 := hvq.round (mul_nonneg hv0 hq0) hb
  have hX1 : 0 ≤ u * P := mul_nonneg hu0 hP0
  have hX2 : 0 ≤ (1 - u) * Q := mul_nonneg h1u hQ0
  have heps : 0 ≤ e * eps := mul_nonneg he0 hε.le
  obtain ⟨E, hE⟩ : ∃ E, eps + e + eps * e + eps + (eps + e + eps * e) * eps = E := ⟨_, rfl⟩
  have hE1 : e + eps + e * eps ≤ E := by nlinarith [mul_nonneg hε.le heps, mul_nonneg hε.le hε.le, mul_nonneg hε.le he0]
  have hE0 : 0 ≤ E := by nlinarith
  -- the absolute error of the second product
  obtain ⟨D, hD⟩ : ∃ D, (1 + eps) * ((1 + eps) * (1 - u) * c + eta * (e * Q + c + Q)) + eta = D := ⟨_, rfl⟩
  rw [hE, hD] at hb1
  have hb0 : 0 ≤ b := hb.nonneg (mul_nonneg hv0 hq0)
  have ha0 : 0 ≤ a := ha.nonneg (mul_nonneg hu0 hp0)
  have hsum := (ha1.mono hX1 hE1 le_rfl).add hb1
  have hfin := hsum.round (add_nonneg ha0 hb0) hr
  refine hfin.mono (add_nonneg hX1 hX2) ?_ ?_
  · rw [← hE]
    have h1 : e * eps ≤ 1 / 16 * eps := mul_le_mul_of_nonneg_right he hε.le
    have h2 : eps * eps ≤ 1 / 1000 * eps := mul_le_mul_of_nonneg_right hεs hε.le
    have h3 : e * eps * eps ≤ 1 / 16 * eps * (1 / 1000) := mul_le_mul h1 hεs hε.le (by positivity)
    have h4 : eps * eps * eps ≤ 1 / 1000 * eps * (1 / 1000) := mul_le_mul h2 hεs hε.le (by positivity)
    have h5 : e * eps * eps * eps ≤ 1 / 16 * eps * (1 / 1000) * (1 / 1000) := mul_le_mul h3 hεs hε.le (by positivity)
    nlinarith
  · rw [← hD]
    have hQc : eta * (e * Q + c + Q) ≤ eta * (9 / 8) := by
      refine mul_le_mul_of_nonneg_left ?_ hη.le
      have : e * Q ≤ 1 / 16 * 1 := mul_le_mul he hQ1 hQ0 (by norm_num)
      linarith
    have hQ0' : 0 ≤ eta * (e * Q + c + Q) :=
      mul_nonneg hη.le (add_nonneg (add_nonneg (mul_nonneg he0 hQ0) hc0) hQ0)
    have hce : eps * c ≤ eta / 4 := by linarith
    have hce0 : 0 ≤ eps * c := mul_nonneg hε.le hc0
    have h1 : (1 + eps) * ((1 + eps) * (1 - u) * c) + (1 + eps) * (u * c) ≤ (1 + eps) * ((1 + eps) * c) := by
      have h2 : (1 + eps) * (u * c) ≤ (1 + eps) * ((1 + eps) * (u * c)) := by
        have h3 : u * c ≤ (1 + eps) * (u * c) := by nlinarith [mul_nonneg hε.le (mul_nonneg hu0 hc0)]
        exact mul_le_mul_of_nonneg_left h3 (by linarith)
      calc (1 + eps) * ((1 + eps) * (1 - u) * c) + (1 + eps) * (u * c)
          ≤ (1 + eps) * ((1 + eps) * (1 - u) * c) + (1 + eps) * ((1 + eps) * (u * c)) := by linarith
        _ = _ := by ring
    have h4 : (1 + eps) * (1 + eps) * c ≤ c + eta := by
      nlinarith [mul_nonneg hε.le hce0, mul_le_mul_of_nonneg_right hεs hce0]
    have h5 : (1 + eps) * c ≤ c + eta := by nlinarith
    have h6 : (1 + eps) * (eta * (e * Q + c + Q)) ≤ 5 / 4 * eta := by nlinarith
    have h7 : (1 + eps) * (u * c) + eta + ((1 + eps) * ((1 + eps) * (1 - u) * c + eta * (e * Q + c + Q)) + eta)
        ≤ c + (17 / 4) * eta := by nlinarith
    calc (1 + eps) * ((1 + eps) * (u * c) + eta
          + ((1 + eps) * ((1 + eps) * (1 - u) * c + eta * (e * Q + c + Q)) + eta)) + eta
        ≤ (1 + eps) * (c + (17 / 4) * eta) + eta := by
          have := mul_le_mul_of_nonneg_left h7 (show 0 ≤ 1 + eps by linarith)
          linarith
      _ ≤ c + 8 * eta := by nlinarith

theorem bernsteinPoly_unit {d i : Nat} {u : ℝ} (h0 : 0 ≤ u) (h1 : u ≤ 1) :
    0 ≤ bernsteinPoly d i u ∧ bernsteinPoly d i u ≤ 1 := by
  have h2 : 0 ≤ 1 - u := by linarith
  induction d generalizing i with
  | zero =>
    cases i with
    | zero => simp [bernsteinPoly]
    | succ i => rw [bernsteinPoly_of_lt (by omega)]; norm_num
  | succ d ih =>
    cases i with
    | zero =>
      rw [bernsteinPoly_zero]
      obtain ⟨a, b⟩ := ih (i := 0)
      exact ⟨mul_nonneg h2 a, by nlinarith⟩
    | succ i =>
      rw [bernsteinPoly_succ]
      obtain ⟨a1, a2⟩ := ih (i := i)
      obtain ⟨b1, b2⟩ := ih (i := i + 1)
      exact ⟨add_nonneg (mul_nonneg h0 a1) (mul_nonneg h2 b1), by nlinarith⟩

/-- The table in binary64. -/
theorem bernTri_apx {u : Float} (h0 : 0 ≤ u) (h1 : u ≤ 1) (j i : Nat) (hj : j ≤ 2 ^ 40) :
    IsFin (bernTri u (1 - u) j i) ∧ 0 ≤ val (bernTri u (1 - u) j i) ∧
      Apx (j * (4 * eps)) (j * (8 * eta)) (bernsteinPoly j i (val u)) (val (bernTri u (1 - u) j i)) := by
  obtain ⟨fu, u0, u1⟩ := unit_float h0 h1
  have hv := sub_rounds one_val.1 fu (by
    rw [one_val.2]
    exact le_max_of_le_four (by rw [abs_of_nonneg (by linarith)]; linarith))
  rw [one_val.2] at hv
  obtain ⟨fv, rv⟩ := hv
  have v0 := rv.nonneg (by linarith)
  have v1 := rv.le_one (by linarith)
  have hε := eps_pos
  have hη := eta_pos
  have hηε : eta ≤ eps := eta_le.trans (by rw [eps_eq]; norm_num)
  induction j generalizing i with
  | zero =>
    cases i with
    | zero =>
      rw [bernTri, if_pos rfl]
      refine ⟨one_val.1, by rw [one_val.2]; norm_num, ?_⟩
      rw [one_val.2]
      simp [Apx, bernsteinPoly]
    | succ i =>
      rw [bernTri, if_neg (by omega)]
      refine ⟨zero_val.1, zero_val.2.ge, ?_⟩
      rw [zero_val.2, bernsteinPoly_of_lt (by omega)]
      simp [Apx]
  | succ j ih =>
    have hjR : ((j : Nat) : ℝ) ≤ 2 ^ 40 := by exact_mod_cast (by omega : j ≤ 2 ^ 40)
    have hj0 : (0 : ℝ) ≤ j := Nat.cast_nonneg _
    have he0 : (0 : ℝ) ≤ j * (4 * eps) := mul_nonneg hj0 (by linarith)
    have hc0 : (0 : ℝ) ≤ j * (8 * eta) := mul_nonneg hj0 (by linarith)
    have he : (j : ℝ) * (4 * eps) ≤ 1 / 16 := by
      calc (j : ℝ) * (4 * eps) ≤ 2 ^ 40 * (4 * eps) := mul_le_mul_of_nonneg_right hjR (by linarith)
        _ ≤ 1 / 16 := by rw [eps_eq]; norm_num
    have hc : 4 * eps * (j * (8 * eta)) ≤ eta := by
      calc 4 * eps * (j * (8 * eta)) = (j * (4 * eps)) * (8 * eta) := by ring
        _ ≤ (2 ^ 40 * (4 * eps)) * (8 * eta) :=
          mul_le_mul_of_nonneg_right (mul_le_mul_of_nonneg_right hjR (by linarith)) (by linarith)
        _ = (2 ^ 40 * (4 * eps) * 8) * eta := by ring
        _ ≤ 1 * eta := mul_le_mul_of_nonneg_right (by rw [eps_eq]; norm_num) hη.le
        _ = eta := one_mul _
    have hc1 : (j : ℝ) * (8 * eta) ≤ 1 / 16 := by
      calc (j : ℝ) * (8 * eta) ≤ 2 ^ 40 * (8 * eps) := mul_le_mul hjR (by linarith) (by linarith) (by norm_num)
        _ ≤ 1 / 16 := by rw [eps_eq]; norm_num
    have hle2 : ∀ i, val (bernTri u (1 - u) j i) ≤ 2 := by
      intro i
      have h := (ih i (by omega)).2.2.upper
      have hB := bernsteinPoly_unit (d := j) (i := i) u0 u1
      nlinarith [hB.1, hB.2]
    have hcast : ∀ x : ℝ, ((j + 1 : Nat) : ℝ) * x = j * x + x := by
      intro x
      push_cast
      ring
    rw [hcast, hcast]
    -- the product `u * previous`
    have hprod : ∀ i, IsFin (u * bernTri u (1 - u) j i) ∧
        Rounds (val u * val (bernTri u (1 - u) j i)) (val (u * bernTri u (1 - u) j i)) := by
      intro i
      have h2 := hle2 i
      have h3 := (ih i (by omega)).2.1
      refine mul_rounds fu (ih i (by omega)).1 (le_max_of_le_four ?_)
      rw [abs_of_nonneg (mul_nonneg u0 h3)]
      nlinarith
    have hprodv : ∀ i, IsFin ((1 - u) * bernTri u (1 - u) j i) ∧
        Rounds (val (1 - u) * val (bernTri u (1 - u) j i)) (val ((1 - u) * bernTri u (1 - u) j i)) := by
      intro i
      have h2 := hle2 i
      have h3 := (ih i (by omega)).2.1
      refine mul_rounds fv (ih i (by omega)).1 (le_max_of_le_four ?_)
      rw [abs_of_nonneg (mul_nonneg v0 h3)]
      nlinarith
    have hprod2 : ∀ i, 0 ≤ val (u * bernTri u (1 - u) j i) ∧ val (u * bernTri u (1 - u) j i) ≤ 2 := by
      intro i
      have h3 := (ih i (by omega)).2.1
      refine ⟨(hprod i).2.nonneg (mul_nonneg u0 h3), (hprod i).2.le 2 ⟨2, 0, by norm_num, by norm_num, by simp⟩ ?_⟩
      nlinarith [hle2 i]
    have hprodv2 : ∀ i, 0 ≤ val ((1 - u) * bernTri u (1 - u) j i) ∧ val ((1 - u) * bernTri u (1 - u) j i) ≤ 2 := by
      intro i
      have h3 := (ih i (by omega)).2.1
      refine ⟨(hprodv i).2.nonneg (mul_nonneg v0 h3), (hprodv i).2.le 2 ⟨2, 0, by norm_num, by norm_num, by simp⟩ ?_⟩
      nlinarith [hle2 i]
    by_cases hij : i ≤ j
    · rw [bernTri, if_pos hij]
      cases i with
      | zero =>
        rw [if_pos rfl, bernsteinPoly_zero]
        obtain ⟨f2, r2⟩ := hprodv 0
        have h3 := hprodv2 0
        obtain ⟨f3, r3⟩ := add_rounds zero_val.1 f2 (by
          rw [zero_val.2, zero_add]
          exact le_max_of_le_four (by rw [abs_of_nonneg h3.1]; linarith))
        rw [zero_val.2] at r3
        refine ⟨f3, r3.nonneg (by linarith [h3.1]), ?_⟩
        have hA : Rounds (val u * 0) 0 := by rw [mul_zero]; exact rounds_zero
        have := step_apx (P := 0) (p := 0) u0 u1 le_rfl (bernsteinPoly_unit u0 u1).1 (bernsteinPoly_unit u0 u1).2 le_rfl
          (ih 0 (by omega)).2.1 v0 he0 hc0 he hc hc1 (by simpa [Apx] using hc0) (ih 0 (by omega)).2.2 rv hA r2 r3
        rwa [mul_zero, zero_add] at this
      | succ i =>
        rw [if_neg (by omega), Nat.add_sub_cancel, bernsteinPoly_succ]
        obtain ⟨f1, r1⟩ := hprod i
        obtain ⟨f2, r2⟩ := hprodv (i + 1)
        have h3 := hprod2 i
        have h4 := hprodv2 (i + 1)
        obtain ⟨f3, r3⟩ := add_rounds f1 f2 (le_max_of_le_four (by
          rw [abs_of_nonneg (add_nonneg h3.1 h4.1)]; linarith))
        refine ⟨f3, r3.nonneg (add_nonneg h3.1 h4.1), ?_⟩
        exact step_apx u0 u1 (bernsteinPoly_unit u0 u1).1 (bernsteinPoly_unit u0 u1).1 (bernsteinPoly_unit u0 u1).2
          (ih i (by omega)).2.1 (ih (i + 1) (by omega)).2.1 v0 he0 hc0 he hc hc1 (ih i (by omega)).2.2
          (ih (i + 1) (by omega)).2.2 rv r1 r2 r3
    · rw [bernTri, if_neg hij]
      by_cases hi : i = j + 1
      · rw [if_pos hi, hi, bernsteinPoly_succ, bernsteinPoly_of_lt (i := j + 1) (by omega)]
        obtain ⟨f1, r1⟩ := hprod j
        have h3 := hprod2 j
        refine ⟨f1, h3.1, ?_⟩
        have hA : Rounds (val (1 - u) * 0) 0 := by rw [mul_zero]; exact rounds_zero
        have hS : Rounds (val (u * bernTri u (1 - u) j j) + 0) (val (u * bernTri u (1 - u) j j)) := by
          rw [add_zero]
          exact rounds_rep (val_rep f1)
        exact step_apx (Q := 0) (q := 0) u0 u1 (bernsteinPoly_unit u0 u1).1 le_rfl zero_le_one
          (ih j (by omega)).2.1 le_rfl v0 he0 hc0 he hc hc1 (ih j (by omega)).2.2 (by simpa [Apx] using hc0) rv r1 hA hS
      · rw [if_neg hi, bernsteinPoly_of_lt (by omega)]
        refine ⟨zero_val.1, zero_val.2.ge, ?_⟩
        rw [zero_val.2]
        simp only [Apx, sub_zero, abs_zero, mul_zero, zero_add]
        linarith

end F64
end Geom3d
