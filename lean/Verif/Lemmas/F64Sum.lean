import Verif.Lemmas.F64Err
import Verif.Model.Curve
import Verif.Lemmas.Tab
import Mathlib.Algebra.BigOperators.Group.Finset.Basic
import Mathlib.Algebra.Order.BigOperators.Group.Finset
import Mathlib.Algebra.BigOperators.Ring.Finset

/-! The accumulation loop of the curve evaluations in binary64. -/

namespace Geom3d

section
variable {F : Type} [Add F] [Mul F] [Zero F]

/-- `s = 0; for i in 0..n { s += b[i] * p[i] }`. -/
def accum (b p : Nat → F) : Nat → F
  | 0 => 0
  | n + 1 => accum b p n + b n * p n

theorem accum_congr {b p q : Nat → F} {n : Nat} (h : ∀ i, i < n → p i = q i) : accum b p n = accum b q n := by
  induction n with
  | zero => rfl
  | succ n ih => rw [accum, accum, ih (fun i hi => h i (by omega)), h n (by omega)]

theorem linComb_accum {P : Type} [Add P] [Zero P] [HMul F P P] (π : P → F) (h0 : π 0 = 0)
    (hadd : ∀ a b, π (a + b) = π a + π b) (hmul : ∀ (s : F) (a : P), π (s * a) = s * π a) (b : Nat → F) (pts : List P) :
    π (linComb (tab pts.length b) pts) = accum b (fun i => π (pts.getD i 0)) pts.length := by
  induction pts using List.reverseRecOn with
  | nil => exact h0
  | append_singleton l p ih =>
    have ht : tab (l ++ [p]).length b = tab l.length b ++ [b l.length] := by
      simp [tab, List.range_succ]
    rw [ht]
    unfold linComb at ih ⊢
    rw [List.zip_append (by simp), List.foldl_append]
    simp only [List.zip_cons_cons, List.zip_nil_right, List.foldl_cons, List.foldl_nil]
    rw [hadd, hmul, ih, List.length_append, List.length_singleton, accum]
    congr 1
    · apply accum_congr
      intro i hi
      simp only [List.getD]
      rw [List.getElem?_append_left hi]
    · simp

end

namespace F64

/-- The accumulation loop, where `κ` counts (at least) the weights different from zero. -/
theorem accum_apx_count {n : Nat} {b p : Nat → Float} {M : ℝ} {κ : Nat → Nat} (hM0 : 0 ≤ M) (hM : M ≤ 2 ^ (1022 : Int))
    (hn : κ n ≤ 2 ^ 41) (hκ : ∀ i, i < n → κ i ≤ κ (i + 1) ∧ (val (b i) = 0 ∨ κ i + 1 ≤ κ (i + 1)))
    (hb : ∀ i, i < n → IsFin (b i) ∧ 0 ≤ val (b i)) (hp : ∀ i, i < n → IsFin (p i) ∧ |val (p i)| ≤ M)
    (hS : ∑ i ∈ Finset.range n, val (b i) ≤ 9 / 8) :
    IsFin (accum b p n) ∧
      |val (accum b p n) - ∑ i ∈ Finset.range n, val (b i) * val (p i)| ≤ κ n * (3 * eps * M + 3 * eta) := by
  have hε := eps_pos
  have hη := eta_pos
  have hη1 : eta ≤ 1 / 1000 := eta_le.trans (by rw [eps_eq]; norm_num)
  have hbig : (1 : ℝ) ≤ 2 ^ (1020 : Int) := one_le_zpow₀ (by norm_num) (by norm_num)
  have h1023 : (2 : ℝ) ^ (1023 : Int) = 8 * 2 ^ (1020 : Int) := by
    rw [show (1023 : Int) = 3 + 1020 by norm_num, zpow_add₀ (by norm_num)]
    norm_num
  have h1022 : (2 : ℝ) ^ (1022 : Int) = 4 * 2 ^ (1020 : Int) := by
    rw [show (1022 : Int) = 2 + 1020 by norm_num, zpow_add₀ (by norm_num)]
    norm_num
  obtain ⟨T, hT⟩ : ∃ T : ℝ, 2 ^ (1020 : Int) = T := ⟨_, rfl⟩
  rw [hT] at hbig h1023 h1022
  rw [h1022] at hM
  have hlim : ∀ X : ℝ, |X| ≤ 8 * T → |X| ≤ maxFinite := fun X h => small_le_max (by rw [h1023]; exact h)
  clear h1022 h1023 hT
  induction n with
  | zero =>
    refine ⟨zero_val.1, ?_⟩
    rw [accum, zero_val.2, Finset.sum_range_zero, sub_self, abs_zero]
    exact mul_nonneg (Nat.cast_nonneg _) (by positivity)
  | succ n ih =>
    obtain ⟨hk1, hk2⟩ := hκ n (by omega)
    have hnR : ((κ n : Nat) : ℝ) ≤ 2 ^ 41 := by exact_mod_cast (by omega : κ n ≤ 2 ^ 41)
    have hn0 : (0 : ℝ) ≤ κ n := Nat.cast_nonneg _
    have hsum_nonneg : 0 ≤ ∑ i ∈ Finset.range n, val (b i) :=
      Finset.sum_nonneg fun i hi => (hb i (by rw [Finset.mem_range] at hi; omega)).2
    rw [Finset.sum_range_succ] at hS
    obtain ⟨fb, b0⟩ := hb n (by omega)
    obtain ⟨fp, pM⟩ := hp n (by omega)
    have b1 : val (b n) ≤ 9 / 8 := by linarith
    obtain ⟨fs, es⟩ := ih (by omega) (fun i hi => hκ i (by omega)) (fun i hi => hb i (by omega))
      (fun i hi => hp i (by omega)) (by linarith)
    obtain ⟨m, hm⟩ : ∃ m, κ n = m := ⟨_, rfl⟩
    rw [hm] at hk1 hk2 hnR hn0 es
    have hk1R : (m : ℝ) ≤ κ (n + 1) := by exact_mod_cast hk1
    set S := ∑ i ∈ Finset.range n, val (b i) * val (p i) with hSdef
    have hbp : |val (b n) * val (p n)| ≤ val (b n) * M := by
      rw [abs_mul, abs_of_nonneg b0]
      exact mul_le_mul_of_nonneg_left pM b0
    have hSM : |S + val (b n) * val (p n)| ≤ 9 / 8 * M := by
      calc |S + val (b n) * val (p n)| ≤ |S| + |val (b n) * val (p n)| := abs_add_le _ _
        _ ≤ (∑ i ∈ Finset.range n, val (b i) * M) + val (b n) * M := by
          refine add_le_add ((Finset.abs_sum_le_sum_abs _ _).trans (Finset.sum_le_sum fun i hi => ?_)) hbp
          rw [Finset.mem_range] at hi
          rw [abs_mul, abs_of_nonneg (hb i (by omega)).2]
          exact mul_le_mul_of_nonneg_left (hp i (by omega)).2 (hb i (by omega)).2
        _ = (∑ i ∈ Finset.range n, val (b i) + val (b n)) * M := by rw [← Finset.sum_mul]; ring
        _ ≤ 9 / 8 * M := mul_le_mul_of_nonneg_right hS hM0
    have hbpM : |val (b n) * val (p n)| ≤ 9 / 8 * M := hbp.trans (mul_le_mul_of_nonneg_right b1 hM0)
    obtain ⟨ft, rt⟩ := mul_rounds fb fp (hlim _ (by linarith))
    have et := rt.bound
    by_cases hz : val (b n) = 0
    · -- nothing is added
      rw [hz, zero_mul] at rt
      have ez := rt.of_rep rep_zero
      have hx : val (accum b p n) + val (b n * p n) = val (accum b p n) := by rw [ez, add_zero]
      obtain ⟨fr, rr⟩ := add_rounds fs ft (by rw [hx]; exact val_abs_le fs)
      rw [hx] at rr
      refine ⟨fr, ?_⟩
      rw [Finset.sum_range_succ, ← hSdef, accum, rr.of_rep (val_rep fs), hz, zero_mul, add_zero]
      refine es.trans (mul_le_mul_of_nonneg_right hk1R ?_)
      have := mul_nonneg hε.le hM0
      linarith
    -- a bound of the accumulated error
    have hnε : m * eps ≤ 1 / 1000 := by
      calc m * eps ≤ 2 ^ 41 * eps := mul_le_mul_of_nonneg_right hnR hε.le
        _ ≤ 1 / 1000 := by rw [eps_eq]; norm_num
    have hacc : m * (3 * eps * M + 3 * eta) ≤ 3 / 1000 * M + 3 * (m * eta) := by
      have := mul_le_mul_of_nonneg_right hnε hM0
      linarith
    have hnη : m * eta ≤ 1 / 1000 := by
      calc m * eta ≤ 2 ^ 41 * eps := mul_le_mul hnR (eta_le.trans (by rw [eps_eq]; norm_num)) hη.le (by norm_num)
        _ ≤ 1 / 1000 := by rw [eps_eq]; norm_num
    have hεs : eps ≤ 1 / 1000 := by rw [eps_eq]; norm_num
    have hεbp : eps * |val (b n) * val (p n)| ≤ eps * (9 / 8 * M) := mul_le_mul_of_nonneg_left hbpM hε.le
    have hεM : eps * M ≤ 1 / 1000 * M := mul_le_mul_of_nonneg_right hεs hM0
    -- the exact sum of the two rounded terms
    have hexact : |val (accum b p n) + val (b n * p n) - (S + val (b n) * val (p n))|
        ≤ m * (3 * eps * M + 3 * eta) + (9 / 8 * eps * M + eta) := by
      calc |val (accum b p n) + val (b n * p n) - (S + val (b n) * val (p n))|
          = |(val (accum b p n) - S) + (val (b n * p n) - val (b n) * val (p n))| := by congr 1; ring
        _ ≤ |val (accum b p n) - S| + |val (b n * p n) - val (b n) * val (p n)| := abs_add_le _ _
        _ ≤ m * (3 * eps * M + 3 * eta) + (9 / 8 * eps * M + eta) := by linarith
    have habs : |val (accum b p n) + val (b n * p n)| ≤ 5 / 4 * M + (3 * (m * eta) + eta) := by
      have h1 : |val (accum b p n) + val (b n * p n)| ≤
          |val (accum b p n) + val (b n * p n) - (S + val (b n) * val (p n))| + |S + val (b n) * val (p n)| := by
        have := abs_add_le (val (accum b p n) + val (b n * p n) - (S + val (b n) * val (p n))) (S + val (b n) * val (p n))
        rwa [sub_add_cancel] at this
      linarith
    obtain ⟨fr, rr⟩ := add_rounds fs ft (hlim _ (habs.trans (by linarith)))
    refine ⟨fr, ?_⟩
    have er := rr.bound
    rw [Finset.sum_range_succ, ← hSdef, accum]
    have hεη : eps * eta ≤ 1 / 1000 * eta := mul_le_mul_of_nonneg_right hεs hη.le
    have hnεη : eps * (m * eta) ≤ 1 / 1000 * eta := by
      have := mul_le_mul_of_nonneg_right hnε hη.le
      linarith
    have hfin : eps * |val (accum b p n) + val (b n * p n)| ≤ 5 / 4 * eps * M + 1 / 100 * eta := by
      have := mul_le_mul_of_nonneg_left habs hε.le
      linarith
    calc |val (accum b p n + b n * p n) - (S + val (b n) * val (p n))|
        = |(val (accum b p n + b n * p n) - (val (accum b p n) + val (b n * p n)))
            + (val (accum b p n) + val (b n * p n) - (S + val (b n) * val (p n)))| := by congr 1; ring
      _ ≤ _ := abs_add_le _ _
      _ ≤ (5 / 4 * eps * M + 1 / 100 * eta + eta) + (m * (3 * eps * M + 3 * eta) + (9 / 8 * eps * M + eta)) := by
          linarith
      _ ≤ (κ (n + 1) : ℝ) * (3 * eps * M + 3 * eta) := by
          have h1 := mul_nonneg hε.le hM0
          have h2 : ((m : ℝ) + 1) * (3 * eps * M + 3 * eta) ≤ (κ (n + 1) : ℝ) * (3 * eps * M + 3 * eta) := by
            refine mul_le_mul_of_nonneg_right ?_ (by linarith)
            rcases hk2 with h | h
            · exact absurd h hz
            · exact_mod_cast h
          nlinarith

/-- The accumulation loop: `n` products and `n` sums. -/
theorem accum_apx {n : Nat} {b p : Nat → Float} {M : ℝ} (hM0 : 0 ≤ M) (hM : M ≤ 2 ^ (1022 : Int)) (hn : n ≤ 2 ^ 41)
    (hb : ∀ i, i < n → IsFin (b i) ∧ 0 ≤ val (b i)) (hp : ∀ i, i < n → IsFin (p i) ∧ |val (p i)| ≤ M)
    (hS : ∑ i ∈ Finset.range n, val (b i) ≤ 9 / 8) :
    IsFin (accum b p n) ∧
      |val (accum b p n) - ∑ i ∈ Finset.range n, val (b i) * val (p i)| ≤ n * (3 * eps * M + 3 * eta) :=
  accum_apx_count (κ := fun i => i) hM0 hM hn (fun i _ => ⟨Nat.le_succ i, Or.inr le_rfl⟩) hb hp hS

end F64
end Geom3d
