import Verif.Lemmas.F64Dist
import Verif.Props.Knots

/-!
# Knot vectors in binary64 (C94)
-/

namespace Geom3d
open Spec F64

/-! ### Uniform knot vectors -/

/-- The inner knots before the last rounding. -/
theorem uniform_step {d : Nat} (hd1 : 1 ≤ d) (hd : d ≤ 2 ^ 50) :
    IsFin (1 / (d : Float)) ∧ |val (1 / (d : Float)) - 1 / (d : ℝ)| ≤ eps * (1 / (d : ℝ)) ∧ 0 < val (1 / (d : Float)) := by
  obtain ⟨fd, vd⟩ := natCast_val (n := d) (lt_of_le_of_lt hd (by norm_num))
  have hd0 : (0 : ℝ) < d := by exact_mod_cast hd1
  have hd1' : (1 : ℝ) ≤ d := by exact_mod_cast hd1
  have hd2 : (d : ℝ) ≤ 2 ^ 50 := by exact_mod_cast hd
  have hq : val (1 : Float) / val (d : Float) = 1 / (d : ℝ) := by rw [one_val.2, vd]
  have hq0 : 0 < 1 / (d : ℝ) := by positivity
  have hq1 : 1 / (d : ℝ) ≤ 1 := by rw [div_le_one hd0]; exact hd1'
  have hq2 : 1 / (2 : ℝ) ^ 50 ≤ 1 / (d : ℝ) := one_div_le_one_div_of_le hd0 hd2
  obtain ⟨f, r⟩ := div_rounds one_val.1 fd (by rw [vd]; exact hd0.ne')
    (le_max_of_le_four (by rw [hq, abs_of_pos hq0]; linarith))
  rw [hq] at r
  have he := r.err
  rw [abs_of_pos hq0] at he
  have hmax : max (eps * (1 / (d : ℝ))) eta = eps * (1 / (d : ℝ)) := by
    refine max_eq_left ?_
    have h1 : eps * (1 / (2 : ℝ) ^ 50) ≤ eps * (1 / (d : ℝ)) := mul_le_mul_of_nonneg_left hq2 eps_pos.le
    refine le_trans (eta_le.trans ?_) h1
    rw [eps_eq]; norm_num
  have he' : |val (1 / (d : Float)) - 1 / (d : ℝ)| ≤ eps * (1 / (d : ℝ)) := he.trans (le_of_eq hmax)
  refine ⟨f, he', ?_⟩
  have := (abs_le.mp he').1
  have e1 : eps ≤ 1 / 2 := by rw [eps_eq]; norm_num
  nlinarith

/-- The inner knots. -/
theorem uniform_inner {d i : Nat} (hd : d ≤ 2 ^ 50) (hi : i ≤ d) (hd1 : 1 ≤ d) :
    IsFin ((i : Float) * (1 / (d : Float))) ∧
      |val ((i : Float) * (1 / (d : Float))) - (i : ℝ) / d| ≤ 2 ^ (-51 : Int) * ((i : ℝ) / d) ∧
      Rounds ((i : ℝ) * val (1 / (d : Float))) (val ((i : Float) * (1 / (d : Float)))) := by
  obtain ⟨fs, es, ps⟩ := uniform_step hd1 hd
  have hid : i ≤ 2 ^ 50 := hi.trans hd
  obtain ⟨fi, vi⟩ := natCast_val (n := i) (lt_of_le_of_lt hid (by norm_num))
  have hd0 : (0 : ℝ) < d := by exact_mod_cast hd1
  have hi0 : (0 : ℝ) ≤ i := Nat.cast_nonneg _
  have hid' : (i : ℝ) ≤ d := by exact_mod_cast hi
  have hq0 : 0 < 1 / (d : ℝ) := by positivity
  have hq1 : 0 ≤ (i : ℝ) / d := by positivity
  have hq2 : (i : ℝ) / d ≤ 1 := by rw [div_le_one hd0]; exact hid'
  have he : eps ≤ 1 / 2 := by rw [eps_eq]; norm_num
  have he0 := eps_pos
  have hX : |(i : ℝ) * val (1 / (d : Float)) - (i : ℝ) / d| ≤ eps * ((i : ℝ) / d) := by
    rw [show (i : ℝ) * val (1 / (d : Float)) - (i : ℝ) / d = i * (val (1 / (d : Float)) - 1 / d) by ring, abs_mul,
      abs_of_nonneg hi0]
    calc _ ≤ (i : ℝ) * (eps * (1 / d)) := mul_le_mul_of_nonneg_left es hi0
      _ = _ := by ring
  have hX0 : 0 ≤ (i : ℝ) * val (1 / (d : Float)) := mul_nonneg hi0 ps.le
  have hXu := (abs_le.mp hX).2
  have hX2 : (i : ℝ) * val (1 / (d : Float)) ≤ 2 := by nlinarith
  obtain ⟨f, r⟩ := mul_rounds fi fs (le_max_of_le_four (by rw [vi, abs_of_nonneg hX0]; linarith))
  rw [vi] at r
  refine ⟨f, ?_, r⟩
  have hb := r.err
  rw [abs_of_nonneg hX0] at hb
  by_cases h0 : i = 0
  · subst h0
    rw [show val ((0 : Nat) : Float) = _ from vi] at *
    have : Rep ((0 : Nat) * val (1 / (d : Float)) : ℝ) := by rw [Nat.cast_zero, zero_mul]; exact rep_zero
    rw [r.of_rep this]
    simp
  · have hi1 : (1 : ℝ) ≤ i := by exact_mod_cast Nat.one_le_iff_ne_zero.mpr h0
    have hd2 : (d : ℝ) ≤ 2 ^ 50 := by exact_mod_cast hd
    have hq3 : 1 / (2 : ℝ) ^ 50 ≤ (i : ℝ) / d :=
      (one_div_le_one_div_of_le hd0 hd2).trans (div_le_div_of_nonneg_right hi1 hd0.le)
    have hl := (abs_le.mp hX).1
    have h3 : 1 / (2 : ℝ) ^ 51 ≤ (i : ℝ) * val (1 / (d : Float)) := by
      have : (1 / 2 : ℝ) * ((i : ℝ) / d) ≤ (i : ℝ) * val (1 / (d : Float)) := by nlinarith
      refine le_trans ?_ this
      calc 1 / (2 : ℝ) ^ 51 = 1 / 2 * (1 / 2 ^ 50) := by norm_num
        _ ≤ _ := mul_le_mul_of_nonneg_left hq3 (by norm_num)
    have hmax : max (eps * ((i : ℝ) * val (1 / (d : Float)))) eta = eps * ((i : ℝ) * val (1 / (d : Float))) := by
      refine max_eq_left (le_trans (eta_le.trans ?_) (mul_le_mul_of_nonneg_left h3 eps_pos.le))
      rw [eps_eq]; norm_num
    have hb := hb.trans (le_of_eq hmax)
    have e51 : (2 : ℝ) ^ (-51 : Int) = 4 * eps := by rw [eps_eq]; norm_num
    rw [e51]
    calc _ = |(val ((i : Float) * (1 / (d : Float))) - (i : ℝ) * val (1 / (d : Float))) + ((i : ℝ) * val (1 / (d : Float)) - (i : ℝ) / d)| := by
          congr 1; ring
      _ ≤ _ := abs_add_le _ _
      _ ≤ eps * ((i : ℝ) * val (1 / (d : Float))) + eps * ((i : ℝ) / d) := add_le_add hb hX
      _ ≤ eps * (2 * ((i : ℝ) / d)) + eps * ((i : ℝ) / d) := by
          have : (i : ℝ) * val (1 / (d : Float)) ≤ 2 * ((i : ℝ) / d) := by nlinarith
          have := mul_le_mul_of_nonneg_left this he0.le
          linarith
      _ ≤ 4 * eps * ((i : ℝ) / d) := by nlinarith [mul_nonneg he0.le hq1]

/-- **C94.** For up to `2 ^ 50` divisions the inner knots of `uniform_knot` are finite, strictly between 0 and 1,
strictly increasing and equal to `i / division` up to a relative error of `2 ^ -51`. -/
theorem C94_uniform (p d : Nat) (hd : d ≤ 2 ^ 50) :
    (∀ i, 1 ≤ i → i < d → ∃ x, (KnotVector.uniformKnot p d : List Float)[p + i]? = some x ∧ IsFin x ∧
      0 < val x ∧ val x < 1 ∧ |val x - (i : ℝ) / d| ≤ 2 ^ (-51 : Int) * ((i : ℝ) / d)) ∧
    (∀ i j x y, 1 ≤ i → i < j → j < d → (KnotVector.uniformKnot p d : List Float)[p + i]? = some x →
      (KnotVector.uniformKnot p d : List Float)[p + j]? = some y → val x < val y) := by
  have e51 : (2 : ℝ) ^ (-51 : Int) = 4 * eps := by rw [eps_eq]; norm_num
  have he0 := eps_pos
  have main : ∀ i, 1 ≤ i → i < d → (KnotVector.uniformKnot p d : List Float)[p + i]? = some ((i : Float) * (1 / (d : Float))) :=
    fun i h1 h2 => (C07_uniformKnot_layout p d (by omega)).2.2.1 i h1 h2
  refine ⟨?_, ?_⟩
  · intro i h1 h2
    obtain ⟨f, e, _⟩ := uniform_inner hd h2.le (by omega)
    refine ⟨_, main i h1 h2, f, ?_, ?_, e⟩
    · have hd0 : (0 : ℝ) < d := by exact_mod_cast (by omega : 0 < d)
      have hi0 : (0 : ℝ) < i := by exact_mod_cast h1
      have hq : 0 < (i : ℝ) / d := by positivity
      rw [e51] at e
      have := (abs_le.mp e).1
      have h4 : 4 * eps ≤ 1 / 2 := by rw [eps_eq]; norm_num
      nlinarith
    · have hd0 : (0 : ℝ) < d := by exact_mod_cast (by omega : 0 < d)
      have hi1 : (i : ℝ) + 1 ≤ d := by exact_mod_cast h2
      have hd2 : (d : ℝ) ≤ 2 ^ 50 := by exact_mod_cast hd
      rw [e51] at e
      have := (abs_le.mp e).2
      have hq1 : (i : ℝ) / d ≤ 1 - 1 / d := by
        rw [le_sub_iff_add_le, ← add_div, div_le_one hd0]; exact hi1
      have hq3 : 1 / (2 : ℝ) ^ 50 ≤ 1 / d := one_div_le_one_div_of_le hd0 hd2
      have h4 : 4 * eps = 1 / 2 ^ 51 := by rw [eps_eq]; norm_num
      have h5 : 4 * eps * ((i : ℝ) / d) ≤ 4 * eps * 1 := mul_le_mul_of_nonneg_left (by linarith [show 0 < 1 / (d : ℝ) by positivity]) (by linarith)
      have h6 : (1 : ℝ) / 2 ^ 51 < 1 / 2 ^ 50 := by norm_num
      linarith
  · intro i j x y h1 h2 h3 hx hy
    rw [main i h1 (by omega)] at hx
    rw [main j (by omega) h3] at hy
    obtain rfl := Option.some.inj hx
    obtain rfl := Option.some.inj hy
    obtain ⟨_, ei, _⟩ := uniform_inner hd (show i ≤ d by omega) (by omega)
    obtain ⟨_, ej, _⟩ := uniform_inner hd (show j ≤ d by omega) (by omega)
    have hd0 : (0 : ℝ) < d := by exact_mod_cast (by omega : 0 < d)
    have hij : (i : ℝ) + 1 ≤ j := by exact_mod_cast h2
    have hjd : (j : ℝ) ≤ d := by exact_mod_cast h3.le
    have hd2 : (d : ℝ) ≤ 2 ^ 50 := by exact_mod_cast hd
    have hi0 : (0 : ℝ) ≤ (i : ℝ) / d := by positivity
    have hj1 : (j : ℝ) / d ≤ 1 := by rw [div_le_one hd0]; exact hjd
    have hgap : (i : ℝ) / d + 1 / d ≤ (j : ℝ) / d := by rw [← add_div]; exact div_le_div_of_nonneg_right hij hd0.le
    have hq3 : 1 / (2 : ℝ) ^ 50 ≤ 1 / d := one_div_le_one_div_of_le hd0 hd2
    rw [e51] at ei ej
    have a1 := (abs_le.mp ei).2
    have a2 := (abs_le.mp ej).1
    have hdp : 0 < 1 / (d : ℝ) := by positivity
    -- the total error is at most `4 eps (2 j / d - 1 / d)`, below the gap
    have h4 : 4 * eps = 1 / 2 ^ 51 := by rw [eps_eq]; norm_num
    have h5 : 4 * eps * ((i : ℝ) / d) + 4 * eps * ((j : ℝ) / d) ≤ 4 * eps * (2 - 1 / d) := by
      rw [← mul_add]; exact mul_le_mul_of_nonneg_left (by linarith) (by linarith)
    have h6 : 4 * eps * (2 - 1 / d) < 1 / (2 : ℝ) ^ 50 := by
      rw [h4]
      have : (1 : ℝ) / 2 ^ 51 * (2 - 1 / d) < 1 / 2 ^ 51 * 2 := mul_lt_mul_of_pos_left (by linarith) (by norm_num)
      refine lt_of_lt_of_eq this (by norm_num)
    linarith

/-- **C94.** The whole vector of `uniform_knot` is sorted (as real numbers), for up to `2 ^ 50` divisions. -/
theorem C94_uniform_sorted (p d : Nat) (hd : d ≤ 2 ^ 50) :
    ((KnotVector.uniformKnot p d : List Float).map val).Pairwise (· ≤ ·) ∧
      ∀ x ∈ (KnotVector.uniformKnot p d : List Float), IsFin x ∧ 0 ≤ val x ∧ val x ≤ 1 := by
  have hin : ∀ i ∈ List.range' 1 (d - 1), 1 ≤ i ∧ i < d := by
    intro i hi
    simp only [List.mem_range'_1] at hi
    omega
  have inner : ∀ i, 1 ≤ i → i < d → IsFin ((i : Float) * (1 / (d : Float))) ∧ 0 < val ((i : Float) * (1 / (d : Float))) ∧
      val ((i : Float) * (1 / (d : Float))) < 1 := by
    intro i h1 h2
    obtain ⟨x, hx, f, h3, h4, _⟩ := (C94_uniform p d hd).1 i h1 h2
    rw [(C07_uniformKnot_layout p d (by omega)).2.2.1 i h1 h2] at hx
    obtain rfl := Option.some.inj hx
    exact ⟨f, h3, h4⟩
  constructor
  · unfold KnotVector.uniformKnot
    simp only [List.append_assoc, List.map_append, List.map_replicate, List.map_map]
    rw [List.pairwise_append, List.pairwise_append]
    refine ⟨List.pairwise_replicate.2 (Or.inr le_rfl), ⟨?_, List.pairwise_replicate.2 (Or.inr le_rfl), ?_⟩, ?_⟩
    · rw [List.pairwise_map]
      refine List.Pairwise.imp_of_mem ?_ (List.pairwise_lt_range' (s := 1) (n := d - 1) 1)
      intro a b ha hb hab
      have h1 := hin a ha
      have h2 := hin b hb
      exact ((C94_uniform p d hd).2 a b _ _ h1.1 hab h2.2 ((C07_uniformKnot_layout p d (by omega)).2.2.1 a h1.1 h1.2)
        ((C07_uniformKnot_layout p d (by omega)).2.2.1 b h2.1 h2.2)).le
    · intro a ha b hb
      obtain ⟨i, hi, rfl⟩ := List.mem_map.1 ha
      rw [List.eq_of_mem_replicate hb, one_val.2]
      exact (inner i (hin i hi).1 (hin i hi).2).2.2.le
    · intro a ha b hb
      rw [List.eq_of_mem_replicate ha, zero_val.2]
      rcases List.mem_append.1 hb with hb | hb
      · obtain ⟨i, hi, rfl⟩ := List.mem_map.1 hb
        exact (inner i (hin i hi).1 (hin i hi).2).2.1.le
      · rw [List.eq_of_mem_replicate hb, one_val.2]; norm_num
  · intro x hx
    unfold KnotVector.uniformKnot at hx
    simp only [List.append_assoc] at hx
    rcases List.mem_append.1 hx with h | h
    · rw [List.eq_of_mem_replicate h]
      exact ⟨zero_val.1, by rw [zero_val.2], by rw [zero_val.2]; norm_num⟩
    · rcases List.mem_append.1 h with h | h
      · obtain ⟨i, hi, rfl⟩ := List.mem_map.1 h
        obtain ⟨a, b, c⟩ := inner i (hin i hi).1 (hin i hi).2
        exact ⟨a, b.le, c.le⟩
      · rw [List.eq_of_mem_replicate h]
        exact ⟨one_val.1, by rw [one_val.2]; norm_num, by rw [one_val.2]⟩

/-- The knots are not exactly `i / division`: already `3 * (1 / 10)` is not the number nearest to `3 / 10`. -/
theorem C94_uniform_not_exact : ((KnotVector.uniformKnot 1 10 : List Float)[4]?.map Float.toBits)
    = some 0x3FD3333333333334 ∧ (3 / 10 : Float).toBits = 0x3FD3333333333333 := by decide +kernel

/-! ### Normalisation -/

theorem knot_getElem' {F : Type} [Zero F] {knots : List F} {i : Nat} (h : i < knots.length) : knots[i] = knot knots i := by
  simp [knot, List.getD, h]

theorem knot_mem' {F : Type} [Zero F] {knots : List F} {i : Nat} (h : i < knots.length) : knot knots i ∈ knots := by
  rw [← knot_getElem' h]; exact List.getElem_mem h

theorem idx_knot' {F : Type} [Zero F] {knots : List F} {i : Nat} (h : i < knots.length) :
    idx knots i = .ok (knot knots i) := by
  rw [idx_ok h, knot_getElem' h]

/-- **C94.** Normalising a sorted vector of finite knots (not all equal, and of finite extent) gives finite knots in
`[0, 1]`, sorted, beginning with exactly 0 and ending with exactly 1, each equal to the exact value up to a relative
error of `2 ^ -50` next to the underflow. -/
theorem C94_normalize {knots : List Float} {n : Nat} (hlen : knots.length = n + 1) (hf : ∀ x ∈ knots, IsFin x)
    (hs : (knots.map val).Pairwise (· ≤ ·)) (hne : val (knot knots 0) < val (knot knots n))
    (hmax : val (knot knots n) - val (knot knots 0) ≤ maxFinite) :
    ∃ v, KnotVector.normalize knots = .ok v ∧ v.length = knots.length ∧
      (∀ i, i ≤ n → IsFin (knot v i) ∧ 0 ≤ val (knot v i) ∧ val (knot v i) ≤ 1 ∧
        |val (knot v i) - (val (knot knots i) - val (knot knots 0)) / (val (knot knots n) - val (knot knots 0))|
          ≤ 2 ^ (-50 : Int) * ((val (knot knots i) - val (knot knots 0)) / (val (knot knots n) - val (knot knots 0)))
            + 2 ^ (-1075 : Int)) ∧
      (∀ i j, i ≤ j → j ≤ n → val (knot v i) ≤ val (knot v j)) ∧ val (knot v 0) = 0 ∧ val (knot v n) = 1 := by
  have hfin : ∀ i, i ≤ n → IsFin (knot knots i) := by
    intro i hi
    exact hf _ (knot_mem' (by omega))
  have hmono : ∀ i j, i ≤ j → j ≤ n → val (knot knots i) ≤ val (knot knots j) := by
    intro i j hij hj
    rcases Nat.eq_or_lt_of_le hij with rfl | h
    · exact le_rfl
    · rw [List.pairwise_map, List.pairwise_iff_getElem] at hs
      rw [← knot_getElem' (show i < knots.length by omega), ← knot_getElem' (show j < knots.length by omega)]
      exact hs i j (by omega) (by omega) h
  set t0 := val (knot knots 0) with ht0
  set tn := val (knot knots n) with htn
  have hD : 0 < tn - t0 := sub_pos.2 hne
  have hsub : ∀ i, i ≤ n → IsFin (knot knots i - knot knots 0) ∧
      Rounds (val (knot knots i) - t0) (val (knot knots i - knot knots 0)) ∧
      |val (knot knots i - knot knots 0) - (val (knot knots i) - t0)| ≤ eps * (val (knot knots i) - t0) := by
    intro i hi
    have h1 : 0 ≤ val (knot knots i) - t0 := sub_nonneg.2 (hmono 0 i (by omega) hi)
    have h2 : |val (knot knots i) - t0| ≤ maxFinite := by
      rw [abs_of_nonneg h1]
      exact (sub_le_sub_right (hmono i n hi le_rfl) _).trans hmax
    obtain ⟨a, b⟩ := sub_rounds (hfin i hi) (hfin 0 (by omega)) h2
    have c := sub_err (hfin i hi) (hfin 0 (by omega)) h2
    rw [← ht0, abs_of_nonneg h1] at c
    exact ⟨a, b, c⟩
  obtain ⟨fD, rD, eD⟩ := hsub n le_rfl
  have he : eps ≤ 1 / 16 := by rw [eps_eq]; norm_num
  have he0 := eps_pos
  have hDpos : 0 < val (knot knots n - knot knots 0) := by
    have := (abs_le.mp eD).1
    nlinarith
  have e : KnotVector.normalize knots = .ok (knots.map fun value =>
      (value - knot knots 0) / (knot knots n - knot knots 0)) := by
    unfold KnotVector.normalize
    rw [idx_knot' (by omega), usub_ok (by omega)]
    simp only [ok_bind]
    rw [idx_knot' (by omega)]
    simp only [ok_bind, hlen, Nat.add_sub_cancel]
    rfl
  have hk : ∀ i, i ≤ n → knot (knots.map fun value => (value - knot knots 0) / (knot knots n - knot knots 0)) i
      = (knot knots i - knot knots 0) / (knot knots n - knot knots 0) := by
    intro i hi
    rw [← knot_getElem' (by rw [List.length_map]; omega), List.getElem_map, knot_getElem' (by omega)]
  have hq : ∀ i, i ≤ n → IsFin ((knot knots i - knot knots 0) / (knot knots n - knot knots 0)) ∧
      Rounds (val (knot knots i - knot knots 0) / val (knot knots n - knot knots 0))
        (val ((knot knots i - knot knots 0) / (knot knots n - knot knots 0))) ∧
      0 ≤ val (knot knots i - knot knots 0) / val (knot knots n - knot knots 0) ∧
      val (knot knots i - knot knots 0) / val (knot knots n - knot knots 0) ≤ 1 := by
    intro i hi
    obtain ⟨fi, ri, _⟩ := hsub i hi
    have h0 : 0 ≤ val (knot knots i - knot knots 0) := ri.nonneg (sub_nonneg.2 (hmono 0 i (by omega) hi))
    have h1 : val (knot knots i - knot knots 0) ≤ val (knot knots n - knot knots 0) :=
      ri.mono rD (sub_le_sub_right (hmono i n hi le_rfl) _)
    have q0 : 0 ≤ val (knot knots i - knot knots 0) / val (knot knots n - knot knots 0) := div_nonneg h0 hDpos.le
    have q1 : val (knot knots i - knot knots 0) / val (knot knots n - knot knots 0) ≤ 1 := (div_le_one hDpos).2 h1
    obtain ⟨a, b⟩ := div_rounds fi fD hDpos.ne' (le_max_of_le_four (by rw [abs_of_nonneg q0]; linarith))
    exact ⟨a, b, q0, q1⟩
  refine ⟨_, e, List.length_map _, ?_, ?_, ?_, ?_⟩
  · intro i hi
    obtain ⟨f, r, q0, q1⟩ := hq i hi
    rw [hk i hi]
    refine ⟨f, r.nonneg q0, r.le_one q1, ?_⟩
    obtain ⟨_, _, ei⟩ := hsub i hi
    have hx0 : 0 ≤ val (knot knots i) - t0 := sub_nonneg.2 (hmono 0 i (by omega) hi)
    have hX : Apx (3 * eps) 0 ((val (knot knots i) - t0) / (tn - t0))
        (val (knot knots i - knot knots 0) / val (knot knots n - knot knots 0)) := by
      unfold Apx
      have := eD
      generalize val (knot knots i - knot knots 0) = x at *
      generalize val (knot knots n - knot knots 0) = y at *
      generalize val (knot knots i) - t0 = X at *
      generalize tn - t0 = Y at *
      have h1 := abs_le.mp ei
      have h2 := abs_le.mp eD
      rw [abs_le]
      have hY' : (1 - eps) * Y ≤ y := by linarith
      have hY'' : y ≤ (1 + eps) * Y := by linarith
      have e3 : x / y - X / Y = (x * Y - X * y) / (y * Y) := by field_simp
      have e4 : 3 * eps * (X / Y) + 0 = (3 * eps * X * y) / (y * Y) := by field_simp; ring
      rw [e3, e4, ← neg_div, div_le_div_iff_of_pos_right (mul_pos hDpos hD), div_le_div_iff_of_pos_right (mul_pos hDpos hD)]
      have hXY := mul_nonneg hx0 hD.le
      have hXy : X * ((1 - eps) * Y) ≤ X * y := mul_le_mul_of_nonneg_left hY' hx0
      have hXy' : X * y ≤ X * ((1 + eps) * Y) := mul_le_mul_of_nonneg_left hY'' hx0
      have hxY : (1 - eps) * X * Y ≤ x * Y := mul_le_mul_of_nonneg_right (by linarith) hD.le
      have hxY' : x * Y ≤ (1 + eps) * X * Y := mul_le_mul_of_nonneg_right (by linarith) hD.le
      have h9 : 3 * eps * (X * ((1 - eps) * Y)) ≤ 3 * eps * (X * y) := mul_le_mul_of_nonneg_left hXy (by linarith)
      have h10 : 0 ≤ eps * (X * Y) := mul_nonneg he0.le hXY
      have h11 : 0 ≤ eps * (eps * (X * Y)) := mul_nonneg he0.le h10
      have h12 : eps * (eps * (X * Y)) ≤ 1 / 16 * (eps * (X * Y)) := mul_le_mul_of_nonneg_right he h10
      constructor <;> nlinarith
    have hr := hX.round q0 r
    have e50 : (2 : ℝ) ^ (-50 : Int) = 8 * eps := by rw [eps_eq]; norm_num
    have hm : Apx (8 * eps) eta _ _ := hr.mono (div_nonneg hx0 hD.le) (by nlinarith) (by rw [mul_zero, zero_add])
    rw [e50]
    exact hm
  · intro i j hij hj
    obtain ⟨_, ri, _, _⟩ := hq i (hij.trans hj)
    obtain ⟨_, rj, _, _⟩ := hq j hj
    rw [hk i (hij.trans hj), hk j hj]
    refine ri.mono rj ?_
    have := (hsub i (hij.trans hj)).2.1.mono (hsub j hj).2.1 (sub_le_sub_right (hmono i j hij hj) _)
    exact div_le_div_of_nonneg_right this hDpos.le
  · obtain ⟨_, r, _, _⟩ := hq 0 (by omega)
    rw [hk 0 (by omega)]
    have h0 : val (knot knots 0 - knot knots 0) = 0 := by
      have := (hsub 0 (by omega)).2.1
      rw [sub_self] at this
      exact this.of_rep rep_zero
    rw [h0, zero_div] at r
    exact r.of_rep rep_zero
  · obtain ⟨_, r, _, _⟩ := hq n le_rfl
    rw [hk n le_rfl]
    rw [div_self hDpos.ne'] at r
    exact r.of_rep rep_one

example : (KnotVector.normalize [2, 2, 3, 5, (5 : Float)]).toOption.map (·.map Float.toBits)
    = some [0, 0, 0x3fd5555555555555, 0x3ff0000000000000, 0x3ff0000000000000] := by decide +kernel

end Geom3d
