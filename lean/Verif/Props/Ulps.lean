import Verif.Lemmas.F64Bits
import Verif.Props.FloatInsert

/-! # C131: what `ulps_eq!` means -/

namespace Geom3d
open F64 Spec

/-- The first test of `ulps_eq!`. -/
theorem ulps_near {a b : Float} (fa : IsFin a) (fb : IsFin b) (ba : |val a| ≤ 2 ^ (1022 : Int)) (bb : |val b| ≤ 2 ^ (1022 : Int)) :
    IsFin (a - b) ∧ Rounds (val a - val b) (val (a - b)) ∧ |val (a - b) - (val a - val b)| ≤ eps * |val a - val b| ∧
      ((fabs (F := Float) (a - b) : Float) ≤ (2.220446049250313e-16 : Float) ↔ |val (a - b)| ≤ 2 ^ (-52 : Int)) := by
  have h1 : |val a - val b| ≤ 2 ^ (1023 : Int) := by
    refine (abs_sub _ _).trans ?_
    rw [show (1023 : Int) = 1 + 1022 by norm_num, ← two_mul_zpow]
    linarith
  obtain ⟨f, r⟩ := sub_rounds fa fb (small_le_max h1)
  obtain ⟨g, e⟩ := fabs_val f
  exact ⟨f, r, sub_err fa fb (small_le_max h1), by rw [le_iff g epsilon_val.1, e, epsilon_val.2]⟩

/-- The second test. -/
def closeBits (a b : Float) : Prop :=
  a.isNaN = false ∧ b.isNaN = false ∧ a.toBits >>> 63 = b.toBits >>> 63 ∧
    a.toBits.toNat ≤ b.toBits.toNat + 4 ∧ b.toBits.toNat ≤ a.toBits.toNat + 4

theorem ulps_iff (a b : Float) : ulpsEqF64 a b = true ↔
    (fabs (F := Float) (a - b) : Float) ≤ (2.220446049250313e-16 : Float) ∨ closeBits a b := by
  unfold ulpsEqF64 closeBits
  split
  · rename_i h
    exact ⟨fun _ => Or.inl h, fun _ => rfl⟩
  · rename_i h
    simp only [h, false_or]
    split
    · rename_i hc
      refine ⟨fun h => by simp at h, ?_⟩
      rintro ⟨h1, h2, h3, -⟩
      simp [h1, h2, h3] at hc
    · rename_i hc
      simp only [Bool.or_eq_true, bne_iff_ne, ne_eq, not_or, Bool.not_eq_true, not_not] at hc
      rw [decide_eq_true_iff]
      exact ⟨fun h => ⟨hc.1.1, hc.1.2, hc.2, h⟩, fun h => h.2.2.2⟩

theorem closeBits_symm {a b : Float} (h : closeBits a b) : closeBits b a := ⟨h.2.1, h.1, h.2.2.1.symm, h.2.2.2.2, h.2.2.2.1⟩

theorem sign_bit (b : UInt64) : (b >>> 63).toNat = b.toNat / 2 ^ 63 := by
  rw [UInt64.toNat_shiftRight]
  simp [Nat.shiftRight_eq_div_pow]

/-- Bit patterns of one sign. -/
theorem same_sign {a b : Float} : a.toBits >>> 63 = b.toBits >>> 63 ↔
    (a.toBits.toNat < 2 ^ 63 ∧ b.toBits.toNat < 2 ^ 63) ∨ (2 ^ 63 ≤ a.toBits.toNat ∧ 2 ^ 63 ≤ b.toBits.toNat) := by
  have ha : a.toBits.toNat < 2 ^ 64 := a.toBits.toNat_lt
  have hb : b.toBits.toNat < 2 ^ 64 := b.toBits.toNat_lt
  rw [← UInt64.toNat_inj, sign_bit, sign_bit]
  omega

/-- Values of one sign in terms of the bits. -/
theorem bits_abs {a b : Float} (fa : IsFin a) (fb : IsFin b) (h : a.toBits >>> 63 = b.toBits >>> 63) :
    ∃ m n : Nat, |val a| = decode m ∧ |val b| = decode n ∧ |val a - val b| = |decode m - decode n| ∧
      (a.toBits.toNat + n = b.toBits.toNat + m) := by
  rw [same_sign] at h
  rw [val_decode fa, val_decode fb]
  rcases h with ⟨h1, h2⟩ | ⟨h1, h2⟩
  · rw [if_pos h1, if_pos h2]
    exact ⟨_, _, abs_of_nonneg (decode_nonneg _), abs_of_nonneg (decode_nonneg _), rfl, by omega⟩
  · rw [if_neg (by omega), if_neg (by omega)]
    refine ⟨_, _, by rw [abs_neg]; exact abs_of_nonneg (decode_nonneg _), by rw [abs_neg]; exact abs_of_nonneg (decode_nonneg _), ?_,
      by omega⟩
    rw [show ∀ x y : ℝ, -x - -y = -(x - y) by intros; ring, abs_neg]

theorem decode_close {m n : Nat} (h1 : m ≤ n) (h2 : n ≤ m + 4) :
    decode n - decode m ≤ 2 ^ (-50 : Int) * decode n ∨ decode n - decode m ≤ 2 ^ (-1072 : Int) := by
  obtain ⟨k, rfl⟩ : ∃ k, n = m + k := ⟨n - m, by omega⟩
  have h := decode_le m k
  have hk : (k : ℝ) ≤ 4 := by exact_mod_cast (by omega : k ≤ 4)
  have hu := ulp_pos (m + k)
  have h3 : decode (m + k) - decode m ≤ 4 * ulp (m + k) := by nlinarith
  rcases le_max_iff.mp (ulp_le (m + k)) with h4 | h4
  · left
    have e : (2 : ℝ) ^ (-50 : Int) = 4 * 2 ^ (-52 : Int) := by norm_num
    rw [e]
    linarith
  · right
    have e : (2 : ℝ) ^ (-1072 : Int) = 4 * 2 ^ (-1074 : Int) := by
      rw [show (-1072 : Int) = 2 + -1074 by norm_num, zpow_add₀ (by norm_num)]; norm_num
    rw [e]
    linarith

/-- **C131.** Numbers that `ulps_eq!` takes for equal differ by at most `2 ^ -52` (rounded) or by at most `2 ^ -50` of the
larger. -/
theorem C131_sound {a b : Float} (fa : IsFin a) (fb : IsFin b) (ba : |val a| ≤ 2 ^ (1022 : Int)) (bb : |val b| ≤ 2 ^ (1022 : Int))
    (h : ulpsEqF64 a b = true) :
    |val a - val b| ≤ 2 ^ (-52 : Int) * (1 + 2 ^ (-52 : Int)) ∨ |val a - val b| ≤ 2 ^ (-50 : Int) * max |val a| |val b| := by
  rcases (ulps_iff a b).mp h with h | h
  · left
    obtain ⟨-, -, e, h1⟩ := ulps_near fa fb ba bb
    have h2 := h1.mp h
    have h3 : |val a - val b| * (1 - eps) ≤ 2 ^ (-52 : Int) := by
      have := abs_sub_abs_le_abs_sub (val a - val b) (val (a - b))
      rw [abs_sub_comm (val a - val b)] at this
      linarith
    have e52 : (2 : ℝ) ^ (-52 : Int) = 2 * eps := by rw [eps_eq]; norm_num
    rw [e52] at h3 ⊢
    have hs : eps ≤ 1 / 1000 := by rw [eps_eq]; norm_num
    have hε := eps_pos
    by_contra hc
    push Not at hc
    have : 2 * eps * (1 + 2 * eps) * (1 - eps) < |val a - val b| * (1 - eps) := mul_lt_mul_of_pos_right hc (by linarith)
    have := mul_nonneg (mul_pos hε hε).le (show (0 : ℝ) ≤ 1 - 2 * eps by linarith)
    nlinarith
  · obtain ⟨-, -, h1, h2, h3⟩ := h
    obtain ⟨m, n, e1, e2, e3, e4⟩ := bits_abs fa fb h1
    rw [e1, e2, e3]
    have small : (2 : ℝ) ^ (-1072 : Int) ≤ 2 ^ (-52 : Int) * (1 + 2 ^ (-52 : Int)) := by
      have p := two_zpow_pos (-52)
      have := two_zpow_le (show (-1072 : Int) ≤ -52 by norm_num)
      nlinarith
    rcases le_total m n with hmn | hmn
    · rw [abs_sub_comm, abs_of_nonneg (by linarith [decode_mono hmn]), max_eq_right (decode_mono hmn)]
      rcases decode_close hmn (by omega) with h | h
      · exact Or.inr h
      · exact Or.inl (h.trans small)
    · rw [abs_of_nonneg (by linarith [decode_mono hmn]), max_eq_left (decode_mono hmn)]
      rcases decode_close hmn (by omega) with h | h
      · exact Or.inr h
      · exact Or.inl (h.trans small)

theorem decode_far {m n : Nat} (h : m + 5 ≤ n) : 5 * 2 ^ (-53 : Int) * decode m < decode n - decode m := by
  have h1 := decode_ge m 5
  have h2 := decode_mono h
  have h3 := decode_lt m
  push_cast at h1
  have e : (2 : ℝ) ^ (-53 : Int) * 2 ^ 53 = 1 := by norm_num
  have h4 := mul_lt_mul_of_pos_left h3 (two_zpow_pos (-53))
  rw [← mul_assoc, e, one_mul] at h4
  linarith

/-- **C131.** Numbers at most `2 ^ -52` apart, or at most `5 * 2 ^ -53` of the smaller, are taken for equal. -/
theorem C131_complete {a b : Float} (fa : IsFin a) (fb : IsFin b) (ba : |val a| ≤ 2 ^ (1022 : Int)) (bb : |val b| ≤ 2 ^ (1022 : Int))
    (h : |val a - val b| ≤ 2 ^ (-52 : Int) ∨ |val a - val b| ≤ 5 * 2 ^ (-53 : Int) * min |val a| |val b|) :
    ulpsEqF64 a b = true := by
  have near : |val a - val b| ≤ 2 ^ (-52 : Int) → ulpsEqF64 a b = true := fun h => by
    obtain ⟨-, r, -, h1⟩ := ulps_near fa fb ba bb
    exact (ulps_iff a b).mpr (Or.inl (h1.mpr (r.abs_le (rep_pow _ (by norm_num)) h)))
  rcases h with h | h
  · exact near h
  · by_cases hs : a.toBits >>> 63 = b.toBits >>> 63
    · obtain ⟨m, n, e1, e2, e3, e4⟩ := bits_abs fa fb hs
      rw [e1, e2, e3] at h
      have nn : ∀ {x : Float}, IsFin x → x.isNaN = false := fun {x} hx => by
        have := hx.not_nan
        unfold IsNaN at this
        simpa using this
      refine (ulps_iff a b).mpr (Or.inr ⟨nn fa, nn fb, hs, ?_, ?_⟩)
      · by_contra hc
        have hmn : n + 5 ≤ m := by omega
        have := decode_far hmn
        rw [abs_of_nonneg (by linarith [decode_mono (show n ≤ m by omega)]), min_eq_right (decode_mono (by omega))] at h
        linarith
      · by_contra hc
        have hmn : m + 5 ≤ n := by omega
        have := decode_far hmn
        rw [abs_sub_comm, abs_of_nonneg (by linarith [decode_mono (show m ≤ n by omega)]),
          min_eq_left (decode_mono (by omega))] at h
        linarith
    · refine near ?_
      have hsgn : |val a - val b| = |val a| + |val b| := by
        rw [same_sign] at hs
        rw [val_decode fa, val_decode fb]
        by_cases h1 : a.toBits.toNat < 2 ^ 63
        · rw [if_pos h1, if_neg (by omega), abs_neg, abs_of_nonneg (decode_nonneg _), abs_of_nonneg (decode_nonneg _), sub_neg_eq_add,
            abs_of_nonneg (add_nonneg (decode_nonneg _) (decode_nonneg _))]
        · rw [if_neg h1, if_pos (by omega), abs_neg, abs_of_nonneg (decode_nonneg _), abs_of_nonneg (decode_nonneg _),
            show ∀ x y : ℝ, -x - y = -(x + y) by intros; ring, abs_neg,
            abs_of_nonneg (add_nonneg (decode_nonneg _) (decode_nonneg _))]
      have h5 : (5 : ℝ) * 2 ^ (-53 : Int) ≤ 1 / 2 := by norm_num
      have h6 := mul_le_mul_of_nonneg_right h5 (le_min (abs_nonneg (val a)) (abs_nonneg (val b)))
      have h7 := min_le_left |val a| |val b|
      have h10 := min_le_right |val a| |val b|
      have h8 := abs_nonneg (val a)
      have h9 := abs_nonneg (val b)
      have h11 := h.trans h6
      clear h h6 h5 ba bb
      have : |val a - val b| ≤ 0 := by linarith
      exact this.trans (two_zpow_pos _).le

/-- **C131.** `ulps_eq!` is symmetric. -/
theorem C131_symm {a b : Float} (fa : IsFin a) (fb : IsFin b) (ba : |val a| ≤ 2 ^ (1022 : Int)) (bb : |val b| ≤ 2 ^ (1022 : Int)) :
    ulpsEqF64 a b = ulpsEqF64 b a := by
  obtain ⟨-, r, -, h1⟩ := ulps_near fa fb ba bb
  obtain ⟨-, r', -, h2⟩ := ulps_near fb fa bb ba
  have e : val (a - b) = -val (b - a) := by
    have := r'.neg
    rw [neg_sub] at this
    exact r.unique this
  rw [e, abs_neg] at h1
  rw [Bool.eq_iff_iff, ulps_iff, ulps_iff, h1, h2]
  exact or_congr_right ⟨closeBits_symm, closeBits_symm⟩

/-- **C131.** Every finite number is taken for equal to itself; so are the infinities, and NaN is not. -/
theorem C131_refl (a : Float) : ulpsEqF64 a a = !a.isNaN := by
  cases h : a.isNaN with
  | false => exact (ulps_iff a a).mpr (Or.inr ⟨h, h, rfl, by omega, by omega⟩)
  | true =>
    have hn : a.toModel.unpack = .notANumber := isNaN_iff.mp h
    have ha : a = Float.ofBits 0x7FF8000000000000 := unpack_inj (hn.trans rfl)
    rw [ha]
    decide +kernel

/-- **C131.** `ulps_eq!` is not transitive: `1`, `1 + 4 * 2 ^ -52` and `1 + 8 * 2 ^ -52`; and `0`, `2 ^ -52` and `2 ^ -51`. -/
theorem C131_not_transitive :
    (∃ a b c : Float, ulpsEqF64 a b = true ∧ ulpsEqF64 b c = true ∧ ulpsEqF64 a c = false) ∧
    ulpsEqF64 0 (Float.ofBits 0x3CB0000000000000) = true ∧
    ulpsEqF64 (Float.ofBits 0x3CB0000000000000) (Float.ofBits 0x3CC0000000000000) = true ∧
    ulpsEqF64 0 (Float.ofBits 0x3CC0000000000000) = false := by
  refine ⟨⟨Float.ofBits 0x3FF0000000000000, Float.ofBits 0x3FF0000000000004, Float.ofBits 0x3FF0000000000008, ?_, ?_, ?_⟩, ?_, ?_, ?_⟩
  all_goals decide +kernel

/-- **C131.** Parameters further apart than `2 ^ -50` of their size, and than `2 ^ -51`, are told apart: the hypothesis of
C127 follows from a gap. -/
theorem C131_apart {g K : ℝ} {S : List Float} (hK : K ≤ 2 ^ (900 : Int)) (hS : ∀ x ∈ S, IsFin x ∧ |val x| ≤ K)
    (h1 : (2 : ℝ) ^ (-51 : Int) ≤ g) (h2 : 2 ^ (-50 : Int) * K < g)
    (hg : ∀ a ∈ S, ∀ b ∈ S, val a < val b → g ≤ val b - val a) : Apart g S := by
  have h900 : (2 : ℝ) ^ (900 : Int) ≤ 2 ^ (1022 : Int) := two_zpow_le (by norm_num)
  refine ⟨fun x hx => ⟨(hS x hx).1, (hS x hx).2.trans hK⟩, hg, fun a ha b hb h => ?_⟩
  obtain ⟨fa, ba⟩ := hS a ha
  obtain ⟨fb, bb⟩ := hS b hb
  by_contra hne
  have hgap : g ≤ |val a - val b| := by
    rcases lt_or_gt_of_ne hne with hlt | hlt
    · have := hg a ha b hb hlt
      rw [abs_sub_comm]
      exact this.trans (le_abs_self _)
    · exact (hg b hb a ha hlt).trans (le_abs_self _)
  rcases C131_sound fa fb (ba.trans (hK.trans h900)) (bb.trans (hK.trans h900)) h with h' | h'
  · have : (2 : ℝ) ^ (-52 : Int) * (1 + 2 ^ (-52 : Int)) < 2 ^ (-51 : Int) := by norm_num
    linarith
  · have := mul_le_mul_of_nonneg_left (max_le ba bb) (two_zpow_pos (-50)).le
    linarith

/-- **C131.** On such knots `multiplicity` counts the equal knots and no others. -/
theorem C131_multiplicity {g : ℝ} {knots : List Float} (h : Apart g knots) {i : Nat} (hi : i < knots.length) :
    KnotVector.multiplicity knots i = .ok ((knots.map val).count (val (knots[i]))) := by
  unfold KnotVector.multiplicity
  rw [idx_ok hi]
  simp only [ok_bind, pure_eq_ok]
  congr 1
  rw [List.count_eq_countP, List.countP_map, List.countP_eq_length_filter]
  congr 1
  refine List.filter_congr fun u hu => ?_
  rw [h.eq_iff (List.getElem_mem hi) hu]
  show decide (val knots[i] = val u) = (val u == val knots[i])
  rw [Bool.eq_iff_iff, decide_eq_true_iff, beq_iff_eq]
  exact eq_comm

/-- `1` and its neighbours. -/
theorem C131_example : ulpsEqF64 1 (Float.ofBits 0x3FF0000000000004) = true ∧ ulpsEqF64 1 (Float.ofBits 0x3FF0000000000005) = false ∧
    ulpsEqF64 (Float.ofBits 1) (Float.ofBits 0x8000000000000001) = true ∧
    ulpsEqF64 1e300 1.0000000000000002e300 = true ∧ ulpsEqF64 1e300 1.000000000000001e300 = false := by
  refine ⟨?_, ?_, ?_, ?_, ?_⟩ <;> decide +kernel

end Geom3d
