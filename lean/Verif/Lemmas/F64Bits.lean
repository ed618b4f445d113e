import Verif.Lemmas.F64BSpline
import Verif.Lemmas.F64Exact

/-! # Bit patterns and values of binary64 numbers -/

namespace Geom3d.F64
open Float.Model UnpackedFloat

/-- The value of a bit pattern without its sign. -/
noncomputable def decode (n : Nat) : ℝ :=
  if n / 2 ^ 52 = 0 then n * 2 ^ (-1074 : Int) else ((2 ^ 52 + n % 2 ^ 52 : Nat) : ℝ) * 2 ^ ((n / 2 ^ 52 : Nat) - 1075 : Int)

/-- The distance of a bit pattern to the next one. -/
noncomputable def ulp (n : Nat) : ℝ := 2 ^ ((max (n / 2 ^ 52) 1 : Nat) - 1075 : Int)

theorem ulp_pos (n : Nat) : 0 < ulp n := two_zpow_pos _

theorem ulp_mono {m n : Nat} (h : m ≤ n) : ulp m ≤ ulp n := by
  unfold ulp
  refine zpow_le_zpow_right₀ (by norm_num) ?_
  have : m / 2 ^ 52 ≤ n / 2 ^ 52 := Nat.div_le_div_right h
  omega

theorem decode_succ (n : Nat) : decode (n + 1) = decode n + ulp n := by
  unfold decode ulp
  by_cases h : n % 2 ^ 52 = 2 ^ 52 - 1
  · have e1 : (n + 1) / 2 ^ 52 = n / 2 ^ 52 + 1 := by omega
    have e2 : (n + 1) % 2 ^ 52 = 0 := by omega
    rw [e1, e2, if_neg (by omega)]
    by_cases h0 : n / 2 ^ 52 = 0
    · rw [if_pos h0, h0]
      have : n = 2 ^ 52 - 1 := by omega
      rw [this]
      norm_num
      ring
    · rw [if_neg h0, h, max_eq_left (by omega), show ((n / 2 ^ 52 + 1 : Nat) - 1075 : Int) = 1 + ((n / 2 ^ 52 : Nat) - 1075 : Int) by
        push_cast; ring, zpow_add₀ (by norm_num)]
      push_cast
      norm_num
      ring
  · have e1 : (n + 1) / 2 ^ 52 = n / 2 ^ 52 := by omega
    have e2 : (n + 1) % 2 ^ 52 = n % 2 ^ 52 + 1 := by omega
    rw [e1, e2]
    by_cases h0 : n / 2 ^ 52 = 0
    · rw [if_pos h0, if_pos h0, h0]
      push_cast
      norm_num
      ring
    · rw [if_neg h0, if_neg h0, max_eq_left (by omega)]
      push_cast
      ring

theorem decode_nonneg (n : Nat) : 0 ≤ decode n := by
  unfold decode
  split
  · exact mul_nonneg (Nat.cast_nonneg _) (two_zpow_pos _).le
  · exact mul_nonneg (Nat.cast_nonneg _) (two_zpow_pos _).le

/-- The step from a bit pattern is at least `2 ^ -53` of its value. -/
theorem decode_lt (n : Nat) : decode n < 2 ^ 53 * ulp n := by
  unfold decode ulp
  have hm : n % 2 ^ 52 < 2 ^ 52 := Nat.mod_lt _ (by norm_num)
  split
  · rename_i h
    rw [h]
    have : n < 2 ^ 52 := by omega
    have hn : (n : ℝ) < 2 ^ 53 := by
      have : n < 2 ^ 53 := by omega
      exact_mod_cast this
    norm_num at hn ⊢
    exact hn
  · rename_i h
    rw [max_eq_left (by omega)]
    refine mul_lt_mul_of_pos_right ?_ (two_zpow_pos _)
    have : 2 ^ 52 + n % 2 ^ 52 < 2 ^ 53 := by omega
    exact_mod_cast this

/-- The step from a bit pattern is at most `2 ^ -52` of its value, or the least there is. -/
theorem ulp_le (n : Nat) : ulp n ≤ max (2 ^ (-52 : Int) * decode n) (2 ^ (-1074 : Int)) := by
  unfold decode ulp
  split
  · rename_i h
    rw [h]
    exact le_max_of_le_right (by norm_num)
  · rename_i h
    refine le_max_of_le_left ?_
    rw [max_eq_left (by omega), ← mul_assoc]
    have hp := two_zpow_pos ((n / 2 ^ 52 : Nat) - 1075 : Int)
    have : (1 : ℝ) ≤ 2 ^ (-52 : Int) * ((2 ^ 52 + n % 2 ^ 52 : Nat) : ℝ) := by
      have h3 : ((2 ^ 52 : Nat) : ℝ) ≤ ((2 ^ 52 + n % 2 ^ 52 : Nat) : ℝ) := Nat.cast_le.mpr (Nat.le_add_right _ _)
      have h1 : (2 : ℝ) ^ (-52 : Int) * ((2 ^ 52 : Nat) : ℝ) = 1 := by norm_num
      rw [← h1]
      exact mul_le_mul_of_nonneg_left h3 (two_zpow_pos _).le
    exact le_mul_of_one_le_left hp.le this

theorem decode_mono {m n : Nat} (h : m ≤ n) : decode m ≤ decode n := by
  induction n, h using Nat.le_induction with
  | base => exact le_rfl
  | succ n _ ih => rw [decode_succ]; linarith [ulp_pos n]

theorem decode_ge (n k : Nat) : decode n + k * ulp n ≤ decode (n + k) := by
  induction k with
  | zero => simp
  | succ k ih =>
    rw [← Nat.add_assoc, decode_succ]
    have := ulp_mono (Nat.le_add_right n k)
    push_cast
    linarith

theorem decode_le (n k : Nat) : decode (n + k) ≤ decode n + k * ulp (n + k) := by
  induction k with
  | zero => simp
  | succ k ih =>
    rw [← Nat.add_assoc, decode_succ]
    have h1 := ulp_mono (Nat.le_succ (n + k))
    have h2 := mul_le_mul_of_nonneg_left h1 (Nat.cast_nonneg (α := ℝ) k)
    push_cast
    simp only [Nat.succ_eq_add_one] at h1 h2
    linarith

theorem mantissa_toNat (b : BitVec Format.binary64.numBits) : (unpackMantissa (spec := .binary64) b).toNat = b.toNat % 2 ^ 52 := by
  unfold unpackMantissa
  rw [BitVec.toNat_cast, BitVec.extractLsb_toNat]
  simp [Format.binary64]

theorem exponent_toNat (b : BitVec Format.binary64.numBits) :
    (unpackExponent (spec := .binary64) b).toNat = b.toNat / 2 ^ 52 % 2 ^ 11 := by
  unfold unpackExponent
  rw [BitVec.toNat_cast, BitVec.extractLsb_toNat]
  simp [Format.binary64, Nat.shiftRight_eq_div_pow]

theorem sign_toNat (b : BitVec Format.binary64.numBits) : (unpackSign (spec := .binary64) b).toNat = b.toNat / 2 ^ 63 := by
  have hb := b.isLt
  unfold unpackSign
  rw [BitVec.toNat_cast, BitVec.extractLsb_toNat]
  simp only [Format.binary64, Nat.shiftRight_eq_div_pow, Format.numBits] at hb ⊢
  norm_num at hb ⊢
  omega

theorem ofBitVec_eq (v : BitVec 1) : Sign.ofBitVec v = if v.toNat = 0 then .positive else .negative := by
  have : v = 0#1 ∨ v = 1#1 := by
    revert v
    decide
  rcases this with rfl | rfl <;> rfl

/-- The value of a finite number from its bits. -/
theorem val_decode {x : Float} (h : IsFin x) :
    val x = if x.toBits.toNat < 2 ^ 63 then decode x.toBits.toNat else -decode (x.toBits.toNat - 2 ^ 63) := by
  obtain ⟨⟨b, hb⟩⟩ := x
  have hlt : b.toNat < 2 ^ 64 := b.toNat_lt
  have hm := mantissa_toNat b.toBitVec
  have he := exponent_toNat b.toBitVec
  have hs := sign_toNat b.toBitVec
  have hN : b.toBitVec.toNat = b.toNat := rfl
  rw [hN] at hm he hs
  have hf : (UnpackedFloat.unpack .binary64 b.toBitVec).isFinite = true := h
  show uval (UnpackedFloat.unpack .binary64 b.toBitVec) = if b.toNat < 2 ^ 63 then decode b.toNat else -decode (b.toNat - 2 ^ 63)
  have hm1 : ∀ d : BitVec Format.binary64.numBits, (1#1 ++ unpackMantissa (spec := .binary64) d).toNat
      = 2 ^ 52 + (unpackMantissa (spec := .binary64) d).toNat := by
    intro d
    rw [BitVec.toNat_append, ← Nat.shiftLeft_add_eq_or_of_lt (unpackMantissa (spec := .binary64) d).isLt, Nat.shiftLeft_eq]
    simp
  have key : ∀ s : Nat, s * 2 ^ 63 ≤ b.toNat → b.toNat < (s + 1) * 2 ^ 63 →
      (b.toNat - s * 2 ^ 63) % 2 ^ 52 = b.toNat % 2 ^ 52 ∧ (b.toNat - s * 2 ^ 63) / 2 ^ 52 = b.toNat / 2 ^ 52 % 2 ^ 11 := by
    intro s h1 h2
    omega
  unfold UnpackedFloat.unpack at hf ⊢
  simp only [] at hf ⊢
  split at hf
  · split at hf <;> simp [UnpackedFloat.isFinite] at hf
  · rename_i c1
    rw [if_neg c1]
    have hbias : ((Format.binary64.exponentBias : Nat) : Int) + (Format.binary64.mantissaBitsWithoutImplicit : Nat) = 1075 := by
      decide
    split at hf
    · rename_i c2
      rw [if_pos c2]
      have e0 : b.toNat / 2 ^ 52 % 2 ^ 11 = 0 := by rw [← he, c2]; rfl
      split at hf
      · rename_i c3
        rw [dif_pos c3]
        have m0 : b.toNat % 2 ^ 52 = 0 := by rw [← hm, c3]; rfl
        split
        · have : b.toNat = 0 := by omega
          rw [this]
          simp [uval, decode]
        · have : b.toNat - 2 ^ 63 = 0 := by omega
          rw [this]
          simp [uval, decode]
      · rename_i c3
        rw [dif_neg c3, ofBitVec_eq, hs, he, e0]
        split
        · rw [if_pos (by omega)]
          have e1 : b.toNat / 2 ^ 52 = 0 := by omega
          have e2 : b.toNat % 2 ^ 52 = b.toNat := by omega
          show ((unpackMantissa (spec := .binary64) b.toBitVec).toNat : ℝ) * 2 ^ _ = _
          rw [decode, if_pos e1, hm, e2]
          congr 2
        · rw [if_neg (by omega)]
          have e1 : (b.toNat - 2 ^ 63) / 2 ^ 52 = 0 := by omega
          have e2 : b.toNat % 2 ^ 52 = b.toNat - 2 ^ 63 := by omega
          show -(((unpackMantissa (spec := .binary64) b.toBitVec).toNat : ℝ) * 2 ^ _) = _
          rw [decode, if_pos e1, hm, e2]
          congr 3
    · rename_i c2
      rw [if_neg c2]
      have e0 : b.toNat / 2 ^ 52 % 2 ^ 11 ≠ 0 := by
        intro h0
        rw [← he] at h0
        exact c2 (BitVec.eq_of_toNat_eq h0)
      rw [ofBitVec_eq, hs, he]
      split
      · rw [if_pos (by omega)]
        have e1 : b.toNat / 2 ^ 52 % 2 ^ 11 = b.toNat / 2 ^ 52 := by omega
        show ((1#1 ++ unpackMantissa (spec := .binary64) b.toBitVec).toNat : ℝ) * 2 ^ _ = _
        rw [decode, if_neg (by omega), hm1, hm, e1]
        congr 2
      · rw [if_neg (by omega)]
        obtain ⟨k1, k2⟩ := key 1 (by omega) (by omega)
        rw [Nat.one_mul] at k1 k2
        show -(((1#1 ++ unpackMantissa (spec := .binary64) b.toBitVec).toNat : ℝ) * 2 ^ _) = _
        rw [decode, if_neg (by omega), hm1, hm, k1, k2]
        congr 3

end Geom3d.F64
