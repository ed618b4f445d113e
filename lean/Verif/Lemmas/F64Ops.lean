import Verif.Lemmas.F64Pack
import Verif.Model.Instances
import Mathlib.Data.Real.Sqrt

/-!
# The operations of binary64 on finite numbers

`val x` is the real number a finite `Float` stands for.  Every operation computes the exact result correctly rounded
as long as that result does not exceed the largest finite number.
-/

namespace Geom3d.F64
open Float.Model Float.Model.UnpackedFloat

theorem fin_unpack {x : Float} : IsFin x ↔ x.toModel.unpack.isFinite = true := Iff.rfl

theorem IsFin.fits {x : Float} (h : IsFin x) : Fits x.toModel.unpack := unpack_fits _ h

theorem rep_maxFinite : Rep maxFinite := ⟨2 ^ 53 - 1, 971, by norm_num, by norm_num, by rw [maxFinite]; norm_num⟩

theorem maxFinite_lt : maxFinite < 2 ^ (1024 : Int) := by
  rw [maxFinite, show (1024 : Int) = 53 + 971 by norm_num, zpow_add₀ (by norm_num)]
  exact mul_lt_mul_of_pos_right (by norm_num) (two_zpow_pos _)

theorem uval_abs_finite (s : Sign) (m : Nat) (e : Int) (h : 0 < m) : |uval (.finite s m e h)| = m * 2 ^ e := by
  have : (0 : ℝ) ≤ m * 2 ^ e := mul_nonneg (Nat.cast_nonneg _) (two_zpow_pos e).le
  cases s <;> simp only [uval, abs_neg, abs_of_nonneg this]

theorem fits_of_canon {f : UnpackedFloat} (hc : Canon f) (hf : f.isFinite = true) (hb : |uval f| ≤ maxFinite) :
    Fits f := by
  cases f with
  | infinity s => simp [UnpackedFloat.isFinite] at hf
  | notANumber => simp [UnpackedFloat.isFinite] at hf
  | zero s => trivial
  | finite s m e hm =>
    refine ⟨hc, ?_⟩
    by_contra hcon
    push Not at hcon
    obtain ⟨h1, h2, h3⟩ := hc
    have h52 : 2 ^ 52 ≤ m := h3.resolve_right (by omega)
    have h4 : ((2 ^ 52 : Nat) : ℝ) ≤ m := by exact_mod_cast h52
    have h5 : (2 : ℝ) ^ (972 : Int) ≤ 2 ^ e := zpow_le_zpow_right₀ (by norm_num) (by omega)
    rw [uval_abs_finite] at hb
    have h6 : (2 : ℝ) ^ (1024 : Int) ≤ m * 2 ^ e := by
      rw [show (1024 : Int) = 52 + 972 by norm_num, zpow_add₀ (by norm_num)]
      push_cast at h4
      exact mul_le_mul (by exact_mod_cast h4) h5 (two_zpow_pos _).le (Nat.cast_nonneg _)
    linarith [maxFinite_lt]

theorem one_le_maxFinite : 1 ≤ maxFinite := by
  rw [maxFinite]
  have h2 : (1 : ℝ) ≤ 2 ^ (971 : Int) := one_le_zpow₀ (by norm_num) (by norm_num)
  calc (1 : ℝ) ≤ (2 ^ 53 - 1) * 1 := by norm_num
    _ ≤ (2 ^ 53 - 1) * 2 ^ (971 : Int) := mul_le_mul_of_nonneg_left h2 (by norm_num)

theorem val_abs_le {x : Float} (h : IsFin x) : |val x| ≤ maxFinite := by
  have hf := h.fits
  unfold val
  generalize x.toModel.unpack = f at hf
  cases f with
  | infinity s => exact hf.elim
  | notANumber => exact hf.elim
  | zero s => rw [show uval (.zero s) = 0 from rfl, abs_zero]; exact zero_le_one.trans one_le_maxFinite
  | finite s m e hm =>
    rw [uval_abs_finite, maxFinite]
    have h1 : (m : ℝ) ≤ 2 ^ 53 - 1 := by
      have : (m : ℝ) + 1 ≤ 2 ^ 53 := by exact_mod_cast hf.1.1
      linarith
    exact mul_le_mul h1 (zpow_le_zpow_right₀ (by norm_num) hf.2) (two_zpow_pos _).le (by norm_num)

theorem Rounds.abs_le {X v c : ℝ} (h : Rounds X v) (hc : Rep c) (hX : |X| ≤ c) : |v| ≤ c := by
  rw [_root_.abs_le] at hX ⊢
  exact ⟨h.ge _ hc.neg hX.1, h.le _ hc hX.2⟩

/-- An unpacked float that is a correctly rounded number. -/
structure Good (X : ℝ) (f : UnpackedFloat) : Prop where
  canon : Canon f
  finite : f.isFinite = true
  rounds : Rounds X (uval f)

theorem Good.fits {X : ℝ} {f : UnpackedFloat} (h : Good X f) (hb : |X| ≤ maxFinite) : Fits f :=
  fits_of_canon h.canon h.finite (h.rounds.abs_le rep_maxFinite hb)

theorem uval_rep {f : UnpackedFloat} (h : Canon f) : Rep (uval f) := by
  cases f with
  | infinity s => exact ⟨0, 0, by norm_num, by norm_num, by simp [uval]⟩
  | notANumber => exact ⟨0, 0, by norm_num, by norm_num, by simp [uval]⟩
  | zero s => exact ⟨0, 0, by norm_num, by norm_num, by simp [uval]⟩
  | finite s m e hm =>
    obtain ⟨h1, h2, -⟩ := h
    have hr : Rep ((m : ℝ) * 2 ^ e) := by
      refine ⟨m, e, ?_, h2, by simp⟩
      rw [abs_of_nonneg (by positivity)]
      exact_mod_cast h1.le
    cases s
    · exact hr.neg
    · exact hr

theorem good_self {f : UnpackedFloat} (h : Fits f) : Good (uval f) f := ⟨h.canon, h.finite, rounds_rep (uval_rep h.canon)⟩

theorem unpack_ofModel_pack {f : UnpackedFloat} (h : Fits f) :
    (Float.ofModel (Float.Model.pack f)).toModel.unpack = f := unpack_pack h

/-- The result `r` of an operation with exact result `X`. -/
theorem result {X : ℝ} {f : UnpackedFloat} (h : Good X f) (hb : |X| ≤ maxFinite) :
    IsFin (Float.ofModel (Float.Model.pack f)) ∧ Rounds X (val (Float.ofModel (Float.Model.pack f))) := by
  have := unpack_ofModel_pack (h.fits hb)
  unfold val
  rw [fin_unpack, this]
  exact ⟨h.finite, h.rounds⟩

theorem val_rep {x : Float} (h : IsFin x) : Rep (val x) := uval_rep h.fits.canon

/-! ### Sums -/

theorem decrease_value (m : Nat) (e t : Int) (h : t ≤ e) : ((decreaseExponent m e t).1 : ℝ) * 2 ^ t = m * 2 ^ e := by
  simp only [decreaseExponent, Nat.shiftLeft_eq]
  obtain ⟨n, rfl⟩ : ∃ n : Nat, e = t + n := ⟨(e - t).toNat, by omega⟩
  rw [zpow_nat_mul, show (t + (n : Int) - t).toNat = n by omega]
  push_cast
  ring

theorem apply_value (s : Sign) (n : Nat) (t : Int) : ((s.apply (n : Int) : Int) : ℝ) * 2 ^ t = signed s (n * 2 ^ t) := by
  cases s <;> simp [Sign.apply, signed]

theorem add_good {a b : UnpackedFloat} (ha : Fits a) (hb : Fits b) :
    Good (uval a + uval b) (UnpackedFloat.add .binary64 a b) := by
  cases a with
  | infinity s => exact ha.elim
  | notANumber => exact ha.elim
  | zero s =>
    cases b with
    | infinity s => exact hb.elim
    | notANumber => exact hb.elim
    | zero s' =>
      have : uval (UnpackedFloat.zero s) + uval (UnpackedFloat.zero s') = 0 := by simp [uval]
      rw [this]
      simp only [UnpackedFloat.add]
      split <;> exact good_self (f := UnpackedFloat.zero _) trivial
    | finite s' m e h =>
      rw [show uval (UnpackedFloat.zero s) = 0 from rfl, zero_add]
      exact good_self hb
  | finite s m e h =>
    cases b with
    | infinity s => exact hb.elim
    | notANumber => exact hb.elim
    | zero s' =>
      rw [show uval (UnpackedFloat.zero s') = 0 from rfl, add_zero]
      exact good_self ha
    | finite s' m' e' h' =>
      have hn := normalize_rounds (s.apply ((decreaseExponent m e (min e e')).1 : Int)
        + s'.apply ((decreaseExponent m' e' (min e e')).1 : Int)) (min e e') .positive
      rw [Int.cast_add, add_mul, apply_value, apply_value, decrease_value _ _ _ (min_le_left _ _),
        decrease_value _ _ _ (min_le_right _ _), ← uval_finite s m e h, ← uval_finite s' m' e' h'] at hn
      exact ⟨hn.1, hn.2.1, hn.2.2⟩

theorem sub_good {a b : UnpackedFloat} (ha : Fits a) (hb : Fits b) :
    Good (uval a - uval b) (UnpackedFloat.sub .binary64 a b) := by
  cases a with
  | infinity s => exact ha.elim
  | notANumber => exact ha.elim
  | zero s =>
    cases b with
    | infinity s => exact hb.elim
    | notANumber => exact hb.elim
    | zero s' =>
      have : uval (UnpackedFloat.zero s) - uval (UnpackedFloat.zero s') = 0 := by simp [uval]
      rw [this]
      simp only [UnpackedFloat.sub]
      split <;> exact good_self (f := UnpackedFloat.zero _) trivial
    | finite s' m e h =>
      have : uval (UnpackedFloat.zero s) - uval (.finite s' m e h) = uval (.finite (-s') m e h) := by
        rw [show uval (UnpackedFloat.zero s) = 0 from rfl, zero_sub]
        cases s'
        · exact neg_neg _
        · rfl
      rw [this]
      exact good_self (f := .finite (-s') m e h) hb
  | finite s m e h =>
    cases b with
    | infinity s => exact hb.elim
    | notANumber => exact hb.elim
    | zero s' =>
      rw [show uval (UnpackedFloat.zero s') = 0 from rfl, sub_zero]
      exact good_self ha
    | finite s' m' e' h' =>
      have hn := normalize_rounds (s.apply ((decreaseExponent m e (min e e')).1 : Int)
        - s'.apply ((decreaseExponent m' e' (min e e')).1 : Int)) (min e e') .positive
      rw [Int.cast_sub, sub_mul, apply_value, apply_value, decrease_value _ _ _ (min_le_left _ _),
        decrease_value _ _ _ (min_le_right _ _), ← uval_finite s m e h, ← uval_finite s' m' e' h'] at hn
      exact ⟨hn.1, hn.2.1, hn.2.2⟩

/-! ### Products -/

theorem signed_mul (s s' : Sign) (x y : ℝ) : signed s x * signed s' y = signed (s * s') (x * y) := by
  cases s <;> cases s'
  · exact neg_mul_neg x y
  · exact neg_mul x y
  · exact mul_neg x y
  · rfl

theorem mul_target {m m' : Nat} {e e' : Int} (hm : 0 < m) (hm' : 0 < m') (h : -1074 ≤ e ∧ (2 ^ 52 ≤ m ∨ e = -1074))
    (h' : -1074 ≤ e' ∧ (2 ^ 52 ≤ m' ∨ e' = -1074)) : e + e' ≤ targetE (m * m') (e + e') := by
  unfold targetE
  have h0 : m * m' ≠ 0 := (Nat.mul_pos hm hm').ne'
  by_cases hc : 2 ^ 52 ≤ m * m'
  · have := (Nat.le_log2 h0).mpr hc
    omega
  · have h1 : ¬ 2 ^ 52 ≤ m := fun h => hc (h.trans (Nat.le_mul_of_pos_right _ hm'))
    have h2 : ¬ 2 ^ 52 ≤ m' := fun h => hc (h.trans (Nat.le_mul_of_pos_left _ hm))
    have h3 := h.2.resolve_left h1
    have h4 := h'.2.resolve_left h2
    omega

theorem mul_good {a b : UnpackedFloat} (ha : Fits a) (hb : Fits b) :
    Good (uval a * uval b) (UnpackedFloat.mul .binary64 a b) := by
  cases a with
  | infinity s => exact ha.elim
  | notANumber => exact ha.elim
  | zero s =>
    cases b with
    | infinity s => exact hb.elim
    | notANumber => exact hb.elim
    | zero s' =>
      rw [show uval (UnpackedFloat.zero s) = 0 from rfl, zero_mul]
      exact good_self (f := UnpackedFloat.zero (s * s')) trivial
    | finite s' m e h =>
      rw [show uval (UnpackedFloat.zero s) = 0 from rfl, zero_mul]
      exact good_self (f := UnpackedFloat.zero (s * s')) trivial
  | finite s m e h =>
    cases b with
    | infinity s => exact hb.elim
    | notANumber => exact hb.elim
    | zero s' =>
      rw [show uval (UnpackedFloat.zero s') = 0 from rfl, mul_zero]
      exact good_self (f := UnpackedFloat.zero (s * s')) trivial
    | finite s' m' e' h' =>
      have hx : Desc (ExtendedMantissa.ofMantissaAndAccuracy (m * m') .exact) ((m * m' : Nat) : ℝ) := rfl
      have hr := roundWithAccuracy_rounds (s * s') (m * m') (e + e') .exact hx
        (mul_target h h' ha.1.2 hb.1.2)
      have hv : uval (.finite s m e h) * uval (.finite s' m' e' h')
          = signed (s * s') (((m * m' : Nat) : ℝ) * 2 ^ (e + e')) := by
        rw [uval_finite, uval_finite, signed_mul, zpow_add₀ (by norm_num)]
        push_cast
        congr 1
        ring
      rw [hv]
      exact ⟨hr.1, hr.2.1, hr.2.2⟩

/-! ### Quotients -/

theorem signed_div (s s' : Sign) (x y : ℝ) : signed s x / signed s' y = signed (s / s') (x / y) := by
  cases s <;> cases s'
  · exact neg_div_neg_eq x y
  · exact neg_div y x
  · exact div_neg x
  · rfl

theorem desc_fraction (m d : Nat) (hd : 0 < d) :
    Desc (ExtendedMantissa.ofMantissaAndAccuracy (m / d) (accuracyOfFraction (m % d) d)) ((m : ℝ) / d) := by
  have hdR : (0 : ℝ) < d := by exact_mod_cast hd
  have hdiv : ((m / d : Nat) : ℝ) * d + ((m % d : Nat) : ℝ) = m := by
    exact_mod_cast Nat.div_add_mod' m d
  have hx : (m : ℝ) / d = ((m / d : Nat) : ℝ) + ((m % d : Nat) : ℝ) / d := by
    field_simp
    linarith
  have hlt : ((m % d : Nat) : ℝ) < d := by exact_mod_cast Nat.mod_lt m hd
  rw [hx]
  generalize m % d = r at *
  generalize m / d = q at *
  unfold accuracyOfFraction
  by_cases h0 : r = 0
  · rw [if_pos h0, h0]
    simp [Desc, ExtendedMantissa.ofMantissaAndAccuracy]
  · rw [if_neg h0]
    have hr : (0 : ℝ) < r := by exact_mod_cast Nat.pos_of_ne_zero h0
    rcases lt_trichotomy (2 * r) d with h | h | h
    · have hc : compare (2 * r) d = .lt := compare_lt_iff_lt.mpr h
      rw [hc]
      have h' : (2 : ℝ) * r < d := by exact_mod_cast h
      have h1 : (0 : ℝ) < (r : ℝ) / d := div_pos hr hdR
      have h2 : (r : ℝ) / d < 1 / 2 := by rw [div_lt_iff₀ hdR]; linarith
      show (q : ℝ) < q + r / d ∧ q + (r : ℝ) / d < q + 1 / 2
      exact ⟨by linarith, by linarith⟩
    · have hc : compare (2 * r) d = .eq := compare_eq_iff_eq.mpr h
      rw [hc]
      have h' : (2 : ℝ) * r = d := by exact_mod_cast h
      have h2 : (r : ℝ) / d = 1 / 2 := by rw [div_eq_iff hdR.ne']; linarith
      rw [h2]
      rfl
    · have hc : compare (2 * r) d = .gt := compare_gt_iff_gt.mpr h
      rw [hc]
      have h' : (d : ℝ) < 2 * r := by exact_mod_cast h
      have h1 : 1 / 2 < (r : ℝ) / d := by rw [lt_div_iff₀ hdR]; linarith
      have h2 : (r : ℝ) / d < 1 := by rw [div_lt_iff₀ hdR]; linarith
      show (q : ℝ) + 1 / 2 < q + r / d ∧ q + (r : ℝ) / d < q + 1
      exact ⟨by linarith, by linarith⟩

theorem div_good {a b : UnpackedFloat} (ha : Fits a) (hb : Fits b) (h0 : uval b ≠ 0) :
    Good (uval a / uval b) (UnpackedFloat.div .binary64 a b) := by
  cases b with
  | infinity s => exact hb.elim
  | notANumber => exact hb.elim
  | zero s => exact absurd rfl h0
  | finite s' m' e' h' =>
    cases a with
    | infinity s => exact ha.elim
    | notANumber => exact ha.elim
    | zero s =>
      rw [show uval (UnpackedFloat.zero s) = 0 from rfl, zero_div]
      exact good_self (f := UnpackedFloat.zero (s / s')) trivial
    | finite s m e h =>
      obtain ⟨t, ht⟩ : ∃ t, min (e - e') (Format.binary64.targetExponent (totalExponent m e - totalExponent m' e')) = t :=
        ⟨_, rfl⟩
      obtain ⟨n, hn⟩ : ∃ n : Nat, (e - e' - t).toNat = n := ⟨_, rfl⟩
      have hte : t ≤ e - e' := ht ▸ min_le_left _ _
      have hne : e - e' = t + n := by omega
      have hdef : UnpackedFloat.div .binary64 (.finite s m e h) (.finite s' m' e' h')
          = roundWithAccuracy .binary64 (s / s') ((m <<< n) / m') t (accuracyOfFraction ((m <<< n) % m') m') := by
        simp only [UnpackedFloat.div, divCore]
        rw [ht, hn]
      rw [hdef]
      have htarget : t ≤ targetE ((m <<< n) / m') t := by
        by_cases hsmall : t ≤ -1074
        · exact hsmall.trans (le_max_right _ _)
        · have h1 : t ≤ (m.log2 : Int) - m'.log2 + (e - e') - 53 := by
            have := ht ▸ min_le_right (e - e') (Format.binary64.targetExponent (totalExponent m e - totalExponent m' e'))
            rw [target64, totalExponent, totalExponent] at this
            omega
          have h2 : m'.log2 + 53 ≤ m.log2 + n := by omega
          have h3 : 2 ^ (m.log2 + n) ≤ m <<< n := by
            rw [Nat.shiftLeft_eq, pow_add]
            exact Nat.mul_le_mul_right _ (Nat.log2_self_le h.ne')
          have h4 : 2 ^ 52 ≤ (m <<< n) / m' := by
            rw [Nat.le_div_iff_mul_le h']
            calc 2 ^ 52 * m' ≤ 2 ^ 52 * 2 ^ (m'.log2 + 1) := Nat.mul_le_mul_left _ (log2_bounds m').le
              _ = 2 ^ (m'.log2 + 53) := by rw [← pow_add]; congr 1; ring
              _ ≤ 2 ^ (m.log2 + n) := Nat.pow_le_pow_right (by norm_num) h2
              _ ≤ m <<< n := h3
          have h5 := (Nat.le_log2 (by omega)).mpr h4
          unfold targetE
          omega
      have hr := roundWithAccuracy_rounds (s / s') _ t _ (desc_fraction (m <<< n) m' h') htarget
      have hv : uval (.finite s m e h) / uval (.finite s' m' e' h')
          = signed (s / s') (((m <<< n : Nat) : ℝ) / m' * 2 ^ t) := by
        rw [uval_finite, uval_finite, signed_div, Nat.shiftLeft_eq]
        congr 1
        have : e = e' + (t + n) := by omega
        rw [this, zpow_add₀ (by norm_num), zpow_nat_mul]
        have hp := (two_zpow_pos e').ne'
        push_cast
        field_simp
      rw [hv]
      exact ⟨hr.1, hr.2.1, hr.2.2⟩

/-! ### Square roots -/

theorem desc_sqrt (m : Nat) :
    Desc (ExtendedMantissa.ofMantissaAndAccuracy (Nat.sqrt m)
      (if m - Nat.sqrt m * Nat.sqrt m = 0 then .exact
        else .inexact (if m - Nat.sqrt m * Nat.sqrt m ≤ Nat.sqrt m then .lt else .gt))) (Real.sqrt m) := by
  have h1 : Nat.sqrt m * Nat.sqrt m ≤ m := Nat.sqrt_le m
  have h2 : m < (Nat.sqrt m + 1) * (Nat.sqrt m + 1) := Nat.lt_succ_sqrt m
  generalize Nat.sqrt m = q at *
  have hqR : (0 : ℝ) ≤ q := Nat.cast_nonneg _
  by_cases h0 : m - q * q = 0
  · rw [if_pos h0]
    have hm : m = q * q := by omega
    show Real.sqrt m = q
    rw [hm, Nat.cast_mul, Real.sqrt_mul_self hqR]
  · rw [if_neg h0]
    have hlo : (q : ℝ) < Real.sqrt m := by
      apply Real.lt_sqrt_of_sq_lt
      rw [pow_two]
      exact_mod_cast (by omega : q * q < m)
    have hhi : Real.sqrt m < q + 1 := by
      rw [Real.sqrt_lt' (by linarith), pow_two]
      exact_mod_cast h2
    by_cases hc : m - q * q ≤ q
    · rw [if_pos hc]
      show (q : ℝ) < Real.sqrt m ∧ Real.sqrt m < q + 1 / 2
      refine ⟨hlo, ?_⟩
      rw [Real.sqrt_lt' (by linarith)]
      have : (m : ℝ) ≤ q * q + q := by exact_mod_cast (by omega : m ≤ q * q + q)
      nlinarith
    · rw [if_neg hc]
      show (q : ℝ) + 1 / 2 < Real.sqrt m ∧ Real.sqrt m < q + 1
      refine ⟨?_, hhi⟩
      apply Real.lt_sqrt_of_sq_lt
      have : (q * q + q + 1 : ℝ) ≤ m := by exact_mod_cast (by omega : q * q + q + 1 ≤ m)
      nlinarith

theorem sqrt_good {a : UnpackedFloat} (ha : Fits a) (h0 : 0 ≤ uval a) :
    Good (Real.sqrt (uval a)) (UnpackedFloat.sqrt .binary64 a) := by
  cases a with
  | infinity s => exact ha.elim
  | notANumber => exact ha.elim
  | zero s =>
    rw [show uval (UnpackedFloat.zero s) = 0 from rfl, Real.sqrt_zero]
    exact good_self (f := UnpackedFloat.zero s) trivial
  | finite s m e h =>
    have hp : (0 : ℝ) < m * 2 ^ e := mul_pos (by exact_mod_cast h) (two_zpow_pos e)
    cases s with
    | negative => rw [uval_finite] at h0; simp only [signed] at h0; linarith
    | positive =>
      obtain ⟨t, ht⟩ : ∃ t, min (e.ediv 2) (Format.binary64.targetExponent ((totalExponent m e + 1).ediv 2)) = t :=
        ⟨_, rfl⟩
      obtain ⟨n, hn⟩ : ∃ n : Nat, (e - 2 * t).toNat = n := ⟨_, rfl⟩
      have hte : t ≤ e / 2 := ht ▸ min_le_left _ _
      have hne : e = 2 * t + n := by omega
      have hdef : UnpackedFloat.sqrt .binary64 (.finite .positive m e h)
          = roundWithAccuracy .binary64 .positive (Nat.sqrt (m <<< n)) t
            (if (m <<< n) - Nat.sqrt (m <<< n) * Nat.sqrt (m <<< n) = 0 then .exact
              else .inexact (if (m <<< n) - Nat.sqrt (m <<< n) * Nat.sqrt (m <<< n) ≤ Nat.sqrt (m <<< n)
                then .lt else .gt)) := by
        simp only [UnpackedFloat.sqrt, sqrtCore]
        rw [ht, hn]
      rw [hdef]
      have htarget : t ≤ targetE (Nat.sqrt (m <<< n)) t := by
        by_cases hsmall : t ≤ -1074
        · exact hsmall.trans (le_max_right _ _)
        · have h1 : t ≤ ((m.log2 : Int) + 1 + e + 1) / 2 - 53 := by
            have := ht ▸ min_le_right (e.ediv 2) (Format.binary64.targetExponent ((totalExponent m e + 1).ediv 2))
            rw [target64, totalExponent] at this
            have h2 : ((↑m.log2 + 1 + e + 1 : Int)).ediv 2 = (↑m.log2 + 1 + e + 1) / 2 := rfl
            rw [h2] at this
            omega
          have h2 : 104 ≤ m.log2 + n := by omega
          have h3 : 2 ^ (m.log2 + n) ≤ m <<< n := by
            rw [Nat.shiftLeft_eq, pow_add]
            exact Nat.mul_le_mul_right _ (Nat.log2_self_le h.ne')
          have h4 : 2 ^ 52 ≤ Nat.sqrt (m <<< n) := by
            rw [Nat.le_sqrt]
            calc 2 ^ 52 * 2 ^ 52 = 2 ^ 104 := by norm_num
              _ ≤ 2 ^ (m.log2 + n) := Nat.pow_le_pow_right (by norm_num) h2
              _ ≤ m <<< n := h3
          have h5 := (Nat.le_log2 (by omega)).mpr h4
          unfold targetE
          omega
      have hr := roundWithAccuracy_rounds .positive _ t _ (desc_sqrt (m <<< n)) htarget
      have hv : Real.sqrt (uval (.finite .positive m e h)) = signed .positive (Real.sqrt ((m <<< n : Nat) : ℝ) * 2 ^ t) := by
        rw [uval_finite, Nat.shiftLeft_eq]
        show Real.sqrt (m * 2 ^ e) = Real.sqrt _ * 2 ^ t
        have h2t : (2 : ℝ) ^ t = Real.sqrt (2 ^ (2 * t)) := by
          rw [two_mul, zpow_add₀ (by norm_num), Real.sqrt_mul_self (two_zpow_pos t).le]
        rw [h2t, ← Real.sqrt_mul (Nat.cast_nonneg _), hne, zpow_nat_mul]
        push_cast
        congr 1
        ring
      rw [hv]
      exact ⟨hr.1, hr.2.1, hr.2.2⟩

/-! ### Negation, comparison -/

theorem neg_fits {a : UnpackedFloat} (ha : Fits a) : Fits a.neg ∧ uval a.neg = -uval a := by
  cases a with
  | infinity s => exact ha.elim
  | notANumber => exact ha.elim
  | zero s => exact ⟨trivial, by simp [uval, UnpackedFloat.neg]⟩
  | finite s m e h =>
    refine ⟨ha, ?_⟩
    rw [UnpackedFloat.neg, uval_finite, uval_finite]
    cases s
    · exact (neg_neg _).symm
    · rfl

theorem compare_pos {m m' : Nat} {e e' : Int} (h : m < 2 ^ 53 ∧ -1074 ≤ e ∧ (2 ^ 52 ≤ m ∨ e = -1074))
    (h' : m' < 2 ^ 53 ∧ -1074 ≤ e' ∧ (2 ^ 52 ≤ m' ∨ e' = -1074)) :
    (compare e e').then (compare m m') = compare ((m : ℝ) * 2 ^ e) (m' * 2 ^ e') := by
  have key : ∀ (m m' : Nat) (e e' : Int), m < 2 ^ 53 → -1074 ≤ e → (2 ^ 52 ≤ m' ∨ e' = -1074) → e < e' →
      (m : ℝ) * 2 ^ e < m' * 2 ^ e' := by
    intro m m' e e' h1 h2 h3 hlt
    have h52 : 2 ^ 52 ≤ m' := h3.resolve_right (by omega)
    have hm : (m : ℝ) < 2 ^ 53 := by exact_mod_cast h1
    have hm' : (2 : ℝ) ^ 52 ≤ m' := by exact_mod_cast h52
    calc (m : ℝ) * 2 ^ e < 2 ^ 53 * 2 ^ e := mul_lt_mul_of_pos_right hm (two_zpow_pos e)
      _ = 2 ^ 52 * 2 ^ (e + 1) := by rw [zpow_add₀ (by norm_num)]; ring
      _ ≤ 2 ^ 52 * 2 ^ e' :=
        mul_le_mul_of_nonneg_left (zpow_le_zpow_right₀ (by norm_num) (by omega)) (by norm_num)
      _ ≤ m' * 2 ^ e' := mul_le_mul_of_nonneg_right hm' (two_zpow_pos e').le
  rcases lt_trichotomy e e' with hlt | heq | hgt
  · rw [compare_lt_iff_lt.mpr hlt, compare_lt_iff_lt.mpr (key m m' e e' h.1 h.2.1 h'.2.2 hlt)]
    rfl
  · subst heq
    rw [compare_eq_iff_eq.mpr rfl]
    show compare m m' = _
    rcases lt_trichotomy m m' with hm | hm | hm
    · rw [compare_lt_iff_lt.mpr hm, eq_comm, compare_lt_iff_lt]
      exact mul_lt_mul_of_pos_right (by exact_mod_cast hm) (two_zpow_pos e)
    · rw [hm, compare_eq_iff_eq.mpr rfl, compare_eq_iff_eq.mpr rfl]
    · rw [compare_gt_iff_gt.mpr hm, eq_comm, compare_gt_iff_gt]
      exact mul_lt_mul_of_pos_right (by exact_mod_cast hm) (two_zpow_pos e)
  · rw [compare_gt_iff_gt.mpr hgt, compare_gt_iff_gt.mpr (key m' m e' e h'.1 h'.2.1 h.2.2 hgt)]
    rfl

theorem compare_neg_real (x y : ℝ) : compare (-x) (-y) = (compare x y).swap := by
  rcases lt_trichotomy x y with h | h | h
  · rw [compare_lt_iff_lt.mpr h, show Ordering.lt.swap = .gt from rfl, compare_gt_iff_gt]
    linarith
  · rw [h, compare_eq_iff_eq.mpr rfl, compare_eq_iff_eq.mpr rfl]
    rfl
  · rw [compare_gt_iff_gt.mpr h, show Ordering.gt.swap = .lt from rfl, compare_lt_iff_lt]
    linarith

theorem compare_uval {a b : UnpackedFloat} (ha : Fits a) (hb : Fits b) :
    UnpackedFloat.compare a b = some (compare (uval a) (uval b)) := by
  have pos : ∀ (m : Nat) (e : Int), 0 < m → (0 : ℝ) < m * 2 ^ e :=
    fun m e h => mul_pos (by exact_mod_cast h) (two_zpow_pos e)
  cases a with
  | infinity s => exact ha.elim
  | notANumber => exact ha.elim
  | zero s =>
    cases b with
    | infinity s => exact hb.elim
    | notANumber => exact hb.elim
    | zero s' => rw [show uval (.zero s) = 0 from rfl, show uval (.zero s') = 0 from rfl, compare_eq_iff_eq.mpr rfl]; rfl
    | finite s' m e h =>
      rw [uval_finite, show uval (.zero s) = 0 from rfl]
      have := pos m e h
      cases s'
      · rw [compare_gt_iff_gt.mpr (show signed .negative _ < 0 by simp only [signed]; linarith)]; rfl
      · rw [compare_lt_iff_lt.mpr (show 0 < signed .positive _ by simp only [signed]; linarith)]; rfl
  | finite s m e h =>
    cases b with
    | infinity s => exact hb.elim
    | notANumber => exact hb.elim
    | zero s' =>
      rw [uval_finite, show uval (.zero s') = 0 from rfl]
      have := pos m e h
      cases s
      · rw [compare_lt_iff_lt.mpr (show signed .negative _ < 0 by simp only [signed]; linarith)]; rfl
      · rw [compare_gt_iff_gt.mpr (show 0 < signed .positive _ by simp only [signed]; linarith)]; rfl
    | finite s' m' e' h' =>
      rw [uval_finite, uval_finite]
      have hp := pos m e h
      have hp' := pos m' e' h'
      cases s <;> cases s'
      · show some _ = some (compare (-_) (-_))
        rw [compare_neg_real, ← compare_pos ha.1 hb.1]
      · rw [compare_lt_iff_lt.mpr (show signed .negative _ < signed .positive _ by simp only [signed]; linarith)]; rfl
      · rw [compare_gt_iff_gt.mpr (show signed .negative _ < signed .positive _ by simp only [signed]; linarith)]; rfl
      · show some _ = some (compare (_ * _) (_ * _))
        rw [← compare_pos ha.1 hb.1]

/-! ### The operations on `Float` -/

theorem add_rounds {a b : Float} (ha : IsFin a) (hb : IsFin b) (h : |val a + val b| ≤ maxFinite) :
    IsFin (a + b) ∧ Rounds (val a + val b) (val (a + b)) := result (add_good ha.fits hb.fits) h

theorem sub_rounds {a b : Float} (ha : IsFin a) (hb : IsFin b) (h : |val a - val b| ≤ maxFinite) :
    IsFin (a - b) ∧ Rounds (val a - val b) (val (a - b)) := result (sub_good ha.fits hb.fits) h

theorem mul_rounds {a b : Float} (ha : IsFin a) (hb : IsFin b) (h : |val a * val b| ≤ maxFinite) :
    IsFin (a * b) ∧ Rounds (val a * val b) (val (a * b)) := result (mul_good ha.fits hb.fits) h

theorem div_rounds {a b : Float} (ha : IsFin a) (hb : IsFin b) (h0 : val b ≠ 0) (h : |val a / val b| ≤ maxFinite) :
    IsFin (a / b) ∧ Rounds (val a / val b) (val (a / b)) := result (div_good ha.fits hb.fits h0) h

theorem sqrt_rounds {a : Float} (ha : IsFin a) (h0 : 0 ≤ val a) :
    IsFin a.sqrt ∧ Rounds (Real.sqrt (val a)) (val a.sqrt) := by
  refine result (sqrt_good ha.fits h0) ?_
  have h2 : val a ≤ maxFinite := (le_abs_self _).trans (val_abs_le ha)
  rw [abs_of_nonneg (Real.sqrt_nonneg _), Real.sqrt_le_iff]
  have h1 := one_le_maxFinite
  exact ⟨by linarith, h2.trans (by nlinarith)⟩

theorem neg_val {a : Float} (ha : IsFin a) : IsFin (-a) ∧ val (-a) = -val a := by
  obtain ⟨h1, h2⟩ := neg_fits ha.fits
  have := unpack_ofModel_pack h1
  have h3 : (-a).toModel.unpack = a.toModel.unpack.neg := this
  unfold val
  rw [fin_unpack, h3]
  exact ⟨h1.finite, h2⟩

theorem lt_iff {a b : Float} (ha : IsFin a) (hb : IsFin b) : a < b ↔ val a < val b := by
  have h : a < b ↔ UnpackedFloat.lt a.toModel.unpack b.toModel.unpack = true := by
    show Float.lt a b = true ↔ _
    rw [Float.lt, decide_eq_true_iff]
    exact Iff.rfl
  rw [h, UnpackedFloat.lt, compare_uval ha.fits hb.fits]
  unfold val
  rw [← compare_lt_iff_lt]
  generalize compare (uval _) (uval _) = o
  cases o <;> simp

theorem le_iff {a b : Float} (ha : IsFin a) (hb : IsFin b) : a ≤ b ↔ val a ≤ val b := by
  have h : a ≤ b ↔ UnpackedFloat.le a.toModel.unpack b.toModel.unpack = true := by
    show Float.le a b = true ↔ _
    rw [Float.le, decide_eq_true_iff]
    exact Iff.rfl
  rw [h, UnpackedFloat.le, compare_uval ha.fits hb.fits]
  unfold val
  rw [← not_lt, ← compare_gt_iff_gt]
  generalize compare (uval _) (uval _) = o
  cases o <;> simp

theorem natUInt_val {n : Nat} (h : n < 2 ^ 53) : IsFin n.toUInt64.toFloat ∧ val n.toUInt64.toFloat = n := by
  have hn : n.toUInt64.toNat = n := by
    rw [Nat.toUInt64, UInt64.toNat_ofNat']
    exact Nat.mod_eq_of_lt (h.trans (by norm_num))
  have hg : Good (n : ℝ) (UnpackedFloat.ofUInt64 .binary64 n.toUInt64) := by
    have := normalize_rounds (n : Int) 0 .positive
    rw [UnpackedFloat.ofUInt64, UnpackedFloat.ofNat, UnpackedFloat.ofInt, hn]
    have hz : (((n : Int) : ℝ)) * 2 ^ (0 : Int) = n := by simp
    rw [hz] at this
    exact ⟨this.1, this.2.1, this.2.2⟩
  have hb : |(n : ℝ)| ≤ maxFinite := by
    rw [abs_of_nonneg (Nat.cast_nonneg _), maxFinite]
    have h1 : (n : ℝ) ≤ 2 ^ 53 - 1 := by
      have : (n : ℝ) + 1 ≤ 2 ^ 53 := by exact_mod_cast h
      linarith
    have h2 : (1 : ℝ) ≤ 2 ^ (971 : Int) := one_le_zpow₀ (by norm_num) (by norm_num)
    calc (n : ℝ) ≤ (2 ^ 53 - 1) * 1 := by linarith
      _ ≤ (2 ^ 53 - 1) * 2 ^ (971 : Int) := mul_le_mul_of_nonneg_left h2 (by norm_num)
  have hr := result hg hb
  refine ⟨hr.1, hr.2.of_rep ?_⟩
  have := rep_int (n : Int) (by rw [abs_of_nonneg (by positivity)]; exact_mod_cast h.le)
  exact_mod_cast this

theorem one_bits : IsFin (Float.ofBits 0x3FF0000000000000) ∧ val (Float.ofBits 0x3FF0000000000000) = 1 := by
  have h : (Float.ofBits 0x3FF0000000000000).toModel.unpack = .finite .positive (2 ^ 52) (-52) (by norm_num) := rfl
  unfold val
  rw [fin_unpack, h, uval_finite]
  refine ⟨rfl, ?_⟩
  show ((2 ^ 52 : Nat) : ℝ) * 2 ^ (-52 : Int) = 1
  norm_num

theorem ofNat_val {n : Nat} (h : n < 2 ^ 53) : IsFin (Float.ofNat n) ∧ val (Float.ofNat n) = n := by
  have heq : Float.ofNat n = n.toUInt64.toFloat * Float.ofBits 0x3FF0000000000000 := by
    show Float.ofScientific n false 0 = _
    unfold Float.ofScientific
    rw [dif_pos ⟨h, by norm_num⟩]
    rfl
  obtain ⟨f1, v1⟩ := natUInt_val h
  obtain ⟨f2, v2⟩ := one_bits
  have hm := mul_rounds f1 f2 (by rw [v2, mul_one]; exact val_abs_le f1)
  rw [v2, mul_one] at hm
  rw [heq]
  exact ⟨hm.1, (hm.2.of_rep (val_rep f1)).trans v1⟩

theorem natCast_val {n : Nat} (h : n < 2 ^ 53) : IsFin ((n : Nat) : Float) ∧ val ((n : Nat) : Float) = n := ofNat_val h

theorem zero_val : IsFin (0 : Float) ∧ val (0 : Float) = 0 := by
  obtain ⟨h1, h2⟩ := ofNat_val (n := 0) (by norm_num)
  exact ⟨h1, h2.trans (by norm_num)⟩

theorem one_val : IsFin (1 : Float) ∧ val (1 : Float) = 1 := by
  obtain ⟨h1, h2⟩ := ofNat_val (n := 1) (by norm_num)
  exact ⟨h1, h2.trans (by norm_num)⟩

end Geom3d.F64
