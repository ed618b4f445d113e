import Verif.Spec.Float64
import Mathlib.Data.Real.Basic
import Mathlib.Tactic.Linarith
import Mathlib.Tactic.Positivity
import Mathlib.Tactic.Ring
import Mathlib.Tactic.NormNum
import Mathlib.Tactic.FieldSimp
import Mathlib.Tactic.Set
import Mathlib.Tactic.Push
import Mathlib.Data.Nat.Log
import Mathlib.Data.Int.Log
import Mathlib.Data.Real.Archimedean

/-!
# Rounding in binary64

Lean's `Float` is defined by the functions of `Float.Model`.  Here: what `roundWithAccuracy` and `round` compute, as
statements about real numbers.
-/

set_option linter.unusedSectionVars false

namespace Geom3d.F64
open Float.Model Float.Model.UnpackedFloat

/-- The real numbers an extended mantissa stands for: the two residual bits place the number relative to the mantissa
and the mantissa plus one half. -/
def Desc (em : ExtendedMantissa) (x : ℝ) : Prop :=
  match em.roundBit, em.stickyBit with
  | false, false => x = em.mantissa
  | false, true => (em.mantissa : ℝ) < x ∧ x < em.mantissa + 1 / 2
  | true, false => x = em.mantissa + 1 / 2
  | true, true => (em.mantissa : ℝ) + 1 / 2 < x ∧ x < em.mantissa + 1

theorem Desc.floor {em : ExtendedMantissa} {x : ℝ} (h : Desc em x) : (em.mantissa : ℝ) ≤ x ∧ x < em.mantissa + 1 := by
  rcases em with ⟨m, rb, sb⟩
  cases rb <;> cases sb <;> simp only [Desc] at h <;> constructor <;> linarith

theorem Desc.shift {em : ExtendedMantissa} {x : ℝ} (h : Desc em x) : Desc em.shiftRightOne (x / 2) := by
  rcases em with ⟨m, rb, sb⟩
  obtain ⟨q, hq⟩ : ∃ q, m / 2 = q := ⟨_, rfl⟩
  rcases Nat.mod_two_eq_zero_or_one m with hr | hr
  · have hm : (m : ℝ) = 2 * q := by exact_mod_cast (by omega : m = 2 * q)
    cases rb <;> cases sb <;> simp only [Desc, ExtendedMantissa.shiftRightOne, hr, hq] at h ⊢ <;>
      simp only [bne_self_eq_false, Bool.or_self, Bool.or_true, Bool.true_or] <;>
      first
        | linarith
        | (constructor <;> linarith)
  · have hm : (m : ℝ) = 2 * q + 1 := by exact_mod_cast (by omega : m = 2 * q + 1)
    have h1 : ((1 : Nat) != 0) = true := rfl
    cases rb <;> cases sb <;> simp only [Desc, ExtendedMantissa.shiftRightOne, hr, hq, h1] at h ⊢ <;>
      simp only [Bool.or_self, Bool.or_true, Bool.true_or] <;>
      first
        | linarith
        | (constructor <;> linarith)

theorem Desc.shifts {em : ExtendedMantissa} {x : ℝ} (h : Desc em x) (n : Nat) : Desc (em >>> n) (x / 2 ^ n) := by
  change Desc (n.repeat ExtendedMantissa.shiftRightOne em) _
  induction n with
  | zero => simpa [Nat.repeat] using h
  | succ n ih =>
    have := ih.shift
    rw [Nat.repeat, pow_succ, ← div_div]
    exact this

theorem rne_floor (y : ℝ) : ⌊y⌋₊ ≤ rne y ∧ rne y ≤ ⌊y⌋₊ + 1 := by
  unfold rne
  split
  · omega
  · split
    · omega
    · have := Nat.mod_lt ⌊y⌋₊ (show 0 < 2 by norm_num)
      omega

theorem rne_mono {y z : ℝ} (h : y ≤ z) : rne y ≤ rne z := by
  rcases (Nat.floor_mono h).lt_or_eq with hlt | heq
  · have h1 := (rne_floor y).2
    have h2 := (rne_floor z).1
    omega
  · unfold rne
    rw [heq]
    generalize ⌊z⌋₊ = f
    have := Nat.mod_lt f (show 0 < 2 by norm_num)
    split_ifs <;> first | omega | (exfalso; linarith)

theorem rne_nat (n : Nat) : rne (n : ℝ) = n := by
  unfold rne
  rw [Nat.floor_natCast, if_pos (by linarith)]

theorem Desc.rne {em : ExtendedMantissa} {x : ℝ} (h : Desc em x) : em.roundedMantissa = rne x := by
  have hf : ⌊x⌋₊ = em.mantissa := by
    rw [Nat.floor_eq_iff (le_trans (Nat.cast_nonneg _) h.floor.1)]
    exact h.floor
  unfold F64.rne
  rw [hf]
  rcases em with ⟨m, rb, sb⟩
  cases rb <;> cases sb <;>
    simp only [Desc, ExtendedMantissa.roundedMantissa, ExtendedMantissa.accuracy, Accuracy.roundToNearestEven] at h ⊢
  · rw [if_pos (by linarith)]
  · rw [if_pos (by linarith)]
  · rw [if_neg (by linarith), if_neg (by linarith)]
  · rw [if_neg (by linarith), if_pos (by linarith)]

/-- The rounded mantissa is a nearest integer. -/
theorem Desc.rounded {em : ExtendedMantissa} {x : ℝ} (h : Desc em x) :
    |(em.roundedMantissa : ℝ) - x| ≤ 1 / 2 ∧ em.mantissa ≤ em.roundedMantissa ∧ em.roundedMantissa ≤ em.mantissa + 1 := by
  rcases em with ⟨m, rb, sb⟩
  rw [abs_le]
  cases rb <;> cases sb <;>
    simp only [Desc, ExtendedMantissa.roundedMantissa, ExtendedMantissa.accuracy, Accuracy.roundToNearestEven] at h ⊢
  · refine ⟨⟨?_, ?_⟩, ?_, ?_⟩ <;> first | linarith | omega
  · refine ⟨⟨?_, ?_⟩, ?_, ?_⟩ <;> first | linarith | omega
  · rcases Nat.mod_two_eq_zero_or_one m with hr | hr <;> rw [hr] <;> push_cast <;>
      refine ⟨⟨?_, ?_⟩, ?_, ?_⟩ <;> first | linarith | omega
  · push_cast
    refine ⟨⟨?_, ?_⟩, ?_, ?_⟩ <;> first | linarith | omega

theorem exact_shift (m n : Nat) (hd : 2 ^ n ∣ m) :
    ((ExtendedMantissa.ofMantissaAndAccuracy m .exact) >>> n).mantissa = m / 2 ^ n := by
  change (n.repeat ExtendedMantissa.shiftRightOne _).mantissa = _
  clear hd
  induction n with
  | zero => simp [Nat.repeat, ExtendedMantissa.ofMantissaAndAccuracy]
  | succ n ih =>
    rw [Nat.repeat, ExtendedMantissa.shiftRightOne]
    simp only
    rw [ih, pow_succ, Nat.div_div_eq_div_mul]

theorem target64 (t : Int) : Format.binary64.targetExponent t = max (t - 53) (-1074) := rfl

/-- Canonical form for binary64, without the bound on the exponent from above. -/
def Canon : UnpackedFloat → Prop
  | .finite _ m e _ => m < 2 ^ 53 ∧ -1074 ≤ e ∧ (2 ^ 52 ≤ m ∨ e = -1074)
  | _ => True

/-- `±x`. -/
def signed (s : Sign) (x : ℝ) : ℝ := match s with | .positive => x | .negative => -x

/-- `f` is `x` (a number with exponent `t` in canonical form, before rounding) rounded to a nearest multiple of
`2 ^ t`. -/
structure Nearest (s : Sign) (X : ℝ) (t : Int) (f : UnpackedFloat) : Prop where
  canon : Canon f
  finite : f.isFinite = true
  mult : ∃ r : Nat, uval f = signed s (r * 2 ^ t) ∧ r = rne (X / 2 ^ t)
  err : |uval f - signed s X| ≤ 2 ^ t / 2

theorem uval_finite (s : Sign) (m : Nat) (e : Int) (h : 0 < m) : uval (.finite s m e h) = signed s (m * 2 ^ e) := by
  cases s <;> rfl

theorem log2_bounds (m : Nat) : m < 2 ^ (m.log2 + 1) := Nat.lt_log2_self

theorem two_zpow_pos (t : Int) : (0 : ℝ) < 2 ^ t := zpow_pos (by norm_num) t

theorem zpow_nat_mul (n : Nat) (e : Int) : (2 : ℝ) ^ (e + n) = 2 ^ n * 2 ^ e := by
  rw [zpow_add₀ (by norm_num), zpow_natCast, mul_comm]

/-- The exponent chosen for a number with mantissa `m` and exponent `e`. -/
def targetE (m : Nat) (e : Int) : Int := max ((m.log2 : Int) + 1 + e - 53) (-1074)

theorem signed_abs (s : Sign) (x y : ℝ) : |signed s x - signed s y| = |x - y| := by
  cases s
  · simp only [signed]
    rw [neg_sub_neg, abs_sub_comm]
  · rfl

/-- The last step of `roundWithAccuracy`. -/
def finish (s : Sign) (m : Nat) (e : Int) : UnpackedFloat :=
  if h : m = 0 then .zero s else .finite s m e (Nat.pos_of_ne_zero h)

theorem roundWithAccuracy_eq (s : Sign) (m : Nat) (e : Int) (acc : Accuracy) (n r k : Nat) (e₁ : Int)
    (hn : (Format.binary64.targetExponent (totalExponent m e) - e).toNat = n)
    (hr : (ExtendedMantissa.ofMantissaAndAccuracy m acc >>> n).roundedMantissa = r) (he : e + n = e₁)
    (hk : (Format.binary64.targetExponent (totalExponent r e₁) - e₁).toNat = k) :
    roundWithAccuracy .binary64 s m e acc
      = finish s (ExtendedMantissa.ofMantissaAndAccuracy r .exact >>> k).mantissa (e₁ + k) := by
  subst hn hr he hk
  rfl

theorem roundWithAccuracy_nearest (s : Sign) (m : Nat) (e : Int) (acc : Accuracy) {x : ℝ}
    (hx : Desc (ExtendedMantissa.ofMantissaAndAccuracy m acc) x) (he : e ≤ targetE m e) :
    Nearest s (x * 2 ^ e) (targetE m e) (roundWithAccuracy .binary64 s m e acc) := by
  have hm : (ExtendedMantissa.ofMantissaAndAccuracy m acc).mantissa = m := by
    cases acc with
    | exact => rfl
    | inexact o => cases o <;> rfl
  obtain ⟨n, hn⟩ : ∃ n : Nat, targetE m e = e + n := ⟨(targetE m e - e).toNat, by omega⟩
  have htn : (Format.binary64.targetExponent (totalExponent m e) - e).toNat = n := by
    rw [target64, totalExponent]
    unfold targetE at hn
    omega
  have hd := hx.shifts n
  obtain ⟨hr, hr1, hr2⟩ := hd.rounded
  obtain ⟨hf1, hf2⟩ := hd.floor
  have hx0 := hx.floor
  rw [hm] at hx0
  have hlt : x < 2 ^ (m.log2 + 1) := by
    have : m + 1 ≤ 2 ^ (m.log2 + 1) := log2_bounds m
    have : ((m + 1 : Nat) : ℝ) ≤ ((2 ^ (m.log2 + 1) : Nat) : ℝ) := by exact_mod_cast this
    push_cast at this
    linarith
  set em := ExtendedMantissa.ofMantissaAndAccuracy m acc >>> n with hem
  set r := em.roundedMantissa with hrd
  have hnL : m.log2 + 1 ≤ 53 + n := by
    unfold targetE at hn
    omega
  have hpow : (0 : ℝ) < 2 ^ n := by positivity
  have hq : x / 2 ^ n < 2 ^ 53 := by
    rw [div_lt_iff₀ hpow, ← pow_add]
    exact lt_of_lt_of_le hlt (pow_le_pow_right₀ (by norm_num) hnL)
  have hmle : em.mantissa < 2 ^ 53 := by
    have : (em.mantissa : ℝ) < ((2 ^ 53 : Nat) : ℝ) := by push_cast; linarith
    exact_mod_cast this
  have hrle : r ≤ 2 ^ 53 := by omega
  have hbig : targetE m e ≠ -1074 → 2 ^ 52 ≤ r := by
    intro hne
    have h1 : (m.log2 : Int) = 52 + n := by
      unfold targetE at hn hne
      omega
    have h1' : m.log2 = 52 + n := by exact_mod_cast h1
    have hm0 : m ≠ 0 := by
      rintro rfl
      rw [Nat.log2_zero] at h1'
      omega
    have h2 : 2 ^ (52 + n) ≤ m := by rw [← h1']; exact Nat.log2_self_le hm0
    have h3 : (2 : ℝ) ^ 52 ≤ x / 2 ^ n := by
      rw [le_div_iff₀ hpow, ← pow_add]
      have : ((2 ^ (52 + n) : Nat) : ℝ) ≤ (m : ℝ) := by exact_mod_cast h2
      push_cast at this
      linarith
    have h4 : 2 ^ 52 < em.mantissa + 1 := by
      have : ((2 ^ 52 : Nat) : ℝ) < ((em.mantissa + 1 : Nat) : ℝ) := by push_cast; linarith
      exact_mod_cast this
    omega
  have hxt : x * 2 ^ e = x / 2 ^ n * 2 ^ targetE m e := by
    rw [hn, zpow_nat_mul]
    field_simp
  have herr : |(r : ℝ) * 2 ^ targetE m e - x * 2 ^ e| ≤ 2 ^ targetE m e / 2 := by
    rw [hxt, ← sub_mul, abs_mul, abs_of_pos (two_zpow_pos _)]
    have := mul_le_mul_of_nonneg_right hr (two_zpow_pos (targetE m e)).le
    linarith
  have hrne : r = rne (x * 2 ^ e / 2 ^ targetE m e) := by
    rw [hxt, mul_div_assoc, div_self (two_zpow_pos _).ne', mul_one]
    exact hd.rne
  have ht0 : -1074 ≤ targetE m e := le_max_right _ _
  by_cases h53 : r = 2 ^ 53
  · have hs : (Format.binary64.targetExponent (totalExponent r (targetE m e)) - targetE m e).toNat = 1 := by
      rw [target64, totalExponent, h53, Nat.log2_two_pow]
      omega
    have hfin : (ExtendedMantissa.ofMantissaAndAccuracy r .exact >>> 1).mantissa = 2 ^ 52 := by
      rw [exact_shift r 1 (by rw [h53]; exact ⟨2 ^ 52, by norm_num⟩), h53]
      norm_num
    rw [roundWithAccuracy_eq s m e acc n r 1 (targetE m e) htn rfl hn.symm hs, hfin]
    have hfi : finish s (2 ^ 52) (targetE m e + (1 : Nat)) = .finite s (2 ^ 52) (targetE m e + (1 : Nat)) (by norm_num) :=
      dif_neg (by norm_num)
    rw [hfi]
    have hval : uval (.finite s (2 ^ 52) (targetE m e + (1 : Nat)) (by norm_num))
        = signed s (r * 2 ^ targetE m e) := by
      rw [uval_finite, h53, zpow_nat_mul]
      congr 1
      push_cast
      ring
    refine ⟨?_, rfl, ⟨r, hval, hrne⟩, ?_⟩
    · exact ⟨by norm_num, by omega, Or.inl le_rfl⟩
    · rw [hval, signed_abs]
      exact herr
  · have hrlt : r < 2 ^ 53 := by omega
    have hs : (Format.binary64.targetExponent (totalExponent r (targetE m e)) - targetE m e).toNat = 0 := by
      rw [target64, totalExponent]
      have : r.log2 ≤ 52 := by
        rcases Nat.eq_zero_or_pos r with h | h
        · rw [h, Nat.log2_zero]
          omega
        · have := (Nat.log2_lt (by omega)).mpr hrlt
          omega
      omega
    have hfin : (ExtendedMantissa.ofMantissaAndAccuracy r .exact >>> 0).mantissa = r := by
      rw [exact_shift r 0 (by simp)]
      simp
    rw [roundWithAccuracy_eq s m e acc n r 0 (targetE m e) htn rfl hn.symm hs, hfin, Nat.cast_zero, add_zero]
    by_cases h0 : r = 0
    · rw [finish, dif_pos h0]
      have hval : uval (.zero s) = signed s (r * 2 ^ targetE m e) := by
        rw [h0]
        cases s <;> simp [uval, signed]
      refine ⟨trivial, rfl, ⟨r, hval, hrne⟩, ?_⟩
      rw [hval, signed_abs]
      exact herr
    · rw [finish, dif_neg h0]
      have hval : uval (.finite s r (targetE m e) (Nat.pos_of_ne_zero h0)) = signed s (r * 2 ^ targetE m e) :=
        uval_finite _ _ _ _
      refine ⟨?_, rfl, ⟨r, hval, hrne⟩, ?_⟩
      · refine ⟨hrlt, ht0, ?_⟩
        by_cases h : targetE m e = -1074
        · exact Or.inr h
        · exact Or.inl (hbig h)
      · rw [hval, signed_abs]
        exact herr

theorem Rep.neg {c : ℝ} (h : Rep c) : Rep (-c) := by
  obtain ⟨k, e, h1, h2, rfl⟩ := h
  exact ⟨-k, e, by rwa [abs_neg], h2, by push_cast; ring⟩

theorem rep_int (k : Int) (h : |k| ≤ 2 ^ 53) : Rep (k : ℝ) := ⟨k, 0, h, by norm_num, by simp⟩

theorem rep_pow (e : Int) (h : -1074 ≤ e) : Rep ((2 : ℝ) ^ e) := ⟨1, e, by norm_num, h, by simp⟩

theorem rnd_neg (X : ℝ) : rnd (-X) = -rnd X := by
  unfold rnd
  rcases lt_trichotomy X 0 with h | h | h
  · rw [if_neg (by linarith), if_pos h, neg_neg]
  · subst h
    have : rndPos 0 = 0 := by
      unfold rndPos
      rw [zero_div]
      have := rne_nat 0
      rw [Nat.cast_zero] at this
      rw [this]
      simp
    simp [this]
  · rw [if_pos (by linarith), if_neg (by linarith), neg_neg]

theorem rndPos_eq {X : ℝ} {t : Int} (hX : 0 ≤ X) (ht : -1074 ≤ t) (hlo : t = -1074 ∨ 2 ^ (t + 52) ≤ X)
    (hhi : X < 2 ^ (t + 53)) : rndPos X = rne (X / 2 ^ t) * 2 ^ t := by
  rcases hX.eq_or_lt with h0 | hpos
  · have := rne_nat 0
    rw [Nat.cast_zero] at this
    unfold rndPos
    rw [← h0, zero_div, zero_div, this]
    simp
  · have h1 : Int.log 2 X < t + 53 := by
      rw [← Int.lt_zpow_iff_log_lt (by norm_num) hpos]
      exact_mod_cast hhi
    have h2 : expo X = t := by
      unfold expo
      rcases hlo with h | h
      · omega
      · have h3 : t + 52 ≤ Int.log 2 X := by
          rw [← Int.zpow_le_iff_le_log (by norm_num) hpos]
          exact_mod_cast h
        omega
    unfold rndPos
    rw [h2]

/-- `v` is `X` correctly rounded: the error is at most half a unit in the last place, and rounding does not pass any
representable number. -/
structure Rounds (X v : ℝ) : Prop where
  eq : v = rnd X
  err : |v - X| ≤ max (2 ^ (-53 : Int) * |X|) (2 ^ (-1075 : Int))
  le : ∀ c, Rep c → X ≤ c → v ≤ c
  ge : ∀ c, Rep c → c ≤ X → c ≤ v
  nearest : ∀ c, Rep c → |v - X| ≤ |c - X|

theorem Rounds.neg {X v : ℝ} (h : Rounds X v) : Rounds (-X) (-v) := by
  refine ⟨by rw [rnd_neg, h.eq], ?_, ?_, ?_, ?_⟩
  · have := h.err
    rwa [← neg_sub', abs_neg, abs_neg]
  · intro c hc hle
    have := h.ge (-c) hc.neg (by linarith)
    linarith
  · intro c hc hle
    have := h.le (-c) hc.neg (by linarith)
    linarith
  · intro c hc
    have := h.nearest (-c) hc.neg
    rwa [show -v - -X = -(v - X) by ring, abs_neg, show c - -X = -(-c - X) by ring, abs_neg]

theorem Rounds.signed {X v : ℝ} (h : Rounds X v) (s : Sign) : Rounds (signed s X) (signed s v) := by
  cases s
  · exact h.neg
  · exact h

theorem Rounds.of_rep {X v : ℝ} (h : Rounds X v) (hX : Rep X) : v = X :=
  le_antisymm (h.le X hX le_rfl) (h.ge X hX le_rfl)

/-- Rounding to a nearest multiple of the right power of two. -/
theorem rounds_of_multiple {X : ℝ} {r : Nat} {t : Int} (ht : -1074 ≤ t) (hX : 0 ≤ X)
    (herr : |(r : ℝ) * 2 ^ t - X| ≤ 2 ^ t / 2) (hrne : r = rne (X / 2 ^ t)) (hb : t = -1074 ∨ 2 ^ (t + 52) ≤ X)
    (hhi : X < 2 ^ (t + 53)) : Rounds X (r * 2 ^ t) := by
  have hp := two_zpow_pos t
  have habs := abs_le.mp herr
  have hmle : ∀ j : Int, X ≤ j * 2 ^ t → (r : ℝ) * 2 ^ t ≤ j * 2 ^ t := by
    intro j hj
    by_contra hcon
    push Not at hcon
    have h1 : (j : ℝ) < (r : Int) := by
      have := lt_of_mul_lt_mul_right hcon hp.le
      exact_mod_cast this
    have h2 : j + 1 ≤ (r : Int) := by exact_mod_cast h1
    have h3 : ((j : ℝ) + 1) ≤ r := by exact_mod_cast h2
    have h4 := mul_le_mul_of_nonneg_right h3 hp.le
    linarith [habs.2]
  have hmge : ∀ j : Int, j * 2 ^ t ≤ X → (j : ℝ) * 2 ^ t ≤ r * 2 ^ t := by
    intro j hj
    by_contra hcon
    push Not at hcon
    have h1 : ((r : Int) : ℝ) < j := by
      have := lt_of_mul_lt_mul_right hcon hp.le
      exact_mod_cast this
    have h2 : (r : Int) + 1 ≤ j := by exact_mod_cast h1
    have h3 : ((r : ℝ) + 1) ≤ j := by exact_mod_cast h2
    have h4 := mul_le_mul_of_nonneg_right h3 hp.le
    linarith [habs.1]
  have hsplit : ∀ (k e : Int), t ≤ e → ∃ j : Int, (k : ℝ) * 2 ^ e = j * 2 ^ t := by
    intro k e hte
    obtain ⟨n, hn⟩ : ∃ n : Nat, e = t + n := ⟨(e - t).toNat, by omega⟩
    refine ⟨k * 2 ^ n, ?_⟩
    rw [hn, zpow_nat_mul]
    push_cast
    ring
  have hsmall : ∀ (k e : Int), |k| ≤ 2 ^ 53 → -1074 ≤ e → ¬ t ≤ e → (k : ℝ) * 2 ^ e ≤ 2 ^ (t + 52) := by
    intro k e hk he hte
    push Not at hte
    have h1 : (k : ℝ) ≤ 2 ^ 53 := by exact_mod_cast (le_abs_self k).trans hk
    have h2 : (2 : ℝ) ^ e ≤ 2 ^ (t - 1) := zpow_le_zpow_right₀ (by norm_num) (by omega)
    calc (k : ℝ) * 2 ^ e ≤ 2 ^ 53 * 2 ^ e := mul_le_mul_of_nonneg_right h1 (two_zpow_pos e).le
      _ ≤ 2 ^ 53 * 2 ^ (t - 1) := mul_le_mul_of_nonneg_left h2 (by positivity)
      _ = 2 ^ (t + 52) := by
        rw [show (2 : ℝ) ^ 53 = 2 ^ (53 : Int) by norm_num, ← zpow_add₀ (by norm_num)]
        congr 1
        ring
  have h52 : (2 : ℝ) ^ (t + 52) = ((2 ^ 52 : Int) : ℝ) * 2 ^ t := by
    rw [zpow_add₀ (by norm_num)]
    push_cast
    rw [mul_comm]
    norm_num
  refine ⟨?_, ?_, ?_, ?_, ?_⟩
  · rw [rnd, if_neg (by linarith), rndPos_eq hX ht hb hhi, ← hrne]
  · refine herr.trans ?_
    rcases hb with rfl | hb
    · refine le_max_of_le_right (le_of_eq ?_)
      rw [show (-1075 : Int) = -1074 - 1 by norm_num, zpow_sub₀ (by norm_num), zpow_one]
    · refine le_max_of_le_left ?_
      rw [abs_of_nonneg hX]
      refine le_trans (le_of_eq ?_) (mul_le_mul_of_nonneg_left hb (two_zpow_pos _).le)
      rw [← zpow_add₀ (by norm_num), show (-53 + (t + 52) : Int) = t - 1 by ring, zpow_sub₀ (by norm_num), zpow_one]
  · rintro c ⟨k, e, hk, he, rfl⟩ hle
    by_cases hte : t ≤ e
    · obtain ⟨j, hj⟩ := hsplit k e hte
      rw [hj] at hle ⊢
      exact hmle j hle
    · have h1 := hsmall k e hk he hte
      rcases hb with hb | hb
      · omega
      · have h2 := hmle (2 ^ 52) (by rw [← h52]; linarith)
        rw [← h52] at h2
        linarith
  · rintro c ⟨k, e, hk, he, rfl⟩ hle
    by_cases hte : t ≤ e
    · obtain ⟨j, hj⟩ := hsplit k e hte
      rw [hj] at hle ⊢
      exact hmge j hle
    · have h1 := hsmall k e hk he hte
      rcases hb with hb | hb
      · omega
      · have h2 := hmge (2 ^ 52) (by rw [← h52]; linarith)
        rw [← h52] at h2
        linarith
  · have hmult : ∀ j : Int, |(r : ℝ) * 2 ^ t - X| ≤ |j * 2 ^ t - X| := by
      intro j
      by_cases hj : (j : ℝ) = r
      · rw [hj]
      · have h1 : (1 : ℝ) ≤ |(j : ℝ) - r| := by
          have : j ≠ (r : Int) := fun h => hj (by exact_mod_cast congrArg (Int.cast (R := ℝ)) h)
          have h2 : 1 ≤ |j - (r : Int)| := Int.one_le_abs (sub_ne_zero.mpr this)
          exact_mod_cast h2
        have h3 : (2 : ℝ) ^ t ≤ |(j : ℝ) * 2 ^ t - r * 2 ^ t| := by
          rw [← sub_mul, abs_mul, abs_of_pos hp]
          exact le_mul_of_one_le_left hp.le h1
        have h4 : |(j : ℝ) * 2 ^ t - r * 2 ^ t| ≤ |j * 2 ^ t - X| + |(r : ℝ) * 2 ^ t - X| := by
          rw [abs_sub_comm ((r : ℝ) * 2 ^ t) X]
          exact abs_sub_le _ _ _
        linarith
    rintro c ⟨k, e, hk, he, rfl⟩
    by_cases hte : t ≤ e
    · obtain ⟨j, hj⟩ := hsplit k e hte
      rw [hj]
      exact hmult j
    · have h1 := hsmall k e hk he hte
      rcases hb with hb | hb
      · omega
      · have h2 := hmult (2 ^ 52)
        rw [← h52] at h2
        refine h2.trans ?_
        rw [abs_of_nonpos (by linarith), abs_of_nonpos (by linarith)]
        linarith

theorem expo_bounds {X : ℝ} (hX : 0 < X) :
    -1074 ≤ expo X ∧ (expo X = -1074 ∨ 2 ^ (expo X + 52) ≤ X) ∧ X < 2 ^ (expo X + 53) := by
  have h1 := Int.zpow_log_le_self (b := 2) (by norm_num) hX
  have h2 := Int.lt_zpow_succ_log_self (b := 2) (by norm_num) X
  push_cast at h1 h2
  refine ⟨le_max_right _ _, ?_, ?_⟩
  · by_cases h : expo X = -1074
    · exact Or.inl h
    · right
      have h3 : expo X + 52 = Int.log 2 X := by
        unfold expo at h ⊢
        omega
      rw [h3]
      exact h1
  · refine lt_of_lt_of_le h2 (zpow_le_zpow_right₀ (by norm_num) ?_)
    unfold expo
    omega

theorem rounds_zero : Rounds 0 0 := by
  have h := rounds_of_multiple (X := 0) (r := 0) (t := -1074) (by norm_num) le_rfl
    (by rw [Nat.cast_zero, zero_mul, sub_zero, abs_zero]; exact (half_pos (two_zpow_pos _)).le)
    (by rw [zero_div]; exact_mod_cast (rne_nat 0).symm) (Or.inl rfl) (two_zpow_pos _)
  simpa using h

/-- Numbers that need no rounding. -/
theorem rounds_rep {c : ℝ} (hc : Rep c) : Rounds c c := by
  have key : ∀ c : ℝ, 0 < c → Rep c → Rounds c c := by
    intro c hpos hc
    obtain ⟨h1, h2, h3⟩ := expo_bounds hpos
    set t := expo c with ht
    obtain ⟨r, hr⟩ : ∃ r : Nat, c = r * 2 ^ t := by
      obtain ⟨k, e, hk, he, hke⟩ := hc
      have hk0 : 0 < k := by
        have h : (0 : ℝ) < k * 2 ^ e := hke ▸ hpos
        have : (0 : ℝ) < k := (mul_pos_iff_of_pos_right (two_zpow_pos e)).mp h
        exact_mod_cast this
      by_cases hte : t ≤ e
      · obtain ⟨n, hn⟩ : ∃ n : Nat, e = t + n := ⟨(e - t).toNat, by omega⟩
        refine ⟨k.toNat * 2 ^ n, ?_⟩
        have hkk : ((k.toNat : Nat) : ℝ) = (k : ℝ) := by
          exact_mod_cast congrArg (Int.cast (R := ℝ)) (Int.toNat_of_nonneg hk0.le)
        rw [hke, hn, zpow_nat_mul]
        push_cast
        rw [hkk]
        ring
      · have h4 := h2.resolve_left (by omega)
        have h5 : (k : ℝ) ≤ 2 ^ 53 := by exact_mod_cast (le_abs_self k).trans hk
        have h6 : (2 : ℝ) ^ e ≤ 2 ^ (t - 1) := zpow_le_zpow_right₀ (by norm_num) (by omega)
        have h7 : c ≤ 2 ^ (t + 52) := by
          calc c = k * 2 ^ e := hke
            _ ≤ 2 ^ 53 * 2 ^ (t - 1) := mul_le_mul h5 h6 (two_zpow_pos e).le (by positivity)
            _ = 2 ^ (t + 52) := by
              rw [show (2 : ℝ) ^ 53 = 2 ^ (53 : Int) by norm_num, ← zpow_add₀ (by norm_num)]
              congr 1
              ring
        refine ⟨2 ^ 52, ?_⟩
        rw [le_antisymm h7 h4, zpow_add₀ (by norm_num), mul_comm]
        push_cast
        norm_num
    have h := rounds_of_multiple (X := c) (r := r) h1 hpos.le
      (by rw [← hr, sub_self, abs_zero]; exact (half_pos (two_zpow_pos _)).le)
      (by rw [hr, mul_div_assoc, div_self (two_zpow_pos _).ne', mul_one, rne_nat]) h2 h3
    rwa [← hr] at h
  rcases lt_trichotomy c 0 with h | h | h
  · have := (key (-c) (by linarith) hc.neg).neg
    rwa [neg_neg] at this
  · rw [h]
    exact rounds_zero
  · exact key c h hc

theorem Rounds.unique {X v w : ℝ} (h : Rounds X v) (h' : Rounds X w) : v = w := h.eq.trans h'.eq.symm

/-- Rounding is monotone. -/
theorem Rounds.mono {X Y v w : ℝ} (h : Rounds X v) (h' : Rounds Y w) (hXY : X ≤ Y) : v ≤ w := by
  have hz : Rep 0 := ⟨0, 0, by norm_num, by norm_num, by simp⟩
  have key : ∀ X Y v w : ℝ, Rounds X v → Rounds Y w → 0 < X → X ≤ Y → v ≤ w := by
    intro X Y v w h h' hX hXY
    have hY : 0 < Y := lt_of_lt_of_le hX hXY
    obtain ⟨a1, a2, a3⟩ := expo_bounds hX
    obtain ⟨b1, b2, b3⟩ := expo_bounds hY
    rcases lt_or_ge (expo X) (expo Y) with hlt | hge
    · have hc : Rep ((2 : ℝ) ^ (expo X + 53)) := rep_pow _ (by omega)
      have h1 := h.le _ hc a3.le
      have h2 : (2 : ℝ) ^ (expo X + 53) ≤ 2 ^ (expo Y + 52) := zpow_le_zpow_right₀ (by norm_num) (by omega)
      exact h1.trans (h'.ge _ hc (h2.trans (b2.resolve_left (by omega))))
    · have heq : expo Y = expo X := by
        have := Int.log_mono_right (b := 2) hX hXY
        unfold expo at hge ⊢
        omega
      rw [h.eq, h'.eq, rnd, rnd, if_neg (by linarith), if_neg (by linarith), rndPos, rndPos, heq]
      refine mul_le_mul_of_nonneg_right ?_ (two_zpow_pos _).le
      exact_mod_cast rne_mono (div_le_div_of_nonneg_right hXY (two_zpow_pos _).le)
  rcases lt_or_ge 0 X with hX | hX
  · exact key X Y v w h h' hX hXY
  · rcases lt_or_ge Y 0 with hY | hY
    · have := key (-Y) (-X) (-w) (-v) h'.neg h.neg (by linarith) (by linarith)
      linarith
    · exact (h.le 0 hz hX).trans (h'.ge 0 hz hY)

theorem signed_signed (s : Sign) (x : ℝ) : signed s (signed s x) = x := by
  cases s <;> simp [signed]

/-- `roundWithAccuracy` rounds correctly. -/
theorem roundWithAccuracy_rounds (s : Sign) (m : Nat) (e : Int) (acc : Accuracy) {x : ℝ}
    (hx : Desc (ExtendedMantissa.ofMantissaAndAccuracy m acc) x) (he : e ≤ targetE m e) :
    Canon (roundWithAccuracy .binary64 s m e acc) ∧ (roundWithAccuracy .binary64 s m e acc).isFinite = true ∧
      Rounds (signed s (x * 2 ^ e)) (uval (roundWithAccuracy .binary64 s m e acc)) := by
  have h := roundWithAccuracy_nearest s m e acc hx he
  refine ⟨h.canon, h.finite, ?_⟩
  obtain ⟨r, hr, hrne⟩ := h.mult
  have herr := h.err
  rw [hr, signed_abs] at herr
  rw [hr]
  have hm : (ExtendedMantissa.ofMantissaAndAccuracy m acc).mantissa = m := by
    cases acc with
    | exact => rfl
    | inexact o => cases o <;> rfl
  have hfl := hx.floor
  rw [hm] at hfl
  have hx0 : 0 ≤ x := le_trans (by positivity) hfl.1
  have ht0 : -1074 ≤ targetE m e := le_max_right _ _
  have hhi : x * 2 ^ e < 2 ^ (targetE m e + 53) := by
    have h1 : (m : ℝ) + 1 ≤ 2 ^ (m.log2 + 1) := by exact_mod_cast log2_bounds m
    calc x * 2 ^ e < 2 ^ (m.log2 + 1) * 2 ^ e := mul_lt_mul_of_pos_right (by linarith) (two_zpow_pos e)
      _ = 2 ^ (e + (m.log2 + 1 : Nat)) := by rw [zpow_nat_mul]
      _ ≤ 2 ^ (targetE m e + 53) := by
        refine zpow_le_zpow_right₀ (by norm_num) ?_
        unfold targetE
        push_cast
        omega
  refine (rounds_of_multiple ht0 (mul_nonneg hx0 (two_zpow_pos e).le) herr hrne ?_ hhi).signed s
  by_cases ht : targetE m e = -1074
  · exact Or.inl ht
  · right
    have h1 : targetE m e = (m.log2 : Int) + 1 + e - 53 := by
      unfold targetE at ht ⊢
      omega
    have hm0 : m ≠ 0 := by
      rintro rfl
      rw [Nat.log2_zero] at h1
      omega
    rw [show targetE m e + 52 = e + (m.log2 : Nat) by omega, zpow_nat_mul]
    refine mul_le_mul_of_nonneg_right (le_trans ?_ hfl.1) (two_zpow_pos e).le
    exact_mod_cast Nat.log2_self_le hm0

theorem log2_shiftLeft {m : Nat} (hm : m ≠ 0) (k : Nat) : (m <<< k).log2 = m.log2 + k := by
  have h1 : m <<< k ≠ 0 := by
    rw [Nat.shiftLeft_eq]
    positivity
  apply le_antisymm
  · have : (m <<< k).log2 < m.log2 + k + 1 := by
      rw [Nat.log2_lt h1, Nat.shiftLeft_eq, show m.log2 + k + 1 = (m.log2 + 1) + k by ring, pow_add]
      exact Nat.mul_lt_mul_of_pos_right (log2_bounds m) (by positivity)
    omega
  · rw [Nat.le_log2 h1, Nat.shiftLeft_eq, pow_add]
    exact Nat.mul_le_mul_right _ (Nat.log2_self_le hm)

/-- `round` rounds correctly. -/
theorem round_rounds (s : Sign) {m : Nat} (hm : m ≠ 0) (e : Int) :
    Canon (UnpackedFloat.round .binary64 s m e) ∧ (UnpackedFloat.round .binary64 s m e).isFinite = true ∧
      Rounds (signed s (m * 2 ^ e)) (uval (UnpackedFloat.round .binary64 s m e)) := by
  unfold UnpackedFloat.round
  simp only [decreaseExponent]
  set k := (e - Format.binary64.targetExponent (totalExponent m e)).toNat with hk
  have hk' : (k : Int) = max (e - targetE m e) 0 := by
    rw [hk, target64, totalExponent, targetE]
    omega
  have ht : targetE (m <<< k) (e - k) = targetE m e := by
    unfold targetE
    rw [log2_shiftLeft hm]
    push_cast
    congr 1
    ring
  have hx : Desc (ExtendedMantissa.ofMantissaAndAccuracy (m <<< k) .exact) ((m <<< k : Nat) : ℝ) := rfl
  have h := roundWithAccuracy_rounds s (m <<< k) (e - k) .exact hx (by rw [ht]; omega)
  have hv : ((m <<< k : Nat) : ℝ) * 2 ^ (e - k) = m * 2 ^ e := by
    rw [Nat.shiftLeft_eq, zpow_sub₀ (by norm_num), zpow_natCast]
    push_cast
    field_simp
  rwa [hv] at h

/-- `normalize` rounds correctly. -/
theorem normalize_rounds (m e : Int) (z : Sign) :
    Canon (normalize .binary64 m e z) ∧ (normalize .binary64 m e z).isFinite = true ∧
      Rounds (m * 2 ^ e) (uval (normalize .binary64 m e z)) := by
  unfold normalize
  rcases lt_trichotomy m 0 with h | h | h
  · have hc : compare m 0 = .lt := by simpa [compare_lt_iff_lt] using h
    rw [hc]
    have := round_rounds .negative (m := (-m).toNat) (by omega) e
    have hv : signed .negative (((-m).toNat : ℝ) * 2 ^ e) = m * 2 ^ e := by
      have : ((-m).toNat : ℝ) = -(m : ℝ) := by
        have : (((-m).toNat : Int) : ℝ) = ((-m : Int) : ℝ) := by rw [Int.toNat_of_nonneg (by omega)]
        push_cast at this
        exact this
      rw [this]
      simp [signed]
    rwa [hv] at this
  · subst h
    have hc : compare (0 : Int) 0 = .eq := by simp
    rw [hc]
    refine ⟨trivial, rfl, ?_⟩
    simp only [uval, Int.cast_zero, zero_mul]
    exact rounds_zero
  · have hc : compare m 0 = .gt := by simpa [compare_gt_iff_gt] using h
    rw [hc]
    have := round_rounds .positive (m := m.toNat) (by omega) e
    have hv : signed .positive ((m.toNat : ℝ) * 2 ^ e) = m * 2 ^ e := by
      have : (m.toNat : ℝ) = (m : ℝ) := by
        have : ((m.toNat : Int) : ℝ) = ((m : Int) : ℝ) := by rw [Int.toNat_of_nonneg (by omega)]
        exact_mod_cast this
      rw [this]
      rfl
    rwa [hv] at this

end Geom3d.F64
