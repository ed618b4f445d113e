import Verif.Lemmas.F64Ops

/-!
# Equalities of binary64 numbers

A binary64 number is determined by what it unpacks to, and a finite number that is not a zero by its value. Adding a
zero changes nothing but perhaps the sign of a zero.
-/

namespace Geom3d.F64
open Float.Model Float.Model.UnpackedFloat

theorem bits_ext {b c : BitVec Format.binary64.numBits} (h1 : unpackSign b = unpackSign c)
    (h2 : unpackExponent b = unpackExponent c) (h3 : unpackMantissa b = unpackMantissa c) : b = c := by
  have key : ∀ d : BitVec Format.binary64.numBits,
      d = unpackSign d ++ unpackExponent (spec := .binary64) d ++ unpackMantissa (spec := .binary64) d := by
    intro d
    apply BitVec.eq_of_getLsbD_eq
    intro i hi
    have hi' : i < 64 := hi
    simp only [BitVec.getLsbD_append, unpackSign, unpackExponent, unpackMantissa]
    have e1 : Format.binary64.mantissaBitsWithoutImplicit = 52 := rfl
    have e2 : Format.binary64.exponentBits = 11 := rfl
    simp only [BitVec.getLsbD_cast, BitVec.getLsbD_extractLsb]
    by_cases c1 : i < 52
    · simp [c1]
    · by_cases c2 : i - 52 < 11
      · simp [c1, c2]
        rw [show 52 + (i - 52) = i by omega]
      · simp [c1, c2]
        obtain rfl : i = 63 := by omega
        simp
  rw [key b, key c, h1, h2, h3]

theorem sign_ofBitVec_inj {a b : BitVec 1} (h : Sign.ofBitVec a = Sign.ofBitVec b) : a = b := by
  unfold Sign.ofBitVec at h
  have key : ∀ c : BitVec 1, c = 0#1 ∨ c = 1#1 := fun c => by
    have := c.isLt
    rcases (by omega : c.toNat = 0 ∨ c.toNat = 1) with h | h
    · exact Or.inl (BitVec.eq_of_toNat_eq h)
    · exact Or.inr (BitVec.eq_of_toNat_eq h)
  rcases key a with rfl | rfl <;> rcases key b with rfl | rfl <;> simp at h ⊢

theorem unpack_inj_bits {b c : BitVec Format.binary64.numBits} (hb : Format.binary64.Valid b) (hc : Format.binary64.Valid c)
    (h : UnpackedFloat.unpack .binary64 b = UnpackedFloat.unpack .binary64 c) : b = c := by
  simp only [UnpackedFloat.unpack] at h
  have hm : ∀ d : BitVec Format.binary64.numBits, (1#1 ++ unpackMantissa (spec := .binary64) d).toNat
      = 2 ^ 52 + (unpackMantissa (spec := .binary64) d).toNat := by
    intro d
    rw [BitVec.toNat_append, ← Nat.shiftLeft_add_eq_or_of_lt (unpackMantissa (spec := .binary64) d).isLt, Nat.shiftLeft_eq]
    simp
  have lb := (unpackMantissa (spec := .binary64) b).isLt
  have lc := (unpackMantissa (spec := .binary64) c).isLt
  have e52 : 2 ^ Format.binary64.mantissaBitsWithoutImplicit = 2 ^ 52 := rfl
  split_ifs at h with b1 b2 c1 c2 b3 c1 b4 b5 c1 c2 c3 c1 c2 c3 c4 c5
  · exact bits_ext (sign_ofBitVec_inj (by simpa using h)) (b1.trans c1.symm) (b2.trans c2.symm)
  · rw [hb.eq_packedNaN b1 b2, hc.eq_packedNaN ‹_› ‹_›]
  · refine bits_ext (sign_ofBitVec_inj (by simpa using h)) ?_ ?_
    · exact ‹unpackExponent b = 0#11›.trans ‹unpackExponent c = 0#11›.symm
    · exact ‹unpackMantissa b = 0#52›.trans ‹unpackMantissa c = 0#52›.symm
  · rw [UnpackedFloat.finite.injEq] at h
    refine bits_ext (sign_ofBitVec_inj h.1) ?_ (BitVec.eq_of_toNat_eq h.2.1)
    exact ‹unpackExponent b = 0#11›.trans ‹unpackExponent c = 0#11›.symm
  · rw [UnpackedFloat.finite.injEq, hm] at h
    omega
  · rw [UnpackedFloat.finite.injEq, hm] at h
    omega
  · rw [UnpackedFloat.finite.injEq, hm, hm] at h
    exact bits_ext (sign_ofBitVec_inj h.1) (BitVec.eq_of_toNat_eq (by omega)) (BitVec.eq_of_toNat_eq (by omega))

/-- A binary64 number is determined by what it unpacks to. -/
theorem unpack_inj {x y : Float} (h : x.toModel.unpack = y.toModel.unpack) : x = y := by
  obtain ⟨⟨b, hb⟩⟩ := x
  obtain ⟨⟨c, hc⟩⟩ := y
  have := UInt64.toBitVec_inj.mp (unpack_inj_bits hb hc h)
  subst this
  rfl

theorem unpack_inf (s : Sign) : UnpackedFloat.unpack .binary64 (UnpackedFloat.pack .binary64 (.infinity s)) = .infinity s := by
  cases s <;> rfl

theorem unpack_nan : UnpackedFloat.unpack .binary64 (UnpackedFloat.pack .binary64 .notANumber) = .notANumber := rfl

/-- What a sum, and what a product, unpacks to. -/
theorem unpack_add (a b : Float) : (a + b).toModel.unpack
    = UnpackedFloat.unpack .binary64 (UnpackedFloat.pack .binary64 (UnpackedFloat.add .binary64 a.toModel.unpack b.toModel.unpack)) :=
  rfl

theorem unpack_mul (a b : Float) : (a * b).toModel.unpack
    = UnpackedFloat.unpack .binary64 (UnpackedFloat.pack .binary64 (UnpackedFloat.mul .binary64 a.toModel.unpack b.toModel.unpack)) :=
  rfl

/-- A finite number that is not a zero is determined by its value. -/
theorem unpack_eq_of_val {a b : UnpackedFloat} (ha : Fits a) (hb : Fits b) (h : uval a = uval b) (h0 : uval a ≠ 0) : a = b := by
  cases a with
  | infinity s => exact ha.elim
  | notANumber => exact ha.elim
  | zero s => exact absurd rfl h0
  | finite s m e hm =>
    cases b with
    | infinity s => exact hb.elim
    | notANumber => exact hb.elim
    | zero s' => exact absurd (h.trans rfl) h0
    | finite s' m' e' hm' =>
      have p1 : (0 : ℝ) < m * 2 ^ e := mul_pos (by exact_mod_cast hm) (two_zpow_pos e)
      have p2 : (0 : ℝ) < m' * 2 ^ e' := mul_pos (by exact_mod_cast hm') (two_zpow_pos e')
      rw [uval_finite, uval_finite] at h
      have key : (m : ℝ) * 2 ^ e = m' * 2 ^ e' → e = e' ∧ m = m' := by
        intro hv
        have hc := compare_pos ha.1 hb.1
        rw [compare_eq_iff_eq.mpr hv] at hc
        rcases lt_trichotomy e e' with hlt | heq | hgt
        · rw [compare_lt_iff_lt.mpr hlt] at hc; simp [Ordering.then] at hc
        · subst heq
          rw [compare_eq_iff_eq.mpr rfl] at hc
          exact ⟨rfl, compare_eq_iff_eq.mp hc⟩
        · rw [compare_gt_iff_gt.mpr hgt] at hc; simp [Ordering.then] at hc
      cases s <;> cases s' <;> simp only [signed] at h
      · obtain ⟨rfl, rfl⟩ := key (neg_injective h)
        rfl
      · linarith
      · linarith
      · obtain ⟨rfl, rfl⟩ := key h
        rfl

theorem eq_of_val {x y : Float} (hx : IsFin x) (hy : IsFin y) (h : val x = val y) (h0 : val x ≠ 0) : x = y :=
  unpack_inj (unpack_eq_of_val hx.fits hy.fits h h0)

/-! ### Laws that hold for all binary64 numbers -/

theorem uadd_comm (a b : UnpackedFloat) : UnpackedFloat.add .binary64 a b = UnpackedFloat.add .binary64 b a := by
  cases a <;> cases b <;> simp only [UnpackedFloat.add]
  case infinity.infinity s s' => cases s <;> cases s' <;> rfl
  case zero.zero s s' => cases s <;> cases s' <;> rfl
  case finite.finite s m e h s' m' e' h' =>
    rw [min_comm e' e, add_comm]

theorem sign_mul_comm (s s' : Sign) : s * s' = s' * s := by cases s <;> cases s' <;> rfl

theorem umul_comm (a b : UnpackedFloat) : UnpackedFloat.mul .binary64 a b = UnpackedFloat.mul .binary64 b a := by
  cases a <;> cases b <;> simp only [UnpackedFloat.mul, sign_mul_comm]
  case finite.finite s m e h s' m' e' h' => rw [sign_mul_comm s s', mul_comm m m', add_comm e e']

/-- Addition of binary64 numbers commutes, bit for bit. -/
theorem fadd_comm (a b : Float) : a + b = b + a := unpack_inj (by rw [unpack_add, unpack_add, uadd_comm])

/-- Multiplication of binary64 numbers commutes, bit for bit. -/
theorem fmul_comm (a b : Float) : a * b = b * a := unpack_inj (by rw [unpack_mul, unpack_mul, umul_comm])

/-! ### Numbers up to the sign of a zero -/

/-- A zero of either sign. -/
def IsZ (x : Float) : Prop := IsFin x ∧ val x = 0

theorem isZ_iff {x : Float} : IsZ x ↔ ∃ s, x.toModel.unpack = .zero s := by
  constructor
  · rintro ⟨h1, h2⟩
    have hf := h1.fits
    unfold val at h2
    revert hf h2
    cases x.toModel.unpack with
    | infinity s => exact fun _ h => h.elim
    | notANumber => exact fun _ h => h.elim
    | zero s => exact fun _ _ => ⟨s, rfl⟩
    | finite s m e hm =>
      intro h2 _
      have p1 : (0 : ℝ) < m * 2 ^ e := mul_pos (by exact_mod_cast hm) (two_zpow_pos e)
      rw [uval_finite] at h2
      cases s <;> simp only [signed] at h2 <;> linarith
  · rintro ⟨s, h⟩
    refine ⟨?_, ?_⟩
    · rw [fin_unpack, h]; rfl
    · unfold val; rw [h]; rfl

/-- The same number, perhaps with a different sign when it is a zero. -/
def Same (x y : Float) : Prop := x = y ∨ (IsZ x ∧ IsZ y)

theorem Same.refl (x : Float) : Same x x := Or.inl rfl

theorem Same.symm {x y : Float} (h : Same x y) : Same y x := by
  rcases h with rfl | h
  · exact Or.inl rfl
  · exact Or.inr ⟨h.2, h.1⟩

theorem Same.trans {x y z : Float} (h : Same x y) (h' : Same y z) : Same x z := by
  rcases h with rfl | h
  · exact h'
  · rcases h' with rfl | h'
    · exact Or.inr h
    · exact Or.inr ⟨h.1, h'.2⟩

theorem Same.val_eq {x y : Float} (h : Same x y) : val x = val y := by
  rcases h with rfl | h
  · rfl
  · rw [h.1.2, h.2.2]

theorem Same.fin {x y : Float} (h : Same x y) (hx : IsFin x) : IsFin y := by
  rcases h with rfl | h
  · exact hx
  · exact h.2.1

theorem same_of_val {x y : Float} (hx : IsFin x) (hy : IsFin y) (h : val x = val y) : Same x y := by
  by_cases h0 : val x = 0
  · exact Or.inr ⟨⟨hx, h0⟩, ⟨hy, h ▸ h0⟩⟩
  · exact Or.inl (eq_of_val hx hy h h0)

theorem IsZ.mul {x y : Float} (hx : IsZ x) (hy : IsFin y) : IsZ (x * y) := by
  have h0 : val x * val y = 0 := by rw [hx.2, zero_mul]
  obtain ⟨f, r⟩ := mul_rounds hx.1 hy (by rw [h0, abs_zero]; linarith [one_le_maxFinite])
  rw [h0] at r
  exact ⟨f, r.unique rounds_zero⟩

theorem IsZ.add {x y : Float} (hx : IsZ x) (hy : IsZ y) : IsZ (x + y) := by
  have h0 : val x + val y = 0 := by rw [hx.2, hy.2, add_zero]
  obtain ⟨f, r⟩ := add_rounds hx.1 hy.1 (by rw [h0, abs_zero]; linarith [one_le_maxFinite])
  rw [h0] at r
  exact ⟨f, r.unique rounds_zero⟩

/-- Adding a zero. -/
theorem add_isZ {x z : Float} (hz : IsZ z) : Same (x + z) x := by
  obtain ⟨s, hs⟩ := isZ_iff.mp hz
  by_cases fx : IsFin x
  · have h0 : val x + val z = val x := by rw [hz.2, add_zero]
    obtain ⟨f, r⟩ := add_rounds fx hz.1 (by rw [h0]; exact val_abs_le fx)
    rw [h0] at r
    exact same_of_val f fx (r.of_rep (val_rep fx))
  · left
    apply unpack_inj
    rw [unpack_add, hs]
    rw [fin_unpack] at fx
    cases hx : x.toModel.unpack with
    | infinity s => exact unpack_inf s
    | notANumber => exact unpack_nan
    | zero s => rw [hx] at fx; exact absurd rfl fx
    | finite s m e hm => rw [hx] at fx; exact absurd rfl fx

theorem isZ_add {x z : Float} (hz : IsZ z) : Same (z + x) x := by
  rw [fadd_comm]
  exact add_isZ hz

theorem Same.add {x x' y y' : Float} (h : Same x x') (h' : Same y y') : Same (x + y) (x' + y') := by
  rcases h with rfl | ⟨z, z'⟩
  · rcases h' with rfl | ⟨w, w'⟩
    · exact Same.refl _
    · exact (add_isZ w).trans (add_isZ w').symm
  · exact (isZ_add z).trans (h'.trans (isZ_add z').symm)

/-- Multiplying by one. -/
theorem one_mul_same {a x : Float} (ha : IsFin a) (h1 : val a = 1) : Same (a * x) x := by
  by_cases fx : IsFin x
  · have h0 : val a * val x = val x := by rw [h1, one_mul]
    obtain ⟨f, r⟩ := mul_rounds ha fx (by rw [h0]; exact val_abs_le fx)
    rw [h0] at r
    exact same_of_val f fx (r.of_rep (val_rep fx))
  · left
    apply unpack_inj
    rw [unpack_mul]
    rw [fin_unpack] at fx
    have hf := ha.fits
    unfold val at h1
    revert h1 hf
    cases ha' : a.toModel.unpack with
    | infinity s => exact fun _ h => h.elim
    | notANumber => exact fun _ h => h.elim
    | zero s => intro h _; exact absurd h (by rw [show uval (.zero s) = 0 from rfl]; norm_num)
    | finite s m e hm =>
      intro h1 _
      have p1 : (0 : ℝ) < m * 2 ^ e := mul_pos (by exact_mod_cast hm) (two_zpow_pos e)
      rw [uval_finite] at h1
      cases s with
      | negative => simp only [signed] at h1; linarith
      | positive =>
        cases hx : x.toModel.unpack with
        | infinity s => cases s <;> exact unpack_inf _
        | notANumber => exact unpack_nan
        | zero s => rw [hx] at fx; exact absurd rfl fx
        | finite s m e hm => rw [hx] at fx; exact absurd rfl fx

theorem IsZ.mul_same {z z' x : Float} (h : IsZ z) (h' : IsZ z') : Same (z * x) (z' * x) := by
  by_cases fx : IsFin x
  · exact Or.inr ⟨h.mul fx, h'.mul fx⟩
  · obtain ⟨s, hs⟩ := isZ_iff.mp h
    obtain ⟨s', hs'⟩ := isZ_iff.mp h'
    left
    apply unpack_inj
    rw [unpack_mul, unpack_mul, hs, hs']
    rw [fin_unpack] at fx
    cases hx : x.toModel.unpack with
    | infinity s => rfl
    | notANumber => rfl
    | zero s => rw [hx] at fx; exact absurd rfl fx
    | finite s m e hm => rw [hx] at fx; exact absurd rfl fx

theorem Same.mul {x x' y y' : Float} (h : Same x x') (h' : Same y y') : Same (x * y) (x' * y') := by
  have step : ∀ {a a' b : Float}, Same a a' → Same (a * b) (a' * b) := by
    rintro a a' b (rfl | ⟨z, z'⟩)
    · exact Same.refl _
    · exact z.mul_same z'
  refine (step h).trans ?_
  rw [fmul_comm x', fmul_comm x']
  exact step h'

end Geom3d.F64
