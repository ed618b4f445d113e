import Verif.Lemmas.F64Exact
import Verif.Lemmas.F64Order

/-!
# Finite results have finite operands (binary64)
-/

namespace Geom3d.F64
open Float.Model Float.Model.UnpackedFloat

theorem unpack_sub (a b : Float) : (a - b).toModel.unpack
    = UnpackedFloat.unpack .binary64 (UnpackedFloat.pack .binary64 (UnpackedFloat.sub .binary64 a.toModel.unpack b.toModel.unpack)) :=
  rfl

theorem unpack_div (a b : Float) : (a / b).toModel.unpack
    = UnpackedFloat.unpack .binary64 (UnpackedFloat.pack .binary64 (UnpackedFloat.div .binary64 a.toModel.unpack b.toModel.unpack)) :=
  rfl

theorem unpack_sqrt (a : Float) : a.sqrt.toModel.unpack
    = UnpackedFloat.unpack .binary64 (UnpackedFloat.pack .binary64 (UnpackedFloat.sqrt .binary64 a.toModel.unpack)) :=
  rfl

/-- An infinity or NaN. -/
def Bad (f : UnpackedFloat) : Prop := (∃ s, f = .infinity s) ∨ f = .notANumber

theorem bad_iff {f : UnpackedFloat} : Bad f ↔ ¬ f.isFinite = true := by
  cases f <;> simp [Bad, UnpackedFloat.isFinite]

theorem Bad.packed {f : UnpackedFloat} (h : Bad f) :
    ¬ (UnpackedFloat.unpack .binary64 (UnpackedFloat.pack .binary64 f)).isFinite = true := by
  rcases h with ⟨s, rfl⟩ | rfl
  · rw [unpack_inf]; exact Bool.false_ne_true
  · rw [unpack_nan]; exact Bool.false_ne_true

theorem bad_add {f g : UnpackedFloat} (h : Bad f ∨ Bad g) : Bad (UnpackedFloat.add .binary64 f g) := by
  rcases h with (⟨s, rfl⟩ | rfl) | (⟨s, rfl⟩ | rfl)
  · cases g <;> simp only [UnpackedFloat.add] <;> first
      | exact .inl ⟨_, rfl⟩
      | exact .inr rfl
      | (split <;> first | exact .inl ⟨_, rfl⟩ | exact .inr rfl)
  · cases g <;> exact .inr rfl
  · cases f <;> simp only [UnpackedFloat.add] <;> first
      | exact .inl ⟨_, rfl⟩
      | exact .inr rfl
      | (split <;> first | exact .inl ⟨_, rfl⟩ | exact .inr rfl)
  · cases f <;> exact .inr rfl

theorem bad_sub {f g : UnpackedFloat} (h : Bad f ∨ Bad g) : Bad (UnpackedFloat.sub .binary64 f g) := by
  rcases h with (⟨s, rfl⟩ | rfl) | (⟨s, rfl⟩ | rfl)
  · cases g <;> simp only [UnpackedFloat.sub] <;> first
      | exact .inl ⟨_, rfl⟩
      | exact .inr rfl
      | (split <;> first | exact .inl ⟨_, rfl⟩ | exact .inr rfl)
  · cases g <;> exact .inr rfl
  · cases f <;> simp only [UnpackedFloat.sub] <;> first
      | exact .inl ⟨_, rfl⟩
      | exact .inr rfl
      | (split <;> first | exact .inl ⟨_, rfl⟩ | exact .inr rfl)
  · cases f <;> exact .inr rfl

theorem bad_mul {f g : UnpackedFloat} (h : Bad f ∨ Bad g) : Bad (UnpackedFloat.mul .binary64 f g) := by
  rcases h with (⟨s, rfl⟩ | rfl) | (⟨s, rfl⟩ | rfl)
  · cases g <;> first | exact .inl ⟨_, rfl⟩ | exact .inr rfl
  · cases g <;> exact .inr rfl
  · cases f <;> first | exact .inl ⟨_, rfl⟩ | exact .inr rfl
  · cases f <;> exact .inr rfl

theorem fin_of_op {a b c : Float} {op : UnpackedFloat → UnpackedFloat → UnpackedFloat}
    (hb : ∀ {f g}, Bad f ∨ Bad g → Bad (op f g)) (hc : c.toModel.unpack
      = UnpackedFloat.unpack .binary64 (UnpackedFloat.pack .binary64 (op a.toModel.unpack b.toModel.unpack)))
    (h : IsFin c) : IsFin a ∧ IsFin b := by
  rw [fin_unpack, hc] at h
  constructor
  · by_contra hn
    exact (hb (.inl (bad_iff.2 hn))).packed h
  · by_contra hn
    exact (hb (.inr (bad_iff.2 hn))).packed h

theorem fin_of_add {a b : Float} (h : IsFin (a + b)) : IsFin a ∧ IsFin b := 
  fin_of_op (op := UnpackedFloat.add .binary64) bad_add (unpack_add a b) h
theorem fin_of_sub {a b : Float} (h : IsFin (a - b)) : IsFin a ∧ IsFin b := 
  fin_of_op (op := UnpackedFloat.sub .binary64) bad_sub (unpack_sub a b) h
theorem fin_of_mul {a b : Float} (h : IsFin (a * b)) : IsFin a ∧ IsFin b := 
  fin_of_op (op := UnpackedFloat.mul .binary64) bad_mul (unpack_mul a b) h

/-- Numbers with a square root below something are finite. -/
theorem fin_of_sqrt_lt {a t : Float} (h : a.sqrt < t) : IsFin a := by
  obtain ⟨n1, n2⟩ := nan_of_lt h
  by_contra hf
  have hs := unpack_sqrt a
  rcases bad_iff.2 hf with ⟨s, e⟩ | e
  · rw [e] at hs
    cases s with
    | negative => exact n1 (isNaN_iff.2 (hs.trans unpack_nan))
    | positive =>
      have e' : a.sqrt.toModel.unpack = .infinity .positive := hs.trans (unpack_inf .positive)
      rw [lt_ext n1 n2, show ext a.sqrt = ⊤ by unfold ext; rw [e']; rfl] at h
      exact not_top_lt h
  · rw [e] at hs
    exact n1 (isNaN_iff.2 (hs.trans unpack_nan))

/-- Only positive numbers are above a square root. -/
theorem pos_of_sqrt_lt {a t : Float} (h : a.sqrt < t) : 0 < t := by
  have hf := fin_of_sqrt_lt h
  obtain ⟨n1, n2⟩ := nan_of_lt h
  have h0 : 0 ≤ val a := by
    by_contra hn
    have hs := unpack_sqrt a
    unfold val at hn
    cases e : a.toModel.unpack with
    | notANumber => rw [e] at hs; exact n1 (isNaN_iff.2 (hs.trans unpack_nan))
    | infinity s => rw [fin_unpack, e] at hf; exact Bool.false_ne_true hf
    | zero s => rw [e] at hn; exact hn le_rfl
    | finite s m ex hm =>
      cases s with
      | negative => rw [e] at hs; exact n1 (isNaN_iff.2 (hs.trans unpack_nan))
      | positive => rw [e] at hn; exact hn (show (0 : ℝ) ≤ (m : ℝ) * 2 ^ ex from mul_nonneg (Nat.cast_nonneg _) (zpow_nonneg (by norm_num) _))
  obtain ⟨g, r⟩ := sqrt_rounds hf h0
  have h1 : 0 ≤ val a.sqrt := r.ge 0 rep_zero (Real.sqrt_nonneg _)
  rw [lt_ext n1 n2, g.ext_eq] at h
  rw [lt_ext zero_val.1.not_nan n2, zero_val.1.ext_eq, zero_val.2]
  exact lt_of_le_of_lt (EReal.coe_le_coe_iff.2 h1) h

/-- Zero divided by zero. -/
theorem zero_div_zero {x y : Float} (hx : IsZ x) (hy : IsZ y) : ¬ IsFin (x / y) := by
  obtain ⟨s, hs⟩ := isZ_iff.mp hx
  obtain ⟨s', hs'⟩ := isZ_iff.mp hy
  rw [fin_unpack, unpack_div, hs, hs']
  exact Bad.packed (.inr rfl)

theorem IsZ.of_sub {x : Float} (hx : IsFin x) : IsZ (x - x) := by
  have h0 : val x - val x = 0 := sub_self _
  obtain ⟨f, r⟩ := sub_rounds hx hx (by rw [h0, abs_zero]; linarith [one_le_maxFinite])
  rw [h0] at r
  exact ⟨f, r.unique rounds_zero⟩

theorem IsZ.sqrt {x : Float} (hx : IsZ x) : IsZ x.sqrt := by
  obtain ⟨f, r⟩ := sqrt_rounds hx.1 hx.2.ge
  rw [hx.2, Real.sqrt_zero] at r
  exact ⟨f, r.unique rounds_zero⟩

/-- Zero times anything. -/
theorem zero_mul_cases {z : Float} (hz : IsZ z) (t : Float) : IsZ (z * t) ∨ IsNaN (z * t) := by
  by_cases ht : IsFin t
  · exact .inl (hz.mul ht)
  right
  obtain ⟨s, hs⟩ := isZ_iff.mp hz
  rw [isNaN_iff, unpack_mul, hs]
  rcases bad_iff.2 ht with ⟨s', e⟩ | e
  · rw [e]; exact unpack_nan
  · rw [e]; exact unpack_nan

end Geom3d.F64
