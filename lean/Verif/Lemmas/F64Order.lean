import Verif.Lemmas.F64Err
import Mathlib.Data.EReal.Basic

/-!
# The order of all binary64 numbers

Away from NaN the comparisons are those of the extended real numbers.
-/

namespace Geom3d.F64
open Float.Model

theorem isNaN_iff {x : Float} : IsNaN x ↔ x.toModel.unpack = .notANumber := by
  have : x.isNaN = x.toModel.unpack.isNaN := rfl
  unfold IsNaN
  rw [this]
  generalize x.toModel.unpack = f
  cases f <;> simp [UnpackedFloat.isNaN]

/-- The extended real number of an unpacked float (`0` for NaN). -/
noncomputable def uext : UnpackedFloat → EReal
  | .infinity .positive => ⊤
  | .infinity .negative => ⊥
  | f => (uval f : EReal)

/-- The extended real number of a float (`0` for NaN). -/
noncomputable def ext (x : Float) : EReal := uext x.toModel.unpack

theorem lt_unpack {a b : Float} : a < b ↔ UnpackedFloat.lt a.toModel.unpack b.toModel.unpack = true := by
  show Float.lt a b = true ↔ _
  rw [Float.lt, decide_eq_true_iff]
  exact Iff.rfl

theorem le_unpack {a b : Float} : a ≤ b ↔ UnpackedFloat.le a.toModel.unpack b.toModel.unpack = true := by
  show Float.le a b = true ↔ _
  rw [Float.le, decide_eq_true_iff]
  exact Iff.rfl

theorem IsFin.not_nan {x : Float} (h : IsFin x) : ¬ IsNaN x := by
  intro hn
  rw [fin_unpack, isNaN_iff.mp hn] at h
  exact absurd h (by decide)

theorem IsFin.ext_eq {x : Float} (h : IsFin x) : ext x = (val x : EReal) := by
  unfold ext val
  have := h.fits
  generalize x.toModel.unpack = f at *
  cases f with
  | infinity => exact this.elim
  | notANumber => exact this.elim
  | zero => rfl
  | finite => rfl

/-- Not a NaN and not finite: an infinity. -/
theorem fin_or_inf {x : Float} (h : ¬ IsNaN x) : IsFin x ∨ ∃ s, x.toModel.unpack = .infinity s := by
  rw [isNaN_iff] at h
  rw [fin_unpack]
  generalize x.toModel.unpack = f at *
  cases f with
  | infinity s => exact .inr ⟨s, rfl⟩
  | notANumber => exact absurd rfl h
  | zero => exact .inl rfl
  | finite => exact .inl rfl

theorem compare_ext {a b : Float} (ha : ¬ IsNaN a) (hb : ¬ IsNaN b) :
    UnpackedFloat.compare a.toModel.unpack b.toModel.unpack = some (compare (ext a) (ext b)) := by
  rcases fin_or_inf ha with fa | ⟨s, ea⟩
  · rcases fin_or_inf hb with fb | ⟨s', eb⟩
    · rw [compare_uval fa.fits fb.fits, fa.ext_eq, fb.ext_eq]
      unfold val
      congr 1
      rcases lt_trichotomy (uval a.toModel.unpack) (uval b.toModel.unpack) with h | h | h
      · rw [compare_lt_iff_lt.mpr h, compare_lt_iff_lt.mpr (by exact_mod_cast h)]
      · rw [compare_eq_iff_eq.mpr h, compare_eq_iff_eq.mpr (by exact_mod_cast h)]
      · rw [compare_gt_iff_gt.mpr h, compare_gt_iff_gt.mpr (by exact_mod_cast h)]
    · rw [fa.ext_eq]
      unfold ext
      rw [eb]
      have h := fa.fits
      generalize a.toModel.unpack = f at h
      cases s'
      · show _ = some (compare _ (⊥ : EReal))
        rw [compare_gt_iff_gt.mpr (EReal.bot_lt_coe _)]
        cases f with
        | infinity => exact h.elim
        | notANumber => exact h.elim
        | zero => rfl
        | finite s => cases s <;> rfl
      · show _ = some (compare _ (⊤ : EReal))
        rw [compare_lt_iff_lt.mpr (EReal.coe_lt_top _)]
        cases f with
        | infinity => exact h.elim
        | notANumber => exact h.elim
        | zero => rfl
        | finite s => cases s <;> rfl
  · rcases fin_or_inf hb with fb | ⟨s', eb⟩
    · rw [fb.ext_eq]
      unfold ext
      rw [ea]
      have h := fb.fits
      generalize b.toModel.unpack = f at h
      cases s
      · show _ = some (compare (⊥ : EReal) _)
        rw [compare_lt_iff_lt.mpr (EReal.bot_lt_coe _)]
        cases f with
        | infinity => exact h.elim
        | notANumber => exact h.elim
        | zero => rfl
        | finite s => cases s <;> rfl
      · show _ = some (compare (⊤ : EReal) _)
        rw [compare_gt_iff_gt.mpr (EReal.coe_lt_top _)]
        cases f with
        | infinity => exact h.elim
        | notANumber => exact h.elim
        | zero => rfl
        | finite s => cases s <;> rfl
    · unfold ext
      rw [ea, eb]
      cases s <;> cases s'
      · show _ = some (compare (⊥ : EReal) ⊥); rw [compare_eq_iff_eq.mpr rfl]; rfl
      · show _ = some (compare (⊥ : EReal) ⊤); rw [compare_lt_iff_lt.mpr bot_lt_top]; rfl
      · show _ = some (compare (⊤ : EReal) ⊥); rw [compare_gt_iff_gt.mpr bot_lt_top]; rfl
      · show _ = some (compare (⊤ : EReal) ⊤); rw [compare_eq_iff_eq.mpr rfl]; rfl

theorem lt_ext {a b : Float} (ha : ¬ IsNaN a) (hb : ¬ IsNaN b) : a < b ↔ ext a < ext b := by
  rw [lt_unpack, UnpackedFloat.lt, compare_ext ha hb, ← compare_lt_iff_lt]
  generalize compare (ext a) (ext b) = o
  cases o <;> simp

theorem le_ext {a b : Float} (ha : ¬ IsNaN a) (hb : ¬ IsNaN b) : a ≤ b ↔ ext a ≤ ext b := by
  rw [le_unpack, UnpackedFloat.le, compare_ext ha hb, ← not_lt, ← compare_gt_iff_gt]
  generalize compare (ext a) (ext b) = o
  cases o <;> simp

theorem compare_nan_right (f : UnpackedFloat) : UnpackedFloat.compare f .notANumber = none := by cases f <;> rfl

/-- Comparisons with NaN are false. -/
theorem nan_of_le {a b : Float} (h : a ≤ b) : ¬ IsNaN a ∧ ¬ IsNaN b := by
  rw [le_unpack, UnpackedFloat.le] at h
  constructor <;> intro hn
  · rw [isNaN_iff.mp hn] at h; simp [UnpackedFloat.compare] at h
  · rw [isNaN_iff.mp hn, compare_nan_right] at h; simp at h

theorem nan_of_lt {a b : Float} (h : a < b) : ¬ IsNaN a ∧ ¬ IsNaN b := by
  rw [lt_unpack, UnpackedFloat.lt] at h
  constructor <;> intro hn
  · rw [isNaN_iff.mp hn] at h; simp [UnpackedFloat.compare] at h
  · rw [isNaN_iff.mp hn, compare_nan_right] at h; simp at h

theorem not_lt_of {a b : Float} (ha : ¬ IsNaN a) (hb : ¬ IsNaN b) : ¬ a < b ↔ b ≤ a := by
  rw [lt_ext ha hb, le_ext hb ha, not_lt]

theorem le_refl_of {a : Float} (ha : ¬ IsNaN a) : a ≤ a := (le_ext ha ha).mpr le_rfl

theorem le_trans_of {a b c : Float} (h : a ≤ b) (h' : b ≤ c) : a ≤ c := by
  obtain ⟨na, nb⟩ := nan_of_le h
  obtain ⟨_, nc⟩ := nan_of_le h'
  rw [le_ext na nb] at h
  rw [le_ext nb nc] at h'
  exact (le_ext na nc).mpr (h.trans h')

theorem lt_of_le_of_lt_of {a b c : Float} (h : a ≤ b) (h' : b < c) : a < c := by
  obtain ⟨na, nb⟩ := nan_of_le h
  obtain ⟨_, nc⟩ := nan_of_lt h'
  rw [le_ext na nb] at h
  rw [lt_ext nb nc] at h'
  exact (lt_ext na nc).mpr (lt_of_le_of_lt h h')

theorem lt_irrefl_of (a : Float) : ¬ a < a := by
  intro h
  exact lt_irrefl _ ((lt_ext (nan_of_lt h).1 (nan_of_lt h).2).mp h)

theorem le_of_lt_of {a b : Float} (h : a < b) : a ≤ b := by
  obtain ⟨na, nb⟩ := nan_of_lt h
  exact (le_ext na nb).mpr ((lt_ext na nb).mp h).le

theorem le_total_of {a b : Float} (ha : ¬ IsNaN a) (hb : ¬ IsNaN b) : a ≤ b ∨ b ≤ a := by
  rw [le_ext ha hb, le_ext hb ha]; exact le_total _ _

end Geom3d.F64
