import Verif.Lemmas.F64Round

/-!
# Packing and unpacking binary64 numbers
-/

namespace Geom3d.F64
open Float.Model Float.Model.UnpackedFloat

theorem unpackSign_packComponents {spec : Format} {s : Sign} {e m} :
    unpackSign (packComponents spec s e m) = s.toBitVec := by
  ext i hi
  have : i = 0 := by omega
  subst this
  simp [unpackSign, packComponents, BitVec.getLsbD_append, BitVec.getLsbD_eq_getElem, BitVec.getElem_append]

theorem ofBitVec_toBitVec (s : Sign) : Sign.ofBitVec s.toBitVec = s := by
  cases s <;> rfl

/-- Canonical and not too large. -/
def Fits : UnpackedFloat → Prop
  | .finite s m e h => Canon (.finite s m e h) ∧ e ≤ 971
  | .zero _ => True
  | _ => False

theorem Fits.canon {f : UnpackedFloat} (h : Fits f) : Canon f := by
  cases f <;> first | trivial | exact h.1

theorem Fits.finite {f : UnpackedFloat} (h : Fits f) : f.isFinite = true := by
  cases f <;> first | rfl | exact h.elim

theorem unpack_pack {f : UnpackedFloat} (h : Fits f) : UnpackedFloat.unpack .binary64 (UnpackedFloat.pack .binary64 f) = f := by
  cases f with
  | infinity s => exact h.elim
  | notANumber => exact h.elim
  | zero s =>
    simp only [UnpackedFloat.pack, packedZero, UnpackedFloat.unpack, unpackExponent_packComponents, unpackMantissa_packComponents,
      unpackSign_packComponents, ofBitVec_toBitVec]
    rfl
  | finite s m e hm =>
    obtain ⟨⟨h1, h2, h3⟩, h4⟩ := h
    have hb : (e + (Format.binary64.exponentBias : Int) + (52 : Nat)).toNat = (e + 1075).toNat := by
      rw [show Format.binary64.exponentBias = 1023 from rfl]
      omega
    obtain ⟨b, hbe⟩ : ∃ b : Nat, (e + 1075).toNat = b := ⟨_, rfl⟩
    have hb1 : 1 ≤ b := by omega
    have hb2 : b ≤ 2046 := by omega
    have hlog : 2 ^ 52 ≤ m ↔ m.log2 + 1 = 53 := by
      constructor
      · intro h
        have h5 := (Nat.le_log2 hm.ne').mpr h
        have h6 := (Nat.log2_lt hm.ne').mpr h1
        omega
      · intro h
        exact (Nat.le_log2 hm.ne').mp (by omega)
    simp only [UnpackedFloat.pack]
    rw [hb, hbe, if_neg (by norm_num; omega), show Format.binary64.mantissaBits = 53 from rfl]
    by_cases hn : m.log2 + 1 = 53
    · rw [if_pos hn]
      have hm52 := hlog.mpr hn
      simp only [UnpackedFloat.unpack, unpackExponent_packComponents, unpackMantissa_packComponents, unpackSign_packComponents,
        ofBitVec_toBitVec]
      have he1 : (BitVec.ofNat 11 b) ≠ -1#11 := by
        intro hc
        have := congrArg BitVec.toNat hc
        simp at this
        omega
      have he2 : (BitVec.ofNat 11 b) ≠ 0#11 := by
        intro hc
        have := congrArg BitVec.toNat hc
        simp at this
        omega
      rw [if_neg he1, if_neg he2]
      have hmm : (1#1 ++ BitVec.ofNat 52 m).toNat = m := by
        rw [BitVec.toNat_append]
        simp only [BitVec.toNat_ofNat]
        rw [← Nat.shiftLeft_add_eq_or_of_lt (Nat.mod_lt _ (by norm_num))]
        rw [Nat.shiftLeft_eq]
        omega
      have hee : (((BitVec.ofNat 11 b).toNat : Int) - ((Format.binary64.exponentBias : Int) + (52 : Nat))) = e := by
        rw [show Format.binary64.exponentBias = 1023 from rfl, BitVec.toNat_ofNat, Nat.mod_eq_of_lt (by norm_num; omega)]
        omega
      simp only [UnpackedFloat.finite.injEq, true_and]
      exact ⟨hmm, hee⟩
    · rw [if_neg hn]
      have he : e = -1074 := h3.resolve_left fun h => hn (hlog.mp h)
      have hm52 : m < 2 ^ 52 := not_le.mp fun h => hn (hlog.mp h)
      simp only [UnpackedFloat.unpack, unpackExponent_packComponents, unpackMantissa_packComponents, unpackSign_packComponents,
        ofBitVec_toBitVec]
      have h0 : (0#11 : BitVec 11) ≠ -1#11 := by decide
      have hm0 : (BitVec.ofNat 52 m) ≠ 0#52 := by
        intro hc
        have := congrArg BitVec.toNat hc
        simp at this
        omega
      have hmn : (BitVec.ofNat 52 m).toNat = m := by
        rw [BitVec.toNat_ofNat, Nat.mod_eq_of_lt (by norm_num at hm52 ⊢; omega)]
      rw [if_neg h0, if_pos trivial, dif_neg hm0]
      simp only [UnpackedFloat.finite.injEq, true_and]
      exact ⟨hmn, by rw [he]; rfl⟩

theorem unpack_fits (b : BitVec 64) (h : (UnpackedFloat.unpack .binary64 b).isFinite = true) : Fits (UnpackedFloat.unpack .binary64 b) := by
  revert h
  simp only [UnpackedFloat.unpack]
  split
  · split <;> intro h <;> simp [UnpackedFloat.isFinite] at h
  · rename_i hne
    split
    · split
      · intro _
        trivial
      · rename_i h0 hm
        intro _
        rw [h0]
        refine ⟨⟨?_, ?_, ?_⟩, ?_⟩
        · have := (unpackMantissa (spec := .binary64) b).isLt
          norm_num at this ⊢
          omega
        · decide
        · right
          rfl
        · decide
    · rename_i h0
      intro _
      have hlt := (unpackExponent (spec := .binary64) b).isLt
      have hm := (unpackMantissa (spec := .binary64) b).isLt
      have h1 : (unpackExponent (spec := .binary64) b).toNat ≠ 0 := fun hc => h0 (BitVec.eq_of_toNat_eq (by simpa using hc))
      have h2 : (unpackExponent (spec := .binary64) b).toNat ≠ 2047 := by
        intro hc
        apply hne
        apply BitVec.eq_of_toNat_eq
        rw [hc]
        rfl
      have hmm : (1#1 ++ unpackMantissa (spec := .binary64) b).toNat
          = 2 ^ 52 + (unpackMantissa (spec := .binary64) b).toNat := by
        rw [BitVec.toNat_append, ← Nat.shiftLeft_add_eq_or_of_lt hm]
        rw [Nat.shiftLeft_eq]
        simp
      refine ⟨⟨?_, ?_, ?_⟩, ?_⟩
      · rw [hmm]
        norm_num at hm ⊢
        omega
      · rw [show Format.binary64.exponentBias = 1023 from rfl]
        norm_num
        omega
      · left
        rw [hmm]
        omega
      · rw [show Format.binary64.exponentBias = 1023 from rfl]
        norm_num at hlt ⊢
        omega

end Geom3d.F64
