import Verif.Lemmas.Tab
import Verif.Model.Curve
import Mathlib.Algebra.Module.Defs
import Mathlib.Algebra.Module.BigOperators
import Mathlib.Algebra.BigOperators.Group.Finset.Basic
import Mathlib.Algebra.Field.Defs
import Mathlib.Algebra.Module.LinearMap.Defs
import Mathlib.Tactic.Ring
import Mathlib.Tactic.Module
import Mathlib.Tactic.Abel

/-! Points as vectors over a field: the `glam` operators are the module operations. -/

set_option linter.unusedSectionVars false

namespace Geom3d

/-- The bare products used by the model are scalar multiplication. -/
class LawfulPoint (K P : Type) [Field K] [AddCommGroup P] [Module K P] [HMul K P P] [HMul P K P] : Prop where
  left : ∀ (b : K) (p : P), b * p = b • p
  right : ∀ (p : P) (b : K), p * b = b • p

section
variable {K : Type} [Field K]

@[simp] theorem V3.add_x (a b : V3 K) : (a + b).x = a.x + b.x := rfl
@[simp] theorem V3.add_y (a b : V3 K) : (a + b).y = a.y + b.y := rfl
@[simp] theorem V3.add_z (a b : V3 K) : (a + b).z = a.z + b.z := rfl
@[simp] theorem V3.sub_x (a b : V3 K) : (a - b).x = a.x - b.x := rfl
@[simp] theorem V3.sub_y (a b : V3 K) : (a - b).y = a.y - b.y := rfl
@[simp] theorem V3.sub_z (a b : V3 K) : (a - b).z = a.z - b.z := rfl
@[simp] theorem V3.neg_x (a : V3 K) : (-a).x = -a.x := rfl
@[simp] theorem V3.neg_y (a : V3 K) : (-a).y = -a.y := rfl
@[simp] theorem V3.neg_z (a : V3 K) : (-a).z = -a.z := rfl
@[simp] theorem V3.zero_x : (0 : V3 K).x = 0 := rfl
@[simp] theorem V3.zero_y : (0 : V3 K).y = 0 := rfl
@[simp] theorem V3.zero_z : (0 : V3 K).z = 0 := rfl
@[simp] theorem V3.lmul_x (s : K) (a : V3 K) : (s * a).x = s * a.x := rfl
@[simp] theorem V3.lmul_y (s : K) (a : V3 K) : (s * a).y = s * a.y := rfl
@[simp] theorem V3.lmul_z (s : K) (a : V3 K) : (s * a).z = s * a.z := rfl
@[simp] theorem V3.rmul_x (s : K) (a : V3 K) : (a * s).x = a.x * s := rfl
@[simp] theorem V3.rmul_y (s : K) (a : V3 K) : (a * s).y = a.y * s := rfl
@[simp] theorem V3.rmul_z (s : K) (a : V3 K) : (a * s).z = a.z * s := rfl
@[simp] theorem V3.div_x (s : K) (a : V3 K) : (a / s).x = a.x / s := rfl
@[simp] theorem V3.div_y (s : K) (a : V3 K) : (a / s).y = a.y / s := rfl
@[simp] theorem V3.div_z (s : K) (a : V3 K) : (a / s).z = a.z / s := rfl

@[simp] theorem V4.add_x (a b : V4 K) : (a + b).x = a.x + b.x := rfl
@[simp] theorem V4.add_y (a b : V4 K) : (a + b).y = a.y + b.y := rfl
@[simp] theorem V4.add_z (a b : V4 K) : (a + b).z = a.z + b.z := rfl
@[simp] theorem V4.add_w (a b : V4 K) : (a + b).w = a.w + b.w := rfl
@[simp] theorem V4.sub_x (a b : V4 K) : (a - b).x = a.x - b.x := rfl
@[simp] theorem V4.sub_y (a b : V4 K) : (a - b).y = a.y - b.y := rfl
@[simp] theorem V4.sub_z (a b : V4 K) : (a - b).z = a.z - b.z := rfl
@[simp] theorem V4.sub_w (a b : V4 K) : (a - b).w = a.w - b.w := rfl
@[simp] theorem V4.zero_x : (0 : V4 K).x = 0 := rfl
@[simp] theorem V4.zero_y : (0 : V4 K).y = 0 := rfl
@[simp] theorem V4.zero_z : (0 : V4 K).z = 0 := rfl
@[simp] theorem V4.zero_w : (0 : V4 K).w = 0 := rfl
@[simp] theorem V4.lmul_x (s : K) (a : V4 K) : (s * a).x = s * a.x := rfl
@[simp] theorem V4.lmul_y (s : K) (a : V4 K) : (s * a).y = s * a.y := rfl
@[simp] theorem V4.lmul_z (s : K) (a : V4 K) : (s * a).z = s * a.z := rfl
@[simp] theorem V4.lmul_w (s : K) (a : V4 K) : (s * a).w = s * a.w := rfl
@[simp] theorem V4.rmul_x (s : K) (a : V4 K) : (a * s).x = a.x * s := rfl
@[simp] theorem V4.rmul_y (s : K) (a : V4 K) : (a * s).y = a.y * s := rfl
@[simp] theorem V4.rmul_z (s : K) (a : V4 K) : (a * s).z = a.z * s := rfl
@[simp] theorem V4.rmul_w (s : K) (a : V4 K) : (a * s).w = a.w * s := rfl

@[simp] theorem V2.add_x (a b : V2 K) : (a + b).x = a.x + b.x := rfl
@[simp] theorem V2.add_y (a b : V2 K) : (a + b).y = a.y + b.y := rfl
@[simp] theorem V2.sub_x (a b : V2 K) : (a - b).x = a.x - b.x := rfl
@[simp] theorem V2.sub_y (a b : V2 K) : (a - b).y = a.y - b.y := rfl
@[simp] theorem V2.zero_x : (0 : V2 K).x = 0 := rfl
@[simp] theorem V2.zero_y : (0 : V2 K).y = 0 := rfl
@[simp] theorem V2.lmul_x (s : K) (a : V2 K) : (s * a).x = s * a.x := rfl
@[simp] theorem V2.lmul_y (s : K) (a : V2 K) : (s * a).y = s * a.y := rfl
@[simp] theorem V2.rmul_x (s : K) (a : V2 K) : (a * s).x = a.x * s := rfl
@[simp] theorem V2.rmul_y (s : K) (a : V2 K) : (a * s).y = a.y * s := rfl
@[simp] theorem V2.div_x (s : K) (a : V2 K) : (a / s).x = a.x / s := rfl
@[simp] theorem V2.div_y (s : K) (a : V2 K) : (a / s).y = a.y / s := rfl

instance : SMul K (V3 K) := ⟨fun s a => s * a⟩
instance : SMul K (V4 K) := ⟨fun s a => s * a⟩
@[simp] theorem V3.smul_x (s : K) (a : V3 K) : (s • a).x = s * a.x := rfl
@[simp] theorem V3.smul_y (s : K) (a : V3 K) : (s • a).y = s * a.y := rfl
@[simp] theorem V3.smul_z (s : K) (a : V3 K) : (s • a).z = s * a.z := rfl
@[simp] theorem V4.smul_x (s : K) (a : V4 K) : (s • a).x = s * a.x := rfl
@[simp] theorem V4.smul_y (s : K) (a : V4 K) : (s • a).y = s * a.y := rfl
@[simp] theorem V4.smul_z (s : K) (a : V4 K) : (s • a).z = s * a.z := rfl
@[simp] theorem V4.smul_w (s : K) (a : V4 K) : (s • a).w = s * a.w := rfl

instance : Neg (V4 K) := ⟨fun a => ⟨-a.x, -a.y, -a.z, -a.w⟩⟩

instance : AddCommGroup (V3 K) where
  add_assoc a b c := by ext <;> simp [add_assoc]
  zero_add a := by ext <;> simp
  add_zero a := by ext <;> simp
  add_comm a b := by ext <;> simp [add_comm]
  neg_add_cancel a := by ext <;> simp
  sub_eq_add_neg a b := by ext <;> simp [sub_eq_add_neg]
  nsmul := nsmulRec
  zsmul := zsmulRec

instance : Module K (V3 K) where
  one_smul a := by ext <;> simp
  mul_smul r s a := by ext <;> simp [mul_assoc]
  smul_zero r := by ext <;> simp
  smul_add r a b := by ext <;> simp [mul_add]
  add_smul r s a := by ext <;> simp [add_mul]
  zero_smul a := by ext <;> simp

instance : AddCommGroup (V4 K) where
  add_assoc a b c := by ext <;> simp [add_assoc]
  zero_add a := by ext <;> simp
  add_zero a := by ext <;> simp
  add_comm a b := by ext <;> simp [add_comm]
  neg_add_cancel a := by
    ext
    · exact neg_add_cancel a.x
    · exact neg_add_cancel a.y
    · exact neg_add_cancel a.z
    · exact neg_add_cancel a.w
  sub_eq_add_neg a b := by
    ext
    · exact sub_eq_add_neg a.x b.x
    · exact sub_eq_add_neg a.y b.y
    · exact sub_eq_add_neg a.z b.z
    · exact sub_eq_add_neg a.w b.w
  nsmul := nsmulRec
  zsmul := zsmulRec

instance : Module K (V4 K) where
  one_smul a := by ext <;> simp
  mul_smul r s a := by ext <;> simp [mul_assoc]
  smul_zero r := by ext <;> simp
  smul_add r a b := by ext <;> simp [mul_add]
  add_smul r s a := by ext <;> simp [add_mul]
  zero_smul a := by ext <;> simp

instance : LawfulPoint K (V3 K) where
  left _ _ := rfl
  right p b := by ext <;> simp [mul_comm]

instance : LawfulPoint K (V4 K) where
  left _ _ := rfl
  right p b := by ext <;> simp [mul_comm]

instance : LawfulPoint K K where
  left _ _ := rfl
  right p b := by simp [mul_comm]

/-- Coordinates as linear maps. -/
def V3.xL : V3 K →ₗ[K] K := ⟨⟨V3.x, fun _ _ => rfl⟩, fun _ _ => rfl⟩
def V3.yL : V3 K →ₗ[K] K := ⟨⟨V3.y, fun _ _ => rfl⟩, fun _ _ => rfl⟩
def V3.zL : V3 K →ₗ[K] K := ⟨⟨V3.z, fun _ _ => rfl⟩, fun _ _ => rfl⟩
def V4.wL : V4 K →ₗ[K] K := ⟨⟨V4.w, fun _ _ => rfl⟩, fun _ _ => rfl⟩
def V4.truncL : V4 K →ₗ[K] V3 K := ⟨⟨V4.truncate, fun _ _ => rfl⟩, fun _ _ => rfl⟩

end

section
variable {K P : Type} [Field K] [AddCommGroup P] [Module K P] [HMul K P P] [HMul P K P] [LawfulPoint K P]

/-- Control points extended by zero beyond the end of the list. -/
def cp (l : List P) (i : Nat) : P := l.getD i 0

theorem cp_of_le {l : List P} {i : Nat} (h : l.length ≤ i) : cp l i = 0 := by
  simp [cp, List.getD, List.getElem?_eq_none h]

theorem cp_getElem {l : List P} {i : Nat} (h : i < l.length) : l[i] = cp l i := by
  simp [cp, List.getD, h]

theorem linComb_foldl (w : List K) (l : List P) (acc : P) :
    (w.zip l).foldl (fun point bp => point + bp.1 * bp.2) acc
      = acc + (w.zip l).foldl (fun point bp => point + bp.1 * bp.2) 0 := by
  generalize w.zip l = z
  induction z generalizing acc with
  | nil => simp
  | cons a z ih => simp only [List.foldl_cons]; rw [ih, ih (0 + _)]; abel

theorem linComb_cons (b : K) (w : List K) (p : P) (l : List P) :
    linComb (b :: w) (p :: l) = b • p + linComb w l := by
  unfold linComb
  rw [List.zip_cons_cons, List.foldl_cons, linComb_foldl, LawfulPoint.left, zero_add]

/-- The accumulation loop is the weighted sum of the (zero-extended) control points. -/
theorem linComb_tab (m : Nat) (w : Nat → K) (l : List P) :
    linComb (tab m w) l = ∑ i ∈ Finset.range m, w i • cp l i := by
  induction m generalizing w l with
  | zero => simp [tab, linComb]
  | succ m ih =>
    have e : tab (m + 1) w = w 0 :: tab m (fun i => w (i + 1)) := by
      simp only [tab, List.range_succ_eq_map, List.map_cons, List.map_map]; rfl
    rw [e, Finset.sum_range_succ']
    cases l with
    | nil => simp [linComb, cp]
    | cons p l =>
      rw [linComb_cons, ih, add_comm]
      congr 1

end

end Geom3d
