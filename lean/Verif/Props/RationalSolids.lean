import Verif.Props.AnySolids
import Verif.Props.Symmetry
import Verif.Props.Rational

/-!
# Rational Bézier patches: area and volume (C172)

The tangents of rational patches with positive weights are bounded and Lipschitz.  So the areas of their meshes converge, and sets of such
patches whose homogeneous sides match have watertight meshes whose volume tends to that of the solid.
-/

set_option linter.unusedSectionVars false

namespace Geom3d
open Spec

/-- The quotient of a vector function and the first coordinate of another. -/
noncomputable def Spec.projected (N W : ℝ → ℝ → V3 ℝ) (u v : ℝ) : V3 ℝ := (1 / (W u v).x) • N u v

/-- The derivative of the quotient, from the derivatives of both. -/
noncomputable def Spec.projectedD (N W N' W' : ℝ → ℝ → V3 ℝ) (u v : ℝ) : V3 ℝ :=
  (1 / (W u v).x) • (N' u v - (W' u v).x • projected N W u v)

namespace Projection

theorem abs_x_le (a : V3 ℝ) : |a.x| ≤ a.length := by
  have h := Deviation.abs_dot_le (w := ⟨1, 0, 0⟩) (le_refl a.length)
  have e : (⟨1, 0, 0⟩ : V3 ℝ).dot a = a.x := by simp [V3.dot]
  have e' : (⟨1, 0, 0⟩ : V3 ℝ).length = 1 := by rw [V3.length_eq]; simp [V3.dot]
  rw [e, e', one_mul] at h
  exact h

theorem deriv {n W : ℝ → V3 ℝ} {n' W' : V3 ℝ} {s : Set ℝ} {x : ℝ}
    (hn : ∀ w : V3 ℝ, HasDerivWithinAt (fun x => w.dot (n x)) (w.dot n') s x)
    (hW : ∀ w : V3 ℝ, HasDerivWithinAt (fun x => w.dot (W x)) (w.dot W') s x) (h0 : (W x).x ≠ 0) (w : V3 ℝ) :
    HasDerivWithinAt (fun x => w.dot ((1 / (W x).x) • n x)) (w.dot ((1 / (W x).x) • (n' - W'.x • ((1 / (W x).x) • n x)))) s x := by
  have e : ∀ a : V3 ℝ, (⟨1, 0, 0⟩ : V3 ℝ).dot a = a.x := fun a => by simp [V3.dot]
  have hx := hW ⟨1, 0, 0⟩
  simp only [e] at hx
  have h := (hn w).div hx h0
  have ef : (fun x => w.dot ((1 / (W x).x) • n x)) = fun x => w.dot (n x) / (W x).x := by
    funext y
    rw [V3.dot_smul]
    ring
  rw [ef]
  refine h.congr_deriv ?_
  rw [V3.dot_smul, V3.dot_sub, V3.dot_smul, V3.dot_smul]
  field_simp

/-- Bounds from a multiple. -/
theorem le_of_smul {t ω b : ℝ} {x : V3 ℝ} (hω : 0 < ω) (ht : ω ≤ t) (hb : 0 ≤ b) (h : (t • x).length ≤ ω * b) : x.length ≤ b := by
  rw [V3.length_smul, abs_of_pos (hω.trans_le ht)] at h
  by_contra hc
  rw [not_le] at hc
  have := V3.length_nonneg x
  nlinarith

theorem sub_le (a b : V3 ℝ) : (a - b).length ≤ a.length + b.length := by
  rw [sub_eq_add_neg]
  refine (V3.length_add_le _ _).trans ?_
  rw [V3.length_neg]

theorem smul_le {a A B : ℝ} {x : V3 ℝ} (ha : |a| ≤ A) (hx : x.length ≤ B) : (a • x).length ≤ A * B := by
  rw [V3.length_smul]
  exact mul_le_mul ha hx (V3.length_nonneg _) ((abs_nonneg _).trans ha)

variable {N W : ℝ → ℝ → V3 ℝ} {u0 u1 v0 v1 ω ρ Ln Lw Mn Mw L M : ℝ}

theorem unproject {u v : ℝ} (hω : 0 < ω) (hw : ω ≤ (W u v).x) : (W u v).x • projected N W u v = N u v := by
  have : (W u v).x ≠ 0 := (hω.trans_le hw).ne'
  unfold projected
  rw [smul_smul, mul_one_div_cancel this, one_smul]

theorem unprojectD {N' W' : ℝ → ℝ → V3 ℝ} {u v : ℝ} (hω : 0 < ω) (hw : ω ≤ (W u v).x) :
    (W u v).x • projectedD N W N' W' u v = N' u v - (W' u v).x • projected N W u v := by
  have : (W u v).x ≠ 0 := (hω.trans_le hw).ne'
  unfold projectedD
  rw [smul_smul, mul_one_div_cancel this, one_smul]

theorem projectedD_le {N' W' : ℝ → ℝ → V3 ℝ} {u v : ℝ} (hω : 0 < ω) (hw : ω ≤ (W u v).x) (hρ : (projected N W u v).length ≤ ρ)
    (hN : (N' u v).length ≤ Ln) (hW : (W' u v).length ≤ Lw) (hL0 : 0 ≤ L) (hL : Ln + ρ * Lw ≤ ω * L) :
    (projectedD N W N' W' u v).length ≤ L := by
  apply le_of_smul hω hw hL0
  rw [unprojectD hω hw]
  refine (sub_le _ _).trans ?_
  have := smul_le ((abs_x_le _).trans hW) hρ
  linarith

theorem projected_lip {u v u' v' d : ℝ} (hω : 0 < ω) (hw : ω ≤ (W u v).x) (hw' : ω ≤ (W u' v').x) (hρ : (projected N W u' v').length ≤ ρ)
    (hN : (N u v - N u' v').length ≤ Ln * d) (hW : (W u v - W u' v').length ≤ Lw * d) (hd : 0 ≤ d) (hL0 : 0 ≤ L) (hL : Ln + ρ * Lw ≤ ω * L) :
    (projected N W u v - projected N W u' v').length ≤ L * d := by
  apply le_of_smul hω hw (mul_nonneg hL0 hd)
  have e : (W u v).x • (projected N W u v - projected N W u' v') = (N u v - N u' v') - (W u v - W u' v').x • projected N W u' v' := by
    rw [smul_sub, unproject hω hw, ← unproject (N := N) hω hw', V3.sub_x]
    module
  rw [e]
  refine (sub_le _ _).trans ?_
  have := smul_le ((abs_x_le _).trans hW) hρ
  nlinarith

theorem projectedD_lip {N' W' : ℝ → ℝ → V3 ℝ} {u v u' v' d : ℝ} (hω : 0 < ω) (hw : ω ≤ (W u v).x) (hw' : ω ≤ (W u' v').x)
    (hρ : (projected N W u v).length ≤ ρ) (hS : (projected N W u v - projected N W u' v').length ≤ L * d)
    (hD : (projectedD N W N' W' u' v').length ≤ L) (hW : (W u v - W u' v').length ≤ Lw * d) (hW' : (W' u' v').length ≤ Lw)
    (hN2 : (N' u v - N' u' v').length ≤ Mn * d) (hW2 : (W' u v - W' u' v').length ≤ Mw * d) (hd : 0 ≤ d) (hM0 : 0 ≤ M)
    (hM : Mn + ρ * Mw + 2 * (Lw * L) ≤ ω * M) :
    (projectedD N W N' W' u v - projectedD N W N' W' u' v').length ≤ M * d := by
  apply le_of_smul hω hw (mul_nonneg hM0 hd)
  have e : (W u v).x • (projectedD N W N' W' u v - projectedD N W N' W' u' v') =
      (N' u v - N' u' v') - (W' u v - W' u' v').x • projected N W u v - (W' u' v').x • (projected N W u v - projected N W u' v') -
        (W u v - W u' v').x • projectedD N W N' W' u' v' := by
    have e2 := unprojectD (N := N) (N' := N') (W' := W') hω hw'
    have e3 : (W u v).x • projectedD N W N' W' u' v' = (W u v - W u' v').x • projectedD N W N' W' u' v' + (W u' v').x • projectedD N W N' W' u' v' := by
      rw [V3.sub_x, ← add_smul, sub_add_cancel]
    rw [smul_sub, unprojectD hω hw, e3, e2, V3.sub_x, V3.sub_x]
    module
  rw [e]
  refine (sub_le _ _).trans ((add_le_add (sub_le _ _) le_rfl).trans ((add_le_add (add_le_add (sub_le _ _) le_rfl) le_rfl).trans ?_))
  have k1 := smul_le ((abs_x_le _).trans hW2) hρ
  have k2 := smul_le ((abs_x_le _).trans hW') hS
  have k3 := smul_le ((abs_x_le _).trans hW) hD
  nlinarith

end Projection

open Projection

/-- **C172** The quotient of a surface with Lipschitz tangents and a weight of at least `ω` has Lipschitz tangents. -/
theorem C172_tangents {N Nu Nv W Wu Wv : ℝ → ℝ → V3 ℝ} {u0 u1 v0 v1 ω ρ Ln Lw Mn Mw L M : ℝ}
    (hN : Tangents N Nu Nv (u0, u1) (v0, v1) Ln Mn) (hW : Tangents W Wu Wv (u0, u1) (v0, v1) Lw Mw) (hω : 0 < ω)
    (hw : ∀ u ∈ Set.Icc u0 u1, ∀ v ∈ Set.Icc v0 v1, ω ≤ (W u v).x)
    (hρ : ∀ u ∈ Set.Icc u0 u1, ∀ v ∈ Set.Icc v0 v1, (projected N W u v).length ≤ ρ) (hL0 : 0 ≤ L) (hM0 : 0 ≤ M)
    (hL : Ln + ρ * Lw ≤ ω * L) (hM : Mn + ρ * Mw + 2 * (Lw * L) ≤ ω * M) :
    Tangents (projected N W) (projectedD N W Nu Wu) (projectedD N W Nv Wv) (u0, u1) (v0, v1) L M := by
  have hS : ∀ u ∈ Set.Icc u0 u1, ∀ v ∈ Set.Icc v0 v1, ∀ u' ∈ Set.Icc u0 u1, ∀ v' ∈ Set.Icc v0 v1,
      (projected N W u v - projected N W u' v').length ≤ L * (|u - u'| + |v - v'|) := fun u hu v hv u' hu' v' hv' =>
    projected_lip hω (hw u hu v hv) (hw u' hu' v' hv') (hρ u' hu' v' hv') (Volume.point_lip hN hu hv hu' hv')
      (Volume.point_lip hW hu hv hu' hv') (by positivity) hL0 hL
  refine ⟨fun u hu v hv w => ?_, fun u hu v hv w => ?_, fun u hu v hv => ?_, fun u hu v hv => ?_, fun u hu v hv u' hu' v' hv' => ?_,
    fun u hu v hv u' hu' v' hv' => ?_⟩
  · exact deriv (n := fun x => N x v) (W := fun x => W x v) (hN.du u hu v hv) (hW.du u hu v hv) (hω.trans_le (hw u hu v hv)).ne' w
  · exact deriv (n := fun y => N u y) (W := fun y => W u y) (hN.dv u hu v hv) (hW.dv u hu v hv) (hω.trans_le (hw u hu v hv)).ne' w
  · exact projectedD_le hω (hw u hu v hv) (hρ u hu v hv) (hN.su_le u hu v hv) (hW.su_le u hu v hv) hL0 hL
  · exact projectedD_le hω (hw u hu v hv) (hρ u hu v hv) (hN.sv_le u hu v hv) (hW.sv_le u hu v hv) hL0 hL
  · exact projectedD_lip hω (hw u hu v hv) (hw u' hu' v' hv') (hρ u hu v hv) (hS u hu v hv u' hu' v' hv')
      (projectedD_le hω (hw u' hu' v' hv') (hρ u' hu' v' hv') (hN.su_le u' hu' v' hv') (hW.su_le u' hu' v' hv') hL0 hL)
      (Volume.point_lip hW hu hv hu' hv') (hW.su_le u' hu' v' hv') (hN.su_lip u hu v hv u' hu' v' hv') (hW.su_lip u hu v hv u' hu' v' hv')
      (by positivity) hM0 hM
  · exact projectedD_lip hω (hw u hu v hv) (hw u' hu' v' hv') (hρ u hu v hv) (hS u hu v hv u' hu' v' hv')
      (projectedD_le hω (hw u' hu' v' hv') (hρ u' hu' v' hv') (hN.sv_le u' hu' v' hv') (hW.sv_le u' hu' v' hv') hL0 hL)
      (Volume.point_lip hW hu hv hu' hv') (hW.sv_le u' hu' v' hv') (hN.sv_lip u hu v hv u' hu' v' hv') (hW.sv_lip u hu v hv u' hu' v' hv')
      (by positivity) hM0 hM

/-! ### Rational patches -/

/-- The points of a homogeneous net, times their weights. -/
def Spec.scaledNet (g : Grid (V4 ℝ)) (i j : Nat) : V3 ℝ := (entry g i j).truncate

/-- The weights of a homogeneous net, as first coordinates. -/
def Spec.weightNet (g : Grid (V4 ℝ)) (i j : Nat) : V3 ℝ := ⟨(entry g i j).w, 0, 0⟩

/-- A rational patch. -/
noncomputable def Spec.rationalPiece (g : Grid (V4 ℝ)) (a b : Nat) : Piece :=
  ⟨(BezierSurface.mk g).surfaceRational,
    projected (patchPoint (g.rows - 1) (g.cols - 1) (scaledNet g)) (patchPoint (g.rows - 1) (g.cols - 1) (weightNet g)),
    projectedD (patchPoint (g.rows - 1) (g.cols - 1) (scaledNet g)) (patchPoint (g.rows - 1) (g.cols - 1) (weightNet g))
      (patchU (g.rows - 1) (g.cols - 1) (scaledNet g)) (patchU (g.rows - 1) (g.cols - 1) (weightNet g)),
    projectedD (patchPoint (g.rows - 1) (g.cols - 1) (scaledNet g)) (patchPoint (g.rows - 1) (g.cols - 1) (weightNet g))
      (patchV (g.rows - 1) (g.cols - 1) (scaledNet g)) (patchV (g.rows - 1) (g.cols - 1) (weightNet g)), (0, 1), (0, 1), a, b⟩

/-- A homogeneous net of degrees at most `k`, with weights from `ω` to `T` and points within `Q` of the origin when multiplied by them. -/
structure Spec.SmallRational (g : Grid (V4 ℝ)) (k : Nat) (Q T ω : ℝ) : Prop where
  ok : NetOk g
  rows : 1 ≤ g.rows ∧ g.rows ≤ k + 1
  cols : 1 ≤ g.cols ∧ g.cols ≤ k + 1
  near : ∀ i j, i < g.rows → j < g.cols → (entry g i j).truncate.length ≤ Q
  weights : ∀ i j, i < g.rows → j < g.cols → ω ≤ (entry g i j).w ∧ (entry g i j).w ≤ T

namespace Projection

theorem sum_x {ι : Type} (s : Finset ι) (f : ι → V3 ℝ) : (∑ i ∈ s, f i).x = ∑ i ∈ s, (f i).x :=
  map_sum (⟨⟨V3.x, rfl⟩, fun _ _ => rfl⟩ : V3 ℝ →+ ℝ) f s

/-- The homogeneous point of a rational patch. -/
theorem homogeneous {g : Grid (V4 ℝ)} (hg : NetOk g) (hr : 1 ≤ g.rows) (hc : 1 ≤ g.cols) (u v : ℝ) :
    ∃ h, (BezierSurface.mk g).getPoint u v = .ok h ∧ h.truncate = patchPoint (g.rows - 1) (g.cols - 1) (scaledNet g) u v ∧
      h.w = (patchPoint (g.rows - 1) (g.cols - 1) (weightNet g) u v).x := by
  refine ⟨_, bezierSurface_getPoint (s := ⟨g⟩) hg hr hc u v, ?_, ?_⟩
  · change V4.truncL (K := ℝ) _ = _
    unfold patchPoint
    rw [map_sum, Nat.sub_add_cancel hr, Nat.sub_add_cancel hc]
    refine Finset.sum_congr rfl fun i _ => ?_
    rw [map_sum]
    refine Finset.sum_congr rfl fun j _ => ?_
    rw [map_smul]
    rfl
  · change V4.wL (K := ℝ) _ = _
    unfold patchPoint
    rw [map_sum, Nat.sub_add_cancel hr, Nat.sub_add_cancel hc, sum_x]
    refine Finset.sum_congr rfl fun i _ => ?_
    rw [map_sum, sum_x]
    refine Finset.sum_congr rfl fun j _ => ?_
    rw [map_smul]
    rfl

theorem rational_point {g : Grid (V4 ℝ)} (hg : NetOk g) (hr : 1 ≤ g.rows) (hc : 1 ≤ g.cols) (u v : ℝ) :
    (BezierSurface.mk g).getPointRational u v = .ok (projected (patchPoint (g.rows - 1) (g.cols - 1) (scaledNet g))
      (patchPoint (g.rows - 1) (g.cols - 1) (weightNet g)) u v) := by
  obtain ⟨h, e1, e2, e3⟩ := homogeneous hg hr hc u v
  unfold BezierSurface.getPointRational
  rw [e1]
  simp only [ok_bind, pure_eq_ok]
  rw [rational_eq, euclid_eq]
  unfold projected
  rw [← e2, ← e3]
  rfl

variable {g : Grid (V4 ℝ)} {k : Nat} {Q T ω : ℝ}

theorem bounds (h : SmallRational g k Q T ω) : 0 ≤ Q ∧ ω ≤ T :=
  ⟨(V3.length_nonneg _).trans (h.near 0 0 h.rows.1 h.cols.1), (h.weights 0 0 h.rows.1 h.cols.1).1.trans (h.weights 0 0 h.rows.1 h.cols.1).2⟩

theorem weight_length (h : SmallRational g k Q T ω) (hω : 0 < ω) {i j : Nat} (hi : i < g.rows) (hj : j < g.cols) :
    (weightNet g i j).length ≤ T := by
  obtain ⟨h1, h2⟩ := h.weights i j hi hj
  have e : weightNet g i j = (entry g i j).w • (⟨1, 0, 0⟩ : V3 ℝ) := by ext <;> simp [weightNet]
  have e' : (⟨1, 0, 0⟩ : V3 ℝ).length = 1 := by rw [V3.length_eq]; simp [V3.dot]
  rw [e, V3.length_smul, e', mul_one, abs_of_pos (hω.trans_le h1)]
  exact h2

/-- The degrees of a net, and the tangents of a patch with points within `Q` of the origin. -/
theorem net_tangents (h : SmallRational g k Q T ω) {P : Nat → Nat → V3 ℝ} {B : ℝ}
    (hP : ∀ i j, i < g.rows → j < g.cols → (P i j).length ≤ B) :
    Tangents (patchPoint (g.rows - 1) (g.cols - 1) P) (patchU (g.rows - 1) (g.cols - 1) P) (patchV (g.rows - 1) (g.cols - 1) P) (0, 1) (0, 1)
      (2 * (k * B)) (4 * (k ^ 2 * B)) := by
  have hr := h.rows
  have hc := h.cols
  have hQ : 0 ≤ B := (V3.length_nonneg _).trans (hP 0 0 hr.1 hc.1)
  obtain ⟨hS, hN⟩ := Solid.slopes (m := g.rows - 1) (n := g.cols - 1) (P := P) (Q := B) (o := 0)
    fun i j hi hj => by rw [sub_zero]; exact hP i j (by omega) (by omega)
  have c1 : ((g.rows - 1 : ℕ) : ℝ) ≤ k := by exact_mod_cast (by omega : g.rows - 1 ≤ k)
  have c2 : ((g.cols - 1 : ℕ) : ℝ) ≤ k := by exact_mod_cast (by omega : g.cols - 1 ≤ k)
  have c3 : ((g.rows - 1 - 1 : ℕ) : ℝ) ≤ k := by exact_mod_cast (by omega : g.rows - 1 - 1 ≤ k)
  have c4 : ((g.cols - 1 - 1 : ℕ) : ℝ) ≤ k := by exact_mod_cast (by omega : g.cols - 1 - 1 ≤ k)
  have two : ∀ x y : ℕ, (x : ℝ) ≤ k → (y : ℝ) ≤ k → (x : ℝ) * y * (4 * B) ≤ 4 * (k ^ 2 * B) := by
    intro x y hx hy
    have : (x : ℝ) * y ≤ k * k := mul_le_mul hx hy (by positivity) (by positivity)
    nlinarith
  refine Area.patch_tangents hS hN ?_ ?_ (two _ _ c1 c3) (two _ _ c1 c2) (two _ _ c2 c4) le_rfl le_rfl le_rfl le_rfl
  · nlinarith
  · nlinarith

theorem weight_ge (h : SmallRational g k Q T ω) {u v : ℝ} (hu : u ∈ Set.Icc (0 : ℝ) 1) (hv : v ∈ Set.Icc (0 : ℝ) 1) :
    ω ≤ (patchPoint (g.rows - 1) (g.cols - 1) (weightNet g) u v).x := by
  have hr := h.rows
  have hc := h.cols
  unfold patchPoint
  rw [Nat.sub_add_cancel hr.1, Nat.sub_add_cancel hc.1, sum_x]
  have e1 := bernsteinPoly_sum (K := ℝ) g.rows hr.1 (u := u)
  have e2 := bernsteinPoly_sum (K := ℝ) g.cols hc.1 (u := v)
  calc ω = ∑ i ∈ Finset.range g.rows, ∑ j ∈ Finset.range g.cols, (bernsteinPoly (g.rows - 1) i u * bernsteinPoly (g.cols - 1) j v) * ω := by
        simp only [← Finset.sum_mul, ← Finset.mul_sum]
        rw [e1, e2]
        ring
    _ ≤ _ := Finset.sum_le_sum fun i hi => by
      rw [sum_x]
      refine Finset.sum_le_sum fun j hj => ?_
      exact mul_le_mul_of_nonneg_left (h.weights i j (Finset.mem_range.1 hi) (Finset.mem_range.1 hj)).1
        (mul_nonneg (bernsteinPoly_nonneg _ _ hu.1 hu.2) (bernsteinPoly_nonneg _ _ hv.1 hv.2))

theorem point_near (h : SmallRational g k Q T ω) (hω : 0 < ω) {u v : ℝ} (hu : u ∈ Set.Icc (0 : ℝ) 1) (hv : v ∈ Set.Icc (0 : ℝ) 1) :
    (projected (patchPoint (g.rows - 1) (g.cols - 1) (scaledNet g)) (patchPoint (g.rows - 1) (g.cols - 1) (weightNet g)) u v).length ≤ Q / ω := by
  have hr := h.rows
  have hc := h.cols
  have hQ := (bounds h).1
  have hw := weight_ge h hu hv
  apply le_of_smul hω hw (by positivity)
  rw [unproject hω hw, mul_div_cancel₀ _ hω.ne']
  exact Area.patch_le hQ (fun i j hi hj => h.near i j (by omega) (by omega)) hu.1 hu.2 hv.1 hv.2

end Projection

/-- **C172** Rational Bézier patches are patches in the sense of C168. -/
theorem C172_sound {g : Grid (V4 ℝ)} {k : Nat} {Q T ω : ℝ} (hω : 0 < ω) (h : SmallRational g k Q T ω) {a b : Nat} (ha : 1 ≤ a) (hb : 1 ≤ b) :
    (rationalPiece g a b).Sound (4 * (k * Q * T / ω ^ 2)) (24 * (k ^ 2 * Q * T ^ 2 / ω ^ 3)) (Q / ω) 0 := by
  obtain ⟨hQ, hT⟩ := bounds h
  have hT0 : 0 ≤ T := hω.le.trans hT
  have q1 : k * Q ≤ k * Q * T / ω := by rw [le_div_iff₀ hω]; exact mul_le_mul_of_nonneg_left hT (by positivity)
  have q2 : k ^ 2 * Q ≤ k ^ 2 * Q * T / ω := by rw [le_div_iff₀ hω]; exact mul_le_mul_of_nonneg_left hT (by positivity)
  have q3 : k ^ 2 * Q * T / ω ≤ k ^ 2 * Q * T ^ 2 / ω ^ 2 := by
    rw [div_le_div_iff₀ hω (by positivity)]
    have := mul_le_mul_of_nonneg_left hT (show 0 ≤ k ^ 2 * Q * T * ω by positivity)
    nlinarith
  refine ⟨fun u v _ _ => rational_point h.ok h.rows.1 h.cols.1 u v, fun us vs _ _ => ⟨[], rfl, Or.inl rfl⟩, ?_,
    fun u hu v hv => by rw [sub_zero]; exact point_near h hω hu hv, ⟨one_pos, one_pos⟩, ha, hb⟩
  refine C172_tangents (net_tangents h (P := scaledNet g) h.near) (net_tangents h (P := weightNet g) fun i j hi hj => weight_length h hω hi hj) hω
    (fun u hu v hv => weight_ge h hu hv) (fun u hu v hv => point_near h hω hu hv) (by positivity) (by positivity) ?_ ?_
  · have e : ω * (4 * (k * Q * T / ω ^ 2)) = 4 * (k * Q * T / ω) := by field_simp
    have e' : Q / ω * (2 * (k * T)) = 2 * (k * Q * T / ω) := by field_simp
    rw [e, e']
    linarith
  · have e : ω * (24 * (k ^ 2 * Q * T ^ 2 / ω ^ 3)) = 24 * (k ^ 2 * Q * T ^ 2 / ω ^ 2) := by field_simp
    have e' : Q / ω * (4 * (k ^ 2 * T)) = 4 * (k ^ 2 * Q * T / ω) := by field_simp
    have e'' : 2 * (2 * (k * T) * (4 * (k * Q * T / ω ^ 2))) = 16 * (k ^ 2 * Q * T ^ 2 / ω ^ 2) := by field_simp; ring
    rw [e, e', e'']
    linarith

/-- **C172** The area of the mesh of a rational patch is near that of the patch. -/
theorem C172_area {g : Grid (V4 ℝ)} {k : Nat} {Q T ω : ℝ} (hω : 0 < ω) (h : SmallRational g k Q T ω) {a b : Nat} (ha : 1 ≤ a) (hb : 1 ≤ b)
    (hsz : (a + 1) * (b + 1) ≤ 2 ^ 32) :
    ∃ mesh ts, (SurfacePatch.mk (BezierSurface.mk g).surfaceRational ((0, 1), (0, 1)) (a, b)).getTriangleMesh = .ok mesh ∧ corners mesh = some ts ∧
      |totalArea ts - surfaceArea (rationalPiece g a b).su (rationalPiece g a b).sv (0, 1) (0, 1)| ≤
        192 * (k ^ 3 * Q ^ 2 * T ^ 3 / ω ^ 5) * (1 / a + 1 / b) := by
  have hs := C172_sound hω h ha hb
  obtain ⟨mesh, ts, h1, h2, h3⟩ := C160_mesh hs.points hs.normals hs.tangents one_pos one_pos ha hb hsz
  refine ⟨mesh, ts, h1, h2, h3.trans (le_of_eq ?_)⟩
  change (1 - 0) * (1 - 0) * (2 * (4 * (k * Q * T / ω ^ 2) * (24 * (k ^ 2 * Q * T ^ 2 / ω ^ 3))) * ((1 - 0) / (a : ℝ) + (1 - 0) / (b : ℝ))) = _
  field_simp
  ring

/-- A list of homogeneous control points with a number of divisions. -/
abbrev Spec.Arc := Nat × List (V4 ℝ)

/-- The same in the other direction. -/
def Spec.Arc.flip (c : Arc) : Arc := (c.1, c.2.reverse)

/-- The homogeneous sides of a rational patch, the way around. -/
noncomputable def Spec.arcs (g : Grid (V4 ℝ)) (a b : Nat) : List Arc :=
  [(a, Side.vStart.points g), (b, Side.uEnd.points g), Arc.flip (a, Side.vEnd.points g), Arc.flip (b, Side.uStart.points g)]

/-- The homogeneous sides match in pairs of opposite direction, or collapse to points, with whatever weights. -/
def Spec.Coupled (l : List Arc) : Prop :=
  ∃ A C : List Arc, l.Perm (A ++ A.map Arc.flip ++ C) ∧ ∀ c ∈ C, ∃ x : V3 ℝ, ∀ p ∈ c.2, p.truncate = p.w • x

namespace Projection

/-- The points of a rational side over the unit interval. -/
noncomputable def border (c : Arc) : Border := (c.1, fun t => valOf ((BezierCurve.mk c.2).getPointRational (t : ℝ)))

/-- What is needed of a rational side. -/
def Good (c : Arc) : Prop := 1 ≤ c.2.length ∧ ∀ p ∈ c.2, 0 < p.w

theorem flip_good {c : Arc} (h : Good c) : Good (Arc.flip c) :=
  ⟨by simpa [Arc.flip] using h.1, fun p hp => h.2 p (by simpa [Arc.flip] using hp)⟩

theorem border_flip {c : Arc} (h : Good c) : border (Arc.flip c) = Border.back (border c) := by
  refine Prod.ext rfl ?_
  funext t
  change valOf ((BezierCurve.mk c.2.reverse).getPointRational (t : ℝ)) =
    valOf ((BezierCurve.mk c.2).getPointRational ((unitInterval.symm t : unitInterval) : ℝ))
  rw [unitInterval.coe_symm_eq, ← C116_rational_bezier c.2 h.1, sub_sub_cancel]

theorem border_const {c : Arc} (h : Good c) {x : V3 ℝ} (hx : ∀ p ∈ c.2, p.truncate = p.w • x) (s t : unitInterval) :
    (border c).2 s = (border c).2 t := by
  have key : ∀ t : unitInterval, (border c).2 t = x := by
    intro t
    obtain ⟨q, -, -, e, hcc⟩ := C19_bezier ⟨c.2⟩ h.1 h.2 t.2.1 t.2.2
    change valOf ((BezierCurve.mk c.2).getPointRational (t : ℝ)) = _
    rw [e, hcc.const (c := x)]
    · rfl
    · intro p hp
      obtain ⟨p', hp', rfl⟩ := List.mem_map.1 hp
      rw [euclid_eq]
      change (1 / p'.w) • p'.truncate = x
      rw [hx p' hp', smul_smul, one_div_mul_cancel (h.2 p' hp').ne', one_smul]
  rw [key s, key t]

theorem cp_range4 {n i : Nat} (f : Nat → V4 ℝ) (hi : i < n) : cp ((List.range n).map f) i = f i := by
  unfold cp
  rw [List.getD_eq_getElem?_getD, List.getElem?_map, List.getElem?_range hi]
  rfl

/-- The homogeneous sides of a rational patch are the Bézier curves of its control points there. -/
theorem sides4 {g : Grid (V4 ℝ)} (hg : NetOk g) (hr : 1 ≤ g.rows) (hc : 1 ≤ g.cols) (t : ℝ) :
    (BezierSurface.mk g).getPoint t 0 = (BezierCurve.mk (Side.vStart.points g)).getPoint t ∧
    (BezierSurface.mk g).getPoint t 1 = (BezierCurve.mk (Side.vEnd.points g)).getPoint t ∧
    (BezierSurface.mk g).getPoint 0 t = (BezierCurve.mk (Side.uStart.points g)).getPoint t ∧
    (BezierSurface.mk g).getPoint 1 t = (BezierCurve.mk (Side.uEnd.points g)).getPoint t := by
  have colv : ∀ (v : ℝ) (l : Nat), l < g.cols → (∀ j, j < g.cols → bernsteinPoly (g.cols - 1) j v = if j = l then 1 else 0) →
      (BezierSurface.mk g).getPoint t v = (BezierCurve.mk ((List.range g.rows).map (entry g · l))).getPoint t := by
    intro v l hl hb
    rw [bezierSurface_getPoint (s := ⟨g⟩) hg hr hc, bezier_sum _ (by simpa using hr)]
    simp only [List.length_map, List.length_range]
    congr 1
    apply Finset.sum_congr rfl
    intro i hi
    rw [cp_range4 _ (Finset.mem_range.1 hi)]
    simp only [mul_smul, ← Finset.smul_sum]
    congr 1
    rw [← sum_ite_smul (K := ℝ) g.cols l hl (entry g i)]
    apply Finset.sum_congr rfl
    intro j hj
    rw [hb j (Finset.mem_range.1 hj)]
  have rowv : ∀ (u : ℝ) (l : Nat), l < g.rows → (∀ i, i < g.rows → bernsteinPoly (g.rows - 1) i u = if i = l then 1 else 0) →
      (BezierSurface.mk g).getPoint u t = (BezierCurve.mk ((List.range g.cols).map (entry g l))).getPoint t := by
    intro u l hl hb
    rw [bezierSurface_getPoint (s := ⟨g⟩) hg hr hc, bezier_sum _ (by simpa using hc)]
    simp only [List.length_map, List.length_range]
    congr 1
    rw [Finset.sum_comm]
    apply Finset.sum_congr rfl
    intro j hj
    rw [cp_range4 _ (Finset.mem_range.1 hj)]
    simp only [mul_comm (bernsteinPoly (g.rows - 1) _ u), mul_smul, ← Finset.smul_sum]
    congr 1
    rw [← sum_ite_smul (K := ℝ) g.rows l hl (entry g · j)]
    apply Finset.sum_congr rfl
    intro i hi
    rw [hb i (Finset.mem_range.1 hi)]
  exact ⟨colv 0 0 (by omega) fun j _ => bernsteinPoly_at_zero _ j, colv 1 _ (by omega) fun j hj => bernsteinPoly_at_one _ j (by omega),
    rowv 0 0 (by omega) fun j _ => bernsteinPoly_at_zero _ j, rowv 1 _ (by omega) fun j hj => bernsteinPoly_at_one _ j (by omega)⟩

/-- The four sides of a rational patch are the rational curves of its control points there. -/
theorem borders_eq {g : Grid (V4 ℝ)} {k : Nat} {Q T ω : ℝ} (hω : 0 < ω) (h : SmallRational g k Q T ω) (a b : Nat) :
    (rationalPiece g a b).borders = (arcs g a b).map border ∧ ∀ c ∈ arcs g a b, Good c := by
  have hr := h.rows.1
  have hc := h.cols.1
  have gd : ∀ (n : Nat) (d : Side), Good (n, d.points g) := by
    intro n d
    cases d <;> refine ⟨by simpa [Side.points] using by assumption, fun p hp => ?_⟩ <;>
      simp only [Side.points, List.mem_map, List.mem_range] at hp <;> obtain ⟨i, hi, rfl⟩ := hp <;>
      exact hω.trans_le (h.weights _ _ (by omega) (by omega)).1
  have val : ∀ u v : ℝ, (rationalPiece g a b).S u v = valOf ((BezierSurface.mk g).getPointRational u v) := fun u v => by
    rw [rational_point h.ok hr hc]
    rfl
  have lift : ∀ {u v t : ℝ} {P : List (V4 ℝ)}, (BezierSurface.mk g).getPoint u v = (BezierCurve.mk P).getPoint t →
      (rationalPiece g a b).S u v = valOf ((BezierCurve.mk P).getPointRational t) := by
    intro u v t P e
    rw [val]
    unfold BezierSurface.getPointRational BezierCurve.getPointRational
    rw [e]
  have e0 : ∀ t : ℝ, (0 : ℝ) + t * (1 - 0) = t := fun t => by ring
  refine ⟨?_, ?_⟩
  · unfold arcs
    rw [List.map_cons, List.map_cons, List.map_cons, List.map_cons, List.map_nil, border_flip (gd _ _), border_flip (gd _ _)]
    have b1 : ((a, fun t => (rationalPiece g a b).S (0 + (t : ℝ) * (1 - 0)) 0) : Border) = border (a, Side.vStart.points g) :=
      Prod.ext rfl (funext fun t => by change (rationalPiece g a b).S (0 + (t : ℝ) * (1 - 0)) 0 = _; rw [e0]; exact lift (sides4 h.ok hr hc t).1)
    have b2 : ((b, fun t => (rationalPiece g a b).S 1 (0 + (t : ℝ) * (1 - 0))) : Border) = border (b, Side.uEnd.points g) :=
      Prod.ext rfl (funext fun t => by change (rationalPiece g a b).S 1 (0 + (t : ℝ) * (1 - 0)) = _; rw [e0]; exact lift (sides4 h.ok hr hc t).2.2.2)
    have b3 : ((a, fun t => (rationalPiece g a b).S (0 + (t : ℝ) * (1 - 0)) 1) : Border) = border (a, Side.vEnd.points g) :=
      Prod.ext rfl (funext fun t => by change (rationalPiece g a b).S (0 + (t : ℝ) * (1 - 0)) 1 = _; rw [e0]; exact lift (sides4 h.ok hr hc t).2.1)
    have b4 : ((b, fun t => (rationalPiece g a b).S 0 (0 + (t : ℝ) * (1 - 0))) : Border) = border (b, Side.uStart.points g) :=
      Prod.ext rfl (funext fun t => by change (rationalPiece g a b).S 0 (0 + (t : ℝ) * (1 - 0)) = _; rw [e0]; exact lift (sides4 h.ok hr hc t).2.2.1)
    rw [← b1, ← b2, ← b3, ← b4]
    rfl
  · intro x hx
    simp only [arcs, List.mem_cons, List.not_mem_nil, or_false] at hx
    rcases hx with rfl | rfl | rfl | rfl
    · exact gd _ _
    · exact gd _ _
    · exact flip_good (gd _ _)
    · exact flip_good (gd _ _)

end Projection

/-- **C172** Rational patches whose homogeneous sides match, in either direction, or collapse: together they are closed. -/
theorem C172_sealed {l : List (Grid (V4 ℝ) × Nat × Nat)} {k : Nat} {Q T ω : ℝ} (hω : 0 < ω) (h : ∀ s ∈ l, SmallRational s.1 k Q T ω)
    (hm : Coupled (l.flatMap fun s => arcs s.1 s.2.1 s.2.2)) :
    Sealed ((l.map fun s => rationalPiece s.1 s.2.1 s.2.2).flatMap Piece.borders) := by
  have e : (l.map fun s => rationalPiece s.1 s.2.1 s.2.2).flatMap Piece.borders = (l.flatMap fun s => arcs s.1 s.2.1 s.2.2).map border ∧
      ∀ c ∈ l.flatMap fun s => arcs s.1 s.2.1 s.2.2, Good c := by
    clear hm
    induction l with
    | nil => exact ⟨rfl, by simp⟩
    | cons s l ih =>
      obtain ⟨k1, k2⟩ := ih fun s' hs' => h s' (by simp [hs'])
      obtain ⟨m1, m2⟩ := borders_eq hω (h s (by simp)) s.2.1 s.2.2
      refine ⟨?_, fun c hc => ?_⟩
      · rw [List.map_cons, List.flatMap_cons, k1, m1, List.flatMap_cons, List.map_append]
      · rw [List.flatMap_cons, List.mem_append] at hc
        exact hc.elim (m2 c) (k2 c)
  obtain ⟨e1, e2⟩ := e
  obtain ⟨A, C, hp, hC⟩ := hm
  have gA : ∀ c ∈ A, Good c := fun c hc => e2 c (hp.mem_iff.2 (by simp [hc]))
  have gC : ∀ c ∈ C, Good c := fun c hc => e2 c (hp.mem_iff.2 (by simp [hc]))
  refine ⟨A.map border, C.map border, ?_, ?_⟩
  · rw [e1]
    refine (hp.map border).trans (List.Perm.of_eq ?_)
    rw [List.map_append, List.map_append, List.map_map, List.map_map]
    congr 2
    exact List.map_congr_left fun c hc => border_flip (gA c hc)
  · intro c hc
    obtain ⟨c', hc', rfl⟩ := List.mem_map.1 hc
    obtain ⟨x, hx⟩ := hC c' hc'
    exact border_const (gC c' hc') hx

/-- **C172** The meshes of rational patches whose homogeneous sides match are watertight, and the volume they enclose is near that enclosed
by the patches; neither depends on the point from which it is measured. -/
theorem C172_solid {l : List (Grid (V4 ℝ) × Nat × Nat)} {k : Nat} {Q T ω : ℝ} (hω : 0 < ω) (h : ∀ s ∈ l, SmallRational s.1 k Q T ω)
    (hd : ∀ s ∈ l, 1 ≤ s.2.1 ∧ 1 ≤ s.2.2 ∧ (s.2.1 + 1) * (s.2.2 + 1) ≤ 2 ^ 32)
    (hm : Coupled (l.flatMap fun s => arcs s.1 s.2.1 s.2.2)) :
    ∃ tss, List.Forall₂ (fun s ts => ∃ mesh, (SurfacePatch.mk (BezierSurface.mk s.1).surfaceRational ((0, 1), (0, 1)) s.2).getTriangleMesh = .ok mesh ∧
        corners mesh = some ts) l tss ∧ Watertight tss.flatten ∧
      ∀ o1 o2, |volumeFrom o1 tss.flatten - (l.map fun s => (rationalPiece s.1 s.2.1 s.2.2).volume o2).sum| ≤
        (l.map fun s => 256 / 3 * (k ^ 3 * Q ^ 3 * T ^ 3 / ω ^ 6) * (1 / (s.2.1 : ℝ) + 1 / (s.2.2 : ℝ))).sum := by
  have hs : ∀ p ∈ l.map fun s => rationalPiece s.1 s.2.1 s.2.2, p.Sound (4 * (k * Q * T / ω ^ 2)) (24 * (k ^ 2 * Q * T ^ 2 / ω ^ 3)) (Q / ω) 0 :=
    fun p hp => by
      obtain ⟨s, hs, rfl⟩ := List.mem_map.1 hp
      exact C172_sound hω (h s hs) (hd s hs).1 (hd s hs).2.1
  have hz : ∀ p ∈ l.map fun s => rationalPiece s.1 s.2.1 s.2.2, (p.a + 1) * (p.b + 1) ≤ 2 ^ 32 := fun p hp => by
    obtain ⟨s, hs, rfl⟩ := List.mem_map.1 hp
    exact (hd s hs).2.2
  have hc := C172_sealed hω h hm
  obtain ⟨tss, h1, h2, h3⟩ := C168_solid hs hc hz
  refine ⟨tss, ?_, h2, fun o1 o2 => ?_⟩
  · rw [List.forall₂_map_left_iff] at h1
    exact h1
  · have := h3 o1 o2
    rw [List.map_map, List.map_map] at this
    refine this.trans (le_of_eq ?_)
    congr 1
    refine List.map_congr_left fun s hs => ?_
    change (1 - 0) * (1 - 0) * _ = _
    simp only [rationalPiece]
    field_simp
    ring

/-! ### Example -/

/-- A discus: two rational patches, above and below, with the unit circle as their common boundary, in four quarters. -/
def Spec.plate : List (Grid (V4 ℝ)) :=
  [⟨[⟨1, 0, 0, 1⟩, ⟨1, -1, 0, 1⟩, ⟨0, -2, 0, 2⟩, ⟨1, 1, 0, 1⟩, ⟨0, 0, 2, 2⟩, ⟨-2, -2, 0, 2⟩, ⟨0, 2, 0, 2⟩, ⟨-2, 2, 0, 2⟩, ⟨-4, 0, 0, 4⟩], 3, 3⟩,
   ⟨[⟨1, 0, 0, 1⟩, ⟨1, 1, 0, 1⟩, ⟨0, 2, 0, 2⟩, ⟨1, -1, 0, 1⟩, ⟨0, 0, -2, 2⟩, ⟨-2, 2, 0, 2⟩, ⟨0, -2, 0, 2⟩, ⟨-2, -2, 0, 2⟩, ⟨-4, 0, 0, 4⟩], 3, 3⟩]

/-- **C172**, an example: the meshes of the discus are watertight, and their volume tends to that of the discus. -/
theorem C172_example {n : Nat} (hn : 1 ≤ n) (hsz : (n + 1) * (n + 1) ≤ 2 ^ 32) :
    ∃ tss, List.Forall₂ (fun g ts => ∃ mesh, (SurfacePatch.mk (BezierSurface.mk g).surfaceRational ((0, 1), (0, 1)) (n, n)).getTriangleMesh = .ok mesh ∧
      corners mesh = some ts) plate tss ∧ Watertight tss.flatten ∧
      ∀ o1 o2, |volumeFrom o1 tss.flatten - (plate.map fun g => (rationalPiece g 1 1).volume o2).sum| ≤ 2 ^ 25 / 3 / n := by
  have small : ∀ g ∈ plate, SmallRational g 2 4 4 1 := fun g hg => by
    simp only [plate, List.mem_cons, List.not_mem_nil, or_false] at hg
    rcases hg with rfl | rfl <;> refine ⟨rfl, by norm_num, by norm_num, fun i j hi hj => (V3.length_le_sum _).trans ?_, fun i j hi hj => ?_⟩ <;>
      (change i < 3 at hi; change j < 3 at hj; interval_cases i <;> interval_cases j <;> norm_num [entry, V4.truncate])
  obtain ⟨tss, h1, h2, h3⟩ := C172_solid (l := plate.map fun g => (g, n, n)) one_pos (fun s hs => by
    obtain ⟨g, hg, rfl⟩ := List.mem_map.1 hs
    exact small g hg) (fun s hs => by
    obtain ⟨g, hg, rfl⟩ := List.mem_map.1 hs
    exact ⟨hn, hn, hsz⟩) (by
    refine ⟨[(n, [⟨1, 0, 0, 1⟩, ⟨1, 1, 0, 1⟩, ⟨0, 2, 0, 2⟩]), (n, [⟨0, 2, 0, 2⟩, ⟨-2, 2, 0, 2⟩, ⟨-4, 0, 0, 4⟩]),
      (n, [⟨-4, 0, 0, 4⟩, ⟨-2, -2, 0, 2⟩, ⟨0, -2, 0, 2⟩]), (n, [⟨0, -2, 0, 2⟩, ⟨1, -1, 0, 1⟩, ⟨1, 0, 0, 1⟩])], [], ?_, by simp⟩
    rw [List.append_nil]
    exact List.Perm.append_left _ (List.reverse_perm _).symm)
  refine ⟨tss, ?_, h2, fun o1 o2 => ?_⟩
  · rw [List.forall₂_map_left_iff] at h1
    exact h1
  · have := h3 o1 o2
    rw [List.map_map, List.map_map] at this
    refine this.trans (le_of_eq ?_)
    have hn0 : (0 : ℝ) < n := by exact_mod_cast hn
    simp only [plate, List.map_cons, List.map_nil, List.sum_cons, List.sum_nil, Function.comp]
    field_simp
    norm_num

end Geom3d
