import Verif.Props.MeshVolume

/-!
# Area and volume of turned surfaces (C164)

The tangents of a spin surface; its area and the volume of the cone over it as integrals along the section (the rules of Pappus and
Guldin); and the area and the volume of its meshes.
-/

set_option linter.unusedSectionVars false

namespace Geom3d
open Spec

/-- `x` turned by the angle `v` about the direction `a`. -/
noncomputable def Spec.turned (a : V3 ℝ) (v : ℝ) (x : V3 ℝ) : V3 ℝ :=
  x.dot a • a + Real.cos v • (x - x.dot a • a) + Real.sin v • a.cross x

/-- The curve `c` has the derivative `c'`, no longer than `D` and `E`-Lipschitz, and stays within `R` of `o`. -/
structure Spec.Section (c c' : ℝ → V3 ℝ) (o : V3 ℝ) (u0 u1 D E R : ℝ) : Prop where
  du : ∀ u ∈ Set.Icc u0 u1, ∀ w : V3 ℝ, HasDerivWithinAt (fun x => w.dot (c x)) (w.dot (c' u)) (Set.Icc u0 u1) u
  le : ∀ u ∈ Set.Icc u0 u1, (c' u).length ≤ D
  lip : ∀ u ∈ Set.Icc u0 u1, ∀ u' ∈ Set.Icc u0 u1, (c' u - c' u').length ≤ E * |u - u'|
  near : ∀ u ∈ Set.Icc u0 u1, (c u - o).length ≤ R

/-- The points of the surface, and its tangents. -/
noncomputable def Spec.spun (o a : V3 ℝ) (c : ℝ → V3 ℝ) (u v : ℝ) : V3 ℝ := o + turned a v (c u - o)
noncomputable def Spec.spunU (a : V3 ℝ) (c' : ℝ → V3 ℝ) (u v : ℝ) : V3 ℝ := turned a v (c' u)
noncomputable def Spec.spunV (o a : V3 ℝ) (c : ℝ → V3 ℝ) (u v : ℝ) : V3 ℝ := a.cross (turned a v (c u - o))

namespace Turned

theorem sub (a : V3 ℝ) (v : ℝ) (x y : V3 ℝ) : turned a v (x - y) = turned a v x - turned a v y := by
  unfold turned
  ext <;> simp [V3.cross, V3.dot] <;> ring

theorem adjoint (a : V3 ℝ) (v : ℝ) (w x : V3 ℝ) : w.dot (turned a v x) = (turned a (-v) w).dot x := by
  unfold turned
  rw [Real.cos_neg, Real.sin_neg]
  simp only [V3.cross, V3.dot, V3.add_x, V3.add_y, V3.add_z, V3.sub_x, V3.sub_y, V3.sub_z, V3.smul_x, V3.smul_y, V3.smul_z]
  ring

theorem along {a : V3 ℝ} (ha : a.dot a = 1) (v : ℝ) (x : V3 ℝ) : (turned a v x).dot a = x.dot a := by
  unfold turned
  simp only [V3.add_dot, V3.sub_dot, V3.smul_dot, ha, V3.dot_comm (a.cross x) a, V3.dot_cross_left]
  ring

theorem cross_turned (a : V3 ℝ) (v : ℝ) (x : V3 ℝ) : a.cross (turned a v x) = turned a v (a.cross x) := by
  unfold turned
  ext <;> simp [V3.cross, V3.dot] <;> ring

/-- Turning keeps products. -/
theorem dot {a : V3 ℝ} (ha : a.dot a = 1) (v : ℝ) (x y : V3 ℝ) : (turned a v x).dot (turned a v y) = x.dot y := by
  have h1 : ∀ x y : V3 ℝ, (a.cross x).dot (a.cross y) = a.dot a * x.dot y - x.dot a * y.dot a := by
    intro x y
    simp only [V3.cross, V3.dot]
    ring
  have h2 : ∀ x y : V3 ℝ, x.dot (a.cross y) = -(a.cross x).dot y := by
    intro x y
    simp only [V3.cross, V3.dot]
    ring
  have h3 : ∀ x : V3 ℝ, (a.cross x).dot a = 0 := by
    intro x
    simp only [V3.cross, V3.dot]
    ring
  have hs := Real.sin_sq_add_cos_sq v
  unfold turned
  simp only [V3.add_dot, V3.sub_dot, V3.smul_dot, V3.dot_add, V3.dot_sub, V3.dot_smul, h1, h2 x y, h3, ha, V3.dot_comm a]
  linear_combination (x.dot y - x.dot a * y.dot a) * hs

theorem length {a : V3 ℝ} (ha : a.dot a = 1) (v : ℝ) (x : V3 ℝ) : (turned a v x).length = x.length := by
  rw [V3.length_eq, V3.length_eq, dot ha]

theorem cross_le {a : V3 ℝ} (ha : a.dot a = 1) (x : V3 ℝ) : (a.cross x).length ≤ x.length := by
  refine (Area.cross_le a x).trans (le_of_eq ?_)
  rw [V3.length_eq a, ha, Real.sqrt_one, one_mul]

theorem deriv {a : V3 ℝ} (ha : a.dot a = 1) (x w : V3 ℝ) (v : ℝ) : HasDerivAt (fun v => w.dot (turned a v x)) (w.dot (a.cross (turned a v x))) v := by
  have e : (fun v => w.dot (turned a v x)) = fun v => w.dot (x.dot a • a) + Real.cos v * w.dot (x - x.dot a • a) + Real.sin v * w.dot (a.cross x) := by
    funext v
    unfold turned
    rw [V3.dot_add, V3.dot_add, V3.dot_smul (Real.cos v), V3.dot_smul (Real.sin v)]
  have e2 : w.dot (a.cross (turned a v x)) = -Real.sin v * w.dot (x - x.dot a • a) + Real.cos v * w.dot (a.cross x) := by
    have e3 : a.cross (turned a v x) = Real.cos v • a.cross x + Real.sin v • (x.dot a • a - a.dot a • x) := by
      unfold turned
      ext <;> simp [V3.cross, V3.dot] <;> ring
    rw [e3, ha, one_smul, V3.dot_add, V3.dot_smul, V3.dot_smul, V3.dot_sub, V3.dot_sub]
    ring
  rw [e, e2]
  exact (((Real.hasDerivAt_cos v).mul_const _).const_add _).add ((Real.hasDerivAt_sin v).mul_const _)

/-- Turning is Lipschitz in the angle. -/
theorem lip {a : V3 ℝ} (ha : a.dot a = 1) (x : V3 ℝ) (v v' : ℝ) : (turned a v x - turned a v' x).length ≤ x.length * |v - v'| := by
  have one : ∀ v v', v' ≤ v → (turned a v x - turned a v' x).length ≤ x.length * |v - v'| := by
    intro v v' h
    have := Area.mean_value (c := fun v => turned a v x) (c' := fun v => a.cross (turned a v x)) h (z := 0) (ε := x.length)
      (fun t _ w => (deriv ha x w t).hasDerivWithinAt) (fun t _ => by
        rw [sub_zero]
        exact (cross_le ha _).trans (le_of_eq (length ha t x)))
    rw [smul_zero, sub_zero] at this
    rwa [abs_of_nonneg (by linarith)]
  rcases le_total v' v with h | h
  · exact one v v' h
  · rw [← V3.length_neg, neg_sub, abs_sub_comm]
    exact one v' v h

end Turned

open Turned

/-- **C164** The tangents of a turned surface. -/
theorem C164_tangents {c c' : ℝ → V3 ℝ} {o a : V3 ℝ} (ha : a.dot a = 1) {u0 u1 D E R : ℝ} (h : Section c c' o u0 u1 D E R)
    {v0 v1 L M : ℝ} (l1 : D ≤ L) (l2 : R ≤ L) (m1 : D ≤ M) (m2 : E ≤ M) (m3 : R ≤ M) :
    Tangents (spun o a c) (spunU a c') (spunV o a c) (u0, u1) (v0, v1) L M := by
  have hc : ∀ u ∈ Set.Icc u0 u1, ∀ u' ∈ Set.Icc u0 u1, (c u - c u').length ≤ D * |u - u'| := by
    have one : ∀ u ∈ Set.Icc u0 u1, ∀ u' ∈ Set.Icc u0 u1, u' ≤ u → (c u - c u').length ≤ D * |u - u'| := by
      intro u hu u' hu' hle
      have := Area.mean_value (c := c) (c' := c') hle (z := 0) (ε := D)
        (fun t ht w => (h.du t ⟨hu'.1.trans ht.1, ht.2.trans hu.2⟩ w).mono (Set.Icc_subset_Icc hu'.1 hu.2))
        (fun t ht => by rw [sub_zero]; exact h.le t ⟨hu'.1.trans ht.1, ht.2.trans hu.2⟩)
      rw [smul_zero, sub_zero] at this
      rwa [abs_of_nonneg (by linarith)]
    intro u hu u' hu'
    rcases le_total u' u with hle | hle
    · exact one u hu u' hu' hle
    · rw [← V3.length_neg, neg_sub, abs_sub_comm]
      exact one u' hu' u hu hle
  refine ⟨fun u hu v _ w => ?_, fun u _ v _ w => ?_, fun u hu v _ => ?_, fun u hu v _ => ?_, fun u hu v _ u' hu' v' _ => ?_,
    fun u hu v _ u' hu' v' _ => ?_⟩
  · have e : (fun x => w.dot (spun o a c x v)) = fun x => (turned a (-v) w).dot (c x) + (w.dot o - (turned a (-v) w).dot o) := by
      funext x
      unfold spun
      rw [V3.dot_add, adjoint, V3.dot_sub]
      ring
    rw [e]
    unfold spunU
    rw [adjoint]
    exact (h.du u hu _).add_const _
  · have e : (fun y => w.dot (spun o a c u y)) = fun y => w.dot o + w.dot (turned a y (c u - o)) := by
      funext y
      unfold spun
      rw [V3.dot_add]
    rw [e]
    exact ((deriv ha (c u - o) w v).const_add _).hasDerivWithinAt
  · unfold spunU
    rw [length ha]
    exact (h.le u hu).trans l1
  · unfold spunV
    exact (cross_le ha _).trans (by rw [length ha]; exact (h.near u hu).trans l2)
  · unfold spunU
    rw [← sub_add_sub_cancel _ (turned a v (c' u')) _, ← Turned.sub]
    refine (V3.length_add_le _ _).trans ?_
    rw [length ha, mul_add]
    exact add_le_add ((h.lip u hu u' hu').trans (mul_le_mul_of_nonneg_right m2 (abs_nonneg _)))
      ((lip ha _ v v').trans (mul_le_mul_of_nonneg_right ((h.le u' hu').trans m1) (abs_nonneg _)))
  · unfold spunV
    rw [← Area.cross_sub_right]
    refine (cross_le ha _).trans ?_
    rw [← sub_add_sub_cancel _ (turned a v (c u' - o)) _, ← Turned.sub, sub_sub_sub_cancel_right]
    refine (V3.length_add_le _ _).trans ?_
    rw [length ha, mul_add]
    exact add_le_add ((hc u hu u' hu').trans (mul_le_mul_of_nonneg_right m1 (abs_nonneg _)))
      ((lip ha _ v v').trans (mul_le_mul_of_nonneg_right ((h.near u' hu').trans m3) (abs_nonneg _)))

/-- **C164** The area of a turned surface is the angle times an integral along the section. -/
theorem C164_area (c c' : ℝ → V3 ℝ) {o a : V3 ℝ} (ha : a.dot a = 1) (u0 u1 v0 v1 : ℝ) :
    surfaceArea (spunU a c') (spunV o a c) (u0, u1) (v0, v1) = (v1 - v0) * ∫ u in u0..u1, ((c' u).cross (a.cross (c u - o))).length := by
  have e : ∀ u v, ((spunU a c' u v).cross (spunV o a c u v)).length = ((c' u).cross (a.cross (c u - o))).length := by
    intro u v
    unfold spunU spunV
    rw [cross_turned, V3.length_eq, V3.length_eq, V3.lagrange (turned a v (c' u)), V3.lagrange (c' u), dot ha, dot ha, dot ha]
  unfold surfaceArea
  simp only [e, intervalIntegral.integral_const, smul_eq_mul]
  rw [intervalIntegral.integral_const_mul]

/-- **C164** The rule for areas: if the section lies in a plane with the axis, the area is the angle times the integral of the distance
from the axis along the section. -/
theorem C164_guldin {c c' : ℝ → V3 ℝ} {o a : V3 ℝ} (ha : a.dot a = 1) {u0 u1 : ℝ} (v0 v1 : ℝ)
    (hp : ∀ u, (c' u).dot (a.cross (c u - o)) = 0) :
    surfaceArea (spunU a c') (spunV o a c) (u0, u1) (v0, v1) = (v1 - v0) * ∫ u in u0..u1, (a.cross (c u - o)).length * (c' u).length := by
  rw [C164_area c c' ha]
  congr 1
  apply intervalIntegral.integral_congr
  intro u _
  change ((c' u).cross (a.cross (c u - o))).length = (a.cross (c u - o)).length * (c' u).length
  rw [Area.cross_length (hp u), mul_comm]

/-- **C164** The volume of the cone over a turned surface. -/
theorem C164_volume (c c' : ℝ → V3 ℝ) {o a : V3 ℝ} (ha : a.dot a = 1) (u0 u1 v0 v1 : ℝ) :
    coneVolume o (spun o a c) (spunU a c') (spunV o a c) (u0, u1) (v0, v1) = (v1 - v0) / 3 *
      ∫ u in u0..u1, ((c u - o).dot a * (c' u).dot (c u - o) - (c u - o).dot (c u - o) * (c' u).dot a) := by
  have t : ∀ p q : V3 ℝ, p.dot (q.cross (a.cross p)) = p.dot a * q.dot p - p.dot p * q.dot a := by
    intro p q
    simp only [V3.cross, V3.dot]
    ring
  have e : ∀ u v, (spun o a c u v - o).dot ((spunU a c' u v).cross (spunV o a c u v)) / 3 =
      1 / 3 * ((c u - o).dot a * (c' u).dot (c u - o) - (c u - o).dot (c u - o) * (c' u).dot a) := by
    intro u v
    unfold spun spunU spunV
    rw [add_sub_cancel_left, t, along ha, dot ha, dot ha, along ha]
    ring
  unfold coneVolume
  simp only [e, intervalIntegral.integral_const, smul_eq_mul]
  rw [intervalIntegral.integral_const_mul, intervalIntegral.integral_const_mul]
  ring

/-- **C164** The area and the volume of the meshes of a spin surface. -/
theorem C164_mesh {s : SpinSurface ℝ} (hax : s.axis.dot s.axis = 1) {c c' : ℝ → V3 ℝ} {u0 u1 v0 v1 D E R L M : ℝ}
    (hs : ∀ u ∈ Set.Icc u0 u1, s.section_.getPoint u = .ok (c u)) (h : Section c c' s.origin u0 u1 D E R) (hu : u0 < u1) (hv : v0 < v1)
    (l1 : D ≤ L) (l2 : R ≤ L) (m1 : D ≤ M) (m2 : E ≤ M) (m3 : R ≤ M) {a b : Nat} (ha : 1 ≤ a) (hb : 1 ≤ b) (hsz : (a + 1) * (b + 1) ≤ 2 ^ 32) :
    ∃ mesh ts, (SurfacePatch.mk s.surface ((u0, u1), (v0, v1)) (a, b)).getTriangleMesh = .ok mesh ∧ corners mesh = some ts ∧
      |totalArea ts - (v1 - v0) * ∫ u in u0..u1, ((c' u).cross (s.axis.cross (c u - s.origin))).length| ≤
        (u1 - u0) * (v1 - v0) * (2 * (L * M) * ((u1 - u0) / a + (v1 - v0) / b)) ∧
      |volumeFrom s.origin ts - (v1 - v0) / 3 * ∫ u in u0..u1, ((c u - s.origin).dot s.axis * (c' u).dot (c u - s.origin) -
          (c u - s.origin).dot (c u - s.origin) * (c' u).dot s.axis)| ≤
        (u1 - u0) * (v1 - v0) * ((2 * (L * M) * R + L ^ 3) / 3 * ((u1 - u0) / a + (v1 - v0) / b)) := by
  have hT := C164_tangents hax h (v0 := v0) (v1 := v1) l1 l2 m1 m2 m3
  obtain ⟨mesh, h1, h2⟩ := grid_mesh (s := s.surface) (S := spun s.origin s.axis c) (fun u v hu _ => by
      change s.getPoint u v = _
      rw [spin_getPoint hax (hs u hu)]
      congr 1
      unfold spun turned spinRadial spinHeight
      have e : s.axis.cross (c u - s.origin - (c u - s.origin).dot s.axis • s.axis) = s.axis.cross (c u - s.origin) := by
        ext <;> simp [V3.cross] <;> ring
      rw [e]
      module) (fun us vs _ _ => ⟨[], rfl, Or.inl rfl⟩) hu hv ha hb hsz
  refine ⟨mesh, _, h1, h2, ?_, ?_⟩
  · rw [← C164_area c c' hax]
    exact C160_grid hT hu hv ha hb
  · rw [← C164_volume c c' hax]
    refine C163_grid hT hu hv (fun u hu v _ => ?_) ha hb
    unfold spun
    rw [add_sub_cancel_left, length hax]
    exact h.near u hu

/-- **C164** If the mesh closes up, its volume is the same from every point. -/
theorem C164_solid {s : SpinSurface ℝ} (hax : s.axis.dot s.axis = 1) {c c' : ℝ → V3 ℝ} {u0 u1 v0 D E R L M : ℝ}
    (hs : ∀ u ∈ Set.Icc u0 u1, s.section_.getPoint u = .ok (c u)) (h : Section c c' s.origin u0 u1 D E R) (hu : u0 < u1)
    (hend : c u0 = c u1 ∨ ∃ x y : ℝ, c u0 = s.origin + x • s.axis ∧ c u1 = s.origin + y • s.axis)
    (l1 : D ≤ L) (l2 : R ≤ L) (m1 : D ≤ M) (m2 : E ≤ M) (m3 : R ≤ M) {a b : Nat} (ha : 1 ≤ a) (hb : 1 ≤ b) (hsz : (a + 1) * (b + 1) ≤ 2 ^ 32) :
    ∃ mesh ts, (SurfacePatch.mk s.surface ((u0, u1), (v0, v0 + 2 * Real.pi)) (a, b)).getTriangleMesh = .ok mesh ∧ corners mesh = some ts ∧
      Watertight ts ∧
      |totalArea ts - 2 * Real.pi * ∫ u in u0..u1, ((c' u).cross (s.axis.cross (c u - s.origin))).length| ≤
        (u1 - u0) * (2 * Real.pi) * (2 * (L * M) * ((u1 - u0) / a + 2 * Real.pi / b)) ∧
      ∀ o, |volumeFrom o ts - 2 * Real.pi / 3 * ∫ u in u0..u1, ((c u - s.origin).dot s.axis * (c' u).dot (c u - s.origin) -
          (c u - s.origin).dot (c u - s.origin) * (c' u).dot s.axis)| ≤
        (u1 - u0) * (2 * Real.pi) * ((2 * (L * M) * R + L ^ 3) / 3 * ((u1 - u0) / a + 2 * Real.pi / b)) := by
  have hv : v0 < v0 + 2 * Real.pi := by linarith [Real.pi_pos]
  obtain ⟨mesh, ts, h1, h2, h3, h4⟩ := C164_mesh hax hs h hu hv l1 l2 m1 m2 m3 ha hb hsz
  have m0 : u0 ∈ Set.Icc u0 u1 := ⟨le_rfl, hu.le⟩
  have m1' : u1 ∈ Set.Icc u0 u1 := ⟨hu.le, le_rfl⟩
  obtain ⟨mesh', ts', g1, g2, g3⟩ := C162_spin hax hu (fun u hu => ⟨_, hs u hu⟩) (by
    rw [hs u0 m0, hs u1 m1']
    rcases hend with he | ⟨x, y, hx, hy⟩
    · left; rw [he]
    · right; exact ⟨x, y, by rw [hx], by rw [hy]⟩) (v0 := v0) ha hb hsz
  rw [h1, Except.ok.injEq] at g1
  subst g1
  rw [h2, Option.some.injEq] at g2
  subst g2
  rw [add_sub_cancel_left] at h3 h4
  refine ⟨mesh, ts, h1, h2, g3, h3, fun o => ?_⟩
  rw [(C162_volume g3).1 o s.origin]
  exact h4

/-! ### Spheres and tori -/

/-- The points of a circle, and the derivative. -/
noncomputable def Spec.circ (k : Circle ℝ) (u : ℝ) : V3 ℝ :=
  k.center + Real.cos u • (k.radius • k.refDir) + Real.sin u • (k.radius • k.axis.cross k.refDir)
noncomputable def Spec.circ' (k : Circle ℝ) (u : ℝ) : V3 ℝ :=
  -Real.sin u • (k.radius • k.refDir) + Real.cos u • (k.radius • k.axis.cross k.refDir)

/-- The circle lies in a plane with the axis of the surface. -/
structure Spec.Meridian (s : SpinSurface ℝ) (k : Circle ℝ) : Prop where
  axis : s.axis.dot s.axis = 1
  framed : Framed k
  section_ : s.section_ = k.obj
  perp : k.axis.dot s.axis = 0
  plane : k.axis.dot (k.center - s.origin) = 0

namespace Turned

theorem circ_dot {k : Circle ℝ} (hF : Framed k) (hr : 0 ≤ k.radius) (x y : ℝ) :
    (x • (k.radius • k.refDir) + y • (k.radius • k.axis.cross k.refDir)).length = k.radius * Real.sqrt (x ^ 2 + y ^ 2) := by
  have e : (x • (k.radius • k.refDir) + y • (k.radius • k.axis.cross k.refDir)).dot
      (x • (k.radius • k.refDir) + y • (k.radius • k.axis.cross k.refDir)) = k.radius ^ 2 * (x ^ 2 + y ^ 2) := by
    simp only [V3.dot_add, V3.add_dot, V3.dot_smul, V3.smul_dot, V3.dot_comm (k.axis.cross k.refDir) k.refDir,
      V3.dot_cross_right, framed_cross hF, hF.ref]
    ring
  rw [V3.length_eq, e, Real.sqrt_mul (sq_nonneg _), Real.sqrt_sq hr]

theorem chord_le (u u' : ℝ) : Real.sqrt ((Real.cos u - Real.cos u') ^ 2 + (Real.sin u - Real.sin u') ^ 2) ≤ |u - u'| := by
  apply Real.sqrt_le_iff.2
  refine ⟨abs_nonneg _, ?_⟩
  have h := Area.chord_sq u' (u - u')
  rw [add_sub_cancel] at h
  rw [h, ← sq_abs]
  refine pow_le_pow_left₀ (abs_nonneg _) ?_ 2
  rw [abs_mul, abs_two]
  have := Real.abs_sin_le_abs (x := (u - u') / 2)
  rw [abs_div, abs_two] at this
  linarith

theorem circ_section {k : Circle ℝ} (hF : Framed k) (hr : 0 ≤ k.radius) {o : V3 ℝ} {R : ℝ} (hR : (k.center - o).length + k.radius ≤ R) (u0 u1 : ℝ) :
    Section (circ k) (circ' k) o u0 u1 k.radius k.radius R := by
  refine ⟨fun u _ w => ?_, fun u _ => ?_, fun u _ u' _ => ?_, fun u _ => ?_⟩
  · have e : (fun x => w.dot (circ k x)) = fun x => w.dot k.center + Real.cos x * w.dot (k.radius • k.refDir)
        + Real.sin x * w.dot (k.radius • k.axis.cross k.refDir) := by
      funext x
      unfold circ
      rw [V3.dot_add, V3.dot_add, V3.dot_smul (Real.cos x), V3.dot_smul (Real.sin x)]
    have e2 : w.dot (circ' k u) = -Real.sin u * w.dot (k.radius • k.refDir) + Real.cos u * w.dot (k.radius • k.axis.cross k.refDir) := by
      unfold circ'
      rw [V3.dot_add, V3.dot_smul (-Real.sin u), V3.dot_smul (Real.cos u)]
    rw [e, e2]
    exact ((((Real.hasDerivAt_cos u).mul_const _).const_add _).add ((Real.hasDerivAt_sin u).mul_const _)).hasDerivWithinAt
  · unfold circ'
    rw [circ_dot hF hr, neg_sq, Real.sin_sq_add_cos_sq, Real.sqrt_one, mul_one]
  · have e : circ' k u - circ' k u' = (-(Real.sin u - Real.sin u')) • (k.radius • k.refDir)
        + (Real.cos u - Real.cos u') • (k.radius • k.axis.cross k.refDir) := by
      unfold circ'
      module
    rw [e, circ_dot hF hr, neg_sq, add_comm]
    exact mul_le_mul_of_nonneg_left (chord_le u u') hr
  · have e : circ k u - o = (k.center - o) + (Real.cos u • (k.radius • k.refDir) + Real.sin u • (k.radius • k.axis.cross k.refDir)) := by
      unfold circ
      module
    rw [e]
    refine (V3.length_add_le _ _).trans ?_
    rw [circ_dot hF hr, Real.cos_sq_add_sin_sq, Real.sqrt_one, mul_one]
    exact hR

theorem circ_getPoint {s : SpinSurface ℝ} {k : Circle ℝ} (h : Meridian s k) (u : ℝ) : s.section_.getPoint u = .ok (circ k u) := by
  rw [h.section_]
  change Except.ok (k.getPoint u) = _
  rw [circle_getPoint h.framed]
  congr 1
  unfold circ
  module

/-- Vectors in the plane of two orthogonal directions. -/
theorem in_plane {n a x : V3 ℝ} (hn : n.dot n = 1) (ha : a.dot a = 1) (hna : n.dot a = 0) (hx : n.dot x = 0) :
    x = x.dot a • a + x.dot (n.cross a) • n.cross a := by
  have e1 : (n.cross a).cross ((n.cross a).cross x) = x.dot (n.cross a) • n.cross a - (n.cross a).dot (n.cross a) • x := by
    ext <;> simp only [V3.cross, V3.dot, V3.sub_x, V3.sub_y, V3.sub_z, V3.smul_x, V3.smul_y, V3.smul_z] <;> ring
  have e2 : (n.cross a).cross x = n.dot x • a - x.dot a • n := by
    ext <;> simp only [V3.cross, V3.dot, V3.sub_x, V3.sub_y, V3.sub_z, V3.smul_x, V3.smul_y, V3.smul_z] <;> ring
  have e3 : (n.cross a).cross n = n.dot n • a - n.dot a • n := by
    ext <;> simp only [V3.cross, V3.dot, V3.sub_x, V3.sub_y, V3.sub_z, V3.smul_x, V3.smul_y, V3.smul_z] <;> ring
  rw [e2, hx, zero_smul, zero_sub, ← neg_smul, Area.cross_smul_right, e3, hn, hna, V3.lagrange, hn, ha, hna] at e1
  have e4 : x = x.dot (n.cross a) • n.cross a - (x.dot (n.cross a) • n.cross a - (1 * 1 - (0 : ℝ) ^ 2) • x) := by module
  rw [← e1] at e4
  rw [e4]
  conv_rhs => rw [← e4]
  module

end Turned

/-- The height of the circle over the origin, its distance from the axis, and the coordinates of its reference direction. -/
noncomputable def Spec.mid (s : SpinSurface ℝ) (k : Circle ℝ) : ℝ × ℝ :=
  ((k.center - s.origin).dot s.axis, (k.center - s.origin).dot (k.axis.cross s.axis))
noncomputable def Spec.phase (s : SpinSurface ℝ) (k : Circle ℝ) : ℝ × ℝ := (k.refDir.dot s.axis, k.refDir.dot (k.axis.cross s.axis))

namespace Turned

variable {s : SpinSurface ℝ} {k : Circle ℝ}

noncomputable def cC (s : SpinSurface ℝ) (k : Circle ℝ) (u : ℝ) : ℝ := (phase s k).1 * Real.cos u - (phase s k).2 * Real.sin u
noncomputable def cS (s : SpinSurface ℝ) (k : Circle ℝ) (u : ℝ) : ℝ := (phase s k).2 * Real.cos u + (phase s k).1 * Real.sin u

theorem e_unit (h : Meridian s k) : (k.axis.cross s.axis).dot (k.axis.cross s.axis) = 1 := by
  rw [V3.lagrange, h.axis, h.framed.axis, h.perp]; norm_num

theorem phase_unit (h : Meridian s k) : (phase s k).1 ^ 2 + (phase s k).2 ^ 2 = 1 := by
  have e := in_plane h.framed.axis h.axis h.perp h.framed.perp
  have h2 := h.framed.ref
  unfold phase
  simp only
  generalize k.refDir.dot s.axis = x at *
  generalize k.refDir.dot (k.axis.cross s.axis) = y at *
  rw [e] at h2
  simp only [V3.dot_add, V3.add_dot, V3.dot_smul, V3.smul_dot, h.axis, e_unit h, V3.dot_cross_right, V3.dot_comm (k.axis.cross s.axis) s.axis] at h2
  linarith

theorem cCS (h : Meridian s k) (u : ℝ) : cC s k u ^ 2 + cS s k u ^ 2 = 1 := by
  have h1 := phase_unit h
  have h2 := Real.sin_sq_add_cos_sq u
  unfold cC cS
  linear_combination ((phase s k).1 ^ 2 + (phase s k).2 ^ 2) * h2 + h1

theorem cC_deriv (u : ℝ) : HasDerivAt (cC s k) (-cS s k u) u := by
  have := ((Real.hasDerivAt_cos u).const_mul (phase s k).1).sub ((Real.hasDerivAt_sin u).const_mul (phase s k).2)
  refine this.congr_deriv ?_
  unfold cS
  ring

theorem cS_deriv (u : ℝ) : HasDerivAt (cS s k) (cC s k u) u := by
  have := ((Real.hasDerivAt_cos u).const_mul (phase s k).2).add ((Real.hasDerivAt_sin u).const_mul (phase s k).1)
  refine this.congr_deriv ?_
  unfold cC
  ring

theorem ref_plane (h : Meridian s k) : k.refDir = (phase s k).1 • s.axis + (phase s k).2 • k.axis.cross s.axis ∧
    k.axis.cross k.refDir = (phase s k).1 • k.axis.cross s.axis - (phase s k).2 • s.axis := by
  have e := in_plane h.framed.axis h.axis h.perp h.framed.perp
  refine ⟨e, ?_⟩
  have e3 : ∀ x y : ℝ, k.axis.cross (x • s.axis + y • k.axis.cross s.axis) =
      x • k.axis.cross s.axis + y • (k.axis.dot s.axis • k.axis - k.axis.dot k.axis • s.axis) := by
    intro x y
    ext <;> simp only [V3.cross, V3.dot, V3.add_x, V3.add_y, V3.add_z, V3.sub_x, V3.sub_y, V3.sub_z, V3.smul_x, V3.smul_y, V3.smul_z] <;> ring
  conv_lhs => rw [e]
  rw [e3, h.perp, h.framed.axis]
  unfold phase
  module

/-- The circle in the plane of the axis. -/
theorem circ_plane (h : Meridian s k) (u : ℝ) :
    circ k u - s.origin = ((mid s k).1 + k.radius * cC s k u) • s.axis + ((mid s k).2 + k.radius * cS s k u) • k.axis.cross s.axis ∧
    circ' k u = (-(k.radius * cS s k u)) • s.axis + (k.radius * cC s k u) • k.axis.cross s.axis := by
  obtain ⟨e1, e2⟩ := ref_plane h
  have e3 := in_plane h.framed.axis h.axis h.perp h.plane
  constructor
  · have e : circ k u - s.origin = (k.center - s.origin) + Real.cos u • (k.radius • k.refDir) + Real.sin u • (k.radius • k.axis.cross k.refDir) := by
      unfold circ
      module
    rw [e, e2, e3]
    conv_lhs => rw [e1]
    unfold cC cS mid
    module
  · unfold circ'
    rw [e2]
    conv_lhs => rw [e1]
    unfold cC cS
    module

theorem volume_density (h : Meridian s k) (u : ℝ) :
    (circ k u - s.origin).dot s.axis * (circ' k u).dot (circ k u - s.origin) -
      (circ k u - s.origin).dot (circ k u - s.origin) * (circ' k u).dot s.axis =
    ((mid s k).2 + k.radius * cS s k u) * (k.radius ^ 2 + k.radius * ((mid s k).1 * cC s k u + (mid s k).2 * cS s k u)) := by
  obtain ⟨e1, e2⟩ := circ_plane h u
  have hcs := cCS h u
  rw [e1, e2]
  simp only [V3.dot_add, V3.add_dot, V3.dot_smul, V3.smul_dot, h.axis, e_unit h, V3.dot_cross_right, V3.dot_comm (k.axis.cross s.axis) s.axis]
  linear_combination (((mid s k).2 + k.radius * cS s k u) * k.radius ^ 2) * hcs

theorem area_density (h : Meridian s k) (hr : 0 ≤ k.radius) (u : ℝ) :
    ((circ' k u).cross (s.axis.cross (circ k u - s.origin))).length = k.radius * |(mid s k).2 + k.radius * cS s k u| := by
  obtain ⟨e1, e2⟩ := circ_plane h u
  have e3 : s.axis.cross (circ k u - s.origin) = ((mid s k).2 + k.radius * cS s k u) • k.axis := by
    have : ∀ x y : ℝ, s.axis.cross (x • s.axis + y • k.axis.cross s.axis) = y • (s.axis.dot s.axis • k.axis - k.axis.dot s.axis • s.axis) := by
      intro x y
      ext <;> simp only [V3.cross, V3.dot, V3.add_x, V3.add_y, V3.add_z, V3.sub_x, V3.sub_y, V3.sub_z, V3.smul_x, V3.smul_y, V3.smul_z] <;> ring
    rw [e1, this, h.axis, h.perp]
    module
  have hp : (circ' k u).dot k.axis = 0 := by
    unfold circ'
    rw [V3.add_dot, V3.smul_dot, V3.smul_dot, V3.smul_dot, V3.smul_dot, V3.dot_comm k.refDir, h.framed.perp, V3.dot_comm (k.axis.cross k.refDir),
      V3.dot_cross_left]
    ring
  rw [e3, Area.cross_smul_right, V3.length_smul, Area.cross_length hp, V3.length_eq k.axis, h.framed.axis, Real.sqrt_one]
  unfold circ'
  rw [circ_dot h.framed hr, neg_sq, Real.sin_sq_add_cos_sq, Real.sqrt_one]
  ring

end Turned

/-- **C164** Tori: a circle in a plane with the axis, at the distance `d` of at least its radius.  The meshes are watertight, and their
area and volume converge to `4π² r d` and `2π² r² d`. -/
theorem C164_torus {s : SpinSurface ℝ} {k : Circle ℝ} (h : Meridian s k) (hr : 0 ≤ k.radius) (hd : k.radius ≤ (mid s k).2) {R : ℝ}
    (hR : (k.center - s.origin).length + k.radius ≤ R) {v0 : ℝ} {a b : Nat} (ha : 1 ≤ a) (hb : 1 ≤ b) (hsz : (a + 1) * (b + 1) ≤ 2 ^ 32) :
    ∃ mesh ts, (SurfacePatch.mk s.surface ((0, 2 * Real.pi), (v0, v0 + 2 * Real.pi)) (a, b)).getTriangleMesh = .ok mesh ∧
      corners mesh = some ts ∧ Watertight ts ∧
      |totalArea ts - 4 * Real.pi ^ 2 * k.radius * (mid s k).2| ≤ 16 * Real.pi ^ 3 * R ^ 2 * (1 / a + 1 / b) ∧
      ∀ o, |volumeFrom o ts - 2 * Real.pi ^ 2 * k.radius ^ 2 * (mid s k).2| ≤ 8 * Real.pi ^ 3 * R ^ 3 * (1 / a + 1 / b) := by
  have hRr : k.radius ≤ R := by linarith [V3.length_nonneg (k.center - s.origin)]
  obtain ⟨mesh, ts, h1, h2, h3, h4, h5⟩ := C164_solid (c := circ k) (c' := circ' k) (L := R) (M := R) (v0 := v0) h.axis
    (fun u _ => circ_getPoint h u) (circ_section h.framed hr hR 0 (2 * Real.pi)) (by linarith [Real.pi_pos])
    (Or.inl (by simp [circ])) hRr le_rfl hRr hRr le_rfl ha hb hsz
  have hp : ∀ x : ℝ, cC s k (2 * Real.pi) = cC s k 0 ∧ cS s k (2 * Real.pi) = cS s k 0 := fun _ => by simp [cC, cS]
  obtain ⟨p1, p2⟩ := hp 0
  have i1 : ∫ u in (0 : ℝ)..(2 * Real.pi), ((circ' k u).cross (s.axis.cross (circ k u - s.origin))).length = 2 * Real.pi * (k.radius * (mid s k).2) := by
    have := intervalIntegral.integral_eq_sub_of_hasDerivAt (a := 0) (b := 2 * Real.pi)
      (f := fun u => k.radius * ((mid s k).2 * u - k.radius * cC s k u))
      (f' := fun u => ((circ' k u).cross (s.axis.cross (circ k u - s.origin))).length) (fun u _ => by
        have hS : |cS s k u| ≤ 1 := abs_le_one_iff_mul_self_le_one.2 (by nlinarith [cCS h u, sq_nonneg (cC s k u)])
        rw [abs_le] at hS
        rw [area_density h hr, abs_of_nonneg (by nlinarith [hS.1])]
        have := (((hasDerivAt_id u).const_mul (mid s k).2).sub ((cC_deriv (s := s) (k := k) u).const_mul k.radius)).const_mul k.radius
        refine this.congr_deriv ?_
        ring) (by
        refine Continuous.intervalIntegrable ?_ _ _
        simp only [area_density h hr]
        unfold cS
        fun_prop)
    rw [this, p1]
    ring
  have i2 : ∫ u in (0 : ℝ)..(2 * Real.pi), ((circ k u - s.origin).dot s.axis * (circ' k u).dot (circ k u - s.origin) -
      (circ k u - s.origin).dot (circ k u - s.origin) * (circ' k u).dot s.axis) = 3 * Real.pi * (k.radius ^ 2 * (mid s k).2) := by
    simp only [volume_density h]
    have := intervalIntegral.integral_eq_sub_of_hasDerivAt (a := 0) (b := 2 * Real.pi)
      (f := fun u => (mid s k).2 * k.radius ^ 2 * u + (mid s k).2 * k.radius * (mid s k).1 * cS s k u
        - ((mid s k).2 ^ 2 * k.radius + k.radius ^ 3) * cC s k u + k.radius ^ 2 * (mid s k).1 / 2 * (cS s k u * cS s k u)
        + k.radius ^ 2 * (mid s k).2 / 2 * (u - cS s k u * cC s k u))
      (f' := fun u => ((mid s k).2 + k.radius * cS s k u) * (k.radius ^ 2 + k.radius * ((mid s k).1 * cC s k u + (mid s k).2 * cS s k u)))
      (fun u _ => by
        have dS := cS_deriv (s := s) (k := k) u
        have dC := cC_deriv (s := s) (k := k) u
        have := (((((hasDerivAt_id u).const_mul ((mid s k).2 * k.radius ^ 2)).add (dS.const_mul ((mid s k).2 * k.radius * (mid s k).1))).sub
          (dC.const_mul ((mid s k).2 ^ 2 * k.radius + k.radius ^ 3))).add ((dS.mul dS).const_mul (k.radius ^ 2 * (mid s k).1 / 2))).add
          (((hasDerivAt_id u).sub (dS.mul dC)).const_mul (k.radius ^ 2 * (mid s k).2 / 2))
        refine this.congr_deriv ?_
        linear_combination (-(k.radius ^ 2 * (mid s k).2 / 2)) * cCS h u) (by
        refine Continuous.intervalIntegrable ?_ _ _
        unfold cS cC
        fun_prop)
    rw [this, p1, p2]
    ring
  rw [i1] at h4
  refine ⟨mesh, ts, h1, h2, h3, ?_, fun o => ?_⟩
  · refine (le_of_eq ?_).trans (h4.trans (le_of_eq ?_))
    · congr 1; ring
    · ring
  · have := h5 o
    rw [i2] at this
    refine (le_of_eq ?_).trans (this.trans (le_of_eq ?_))
    · congr 1; ring
    · ring

/-- **C164** Spheres: half a circle about a point of the axis.  The volume has a sign: the facets point outwards if the section begins at
the end of the axis (`σ = 1`), inwards if it begins at the other pole (`σ = -1`). -/
theorem C164_sphere {s : SpinSurface ℝ} {k : Circle ℝ} (h : Meridian s k) (hr : 0 ≤ k.radius) (hc : k.center = s.origin) {σ : ℝ}
    (hσ : σ = 1 ∨ σ = -1) (href : k.refDir = σ • s.axis) {v0 : ℝ} {a b : Nat} (ha : 1 ≤ a) (hb : 1 ≤ b) (hsz : (a + 1) * (b + 1) ≤ 2 ^ 32) :
    ∃ mesh ts, (SurfacePatch.mk s.surface ((0, Real.pi), (v0, v0 + 2 * Real.pi)) (a, b)).getTriangleMesh = .ok mesh ∧
      corners mesh = some ts ∧ Watertight ts ∧
      |totalArea ts - 4 * Real.pi * k.radius ^ 2| ≤ 4 * Real.pi ^ 3 * k.radius ^ 2 * (1 / a + 2 / b) ∧
      ∀ o, |volumeFrom o ts - σ * (4 / 3 * Real.pi * k.radius ^ 3)| ≤ 2 * Real.pi ^ 3 * k.radius ^ 3 * (1 / a + 2 / b) := by
  have hmid : mid s k = (0, 0) := by
    unfold mid
    rw [hc, sub_self, V3.zero_dot, V3.zero_dot]
  have hph : phase s k = (σ, 0) := by
    unfold phase
    rw [href, V3.smul_dot, V3.smul_dot, h.axis, V3.dot_cross_right]
    simp
  have hS : ∀ u, cS s k u = σ * Real.sin u := fun u => by unfold cS; rw [hph]; simp
  have hC : ∀ u, cC s k u = σ * Real.cos u := fun u => by unfold cC; rw [hph]; simp
  have hσ2 : |σ| = 1 := by rcases hσ with rfl | rfl <;> simp
  obtain ⟨mesh, ts, h1, h2, h3, h4, h5⟩ := C164_solid (c := circ k) (c' := circ' k) (L := k.radius) (M := k.radius) (v0 := v0) h.axis
    (fun u _ => circ_getPoint h u) (circ_section h.framed hr (R := k.radius) (by rw [hc, sub_self, V3.length_zero, zero_add]) 0 Real.pi) Real.pi_pos
    (Or.inr ⟨k.radius * σ, -(k.radius * σ), by unfold circ; rw [href, hc]; simp; module, by unfold circ; rw [href, hc]; simp; module⟩)
    le_rfl le_rfl le_rfl le_rfl le_rfl ha hb hsz
  have half : ∫ u in (0 : ℝ)..Real.pi, Real.sin u = 2 := by
    rw [integral_sin, Real.cos_zero, Real.cos_pi]
    norm_num
  have i1 : ∫ u in (0 : ℝ)..Real.pi, ((circ' k u).cross (s.axis.cross (circ k u - s.origin))).length = k.radius ^ 2 * 2 := by
    rw [← half, ← intervalIntegral.integral_const_mul]
    apply intervalIntegral.integral_congr
    intro u hu
    rw [Set.uIcc_of_le Real.pi_pos.le] at hu
    have := Real.sin_nonneg_of_nonneg_of_le_pi hu.1 hu.2
    change ((circ' k u).cross (s.axis.cross (circ k u - s.origin))).length = k.radius ^ 2 * Real.sin u
    rw [area_density h hr, hmid, hS, zero_add, abs_mul, abs_mul, hσ2, abs_of_nonneg hr, abs_of_nonneg this]
    ring
  have i2 : ∫ u in (0 : ℝ)..Real.pi, ((circ k u - s.origin).dot s.axis * (circ' k u).dot (circ k u - s.origin) -
          (circ k u - s.origin).dot (circ k u - s.origin) * (circ' k u).dot s.axis) = σ * k.radius ^ 3 * 2 := by
    rw [← half, ← intervalIntegral.integral_const_mul]
    apply intervalIntegral.integral_congr
    intro u _
    change (_ : ℝ) = σ * k.radius ^ 3 * Real.sin u
    simp only [volume_density h, hmid, hS]
    ring
  rw [i1] at h4
  refine ⟨mesh, ts, h1, h2, h3, ?_, fun o => ?_⟩
  · refine (le_of_eq ?_).trans (h4.trans (le_of_eq ?_))
    · congr 1; ring
    · ring
  · have := h5 o
    rw [i2] at this
    refine (le_of_eq ?_).trans (this.trans (le_of_eq ?_))
    · congr 1; ring
    · ring

/-! ### Examples -/

/-- **C164**, an example: the unit sphere. -/
example {a b : Nat} (ha : 1 ≤ a) (hb : 1 ≤ b) (hsz : (a + 1) * (b + 1) ≤ 2 ^ 32) :
    ∃ mesh ts, (SurfacePatch.mk ball.surface ((0, Real.pi), (0, 0 + 2 * Real.pi)) (a, b)).getTriangleMesh = .ok mesh ∧
      corners mesh = some ts ∧ Watertight ts ∧ ∀ o, |volumeFrom o ts - 4 / 3 * Real.pi| ≤ 2 * Real.pi ^ 3 * (1 / a + 2 / b) := by
  obtain ⟨mesh, ts, h1, h2, h3, -, h5⟩ := C164_sphere (s := ball) (k := ⟨⟨0, 0, 0⟩, 1, ⟨0, 1, 0⟩, ⟨0, 0, 1⟩⟩) (σ := 1) (v0 := 0)
    ⟨by simp [ball, V3.dot], ⟨by simp [V3.dot], by simp [V3.dot], by simp [V3.dot]⟩, rfl, by simp [ball, V3.dot], by simp [V3.dot, ball]⟩
    (by norm_num) rfl (Or.inl rfl) (by rw [one_smul]; rfl) ha hb hsz
  exact ⟨mesh, ts, h1, h2, h3, fun o => by simpa using h5 o⟩

/-- **C164**, an example: the same sphere, with the section upwards, is meshed inside out. -/
example {a b : Nat} (ha : 1 ≤ a) (hb : 1 ≤ b) (hsz : (a + 1) * (b + 1) ≤ 2 ^ 32) :
    ∃ mesh ts, (SurfacePatch.mk (SpinSurface.surface ⟨⟨0, 0, 0⟩, ⟨0, 0, 1⟩, Circle.obj ⟨⟨0, 0, 0⟩, 1, ⟨0, -1, 0⟩, ⟨0, 0, -1⟩⟩⟩)
      ((0, Real.pi), (0, 0 + 2 * Real.pi)) (a, b)).getTriangleMesh = .ok mesh ∧ corners mesh = some ts ∧ Watertight ts ∧
      ∀ o, |volumeFrom o ts - -(4 / 3 * Real.pi)| ≤ 2 * Real.pi ^ 3 * (1 / a + 2 / b) := by
  obtain ⟨mesh, ts, h1, h2, h3, -, h5⟩ := C164_sphere (s := ⟨⟨0, 0, 0⟩, ⟨0, 0, 1⟩, Circle.obj ⟨⟨0, 0, 0⟩, 1, ⟨0, -1, 0⟩, ⟨0, 0, -1⟩⟩⟩)
    (k := ⟨⟨0, 0, 0⟩, 1, ⟨0, -1, 0⟩, ⟨0, 0, -1⟩⟩) (σ := -1) (v0 := 0)
    ⟨by simp [V3.dot], ⟨by simp [V3.dot], by simp [V3.dot], by simp [V3.dot]⟩, rfl, by simp [V3.dot], by simp [V3.dot]⟩
    (by norm_num) rfl (Or.inr rfl) (by ext <;> simp) ha hb hsz
  exact ⟨mesh, ts, h1, h2, h3, fun o => by simpa using h5 o⟩

/-- **C164**, an example: the torus of C154. -/
example {a b : Nat} (ha : 1 ≤ a) (hb : 1 ≤ b) (hsz : (a + 1) * (b + 1) ≤ 2 ^ 32) :
    ∃ mesh ts, (SurfacePatch.mk ring.surface ((0, 2 * Real.pi), (0, 0 + 2 * Real.pi)) (a, b)).getTriangleMesh = .ok mesh ∧
      corners mesh = some ts ∧ Watertight ts ∧ |totalArea ts - 8 * Real.pi ^ 2| ≤ 144 * Real.pi ^ 3 * (1 / a + 1 / b) ∧
      ∀ o, |volumeFrom o ts - 4 * Real.pi ^ 2| ≤ 216 * Real.pi ^ 3 * (1 / a + 1 / b) := by
  have hm : (mid ring ⟨⟨2, 0, 0⟩, 1, ⟨0, 1, 0⟩, ⟨1, 0, 0⟩⟩).2 = 2 := by simp [mid, ring, V3.dot, V3.cross]
  obtain ⟨mesh, ts, h1, h2, h3, h4, h5⟩ := C164_torus (s := ring) (k := ⟨⟨2, 0, 0⟩, 1, ⟨0, 1, 0⟩, ⟨1, 0, 0⟩⟩) (R := 3) (v0 := 0)
    ⟨by simp [ring, V3.dot], ⟨by simp [V3.dot], by simp [V3.dot], by simp [V3.dot]⟩, rfl, by simp [ring, V3.dot], by simp [V3.dot, ring]⟩
    (by norm_num) (by rw [hm]; norm_num) (by
      have : (⟨2, 0, 0⟩ - ring.origin : V3 ℝ).length = 2 := by
        rw [V3.length_eq, show (⟨2, 0, 0⟩ - ring.origin : V3 ℝ).dot (⟨2, 0, 0⟩ - ring.origin) = 2 ^ 2 by simp [ring, V3.dot]; norm_num,
          Real.sqrt_sq (by norm_num)]
      change (⟨2, 0, 0⟩ - ring.origin : V3 ℝ).length + 1 ≤ 3
      rw [this]
      norm_num) ha hb hsz
  rw [hm] at h4
  refine ⟨mesh, ts, h1, h2, h3, ?_, fun o => ?_⟩
  · refine (le_of_eq ?_).trans (h4.trans (le_of_eq ?_))
    · congr 1; ring
    · ring
  · have := h5 o
    rw [hm] at this
    refine (le_of_eq ?_).trans (this.trans (le_of_eq ?_))
    · congr 1; ring
    · ring

end Geom3d
