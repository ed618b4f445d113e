import Verif.Spec.Vec3
import Verif.Props.Quadrics
import Verif.Props.Step
import Verif.Props.SurfaceDeriv

/-!
# Orientation: circles and cylinders turn counter-clockwise about their axis (C21, C54); C96: normals of B-spline surfaces

The statements use `Spec.det3` and `Spec.cross3`, which are written out in coordinates.
-/

set_option linter.unusedSectionVars false

namespace Geom3d
open Spec

section circle

/-- **C21**: seen from the tip of the axis the circle is run through counter-clockwise: the oriented volume of the axis
and the radii at angles `a` and `b` is `r² sin (b - a)`. -/
theorem C21_counterclockwise {c : Circle ℝ} (h : Spec.Framed c) (a b : ℝ) :
    Spec.det3 c.axis (c.getPoint a - c.center) (c.getPoint b - c.center) = c.radius ^ 2 * Real.sin (b - a) := by
  rw [circle_getPoint h, circle_getPoint h, Real.sin_sub]
  have h1 := h.axis
  have h2 := h.ref
  have h3 := h.perp
  have e : Spec.det3 c.axis c.refDir (c.axis.cross c.refDir) = 1 := by
    have : Spec.det3 c.axis c.refDir (c.axis.cross c.refDir) = c.axis.dot c.axis * c.refDir.dot c.refDir
        - c.axis.dot c.refDir ^ 2 := by
      simp only [Spec.det3, V3.cross, V3.dot]; ring
    rw [this, h1, h2, h3]; norm_num
  have key : ∀ (x y : V3 ℝ) (p q s t : ℝ), Spec.det3 c.axis (c.center + p • x + q • y - c.center)
      (c.center + s • x + t • y - c.center) = (p * t - q * s) * Spec.det3 c.axis x y := by
    intro x y p q s t
    simp only [Spec.det3, V3.add_x, V3.add_y, V3.add_z, V3.sub_x, V3.sub_y, V3.sub_z, V3.smul_x, V3.smul_y, V3.smul_z]
    ring
  rw [key, e]; ring

/-- Non-vacuity: the frame hypothesis holds for a tilted circle. -/
example : Spec.Framed (⟨⟨1, 2, 3⟩, 2, ⟨0, 3 / 5, 4 / 5⟩, ⟨0, 4 / 5, -3 / 5⟩⟩ : Circle ℝ) := by
  constructor <;> norm_num [V3.dot]

/-- **C54**: the cylinder turns counter-clockwise about its axis and grows along it. -/
theorem C54_counterclockwise {c : Cylinder ℝ} (h : Spec.CylFramed c) (l a b : ℝ) :
    Spec.det3 c.axis (c.getPoint l a - c.getPoint l (a + Real.pi)) (c.getPoint l b - c.getPoint l (b + Real.pi))
      = (2 * c.radius) ^ 2 * Real.sin (b - a) ∧
    ∀ l' : ℝ, c.getPoint l' a - c.getPoint l a = (l' - l) • c.axis := by
  have hp : ∀ x : ℝ, c.getPoint l x - c.getPoint l (x + Real.pi) = (2 : ℝ) • (c.base.getPoint x - c.base.center) := by
    intro x
    rw [cylinder_getPoint, cylinder_getPoint, circle_getPoint h.base, circle_getPoint h.base, Real.cos_add_pi,
      Real.sin_add_pi]
    module
  refine ⟨?_, ?_⟩
  · have := C21_counterclockwise h.base a b
    rw [hp, hp]
    have e : ∀ x y z : V3 ℝ, Spec.det3 x ((2 : ℝ) • y) ((2 : ℝ) • z) = 4 * Spec.det3 x y z := by
      intro x y z
      simp only [Spec.det3, V3.smul_x, V3.smul_y, V3.smul_z]; ring
    rw [e]
    have hax : c.base.axis = c.axis := rfl
    have hra : c.base.radius = c.radius := rfl
    rw [hax, hra] at this
    rw [this]; ring
  · intro l'
    rw [cylinder_getPoint, cylinder_getPoint]
    module

end circle

/-! ### C96: normals of B-spline surfaces -/

section normals

/-- `n` is the unit normal of the parallelogram of `a` and `b` on the right-handed side. -/
structure Spec.IsUnitNormal (a b n : V3 ℝ) : Prop where
  unit : n.x ^ 2 + n.y ^ 2 + n.z ^ 2 = 1
  perpA : n.x * a.x + n.y * a.y + n.z * a.z = 0
  perpB : n.x * b.x + n.y * b.y + n.z * b.z = 0
  right : 0 < Spec.det3 a b n

theorem normalize_isUnitNormal {a b : V3 ℝ} (h : Spec.cross3 a b ≠ 0) : Spec.IsUnitNormal a b (a.cross b).normalize := by
  rw [← cross_eq_cross3] at h
  have hd : 0 < (a.cross b).dot (a.cross b) := V3.dot_self_pos h
  have hl : 0 < (a.cross b).length := by rw [V3.length_eq]; exact Real.sqrt_pos.2 hd
  have hs := V3.length_sq (a.cross b)
  have hn : (a.cross b).normalize = (1 / (a.cross b).length) • a.cross b := by
    unfold V3.normalize; rw [V3.rmul_eq]
  have h1 : a.dot (a.cross b) = 0 := V3.dot_cross_left _ _
  have h2 : b.dot (a.cross b) = 0 := V3.dot_cross_right _ _
  rw [hn]
  generalize (a.cross b).length = L at hl hs ⊢
  have hdet : Spec.det3 a b (a.cross b) = (a.cross b).dot (a.cross b) := by
    simp only [Spec.det3, V3.cross, V3.dot]; ring
  generalize a.cross b = n at *
  constructor
  · simp only [V3.smul_x, V3.smul_y, V3.smul_z]
    have : n.x ^ 2 + n.y ^ 2 + n.z ^ 2 = L ^ 2 := by rw [hs]; simp only [V3.dot]; ring
    have hL := hl.ne'
    field_simp
    linarith
  · simp only [V3.smul_x, V3.smul_y, V3.smul_z]
    simp only [V3.dot] at h1
    linear_combination (1 / L) * h1
  · simp only [V3.smul_x, V3.smul_y, V3.smul_z]
    simp only [V3.dot] at h2
    linear_combination (1 / L) * h2
  · have e : Spec.det3 a b ((1 / L) • n) = (1 / L) * Spec.det3 a b n := by
      simp only [Spec.det3, V3.smul_x, V3.smul_y, V3.smul_z]; ring
    rw [e, hdet]
    positivity

/-- The unit normal on the right-handed side is unique. -/
theorem Spec.IsUnitNormal.unique {a b n m : V3 ℝ} (h1 : Spec.IsUnitNormal a b n) (h2 : Spec.IsUnitNormal a b m) : n = m := by
  have key : ∀ {n : V3 ℝ}, Spec.IsUnitNormal a b n → a.cross b = Spec.det3 a b n • n ∧
      (a.cross b).dot (a.cross b) = Spec.det3 a b n ^ 2 := by
    intro n h
    obtain ⟨h1, h2, h3, h4⟩ := h
    have e : a.cross b = Spec.det3 a b n • n := by
      ext
      · simp only [V3.cross, Spec.det3, V3.smul_x]
        linear_combination (-(a.y * b.z - b.y * a.z)) * h1 + (n.y * b.z - n.z * b.y) * h2 - (n.y * a.z - n.z * a.y) * h3
      · simp only [V3.cross, Spec.det3, V3.smul_y]
        linear_combination (-(a.z * b.x - b.z * a.x)) * h1 + (n.z * b.x - n.x * b.z) * h2 - (n.z * a.x - n.x * a.z) * h3
      · simp only [V3.cross, Spec.det3, V3.smul_z]
        linear_combination (-(a.x * b.y - b.x * a.y)) * h1 + (n.x * b.y - n.y * b.x) * h2 - (n.x * a.y - n.y * a.x) * h3
    refine ⟨e, ?_⟩
    rw [e, V3.smul_dot, V3.dot_smul]
    have : n.dot n = 1 := by simp only [V3.dot]; linarith
    rw [this]; ring
  obtain ⟨e1, s1⟩ := key h1
  obtain ⟨e2, s2⟩ := key h2
  have hd : Spec.det3 a b n = Spec.det3 a b m := by
    have := s1.symm.trans s2
    exact (pow_left_inj₀ h1.right.le h2.right.le (by norm_num)).1 this
  rw [e1, hd] at e2
  exact smul_right_injective _ h2.right.ne' e2

/-- `su` and `sv` are the partial derivatives of the surface at `(u, v)`, tested with every linear functional. -/
def Spec.IsPartials (s : BSplineSurface ℝ (V3 ℝ)) (u v : ℝ) (su sv : V3 ℝ) : Prop :=
  ∀ f : V3 ℝ →ₗ[ℝ] ℝ, HasDerivAt (fun x => f (valOf (s.getPoint x v))) (f su) u ∧
    HasDerivAt (fun y => f (valOf (s.getPoint u y))) (f sv) v

/-- **C96**: for a valid B-spline surface of degrees `≥ 1` and parameters inside the knot spans of its domain `get_normals`
returns one normal per parameter pair: wherever the partial derivatives are linearly independent, the unit normal on
the right-handed side of `(∂S/∂u, ∂S/∂v)`. -/
theorem C96_normals {s : BSplineSurface ℝ (V3 ℝ)} (hs : s.Valid) (hp : 1 ≤ s.degree.1) (hq : 1 ≤ s.degree.2)
    (hpr : s.degree.1 < s.controlPoints.rows) (hqc : s.degree.2 < s.controlPoints.cols) (params : List (V2 ℝ))
    (hin : ∀ p ∈ params,
      (∃ a, s.degree.1 ≤ a ∧ a < s.controlPoints.rows ∧ knot s.knots.1 a < p.x ∧ p.x < knot s.knots.1 (a + 1)) ∧
      (∃ b, s.degree.2 ≤ b ∧ b < s.controlPoints.cols ∧ knot s.knots.2 b < p.y ∧ p.y < knot s.knots.2 (b + 1))) :
    ∃ ns, s.getNormals params = .ok ns ∧ List.Forall₂ (fun p n => ∃ su sv, Spec.IsPartials s p.x p.y su sv ∧
      (Spec.cross3 su sv ≠ 0 → Spec.IsUnitNormal su sv n)) params ns := by
  obtain ⟨du, e1, -, -, -, hdu⟩ := C60_derivativeU hs hp hpr
  obtain ⟨dv, e2, -, -, -, hdv⟩ := C60_derivativeV hs hq hqc
  unfold BSplineSurface.getNormals
  rw [e1, e2]
  simp only [ok_bind]
  induction params with
  | nil => exact ⟨[], rfl, .nil⟩
  | cons p ps ih =>
    obtain ⟨ns, en, hn⟩ := ih fun q hq => hin q (List.mem_cons_of_mem _ hq)
    obtain ⟨⟨a, ha1, ha2, ha3, ha4⟩, ⟨b, hb1, hb2, hb3, hb4⟩⟩ := hin p (List.mem_cons_self ..)
    have k1 : knot s.knots.1 0 ≤ p.x := (hs.sortedU.knot_le (Nat.zero_le a) (by rw [hs.lenU]; omega)).trans ha3.le
    have k2 : knot s.knots.2 0 ≤ p.y := (hs.sortedV.knot_le (Nat.zero_le b) (by rw [hs.lenV]; omega)).trans hb3.le
    obtain ⟨su, f1, g1⟩ := hdu a p.x p.y ha1 ha2 ha3 ha4 k2
    obtain ⟨sv, f2, g2⟩ := hdv b p.x p.y hb1 hb2 hb3 hb4 k1
    refine ⟨(su.cross sv).normalize :: ns, ?_, .cons ⟨su, sv, fun f => ⟨g1 f, g2 f⟩, normalize_isUnitNormal⟩ hn⟩
    rw [List.mapM_cons, en, f1, f2]
    rfl

/-- Non-vacuity: a hypar patch over the unit square; the parameter pair `(1/2, 1/3)` is inside its span. -/
example : let s : BSplineSurface ℝ (V3 ℝ) := ⟨⟨[⟨0, 0, 0⟩, ⟨0, 1, 0⟩, ⟨1, 0, 0⟩, ⟨1, 1, 1⟩], 2, 2⟩,
    ([0, 0, 1, 1], [0, 0, 1, 1]), (1, 1)⟩
    ∃ ns, s.getNormals [⟨1 / 2, 1 / 3⟩] = .ok ns ∧ ns.length = 1 := by
  intro s
  obtain ⟨ns, h, h2⟩ := C96_normals (s := s) (by
    constructor <;> first
      | exact resolved_real _
      | simp [s, NetOk, Sorted, knot]) (by simp [s]) (by simp [s]) (by simp [s]) (by simp [s]) [⟨1 / 2, 1 / 3⟩] (by
    intro p hp
    simp only [List.mem_singleton] at hp
    subst hp
    refine ⟨⟨1, ?_⟩, ⟨1, ?_⟩⟩ <;> simp [s, knot] <;> norm_num)
  exact ⟨ns, h, h2.length_eq ▸ rfl⟩

end normals

end Geom3d
