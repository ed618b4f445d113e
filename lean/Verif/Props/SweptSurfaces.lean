import Verif.Props.TurnedSurfaces

/-!
# Area and volume of swept surfaces and of the umbrella (C165)

The tangents of a sweep are those of its two curves.  The meshes of prisms have the area of the strips over the chords of the section,
exactly.  The umbrella is a cycloid turned about the axis z.
-/

set_option linter.unusedSectionVars false

namespace Geom3d
open Spec

namespace Swept

theorem curve_lip {c c' : ℝ → V3 ℝ} {o : V3 ℝ} {u0 u1 D E R M : ℝ} (h : Section c c' o u0 u1 D E R) (hM : E ≤ M) {u u' : ℝ} (hu : u ∈ Set.Icc u0 u1)
    (hu' : u' ∈ Set.Icc u0 u1) {y : ℝ} (hy : 0 ≤ M * y) : (c' u - c' u').length ≤ M * (|u - u'| + y) := by
  have := (h.lip u hu u' hu').trans (mul_le_mul_of_nonneg_right hM (abs_nonneg _))
  linarith

end Swept

open Swept

/-- **C165** The tangents of a sweep. -/
theorem C165_tangents {p p' c c' : ℝ → V3 ℝ} {o o' : V3 ℝ} {u0 u1 v0 v1 D E R D' E' R' L M : ℝ} (hp : Section p p' o u0 u1 D E R)
    (hc : Section c c' o' v0 v1 D' E' R') (hM0 : 0 ≤ M) (l1 : D ≤ L) (l2 : D' ≤ L) (m1 : E ≤ M) (m2 : E' ≤ M) :
    Tangents (fun u v => p u + c v) (fun u _ => p' u) (fun _ v => c' v) (u0, u1) (v0, v1) L M := by
  refine ⟨fun u hu v _ w => ?_, fun u _ v hv w => ?_, fun u hu v _ => (hp.le u hu).trans l1, fun u _ v hv => (hc.le v hv).trans l2,
    fun u hu v _ u' hu' v' _ => curve_lip hp m1 hu hu' (mul_nonneg hM0 (abs_nonneg _)), fun u _ v hv u' _ v' hv' => ?_⟩
  · simp only [V3.dot_add]
    exact (hp.du u hu w).add_const _
  · simp only [V3.dot_add]
    exact (hc.du v hv w).const_add _
  · have := curve_lip hc m2 hv hv' (mul_nonneg hM0 (abs_nonneg (u - u')))
    linarith

/-- **C165** The area and the volume of the meshes of a sweep. -/
theorem C165_mesh {w : SweepSurface ℝ} {p p' c c' : ℝ → V3 ℝ} {o o' : V3 ℝ} {u0 u1 v0 v1 D E R D' E' R' L M : ℝ}
    (hpp : ∀ u ∈ Set.Icc u0 u1, w.path.getPoint u = .ok (p u)) (hcc : ∀ v ∈ Set.Icc v0 v1, w.section_.getPoint v = .ok (c v))
    (hp : Section p p' o u0 u1 D E R) (hc : Section c c' o' v0 v1 D' E' R') (hM0 : 0 ≤ M) (l1 : D ≤ L) (l2 : D' ≤ L) (m1 : E ≤ M) (m2 : E' ≤ M)
    (hu : u0 < u1) (hv : v0 < v1) {a b : Nat} (ha : 1 ≤ a) (hb : 1 ≤ b) (hsz : (a + 1) * (b + 1) ≤ 2 ^ 32) :
    ∃ mesh ts, (SurfacePatch.mk w.surface ((u0, u1), (v0, v1)) (a, b)).getTriangleMesh = .ok mesh ∧ corners mesh = some ts ∧
      |totalArea ts - ∫ u in u0..u1, ∫ v in v0..v1, ((p' u).cross (c' v)).length| ≤
        (u1 - u0) * (v1 - v0) * (2 * (L * M) * ((u1 - u0) / a + (v1 - v0) / b)) ∧
      |volumeFrom (o + o') ts - ∫ u in u0..u1, ∫ v in v0..v1, (p u + c v - (o + o')).dot ((p' u).cross (c' v)) / 3| ≤
        (u1 - u0) * (v1 - v0) * ((2 * (L * M) * (R + R') + L ^ 3) / 3 * ((u1 - u0) / a + (v1 - v0) / b)) := by
  have hT := C165_tangents hp hc hM0 l1 l2 m1 m2
  obtain ⟨mesh, h1, h2⟩ := grid_mesh (s := w.surface) (S := fun u v => p u + c v) (fun u v hu hv => by
    change w.getPoint u v = _
    unfold SweepSurface.getPoint
    rw [hpp u hu, hcc v hv]
    rfl) (fun us vs _ _ => ⟨[], rfl, Or.inl rfl⟩) hu hv ha hb hsz
  refine ⟨mesh, _, h1, h2, C160_grid hT hu hv ha hb, C163_grid hT hu hv (fun u hu v hv => ?_) ha hb⟩
  have e : p u + c v - (o + o') = (p u - o) + (c v - o') := by module
  rw [e]
  exact (V3.length_add_le _ _).trans (add_le_add (hp.near u hu) (hc.near v hv))

/-- **C165** Prisms: along a straight path the area of the mesh is that of the strips over the chords of the section, exactly. -/
theorem C165_prism {w : SweepSurface ℝ} {q d : V3 ℝ} {c : ℝ → V3 ℝ} {u0 u1 v0 v1 : ℝ}
    (hpp : ∀ u ∈ Set.Icc u0 u1, w.path.getPoint u = .ok (q + u • d)) (hcc : ∀ v ∈ Set.Icc v0 v1, w.section_.getPoint v = .ok (c v))
    (hu : u0 < u1) (hv : v0 < v1) {a b : Nat} (ha : 1 ≤ a) (hb : 1 ≤ b) (hsz : (a + 1) * (b + 1) ≤ 2 ^ 32) :
    ∃ mesh ts, (SurfacePatch.mk w.surface ((u0, u1), (v0, v1)) (a, b)).getTriangleMesh = .ok mesh ∧ corners mesh = some ts ∧
      totalArea ts = (u1 - u0) * ∑ j ∈ Finset.range b,
        (d.cross (c (v0 + (j + 1) * ((v1 - v0) / b)) - c (v0 + j * ((v1 - v0) / b)))).length := by
  obtain ⟨mesh, h1, h2⟩ := grid_mesh (s := w.surface) (S := fun u v => (q + u • d) + c v) (fun u v hu hv => by
    change w.getPoint u v = _
    unfold SweepSurface.getPoint
    rw [hpp u hu, hcc v hv]
    rfl) (fun us vs _ _ => ⟨[], rfl, Or.inl rfl⟩) hu hv ha hb hsz
  refine ⟨mesh, _, h1, h2, ?_⟩
  have ha' : (0 : ℝ) < a := by exact_mod_cast ha
  have hg : 0 ≤ (u1 - u0) / a := div_nonneg (by linarith) ha'.le
  rw [Area.totalArea_grid]
  have e1 : ∀ (i : Nat) (y : V3 ℝ), q + (u0 + ((i : ℝ) + 1) * ((u1 - u0) / a)) • d + y - (q + (u0 + (i : ℝ) * ((u1 - u0) / a)) • d + y) =
      ((u1 - u0) / a) • d := by
    intro i y
    module
  simp only [Nat.cast_add, Nat.cast_one]
  simp only [e1, add_sub_add_left_eq_sub, Area.cross_smul_left, V3.length_smul, abs_of_nonneg hg, ← Finset.mul_sum, add_halves, Finset.sum_const,
    Finset.card_range, nsmul_eq_mul]
  rw [← mul_assoc, div_mul_cancel₀ _ ha'.ne']

/-! ### The umbrella -/

/-- The cycloid of the umbrella, and its derivative. -/
noncomputable def Spec.cycloid (ρ θ : ℝ) : V3 ℝ := ⟨ρ * (θ - Real.sin θ), 0, ρ * (1 + Real.cos θ)⟩
noncomputable def Spec.cycloid' (ρ θ : ℝ) : V3 ℝ := ⟨ρ * (1 - Real.cos θ), 0, -(ρ * Real.sin θ)⟩

/-- **C165** The umbrella is a turned cycloid. -/
theorem C165_umbrella_point (m : Umbrella ℝ) (θ φ : ℝ) : m.getPoint θ φ = spun 0 ⟨0, 0, 1⟩ (cycloid (m.radius / Real.pi)) θ φ := by
  unfold Umbrella.getPoint spun turned cycloid
  change (⟨m.radius / Real.pi * (θ - Real.sin θ) * Real.cos φ, m.radius / Real.pi * (θ - Real.sin θ) * Real.sin φ,
    m.radius / Real.pi * (1 + Real.cos θ)⟩ : V3 ℝ) = _
  ext <;> simp [V3.dot, V3.cross] <;> ring

namespace Swept

theorem cycloid_section {ρ : ℝ} (hρ : 0 ≤ ρ) : Section (cycloid ρ) (cycloid' ρ) 0 0 Real.pi (2 * ρ) ρ (4 * ρ) := by
  refine ⟨fun u _ w => ?_, fun u _ => ?_, fun u _ u' _ => ?_, fun u hu => ?_⟩
  · have := ((((hasDerivAt_id u).sub (Real.hasDerivAt_sin u)).const_mul ρ).const_mul w.x).add
      ((((Real.hasDerivAt_cos u).const_add 1).const_mul ρ).const_mul w.z)
    refine (this.congr_of_eventuallyEq (Filter.Eventually.of_forall fun x => ?_)).hasDerivWithinAt.congr_deriv ?_
    · simp [V3.dot, cycloid]
    · simp [V3.dot, cycloid']
  · rw [V3.length_eq]
    apply Real.sqrt_le_iff.2
    refine ⟨by positivity, ?_⟩
    have h1 := Real.sin_sq_add_cos_sq u
    have h2 := Real.neg_one_le_cos u
    simp only [cycloid', V3.dot]
    nlinarith [mul_nonneg (sq_nonneg ρ) (by linarith : 0 ≤ 1 + Real.cos u)]
  · have h := Turned.chord_le u u'
    have e : (cycloid' ρ u - cycloid' ρ u').length = ρ * Real.sqrt ((Real.cos u - Real.cos u') ^ 2 + (Real.sin u - Real.sin u') ^ 2) := by
      rw [V3.length_eq, show (cycloid' ρ u - cycloid' ρ u').dot (cycloid' ρ u - cycloid' ρ u') =
        ρ ^ 2 * ((Real.cos u - Real.cos u') ^ 2 + (Real.sin u - Real.sin u') ^ 2) by
          simp only [cycloid', V3.dot, V3.sub_x, V3.sub_y, V3.sub_z]; ring, Real.sqrt_mul (sq_nonneg _), Real.sqrt_sq hρ]
    rw [e]
    exact mul_le_mul_of_nonneg_left h hρ
  · rw [sub_zero, V3.length_eq]
    apply Real.sqrt_le_iff.2
    refine ⟨by positivity, ?_⟩
    have h1 := Real.sin_sq_add_cos_sq u
    have h2 := Real.cos_le_one u
    have h3 := Real.sin_nonneg_of_nonneg_of_le_pi hu.1 hu.2
    have h4 : u ≤ 3.15 := hu.2.trans Real.pi_lt_d2.le
    have h5 := hu.1
    have h6 : (u - Real.sin u) ^ 2 + (1 + Real.cos u) ^ 2 ≤ 16 := by
      have : (u - Real.sin u) ^ 2 ≤ u ^ 2 + Real.sin u ^ 2 := by nlinarith [mul_nonneg h5 h3]
      nlinarith
    simp only [cycloid, V3.dot]
    nlinarith [mul_le_mul_of_nonneg_left h6 (sq_nonneg ρ)]

end Swept

/-- **C165** The meshes of the umbrella: their area converges to `32/3 π ρ²` and the volume under them to `(π²/2 - 8/3) π ρ³`, where `π ρ` is the
radius of the rim. -/
theorem C165_umbrella (m : Umbrella ℝ) (hr : 0 ≤ m.radius) {a b : Nat} (ha : 1 ≤ a) (hb : 1 ≤ b) (hsz : (a + 1) * (b + 1) ≤ 2 ^ 32) {ρ : ℝ}
    (hρ : m.radius = Real.pi * ρ) :
    ∃ mesh ts, (SurfacePatch.mk m.surface ((0, Real.pi), (0, 2 * Real.pi)) (a, b)).getTriangleMesh = .ok mesh ∧ corners mesh = some ts ∧
      |totalArea ts - 32 / 3 * Real.pi * ρ ^ 2| ≤ 64 * Real.pi ^ 3 * ρ ^ 2 * (1 / a + 2 / b) ∧
      |volumeFrom 0 ts - (Real.pi ^ 2 / 2 - 8 / 3) * Real.pi * ρ ^ 3| ≤ 128 * Real.pi ^ 3 * ρ ^ 3 * (1 / a + 2 / b) := by
  have hpi := Real.pi_pos
  have hρ' : m.radius / Real.pi = ρ := by rw [hρ]; field_simp
  have hρ0 : 0 ≤ ρ := by rw [← hρ']; positivity
  have hax : (⟨0, 0, 1⟩ : V3 ℝ).dot ⟨0, 0, 1⟩ = 1 := by simp [V3.dot]
  have hsec := cycloid_section hρ0
  have hT := C164_tangents hax hsec (v0 := 0) (v1 := 2 * Real.pi) (L := 4 * ρ) (M := 4 * ρ) (by linarith) le_rfl (by linarith) (by linarith) le_rfl
  obtain ⟨mesh, h1, h2⟩ := grid_mesh (s := m.surface) (S := spun 0 ⟨0, 0, 1⟩ (cycloid ρ)) (fun u v _ _ => by
      change Except.ok (m.getPoint u v) = _
      rw [C165_umbrella_point, hρ']) (fun us vs _ _ => ⟨[], rfl, Or.inl rfl⟩) hpi (by linarith : 0 < 2 * Real.pi) ha hb hsz
  refine ⟨mesh, _, h1, h2, ?_, ?_⟩
  · have := C160_grid hT hpi (by linarith : 0 < 2 * Real.pi) ha hb
    rw [C164_area _ _ hax] at this
    have i : ∫ u in (0 : ℝ)..Real.pi, ((cycloid' ρ u).cross ((⟨0, 0, 1⟩ : V3 ℝ).cross (cycloid ρ u - 0))).length = 16 / 3 * ρ ^ 2 := by
      have d : ∀ u ∈ Set.uIcc 0 Real.pi, HasDerivAt (fun u => 2 * ρ ^ 2 * (4 * Real.sin (u / 2) - 2 * (u * Real.cos (u / 2)) - 4 / 3 * Real.sin (u / 2) ^ 3))
          (((cycloid' ρ u).cross ((⟨0, 0, 1⟩ : V3 ℝ).cross (cycloid ρ u - 0))).length) u := by
        intro u hu
        rw [Set.uIcc_of_le hpi.le] at hu
        have hs := Real.sin_le hu.1
        have hs2 : 0 ≤ Real.sin (u / 2) := Real.sin_nonneg_of_nonneg_of_le_pi (by linarith [hu.1]) (by linarith [hu.2])
        have e1 : Real.sin u = 2 * Real.sin (u / 2) * Real.cos (u / 2) := by
          have := Real.sin_two_mul (u / 2)
          rwa [mul_div_cancel₀ _ (two_ne_zero)] at this
        have e2 : Real.cos u = 1 - 2 * Real.sin (u / 2) ^ 2 := by
          have := Real.cos_two_mul (u / 2)
          rw [mul_div_cancel₀ _ (two_ne_zero)] at this
          have := Real.sin_sq_add_cos_sq (u / 2)
          linarith
        have e : ((cycloid' ρ u).cross ((⟨0, 0, 1⟩ : V3 ℝ).cross (cycloid ρ u - 0))).length = ρ * (u - Real.sin u) * (2 * ρ * Real.sin (u / 2)) := by
          rw [V3.length_eq, ← Real.sqrt_sq (mul_nonneg (mul_nonneg hρ0 (by linarith : 0 ≤ u - Real.sin u)) (by positivity : 0 ≤ 2 * ρ * Real.sin (u / 2)))]
          congr 1
          have h1 := Real.sin_sq_add_cos_sq u
          simp only [cycloid, cycloid', sub_zero, V3.cross, V3.dot]
          have h2 : 4 * Real.sin (u / 2) ^ 2 = 2 - 2 * Real.cos u := by rw [e2]; ring
          linear_combination (ρ ^ 4 * (u - Real.sin u) ^ 2) * h1 - (ρ ^ 4 * (u - Real.sin u) ^ 2) * h2
        have d1 := ((hasDerivAt_id u).div_const 2).sin
        have d2 := ((hasDerivAt_id u).div_const 2).cos
        have := (((d1.const_mul 4).sub (((hasDerivAt_id u).mul d2).const_mul 2)).sub ((d1.pow 3).const_mul (4 / 3))).const_mul (2 * ρ ^ 2)
        rw [e]
        refine this.congr_deriv ?_
        rw [e1]
        simp only [id]
        norm_num
        ring
      rw [intervalIntegral.integral_eq_sub_of_hasDerivAt d (by
        refine ContinuousOn.intervalIntegrable ?_
        refine Continuous.continuousOn ?_
        simp only [V3.length_eq, cycloid, cycloid', sub_zero, V3.cross, V3.dot]
        fun_prop)]
      simp
      ring
    rw [i] at this
    refine (le_of_eq ?_).trans (this.trans (le_of_eq ?_))
    · congr 1; ring
    · ring
  · have := C163_grid (o := 0) (R := 4 * ρ) hT hpi (by linarith : 0 < 2 * Real.pi) (fun u hu v _ => by
      unfold spun
      rw [add_sub_cancel_left, Turned.length hax]
      exact hsec.near u hu) ha hb
    rw [C164_volume _ _ hax] at this
    have i : ∫ u in (0 : ℝ)..Real.pi, ((cycloid ρ u - 0).dot ⟨0, 0, 1⟩ * (cycloid' ρ u).dot (cycloid ρ u - 0) -
        (cycloid ρ u - 0).dot (cycloid ρ u - 0) * (cycloid' ρ u).dot ⟨0, 0, 1⟩) = (3 * Real.pi ^ 2 / 4 - 4) * ρ ^ 3 := by
      have d : ∀ u ∈ Set.uIcc 0 Real.pi, HasDerivAt (fun u => ρ ^ 3 * ((2 * (u * Real.sin u) + 2 * Real.cos u - u * u * Real.cos u)
            - (u * u / 4 - u * (Real.sin u * Real.cos u) / 2 - Real.cos u * Real.cos u / 4)))
          ((cycloid ρ u - 0).dot ⟨0, 0, 1⟩ * (cycloid' ρ u).dot (cycloid ρ u - 0) -
            (cycloid ρ u - 0).dot (cycloid ρ u - 0) * (cycloid' ρ u).dot ⟨0, 0, 1⟩) u := by
        intro u _
        have h1 := Real.sin_sq_add_cos_sq u
        have dI := hasDerivAt_id u
        have dS := Real.hasDerivAt_sin u
        have dC := Real.hasDerivAt_cos u
        have := ((((dI.mul dS).const_mul 2).add (dC.const_mul 2)).sub ((dI.mul dI).mul dC)).sub
          ((((dI.mul dI).div_const 4).sub ((dI.mul (dS.mul dC)).div_const 2)).sub ((dC.mul dC).div_const 4))
        have := this.const_mul (ρ ^ 3)
        refine this.congr_deriv ?_
        simp only [id, Pi.mul_apply, cycloid, cycloid', sub_zero, V3.dot]
        linear_combination (ρ ^ 3 * (u - Real.sin u) + ρ ^ 3 * u / 2) * h1
      rw [intervalIntegral.integral_eq_sub_of_hasDerivAt d (by
        refine ContinuousOn.intervalIntegrable ?_
        refine Continuous.continuousOn ?_
        simp only [cycloid, cycloid', sub_zero, V3.dot]
        fun_prop)]
      simp
      ring
    rw [i] at this
    refine (le_of_eq ?_).trans (this.trans (le_of_eq ?_))
    · congr 1; ring
    · ring

/-! ### Examples -/

/-- **C165**, an example: a tube of height 5 over a circle. -/
example {a b : Nat} (ha : 1 ≤ a) (hb : 1 ≤ b) (hsz : (a + 1) * (b + 1) ≤ 2 ^ 32) :
    ∃ mesh ts, (SurfacePatch.mk (SweepSurface.surface ⟨{ getPoint := fun u => pure ((⟨⟨0, 0, 0⟩, ⟨0, 0, 1⟩⟩ : Line ℝ).getPoint u), project := fun p => pure ((⟨⟨0, 0, 0⟩, ⟨0, 0, 1⟩⟩ : Line ℝ).project p) }, Circle.obj ⟨⟨0, 0, 0⟩, 1, ⟨0, 0, 1⟩, ⟨1, 0, 0⟩⟩⟩)
      ((0, 5), (0, 2 * Real.pi)) (a, b)).getTriangleMesh = .ok mesh ∧ corners mesh = some ts ∧
      |totalArea ts - 10 * Real.pi| ≤ 20 * Real.pi * (5 / a + 2 * Real.pi / b) := by
  have hF : Framed (⟨⟨0, 0, 0⟩, 1, ⟨0, 0, 1⟩, ⟨1, 0, 0⟩⟩ : Circle ℝ) := ⟨by simp [V3.dot], by simp [V3.dot], by simp [V3.dot]⟩
  have hl : Section (fun u => (⟨0, 0, u⟩ : V3 ℝ)) (fun _ => ⟨0, 0, 1⟩) 0 0 5 1 0 5 := by
    refine ⟨fun u _ w => ?_, fun u _ => ?_, fun u _ u' _ => ?_, fun u hu => ?_⟩
    · have := (hasDerivAt_id u).const_mul w.z
      refine (this.congr_of_eventuallyEq (Filter.Eventually.of_forall fun x => ?_)).hasDerivWithinAt.congr_deriv ?_ <;> simp [V3.dot]
    · simp [V3.length_eq, V3.dot]
    · rw [sub_self, V3.length_zero, zero_mul]
    · rw [sub_zero, V3.length_eq]
      apply Real.sqrt_le_iff.2
      refine ⟨by norm_num, ?_⟩
      simp only [V3.dot]
      nlinarith [hu.1, hu.2]
  obtain ⟨mesh, ts, h1, h2, h3, -⟩ := C165_mesh (w := ⟨{ getPoint := fun u => pure ((⟨⟨0, 0, 0⟩, ⟨0, 0, 1⟩⟩ : Line ℝ).getPoint u), project := fun p => pure ((⟨⟨0, 0, 0⟩, ⟨0, 0, 1⟩⟩ : Line ℝ).project p) }, Circle.obj ⟨⟨0, 0, 0⟩, 1, ⟨0, 0, 1⟩, ⟨1, 0, 0⟩⟩⟩)
    (u0 := 0) (u1 := 5) (v0 := 0) (v1 := 2 * Real.pi) (L := 1) (M := 1) (c := circ ⟨⟨0, 0, 0⟩, 1, ⟨0, 0, 1⟩, ⟨1, 0, 0⟩⟩) (fun u _ => by
      change Except.ok (Line.getPoint _ _) = _
      congr 1
      unfold Line.getPoint
      rw [V3.rmul_eq]
      ext <;> simp) (fun v _ => by
      change Except.ok (Circle.getPoint _ _) = _
      rw [circle_getPoint hF]
      congr 1
      unfold circ
      module) hl (Turned.circ_section hF (by norm_num) (o := 0) le_rfl 0 (2 * Real.pi)) (by norm_num) le_rfl le_rfl (by norm_num) le_rfl
    (by norm_num) (by linarith [Real.pi_pos]) ha hb hsz
  refine ⟨mesh, ts, h1, h2, ?_⟩
  have e : ∀ v, ((⟨0, 0, 1⟩ : V3 ℝ).cross (circ' ⟨⟨0, 0, 0⟩, 1, ⟨0, 0, 1⟩, ⟨1, 0, 0⟩⟩ v)).length = 1 := by
    intro v
    rw [V3.length_eq, Real.sqrt_eq_one]
    simp [circ', V3.cross, V3.dot]
    nlinarith [Real.sin_sq_add_cos_sq v]
  simp only [e, intervalIntegral.integral_const, smul_eq_mul, sub_zero, mul_one] at h3
  refine (le_of_eq ?_).trans (h3.trans (le_of_eq ?_))
  · congr 1; ring
  · ring

/-- **C165**, an example: the umbrella of the test in `src/surface/umbrella.rs:26-39`, whose rim has the radius π, with a fine division: the
area of its mesh is `32/3 π` and the volume under it `(π²/2 - 8/3) π`, within a quarter and a half. -/
example : ∃ mesh ts, (SurfacePatch.mk (Umbrella.surface (⟨Real.pi⟩ : Umbrella ℝ)) ((0, Real.pi), (0, 2 * Real.pi)) (16384, 32768)).getTriangleMesh
      = .ok mesh ∧ corners mesh = some ts ∧ |totalArea ts - 32 / 3 * Real.pi| ≤ 1 / 4 ∧
      |volumeFrom 0 ts - (Real.pi ^ 2 / 2 - 8 / 3) * Real.pi| ≤ 1 / 2 := by
  obtain ⟨mesh, ts, h1, h2, h3, h4⟩ := C165_umbrella ⟨Real.pi⟩ Real.pi_pos.le (a := 16384) (b := 32768) (by norm_num) (by norm_num) (by norm_num)
    (ρ := 1) (by simp)
  rw [one_pow, mul_one, mul_one] at h3 h4
  have hp : Real.pi ^ 3 ≤ 32 := by
    have h := Real.pi_lt_d2
    have h0 := Real.pi_pos
    have : Real.pi ^ 2 ≤ 3.15 ^ 2 := by nlinarith
    nlinarith
  refine ⟨mesh, ts, h1, h2, h3.trans ?_, h4.trans ?_⟩
  · push_cast
    linarith
  · push_cast
    linarith

end Geom3d
