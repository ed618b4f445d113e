import Verif.Model.Curve
import Verif.Lemmas.Real3
import Verif.Spec.RealTrig
import Verif.Props.Metric

/-! # C20–C22, C67, C68: lines and circles -/

set_option linter.unusedSectionVars false

namespace Geom3d

/-! ### Lines -/

section
variable {K : Type} [Field K] [LinearOrder K] [IsStrictOrderedRing K]

/-- What `project` really computes on its own points: `u * |d|²`. -/
theorem line_project_getPoint (l : Line K) (u : K) : l.project (l.getPoint u) = u * l.direction.dot l.direction := by
  simp only [Line.project, Line.getPoint, V3.rmul_eq, add_sub_cancel_left, V3.smul_dot]

/-- **C68** (and **C20** restricted to unit directions): `project` inverts `get_point` for all parameters iff the
direction is a unit vector. -/
theorem C68_inverse_iff (l : Line K) : (∀ u, l.project (l.getPoint u) = u) ↔ l.direction.dot l.direction = 1 := by
  simp only [line_project_getPoint]
  constructor
  · intro h; simpa using h 1
  · intro h u; rw [h, mul_one]

/-- Squared distance to the point at parameter `u`. -/
theorem line_dist_sq (l : Line K) (p : V3 K) (u : K) :
    (p - l.getPoint u).dot (p - l.getPoint u)
      = (p - l.origin).dot (p - l.origin) - 2 * u * (p - l.origin).dot l.direction + u ^ 2 * l.direction.dot l.direction := by
  simp only [Line.getPoint, V3.rmul_eq, V3.dot, V3.sub_x, V3.sub_y, V3.sub_z, V3.add_x, V3.add_y, V3.add_z, V3.smul_x,
    V3.smul_y, V3.smul_z]
  ring

/-- **C20** for unit directions: the projected point is nearest. -/
theorem C20_nearest_partial (l : Line K) (h : l.direction.dot l.direction = 1) (p : V3 K) (u : K) :
    (p - l.getPoint (l.project p)).dot (p - l.getPoint (l.project p)) ≤ (p - l.getPoint u).dot (p - l.getPoint u) := by
  rw [line_dist_sq, line_dist_sq, h]
  unfold Line.project
  nlinarith [sq_nonneg (u - (p - l.origin).dot l.direction)]

theorem C20_inverse_partial (l : Line K) (h : l.direction.dot l.direction = 1) (u : K) :
    l.project (l.getPoint u) = u := (C68_inverse_iff l).2 h u

/-- **C68**: for any non-zero direction, the nearest parameter is `project(p) / |d|²`, and it is the only one. -/
theorem C68_nearest (l : Line K) (h : l.direction ≠ 0) (p : V3 K) (u : K) :
    (∀ w, (p - l.getPoint u).dot (p - l.getPoint u) ≤ (p - l.getPoint w).dot (p - l.getPoint w)) ↔
      u = l.project p / l.direction.dot l.direction := by
  have hd := V3.dot_self_pos h
  simp only [line_dist_sq]
  unfold Line.project
  generalize hP : (p - l.origin).dot l.direction = P
  generalize hD : l.direction.dot l.direction = D at *
  have key : ∀ w, (p - l.origin).dot (p - l.origin) - 2 * w * P + w ^ 2 * D
      = (p - l.origin).dot (p - l.origin) - P ^ 2 / D + D * (w - P / D) ^ 2 := by
    intro w; field_simp; ring
  constructor
  · intro hw
    have := hw (P / D)
    rw [key, key, sub_self] at this
    have h2 : D * (u - P / D) ^ 2 ≤ 0 := by nlinarith
    have h3 : (u - P / D) ^ 2 = 0 := le_antisymm (by nlinarith [sq_nonneg (u - P / D)]) (sq_nonneg _)
    have := pow_eq_zero_iff (two_ne_zero) |>.1 h3
    linarith
  · rintro rfl w
    rw [key, key, sub_self]
    nlinarith [mul_nonneg hd.le (sq_nonneg (w - P / D))]

/-- **C20 is false of the code**: for every direction that is neither a unit vector nor zero, `project(get_point(1))` is
not 1 and the point it leads to is not nearest. -/
theorem C20_false (l : Line K) (h0 : l.direction ≠ 0) (h1 : l.direction.dot l.direction ≠ 1) :
    l.project (l.getPoint 1) ≠ 1 ∧
      ¬ ∀ w, (l.getPoint 1 - l.getPoint (l.project (l.getPoint 1))).dot (l.getPoint 1 - l.getPoint (l.project (l.getPoint 1)))
        ≤ (l.getPoint 1 - l.getPoint w).dot (l.getPoint 1 - l.getPoint w) := by
  refine ⟨by rw [line_project_getPoint, one_mul]; exact h1, fun h => ?_⟩
  have := (C68_nearest l h0 (l.getPoint 1) _).1 h
  rw [line_project_getPoint, one_mul, div_self (ne_of_gt (V3.dot_self_pos h0))] at this
  exact h1 this

/-- Non-vacuity: a unit direction with rational coordinates, and one that is not. -/
example : (⟨⟨1, 0, 0⟩, ⟨3 / 5, 4 / 5, 0⟩⟩ : Line ℚ).project ⟨1, 5, 7⟩ = 4 := by decide +kernel
example : (⟨⟨0, 0, 0⟩, ⟨2, 0, 0⟩⟩ : Line ℚ).project ⟨2, 0, 0⟩ = 4 := by decide +kernel
end

/-! ### Circles -/

/-- An orthonormal frame: unit axis, unit reference direction, perpendicular. -/
structure Spec.Framed (c : Circle ℝ) : Prop where
  axis : c.axis.dot c.axis = 1
  ref : c.refDir.dot c.refDir = 1
  perp : c.axis.dot c.refDir = 0

/-- The circle as a set: points of the plane through the centre normal to the axis, at distance `radius`. -/
def Spec.OnCircle (c : Circle ℝ) (q : V3 ℝ) : Prop :=
  (q - c.center).dot c.axis = 0 ∧ Spec.dist3 q c.center = c.radius

/-- Rodrigues' formula for a vector perpendicular to the unit axis. -/
theorem rotate_perp {axis v : V3 ℝ} (ha : axis.dot axis = 1) (h : axis.dot v = 0) (a : ℝ) :
    (Quat.fromAxisAngle axis a).mulVec v = Real.cos a • v + Real.sin a • axis.cross v := by
  have hc := Real.cos_sq_add_sin_sq (a * (1 / 2))
  have h2 : a = 2 * (a * (1 / 2)) := by ring
  have e1 : Real.cos a = Real.cos (a * (1 / 2)) ^ 2 - Real.sin (a * (1 / 2)) ^ 2 := by
    conv_lhs => rw [h2, Real.cos_two_mul]
    linarith
  have e2 : Real.sin a = 2 * Real.sin (a * (1 / 2)) * Real.cos (a * (1 / 2)) := by
    conv_lhs => rw [h2, Real.sin_two_mul]
  rw [e1, e2]
  simp only [Quat.fromAxisAngle, Quat.mulVec, Trig.sin, Trig.cos, V3.rmul_eq, Nat.cast_ofNat]
  generalize Real.sin (a * (1 / 2)) = s
  generalize Real.cos (a * (1 / 2)) = k
  simp only [V3.smul_dot, V3.dot_smul, ha, V3.dot_comm v axis, h, mul_one, mul_zero, zero_mul, zero_smul, add_zero]
  ext <;> simp [V3.cross] <;> ring

theorem circle_getPoint {c : Circle ℝ} (h : Spec.Framed c) (a : ℝ) :
    c.getPoint a = c.center + (c.radius * Real.cos a) • c.refDir + (c.radius * Real.sin a) • c.axis.cross c.refDir := by
  unfold Circle.getPoint
  rw [rotate_perp h.axis h.perp, V3.rmul_eq]
  module

/-- The third frame vector is a unit vector. -/
theorem framed_cross {c : Circle ℝ} (h : Spec.Framed c) : (c.axis.cross c.refDir).dot (c.axis.cross c.refDir) = 1 := by
  rw [V3.lagrange, h.axis, h.ref, h.perp]; norm_num

theorem framed_normalize {c : Circle ℝ} (h : Spec.Framed c) :
    (c.axis.cross c.refDir).normalize = c.axis.cross c.refDir := by
  unfold V3.normalize
  rw [V3.length_eq, framed_cross h, Real.sqrt_one, V3.rmul_eq, div_one, one_smul]

/-- Frame coordinates determine the scalar product of vectors, one of which is perpendicular to the axis. -/
theorem framed_dot {c : Circle ℝ} (h : Spec.Framed c) {w : V3 ℝ} (hw : w.dot c.axis = 0) (d : V3 ℝ) :
    d.dot w = d.dot c.refDir * w.dot c.refDir + d.dot (c.axis.cross c.refDir) * w.dot (c.axis.cross c.refDir) := by
  obtain ⟨h1, h2, h3⟩ := h
  -- w = (w·r) r + (w·(a×r)) (a×r)
  have hz : w - ((w.dot c.refDir) • c.refDir + (w.dot (c.axis.cross c.refDir)) • c.axis.cross c.refDir) = 0 := by
    apply V3.dot_self_eq_zero
    -- |w|² = (w·r)² + (w·(a×r))² when w ⟂ a
    have key : (w.dot (c.axis.cross c.refDir)) ^ 2 = w.dot w - (w.dot c.refDir) ^ 2 := by
      -- Gram determinant of (a, r, w)
      have g : (w.dot (c.axis.cross c.refDir)) ^ 2
          = w.dot w * (c.axis.dot c.axis * c.refDir.dot c.refDir - c.axis.dot c.refDir ^ 2)
            - w.dot c.axis * (w.dot c.axis * c.refDir.dot c.refDir - c.axis.dot c.refDir * w.dot c.refDir)
            + w.dot c.refDir * (w.dot c.axis * c.axis.dot c.refDir - c.axis.dot c.axis * w.dot c.refDir) := by
        simp only [V3.dot, V3.cross]; ring
      rw [g, h1, h2, h3, hw]; ring
    have hrr : c.refDir.dot (c.axis.cross c.refDir) = 0 := V3.dot_cross_right _ _
    have hcc : (c.axis.cross c.refDir).dot (c.axis.cross c.refDir) = 1 := by rw [V3.lagrange, h1, h2, h3]; norm_num
    simp only [V3.sub_dot, V3.dot_sub, V3.add_dot, V3.dot_add, V3.smul_dot, V3.dot_smul, h2, hcc, hrr,
      V3.dot_comm (c.axis.cross c.refDir) c.refDir, V3.dot_comm c.refDir w, V3.dot_comm (c.axis.cross c.refDir) w]
    nlinarith
  have hw' := sub_eq_zero.1 hz
  conv_lhs => rw [hw']
  simp only [V3.dot_add, V3.dot_smul]
  ring

/-- **C21**: every point produced lies on the circle (radius ≥ 0). -/
theorem C21_on_circle {c : Circle ℝ} (h : Spec.Framed c) (hr : 0 ≤ c.radius) (a : ℝ) : Spec.OnCircle c (c.getPoint a) := by
  have hcc := framed_cross h
  have hrr : c.refDir.dot (c.axis.cross c.refDir) = 0 := V3.dot_cross_right _ _
  have haa : c.axis.dot (c.axis.cross c.refDir) = 0 := V3.dot_cross_left _ _
  constructor
  · rw [circle_getPoint h, add_assoc, add_sub_cancel_left, V3.add_dot, V3.smul_dot, V3.smul_dot,
      V3.dot_comm c.refDir, h.perp, V3.dot_comm _ c.axis, haa]
    ring
  · rw [dist3_eq, circle_getPoint h]
    unfold V3.distance
    rw [add_assoc, add_sub_cancel_left, V3.length_eq]
    have e : ((c.radius * Real.cos a) • c.refDir + (c.radius * Real.sin a) • c.axis.cross c.refDir).dot
        ((c.radius * Real.cos a) • c.refDir + (c.radius * Real.sin a) • c.axis.cross c.refDir) = c.radius * c.radius := by
      simp only [V3.add_dot, V3.dot_add, V3.smul_dot, V3.dot_smul, h.ref, hcc, hrr,
        V3.dot_comm (c.axis.cross c.refDir) c.refDir]
      have := Real.cos_sq_add_sin_sq a
      linear_combination c.radius ^ 2 * this
    rw [e, Real.sqrt_mul_self hr]

/-- **C21**: `2π`-periodic. -/
theorem C21_periodic {c : Circle ℝ} (h : Spec.Framed c) (a : ℝ) : c.getPoint (a + 2 * Real.pi) = c.getPoint a := by
  rw [circle_getPoint h, circle_getPoint h, Real.cos_add_two_pi, Real.sin_add_two_pi]

/-- **C21**: `project` always lands in `[0, 2π)` (any circle). -/
theorem C21_project_range (c : Circle ℝ) (p : V3 ℝ) : 0 ≤ c.project p ∧ c.project p < 2 * Real.pi := by
  unfold Circle.project
  simp only [Trig.atan2, Trig.tau]
  have h1 := Complex.neg_pi_lt_arg ⟨(p - c.center).dot c.refDir, (p - c.center).dot (c.axis.cross c.refDir).normalize⟩
  have h2 := Complex.arg_le_pi ⟨(p - c.center).dot c.refDir, (p - c.center).dot (c.axis.cross c.refDir).normalize⟩
  have := Real.pi_pos
  split
  · rename_i h; exact ⟨h, by linarith⟩
  · rename_i h
    have h := not_le.1 h
    exact ⟨by linarith, by linarith⟩

/-- Cosine and sine of the projected angle. -/
theorem project_cos_sin {c : Circle ℝ} (h : Spec.Framed c) (p : V3 ℝ) :
    ∃ ρ : ℝ, 0 ≤ ρ ∧ ρ * Real.cos (c.project p) = (p - c.center).dot c.refDir ∧
      ρ * Real.sin (c.project p) = (p - c.center).dot (c.axis.cross c.refDir) := by
  have e : Real.cos (c.project p) = Real.cos (Complex.arg ⟨(p - c.center).dot c.refDir, (p - c.center).dot (c.axis.cross c.refDir)⟩)
      ∧ Real.sin (c.project p) = Real.sin (Complex.arg ⟨(p - c.center).dot c.refDir, (p - c.center).dot (c.axis.cross c.refDir)⟩) := by
    unfold Circle.project
    simp only [Trig.atan2, Trig.tau, framed_normalize h]
    split
    · exact ⟨rfl, rfl⟩
    · exact ⟨Real.cos_add_two_pi _, Real.sin_add_two_pi _⟩
  rw [e.1, e.2]
  exact ⟨_, norm_nonneg _, Complex.norm_mul_cos_arg ⟨_, _⟩, Complex.norm_mul_sin_arg ⟨_, _⟩⟩

/-- **C21**: `project` inverts `get_point` on `[0, 2π)`. -/
theorem C21_inverse {c : Circle ℝ} (h : Spec.Framed c) (hr : 0 < c.radius) {a : ℝ} (h0 : 0 ≤ a) (h1 : a < 2 * Real.pi) :
    c.project (c.getPoint a) = a := by
  have hcc := framed_cross h
  have hrr : c.refDir.dot (c.axis.cross c.refDir) = 0 := V3.dot_cross_right _ _
  have ex : (c.getPoint a - c.center).dot c.refDir = c.radius * Real.cos a := by
    rw [circle_getPoint h, add_assoc, add_sub_cancel_left, V3.add_dot, V3.smul_dot, V3.smul_dot, h.ref,
      V3.dot_comm _ c.refDir, hrr]; ring
  have ey : (c.getPoint a - c.center).dot (c.axis.cross c.refDir) = c.radius * Real.sin a := by
    rw [circle_getPoint h, add_assoc, add_sub_cancel_left, V3.add_dot, V3.smul_dot, V3.smul_dot, hrr, hcc]; ring
  unfold Circle.project
  simp only [Trig.atan2, Trig.tau, framed_normalize h, ex, ey]
  have harg : ∀ θ : ℝ, θ ∈ Set.Ioc (-Real.pi) Real.pi →
      Complex.arg ⟨c.radius * Real.cos θ, c.radius * Real.sin θ⟩ = θ := by
    intro θ hθ
    have := Complex.arg_mul_cos_add_sin_mul_I hr hθ
    refine Eq.trans ?_ this
    congr 1
    apply Complex.ext <;> simp [Complex.cos_ofReal_re, Complex.sin_ofReal_re, Complex.cos_ofReal_im, Complex.sin_ofReal_im]
  have hpi := Real.pi_pos
  rcases le_or_gt a Real.pi with hle | hgt
  · rw [harg a ⟨by linarith, hle⟩, if_pos h0]
  · have h2 := harg (a - 2 * Real.pi) ⟨by linarith, by linarith⟩
    rw [Real.cos_sub_two_pi, Real.sin_sub_two_pi] at h2
    rw [h2, if_neg (by linarith)]
    ring

/-- **C21**: the projected point is a nearest point of the circle. -/
theorem C21_nearest {c : Circle ℝ} (h : Spec.Framed c) (hr : 0 ≤ c.radius) (p q : V3 ℝ) (hq : Spec.OnCircle c q) :
    Spec.dist3 p (c.getPoint (c.project p)) ≤ Spec.dist3 p q := by
  -- reduce to scalar products with vectors of the circle
  have expand : ∀ q : V3 ℝ, Spec.OnCircle c q → Spec.dist3 p q
      = Real.sqrt ((p - c.center).dot (p - c.center) - 2 * (p - c.center).dot (q - c.center) + c.radius * c.radius) := by
    intro q hq
    rw [dist3_eq]
    unfold V3.distance
    rw [V3.length_eq]
    congr 1
    have hl : (q - c.center).dot (q - c.center) = c.radius * c.radius := by
      have := hq.2
      rw [dist3_eq] at this
      unfold V3.distance at this
      rw [← V3.length_mul_self, this]
    rw [← hl]
    simp only [V3.dot, V3.sub_x, V3.sub_y, V3.sub_z]; ring
  rw [expand q hq, expand _ (C21_on_circle h hr _)]
  apply Real.sqrt_le_sqrt
  have hl : (q - c.center).dot (q - c.center) = c.radius * c.radius := by
    have := hq.2
    rw [dist3_eq] at this
    unfold V3.distance at this
    rw [← V3.length_mul_self, this]
  have hdq := framed_dot h hq.1 (p - c.center)
  have hqq := framed_dot h hq.1 (q - c.center)
  obtain ⟨ρ, hρ, e1, e2⟩ := project_cos_sin h p
  have hdp : (p - c.center).dot (c.getPoint (c.project p) - c.center) = c.radius * ρ := by
    rw [circle_getPoint h, add_assoc, add_sub_cancel_left, V3.dot_add, V3.dot_smul, V3.dot_smul, ← e1, ← e2]
    have := Real.cos_sq_add_sin_sq (c.project p)
    linear_combination c.radius * ρ * this
  rw [hdq, hdp, ← e1, ← e2]
  rw [hl] at hqq
  generalize (q - c.center).dot c.refDir = u at *
  generalize (q - c.center).dot (c.axis.cross c.refDir) = v at *
  have hcs := Real.cos_sq_add_sin_sq (c.project p)
  have hbound : Real.cos (c.project p) * u + Real.sin (c.project p) * v ≤ c.radius := by
    apply le_of_sq_le_sq _ hr
    nlinarith [sq_nonneg (Real.cos (c.project p) * v - Real.sin (c.project p) * u)]
  nlinarith [mul_le_mul_of_nonneg_left hbound hρ]

/-- Non-vacuity: a tilted frame. -/
example : Spec.Framed ⟨⟨1, 2, 3⟩, 2, ⟨0, 3 / 5, 4 / 5⟩, ⟨0, 4 / 5, -3 / 5⟩⟩ := by
  constructor <;> norm_num [V3.dot]

/-- **C22**, true part: for different angles in `[0, 2π)` the refined range has the same end points on the circle and
sweeps forward (backward) by an amount strictly between 0 and `2π`. -/
theorem C22_sweep_partial {a b : ℝ} (ha : 0 ≤ a ∧ a < 2 * Real.pi) (hb : 0 ≤ b ∧ b < 2 * Real.pi) (hne : a ≠ b)
    (sense : Bool) :
    let r := Circle.refineParameterRange (a, b) sense
    (sense = true → 0 < r.2 - r.1 ∧ r.2 - r.1 < 2 * Real.pi) ∧
      (sense = false → 0 < r.1 - r.2 ∧ r.1 - r.2 < 2 * Real.pi) := by
  unfold Circle.refineParameterRange
  simp only [Trig.tau]
  rcases lt_or_gt_of_ne hne with h | h <;> cases sense <;> simp [h, not_lt.2 h.le] <;> first
    | linarith [ha.1, ha.2, hb.1, hb.2]
    | (constructor <;> linarith [ha.1, ha.2, hb.1, hb.2])

/-- **C22**: the end points on the circle are unchanged (any angles, either sense). -/
theorem C22_same_endpoints {c : Circle ℝ} (h : Spec.Framed c) (range : ℝ × ℝ) (sense : Bool) :
    c.getPoint (Circle.refineParameterRange range sense).1 = c.getPoint range.1 ∧
      c.getPoint (Circle.refineParameterRange range sense).2 = c.getPoint range.2 := by
  unfold Circle.refineParameterRange
  simp only [Trig.tau]
  split
  · exact ⟨rfl, C21_periodic h _⟩
  · split
    · exact ⟨C21_periodic h _, rfl⟩
    · exact ⟨rfl, rfl⟩

/-- **C22 is false of the code for closed edges** (law-free, so also in `f64`): equal angles are returned unchanged, in
either sense, so a full circle becomes an empty sweep. -/
theorem C67_closed_edge_unchanged {F : Type} [Add F] [LT F] [DecidableLT F] [Trig F] (a : F) (irr : ¬ a < a) (sense : Bool) :
    Circle.refineParameterRange (a, a) sense = (a, a) := by
  unfold Circle.refineParameterRange
  simp [irr]

theorem C22_closed_edge_false (a : ℝ) :
    ¬ (let r := Circle.refineParameterRange (a, a) true; 0 < r.2 - r.1 ∧ r.2 - r.1 ≤ 2 * Real.pi) ∧
    ¬ (let r := Circle.refineParameterRange (a, a) false; 0 < r.1 - r.2 ∧ r.1 - r.2 ≤ 2 * Real.pi) := by
  rw [C67_closed_edge_unchanged a (lt_irrefl a), C67_closed_edge_unchanged a (lt_irrefl a)]
  simp

/-- **C67**: the exact sweep of the refined range for angles in `[0, 2π)`: the representative of `±(b - a)` modulo `2π`
that lies in `[0, 2π)`. -/
theorem C67_sweep {a b : ℝ} (ha : 0 ≤ a ∧ a < 2 * Real.pi) (hb : 0 ≤ b ∧ b < 2 * Real.pi) (sense : Bool) :
    let r := Circle.refineParameterRange (a, b) sense
    let sweep := if sense then r.2 - r.1 else r.1 - r.2
    0 ≤ sweep ∧ sweep < 2 * Real.pi ∧ (sweep = 0 ↔ a = b) ∧
      (∃ k : ℤ, r.1 = a + k * (2 * Real.pi)) ∧ ∃ k : ℤ, r.2 = b + k * (2 * Real.pi) := by
  by_cases hab : a = b
  · subst hab
    simp only [C67_closed_edge_unchanged a (lt_irrefl a)]
    have := Real.pi_pos
    refine ⟨by split <;> simp, by split <;> simp [this], by simp, ⟨0, by simp⟩, ⟨0, by simp⟩⟩
  · have := C22_sweep_partial ha hb hab sense
    obtain ⟨h1, h2⟩ := this
    have hk : (∃ k : ℤ, (Circle.refineParameterRange (a, b) sense).1 = a + k * (2 * Real.pi)) ∧
        ∃ k : ℤ, (Circle.refineParameterRange (a, b) sense).2 = b + k * (2 * Real.pi) := by
      unfold Circle.refineParameterRange
      simp only [Trig.tau]
      split
      · exact ⟨⟨0, by simp⟩, ⟨1, by simp⟩⟩
      · split
        · exact ⟨⟨1, by simp⟩, ⟨0, by simp⟩⟩
        · exact ⟨⟨0, by simp⟩, ⟨0, by simp⟩⟩
    cases sense
    · obtain ⟨h3, h4⟩ := h2 rfl
      exact ⟨by simpa using h3.le, by simpa using h4, by simp [hab, ne_of_gt h3], hk.1, hk.2⟩
    · obtain ⟨h3, h4⟩ := h1 rfl
      exact ⟨by simpa using h3.le, by simpa using h4, by simp [hab, ne_of_gt h3], hk.1, hk.2⟩

end Geom3d
