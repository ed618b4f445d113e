import Verif.Model.Surface
import Verif.Props.Conics
import Verif.Props.Utils

/-! # C54–C57, C79: cylinders, spin, sweep and umbrella surfaces -/

set_option linter.unusedSectionVars false

namespace Geom3d

/-! ### Cylinders -/

/-- An orthonormal frame: unit axis, unit reference direction, perpendicular. -/
structure Spec.CylFramed (c : Cylinder ℝ) : Prop where
  axis : c.axis.dot c.axis = 1
  ref : c.refDir.dot c.refDir = 1
  perp : c.axis.dot c.refDir = 0

/-- Height along the axis. -/
noncomputable def Spec.height (c : Cylinder ℝ) (p : V3 ℝ) : ℝ := (p - c.origin).dot c.axis

/-- On the cylinder: at distance `radius` from the foot on the axis. -/
def Spec.OnCylinder (c : Cylinder ℝ) (p : V3 ℝ) : Prop :=
  Spec.dist3 p (c.origin + Spec.height c p • c.axis) = c.radius

/-- The circle at height 0. -/
def Cylinder.base (c : Cylinder ℝ) : Circle ℝ := ⟨c.origin, c.radius, c.axis, c.refDir⟩

theorem Spec.CylFramed.base {c : Cylinder ℝ} (h : Spec.CylFramed c) : Spec.Framed c.base := ⟨h.axis, h.ref, h.perp⟩

theorem cylinder_getPoint (c : Cylinder ℝ) (l a : ℝ) : c.getPoint l a = c.base.getPoint a + l • c.axis := by
  unfold Cylinder.getPoint Circle.getPoint Cylinder.base
  rw [V3.rmul_eq c.axis]
  simp only
  abel

theorem cylinder_project {c : Cylinder ℝ} (h : Spec.CylFramed c) (p : V3 ℝ) :
    c.project p = ⟨Spec.height c p, c.base.project p⟩ := by
  unfold Cylinder.project Circle.project
  rw [framed_normalize h.base]
  rfl

/-- Coordinates in the frame. -/
theorem frame_expand {c : Circle ℝ} (h : Spec.Framed c) (w : V3 ℝ) :
    w = w.dot c.axis • c.axis + w.dot c.refDir • c.refDir + w.dot (c.axis.cross c.refDir) • c.axis.cross c.refDir := by
  have hra : c.refDir.dot c.axis = 0 := by rw [V3.dot_comm]; exact h.perp
  have hna : (c.axis.cross c.refDir).dot c.axis = 0 := by rw [V3.dot_comm]; exact V3.dot_cross_left _ _
  have hrn : c.refDir.dot (c.axis.cross c.refDir) = 0 := V3.dot_cross_right _ _
  have hu : (w - w.dot c.axis • c.axis).dot c.axis = 0 := by
    rw [V3.sub_dot, V3.smul_dot, h.axis]; ring
  have hur : (w - w.dot c.axis • c.axis).dot c.refDir = w.dot c.refDir := by
    rw [V3.sub_dot, V3.smul_dot, h.perp]; ring
  have hun : (w - w.dot c.axis • c.axis).dot (c.axis.cross c.refDir) = w.dot (c.axis.cross c.refDir) := by
    rw [V3.sub_dot, V3.smul_dot, V3.dot_cross_left]; ring
  rw [← sub_eq_zero]
  set e := w - (w.dot c.axis • c.axis + w.dot c.refDir • c.refDir
    + w.dot (c.axis.cross c.refDir) • c.axis.cross c.refDir) with he
  have he' : e = (w - w.dot c.axis • c.axis) - (w.dot c.refDir • c.refDir
    + w.dot (c.axis.cross c.refDir) • c.axis.cross c.refDir) := by rw [he]; abel
  apply V3.dot_self_eq_zero
  have := framed_dot h hu e
  rw [hur, hun] at this
  conv_lhs => rw [he', ← he']
  conv_lhs => enter [2]; rw [he']
  rw [V3.dot_sub, this, V3.dot_add, V3.dot_smul, V3.dot_smul]
  ring

/-- **C54** The height of an evaluated point. -/
theorem C54_height {c : Cylinder ℝ} (h : Spec.CylFramed c) (l a : ℝ) : Spec.height c (c.getPoint l a) = l := by
  unfold Spec.height
  rw [cylinder_getPoint, circle_getPoint h.base]
  simp only [Cylinder.base]
  have e : c.origin + (c.radius * Real.cos a) • c.refDir + (c.radius * Real.sin a) • c.axis.cross c.refDir
      + l • c.axis - c.origin = (c.radius * Real.cos a) • c.refDir + (c.radius * Real.sin a) • c.axis.cross c.refDir
      + l • c.axis := by abel
  rw [e, V3.add_dot, V3.add_dot, V3.smul_dot, V3.smul_dot, V3.smul_dot, h.axis, V3.dot_comm c.refDir, h.perp,
    V3.dot_comm _ c.axis, V3.dot_cross_left]
  ring

theorem dist3_add_right (p q v : V3 ℝ) : Spec.dist3 (p + v) (q + v) = Spec.dist3 p q := by
  rw [dist3_eq, dist3_eq]
  unfold V3.distance
  congr 1
  abel

/-- **C54** Evaluated points are at distance `radius` from the axis. -/
theorem C54_on_cylinder {c : Cylinder ℝ} (h : Spec.CylFramed c) (hr : 0 ≤ c.radius) (l a : ℝ) :
    Spec.OnCylinder c (c.getPoint l a) := by
  unfold Spec.OnCylinder
  rw [C54_height h, cylinder_getPoint, dist3_add_right]
  exact (C21_on_circle h.base hr a).2

/-- **C54** `project` inverts `get_point` for angles in `[0, 2π)`. -/
theorem C54_project_getPoint {c : Cylinder ℝ} (h : Spec.CylFramed c) (hr : 0 < c.radius) (l : ℝ) {a : ℝ} (h0 : 0 ≤ a)
    (h1 : a < 2 * Real.pi) : c.project (c.getPoint l a) = ⟨l, a⟩ := by
  rw [cylinder_project h, C54_height h]
  congr 1
  refine Eq.trans ?_ (C21_inverse h.base hr h0 h1)
  have hn : (c.axis.cross c.refDir).normalize = c.axis.cross c.refDir := framed_normalize h.base
  unfold Circle.project
  rw [cylinder_getPoint]
  have e1 : (c.base.getPoint a + l • c.axis - c.base.center).dot c.base.refDir
      = (c.base.getPoint a - c.base.center).dot c.base.refDir := by
    rw [add_sub_right_comm, V3.add_dot, V3.smul_dot]
    show _ + l * c.axis.dot c.refDir = _
    rw [h.perp]; ring
  have e2 : (c.base.getPoint a + l • c.axis - c.base.center).dot (c.base.axis.cross c.base.refDir).normalize
      = (c.base.getPoint a - c.base.center).dot (c.base.axis.cross c.base.refDir).normalize := by
    rw [add_sub_right_comm, V3.add_dot, V3.smul_dot]
    show _ + l * c.axis.dot (c.axis.cross c.refDir).normalize = _
    rw [hn, V3.dot_cross_left]; ring
  simp only [e1, e2]

/-- Frame coordinates of a point of the cylinder. -/
theorem onCylinder_coords {c : Cylinder ℝ} (h : Spec.CylFramed c) {p : V3 ℝ} (hp : Spec.OnCylinder c p) :
    (p - c.origin).dot c.refDir ^ 2 + (p - c.origin).dot (c.axis.cross c.refDir) ^ 2 = c.radius ^ 2 ∧ 0 ≤ c.radius := by
  unfold Spec.OnCylinder Spec.height at hp
  rw [dist3_eq] at hp
  unfold V3.distance at hp
  constructor
  · rw [← hp, V3.length_sq]
    have hx := frame_expand h.base (p - c.origin)
    simp only [Cylinder.base] at hx
    have e : p - (c.origin + (p - c.origin).dot c.axis • c.axis) = (p - c.origin).dot c.refDir • c.refDir
        + (p - c.origin).dot (c.axis.cross c.refDir) • c.axis.cross c.refDir := by
      have : p - (c.origin + (p - c.origin).dot c.axis • c.axis)
          = (p - c.origin) - (p - c.origin).dot c.axis • c.axis := by abel
      rw [this]
      conv_lhs => enter [1]; rw [hx]
      abel
    have hcc : (c.axis.cross c.refDir).dot (c.axis.cross c.refDir) = 1 := framed_cross h.base
    rw [e]
    simp only [V3.add_dot, V3.dot_add, V3.smul_dot, V3.dot_smul, h.ref, hcc, V3.dot_cross_right,
      V3.dot_comm (c.axis.cross c.refDir) c.refDir]
    ring
  · rw [← hp]; exact V3.length_nonneg _

/-- **C54** `get_point` inverts `project` on the cylinder. -/
theorem C54_getPoint_project {c : Cylinder ℝ} (h : Spec.CylFramed c) {p : V3 ℝ} (hp : Spec.OnCylinder c p) :
    c.getPoint (c.project p).x (c.project p).y = p := by
  obtain ⟨hxy, hr⟩ := onCylinder_coords h hp
  rw [cylinder_project h]
  simp only
  rw [cylinder_getPoint, circle_getPoint h.base]
  obtain ⟨ρ, hρ, e1, e2⟩ := project_cos_sin h.base p
  have hcs := Real.cos_sq_add_sin_sq (c.base.project p)
  have hρr : ρ = c.radius := by
    have e3 : ρ ^ 2 = c.radius ^ 2 := by
      rw [← hxy]
      show _ = (p - c.base.center).dot c.base.refDir ^ 2 + (p - c.base.center).dot (c.base.axis.cross c.base.refDir) ^ 2
      rw [← e1, ← e2]
      linear_combination -ρ ^ 2 * hcs
    exact (sq_eq_sq₀ hρ hr).1 e3
  rw [hρr] at e1 e2
  show c.origin + (c.radius * Real.cos _) • c.refDir + (c.radius * Real.sin _) • c.axis.cross c.refDir + _ • c.axis = p
  have e1' : c.radius * Real.cos (c.base.project p) = (p - c.origin).dot c.refDir := e1
  have e2' : c.radius * Real.sin (c.base.project p) = (p - c.origin).dot (c.axis.cross c.refDir) := e2
  rw [e1', e2']
  have hx := frame_expand h.base (p - c.origin)
  simp only [Cylinder.base] at hx
  unfold Spec.height
  have : p = c.origin + (p - c.origin) := by abel
  conv_rhs => rw [this, hx]
  abel

/-- Non-vacuity of **C54**: a tilted frame and a point of it. -/
theorem C54_example : Spec.CylFramed ⟨⟨1, 2, 3⟩, ⟨0, 3 / 5, 4 / 5⟩, ⟨0, 4 / 5, -3 / 5⟩, 2⟩ := by
  constructor <;> norm_num [V3.dot]

/-! ### C55, C79: the ring map -/

theorem ring_point {c : Cylinder ℝ} (h : Spec.CylFramed c) (hr : 0 < c.radius) {p : V3 ℝ} (hp : Spec.OnCylinder c p)
    (d : ℝ) :
    c.generatePointFromRing (c.projectToRing p d) d
      = c.origin + ((p - c.origin).dot c.refDir * (d / (d - Spec.height c p) / |d / (d - Spec.height c p)|)) • c.refDir
        + ((p - c.origin).dot (c.axis.cross c.refDir) * (d / (d - Spec.height c p) / |d / (d - Spec.height c p)|))
            • c.axis.cross c.refDir
        + (d * (1 - 1 / |d / (d - Spec.height c p)|)) • c.axis := by
  obtain ⟨hxy, -⟩ := onCylinder_coords h hp
  unfold Cylinder.generatePointFromRing Cylinder.projectToRing
  simp only
  generalize hx : (p - c.origin).dot c.refDir = x at *
  generalize hy : (p - c.origin).dot (c.axis.cross c.refDir) = y at *
  have hz : (p - c.origin).dot c.axis = Spec.height c p := rfl
  simp only [hz]
  generalize Spec.height c p = z
  generalize d / (d - z) = k
  have hl : (⟨x * k, y * k⟩ : V2 ℝ).length = |k| * c.radius := by
    show Real.sqrt (x * k * (x * k) + y * k * (y * k)) = _
    have : x * k * (x * k) + y * k * (y * k) = (|k| * c.radius) ^ 2 := by
      rw [mul_pow, sq_abs, ← hxy]; ring
    rw [this, Real.sqrt_sq (by positivity)]
  rw [hl]
  have hq : c.radius / (|k| * c.radius) = 1 / |k| := by
    by_cases hk : k = 0
    · subst hk; simp
    · field_simp
  rw [hq, V3.rmul_eq, V3.rmul_eq, V3.rmul_eq]
  congr 1
  congr 1
  · congr 1
    congr 1; ring
  · congr 1; ring

/-- **C55**, true part: for `0 < d` and a point of height below `d` the ring map is inverted.  Missing: every other
point (see `C55_false` and `C79_iff`). -/
theorem C55_inverse_partial {c : Cylinder ℝ} (h : Spec.CylFramed c) (hr : 0 < c.radius) {p : V3 ℝ}
    (hp : Spec.OnCylinder c p) {d : ℝ} (hd : 0 < d) (hz : Spec.height c p < d) :
    c.generatePointFromRing (c.projectToRing p d) d = p := by
  rw [ring_point h hr hp]
  have hk : 0 < d / (d - Spec.height c p) := div_pos hd (by linarith)
  rw [abs_of_pos hk, div_self hk.ne']
  have hx := frame_expand h.base (p - c.origin)
  simp only [Cylinder.base] at hx
  have e : d * (1 - 1 / (d / (d - Spec.height c p))) = (p - c.origin).dot c.axis := by
    have : (p - c.origin).dot c.axis = Spec.height c p := rfl
    rw [this]
    have : d - Spec.height c p ≠ 0 := by linarith
    field_simp
    ring
  rw [e, mul_one, mul_one]
  have : p = c.origin + (p - c.origin) := by abel
  conv_rhs => rw [this, hx]
  abel

/-- **C79** Beyond the distance `d` the ring map lands on the opposite side of the cylinder, at the mirrored height. -/
theorem C79_mirror {c : Cylinder ℝ} (h : Spec.CylFramed c) (hr : 0 < c.radius) {p : V3 ℝ}
    (hp : Spec.OnCylinder c p) {d : ℝ} (hk : d / (d - Spec.height c p) < 0) :
    c.generatePointFromRing (c.projectToRing p d) d
      = c.origin + (2 * d - Spec.height c p) • c.axis - (p - c.origin - Spec.height c p • c.axis) := by
  rw [ring_point h hr hp, abs_of_neg hk]
  have hd : d ≠ 0 := by rintro rfl; simp at hk
  have hdz : d - Spec.height c p ≠ 0 := by intro h0; rw [h0] at hk; simp at hk
  have e1 : d / (d - Spec.height c p) / -(d / (d - Spec.height c p)) = -1 := by
    rw [div_neg, div_self hk.ne]
  have e2 : d * (1 - 1 / -(d / (d - Spec.height c p))) = 2 * d - Spec.height c p := by
    field_simp; ring
  rw [e1, e2]
  have hx := frame_expand h.base (p - c.origin)
  simp only [Cylinder.base] at hx
  conv_rhs => enter [2, 1]; rw [hx]
  have : (p - c.origin).dot c.axis = Spec.height c p := rfl
  rw [this]
  module

/-- **C79** The ring map is inverted exactly for the points on the near side of `d`. -/
theorem C79_iff {c : Cylinder ℝ} (h : Spec.CylFramed c) (hr : 0 < c.radius) {p : V3 ℝ}
    (hp : Spec.OnCylinder c p) (d : ℝ) :
    c.generatePointFromRing (c.projectToRing p d) d = p ↔ 0 < d / (d - Spec.height c p) := by
  obtain ⟨hxy, -⟩ := onCylinder_coords h hp
  have hx := frame_expand h.base (p - c.origin)
  simp only [Cylinder.base] at hx
  have hcc : (c.axis.cross c.refDir).dot (c.axis.cross c.refDir) = 1 := framed_cross h.base
  constructor
  · intro he
    rw [ring_point h hr hp] at he
    by_contra hk
    rw [not_lt] at hk
    -- the radial coordinates would be multiplied by 0 or -1
    set s := d / (d - Spec.height c p) / |d / (d - Spec.height c p)| with hs
    have hs1 : s ≠ 1 := by
      rcases hk.lt_or_eq with hk | hk
      · rw [hs, abs_of_neg hk, div_neg, div_self hk.ne]; norm_num
      · rw [hs, hk]; norm_num
    have hd1 := congrArg (fun q => (q - c.origin).dot c.refDir) he
    have hd2 := congrArg (fun q => (q - c.origin).dot (c.axis.cross c.refDir)) he
    simp only [add_assoc, add_sub_cancel_left, V3.add_dot, V3.smul_dot, h.ref, hcc, V3.dot_cross_right, h.perp,
      V3.dot_comm (c.axis.cross c.refDir) c.refDir, V3.dot_cross_left] at hd1 hd2
    have h1 : (p - c.origin).dot c.refDir = 0 := by
      have : (p - c.origin).dot c.refDir * (s - 1) = 0 := by linarith
      rcases mul_eq_zero.1 this with h | h
      · exact h
      · exact absurd (by linarith) hs1
    have h2 : (p - c.origin).dot (c.axis.cross c.refDir) = 0 := by
      have : (p - c.origin).dot (c.axis.cross c.refDir) * (s - 1) = 0 := by linarith
      rcases mul_eq_zero.1 this with h | h
      · exact h
      · exact absurd (by linarith) hs1
    rw [h1, h2] at hxy
    nlinarith
  · intro hk
    rw [ring_point h hr hp, abs_of_pos hk, div_self hk.ne']
    have hd : d ≠ 0 := by rintro rfl; simp at hk
    have hdz : d - Spec.height c p ≠ 0 := by intro h0; rw [h0] at hk; simp at hk
    have e : d * (1 - 1 / (d / (d - Spec.height c p))) = (p - c.origin).dot c.axis := by
      have : (p - c.origin).dot c.axis = Spec.height c p := rfl
      rw [this]; field_simp; ring
    rw [e, mul_one, mul_one]
    have : p = c.origin + (p - c.origin) := by abel
    conv_rhs => rw [this, hx]
    abel

/-- **C79** For the distance used by `trim`: the boundary points are recovered exactly when the largest height exceeds
both the least height and its double.  The condition depends on the position of the face relative to the origin. -/
theorem C79_trim {c : Cylinder ℝ} (h : Spec.CylFramed c) (hr : 0 < c.radius) {vs : List (V3 ℝ)} (hne : vs ≠ [])
    (hvs : ∀ v ∈ vs, Spec.OnCylinder c v)
    (hfin : ∀ v ∈ vs, Env.minV ≤ Spec.height c v ∧ Spec.height c v ≤ Env.maxV) :
    (∀ v ∈ vs, c.generatePointFromRing (c.projectToRing v (c.ringDistance vs)) (c.ringDistance vs) = v) ↔
      ∃ v ∈ vs, ∃ w ∈ vs, Spec.height c w < Spec.height c v ∧ 2 * Spec.height c w < Spec.height c v := by
  have hproj : ∀ v, (c.project v).x = Spec.height c v := fun v => rfl
  obtain ⟨⟨i, hi, e1⟩, ⟨j, hj, e2⟩, hall⟩ := C35_minmax (vs.map c.project) (fun p => p.x) (by simpa using hne)
    (by
      intro i hi
      obtain ⟨v, hv, rfl⟩ := List.mem_map.1 hi
      exact hfin v hv)
  obtain ⟨lo, hlo, rfl⟩ := List.mem_map.1 hi
  obtain ⟨up, hup, rfl⟩ := List.mem_map.1 hj
  have hd : c.ringDistance vs = (Spec.height c up - Spec.height c lo) * 2 := by
    unfold Cylinder.ringDistance
    simp only [e1, e2, hproj, Nat.cast_ofNat]
  have hb : ∀ v ∈ vs, Spec.height c lo ≤ Spec.height c v ∧ Spec.height c v ≤ Spec.height c up := by
    intro v hv
    have := hall _ (List.mem_map_of_mem (f := c.project) hv)
    rw [e1, e2] at this
    exact this
  rw [hd]
  constructor
  · intro hinv
    have h1 := (C79_iff h hr (hvs up hup) _).1 (hinv up hup)
    have hle := (hb up hup).1
    refine ⟨up, hup, lo, hlo, ?_⟩
    have hpos : 0 < Spec.height c up - Spec.height c lo := by
      rcases hle.lt_or_eq with h | h
      · linarith
      · rw [h] at h1; simp at h1
    have := (div_pos_iff_of_pos_left (by linarith : 0 < (Spec.height c up - Spec.height c lo) * 2)).1 h1
    exact ⟨by linarith, by linarith⟩
  · rintro ⟨v, hv, w, hw, h1, h2⟩ u hu
    have b1 := hb v hv
    have b2 := hb w hw
    have b3 := hb u hu
    exact C55_inverse_partial h hr (hvs u hu) (by linarith) (by linarith)

/-- A unit cylinder over ℝ. -/
noncomputable def Spec.unitCylinder : Cylinder ℝ := ⟨0, ⟨0, 0, 1⟩, ⟨1, 0, 0⟩, 1⟩

theorem unitCylinder_framed : Spec.CylFramed Spec.unitCylinder := by
  constructor <;> norm_num [V3.dot, Spec.unitCylinder]

/-- **C55**, finding: for a face between heights 2 and 3 of the unit cylinder, `trim` uses `d = 2`, and the ring map
sends the boundary point `(1, 0, 3)` to `(-1, 0, 1)`, on the opposite side and outside the face. -/
theorem C55_false :
    Spec.unitCylinder.ringDistance [⟨1, 0, 2⟩, ⟨0, 1, 2⟩, ⟨1, 0, 3⟩] = 2 ∧
    Spec.OnCylinder Spec.unitCylinder ⟨1, 0, 3⟩ ∧
    Spec.unitCylinder.generatePointFromRing (Spec.unitCylinder.projectToRing ⟨1, 0, 3⟩ 2) 2 = ⟨-1, 0, 1⟩ := by
  have hh : Spec.height Spec.unitCylinder ⟨1, 0, 3⟩ = 3 := by
    norm_num [Spec.height, Spec.unitCylinder, V3.dot]
  have hon : Spec.OnCylinder Spec.unitCylinder ⟨1, 0, 3⟩ := by
    unfold Spec.OnCylinder
    rw [hh, dist3_eq, V3.distance, V3.length_eq]
    norm_num [Spec.unitCylinder, V3.dot]
  refine ⟨?_, hon, ?_⟩
  · have hp : (1 : ℝ) ≤ 2 ^ 971 := one_le_pow₀ (by norm_num)
    have hM : (3 : ℝ) < Env.maxV := by show (3 : ℝ) < (2 ^ 53 - 1) * 2 ^ 971; generalize (2 : ℝ) ^ 971 = x at *; linarith
    have hm : (Env.minV : ℝ) < 2 := by show -((2 ^ 53 - 1) * 2 ^ 971) < (2 : ℝ); generalize (2 : ℝ) ^ 971 = x at *; linarith
    have e : (getMinMaxByKey (([⟨1, 0, 2⟩, ⟨0, 1, 2⟩, ⟨1, 0, 3⟩] : List (V3 ℝ)).map Spec.unitCylinder.project)
        fun p => p.x) = (2, 3) := by
      have h2 : (2 : ℝ) < Env.maxV := by linarith
      unfold Cylinder.project getMinMaxByKey
      norm_num [Spec.unitCylinder, V3.dot, hm, h2]
    unfold Cylinder.ringDistance
    rw [e]
    norm_num
  · rw [C79_mirror unitCylinder_framed (by norm_num [Spec.unitCylinder]) hon (by rw [hh]; norm_num), hh]
    ext <;> norm_num [Spec.unitCylinder]

/-- Non-vacuity of **C79**: a face between heights 0 and 1. -/
theorem C79_example : Spec.OnCylinder Spec.unitCylinder ⟨1, 0, 0⟩ ∧ Spec.OnCylinder Spec.unitCylinder ⟨0, 1, 1⟩ ∧
    Spec.height Spec.unitCylinder ⟨1, 0, 0⟩ < Spec.height Spec.unitCylinder ⟨0, 1, 1⟩ ∧
    2 * Spec.height Spec.unitCylinder ⟨1, 0, 0⟩ < Spec.height Spec.unitCylinder ⟨0, 1, 1⟩ := by
  have h0 : Spec.height Spec.unitCylinder ⟨1, 0, 0⟩ = 0 := by norm_num [Spec.height, Spec.unitCylinder, V3.dot]
  have h1 : Spec.height Spec.unitCylinder ⟨0, 1, 1⟩ = 1 := by norm_num [Spec.height, Spec.unitCylinder, V3.dot]
  refine ⟨?_, ?_, by rw [h0, h1]; norm_num, by rw [h0, h1]; norm_num⟩
  · unfold Spec.OnCylinder
    rw [h0, dist3_eq, V3.distance, V3.length_eq]
    norm_num [Spec.unitCylinder, V3.dot]
  · unfold Spec.OnCylinder
    rw [h1, dist3_eq, V3.distance, V3.length_eq]
    norm_num [Spec.unitCylinder, V3.dot]

/-! ### Spin surfaces -/

/-- Height of a point over the origin of a spin surface, along the axis. -/
noncomputable def Spec.spinHeight (s : SpinSurface ℝ) (p : V3 ℝ) : ℝ := (p - s.origin).dot s.axis

/-- The part of a point perpendicular to the axis. -/
noncomputable def Spec.spinRadial (s : SpinSurface ℝ) (p : V3 ℝ) : V3 ℝ := p - s.origin - Spec.spinHeight s p • s.axis

theorem spinRadial_perp {s : SpinSurface ℝ} (ha : s.axis.dot s.axis = 1) (p : V3 ℝ) :
    s.axis.dot (Spec.spinRadial s p) = 0 := by
  unfold Spec.spinRadial Spec.spinHeight
  rw [V3.dot_sub, V3.dot_smul, ha, V3.dot_comm]; ring

/-- Closed form of an evaluated point. -/
theorem spin_getPoint {s : SpinSurface ℝ} (ha : s.axis.dot s.axis = 1) {t : ℝ} {q : V3 ℝ}
    (hq : s.section_.getPoint t = .ok q) (a : ℝ) :
    s.getPoint t a = .ok (s.origin + Spec.spinHeight s q • s.axis + Real.cos a • Spec.spinRadial s q
      + Real.sin a • s.axis.cross (Spec.spinRadial s q)) := by
  unfold SpinSurface.getPoint
  rw [hq, ok_bind]
  have hr : q - s.origin - s.axis * (q - s.origin).dot s.axis = Spec.spinRadial s q := by
    rw [V3.rmul_eq]; rfl
  simp only [hr]
  rw [rotate_perp ha (spinRadial_perp ha q), V3.rmul_eq]
  show Except.ok _ = _
  congr 1
  unfold Spec.spinHeight
  abel

/-- **C56** At angle 0 the surface is its section. -/
theorem C56_zero {s : SpinSurface ℝ} (ha : s.axis.dot s.axis = 1) {t : ℝ} {q : V3 ℝ}
    (hq : s.section_.getPoint t = .ok q) : s.getPoint t 0 = .ok q := by
  rw [spin_getPoint ha hq, Real.cos_zero, Real.sin_zero]
  congr 1
  unfold Spec.spinRadial
  module

/-- Height and radial part of an evaluated point. -/
theorem spin_coords {s : SpinSurface ℝ} (ha : s.axis.dot s.axis = 1) {t : ℝ} {q p : V3 ℝ}
    (hq : s.section_.getPoint t = .ok q) {a : ℝ} (hp : s.getPoint t a = .ok p) :
    Spec.spinHeight s p = Spec.spinHeight s q ∧
    Spec.spinRadial s p = Real.cos a • Spec.spinRadial s q + Real.sin a • s.axis.cross (Spec.spinRadial s q) := by
  rw [spin_getPoint ha hq] at hp
  cases hp
  have e : Spec.spinHeight s (s.origin + Spec.spinHeight s q • s.axis + Real.cos a • Spec.spinRadial s q
      + Real.sin a • s.axis.cross (Spec.spinRadial s q)) = Spec.spinHeight s q := by
    have e1 : s.origin + Spec.spinHeight s q • s.axis + Real.cos a • Spec.spinRadial s q
      + Real.sin a • s.axis.cross (Spec.spinRadial s q) - s.origin = Spec.spinHeight s q • s.axis
        + Real.cos a • Spec.spinRadial s q + Real.sin a • s.axis.cross (Spec.spinRadial s q) := by abel
    rw [show ∀ x, Spec.spinHeight s x = (x - s.origin).dot s.axis from fun _ => rfl, e1, V3.add_dot, V3.add_dot, V3.smul_dot, V3.smul_dot, V3.smul_dot, ha,
      V3.dot_comm _ s.axis, spinRadial_perp ha, V3.dot_comm _ s.axis, V3.dot_cross_left]
    ring
  refine ⟨e, ?_⟩
  rw [show ∀ x, Spec.spinRadial s x = x - s.origin - Spec.spinHeight s x • s.axis from fun _ => rfl, e]
  abel

/-- **C56** Every point keeps its height along, and its distance from, the axis. -/
theorem C56_distances {s : SpinSurface ℝ} (ha : s.axis.dot s.axis = 1) {t : ℝ} {q p : V3 ℝ}
    (hq : s.section_.getPoint t = .ok q) {a : ℝ} (hp : s.getPoint t a = .ok p) :
    Spec.spinHeight s p = Spec.spinHeight s q ∧
    Spec.dist3 p (s.origin + Spec.spinHeight s p • s.axis) = Spec.dist3 q (s.origin + Spec.spinHeight s q • s.axis) := by
  obtain ⟨h1, h2⟩ := spin_coords ha hq hp
  refine ⟨h1, ?_⟩
  have e : ∀ x : V3 ℝ, Spec.dist3 x (s.origin + Spec.spinHeight s x • s.axis) = (Spec.spinRadial s x).length := by
    intro x
    rw [dist3_eq]
    unfold V3.distance Spec.spinRadial
    congr 1
    abel
  rw [e, e, h2, V3.length_eq, V3.length_eq]
  congr 1
  have hp := spinRadial_perp ha q
  generalize Spec.spinRadial s q = w at *
  have h3 : (s.axis.cross w).dot (s.axis.cross w) = w.dot w := by rw [V3.lagrange, ha, hp]; ring
  simp only [V3.add_dot, V3.dot_add, V3.smul_dot, V3.dot_smul, V3.dot_cross_right, V3.dot_comm (s.axis.cross w) w, h3]
  have := Real.cos_sq_add_sin_sq a
  linear_combination w.dot w * this

/-- **C56** `2π`-periodic. -/
theorem C56_periodic {s : SpinSurface ℝ} (ha : s.axis.dot s.axis = 1) (t a : ℝ) :
    s.getPoint t (a + 2 * Real.pi) = s.getPoint t a := by
  cases hq : s.section_.getPoint t with
  | error e => unfold SpinSurface.getPoint; rw [hq]; rfl
  | ok q => rw [spin_getPoint ha hq, spin_getPoint ha hq, Real.cos_add_two_pi, Real.sin_add_two_pi]

/-- **C56** Angles add: spinning a point that was spun by `a` on by `b` spins it by `a + b`. -/
theorem C56_add {s s' : SpinSurface ℝ} (ha : s.axis.dot s.axis = 1) (ho : s'.origin = s.origin) (hx : s'.axis = s.axis)
    {t t' a b : ℝ} {q p : V3 ℝ} (hq : s.section_.getPoint t = .ok q) (hp : s.getPoint t a = .ok p)
    (hp' : s'.section_.getPoint t' = .ok p) : s'.getPoint t' b = s.getPoint t (a + b) := by
  obtain ⟨h1, h2⟩ := spin_coords ha hq hp
  rw [spin_getPoint (by rw [hx]; exact ha) hp', spin_getPoint ha hq]
  have e1 : Spec.spinHeight s' p = Spec.spinHeight s p := by unfold Spec.spinHeight; rw [ho, hx]
  have e2 : Spec.spinRadial s' p = Spec.spinRadial s p := by unfold Spec.spinRadial; rw [e1, ho, hx]
  rw [e1, e2, ho, hx, h1, h2, Real.cos_add, Real.sin_add]
  have hperp := spinRadial_perp ha q
  generalize Spec.spinRadial s q = w at *
  -- `a × (a × w) = -w` for a unit axis perpendicular to `w`
  have hcc : s.axis.cross (Real.cos a • w + Real.sin a • s.axis.cross w)
      = Real.cos a • s.axis.cross w - Real.sin a • w := by
    have h3 : s.axis.cross (s.axis.cross w) = s.axis.dot w • s.axis - s.axis.dot s.axis • w := by
      ext <;> simp [V3.cross, V3.dot] <;> ring
    rw [hperp, ha, zero_smul, zero_sub, one_smul] at h3
    have h4 : s.axis.cross (Real.cos a • w + Real.sin a • s.axis.cross w)
        = Real.cos a • s.axis.cross w + Real.sin a • s.axis.cross (s.axis.cross w) := by
      ext <;> simp [V3.cross] <;> ring
    rw [h4, h3]
    module
  rw [hcc]
  congr 1
  module

/-- Non-vacuity of **C56**: the parabola in the xz-plane spun about the z axis. -/
theorem C56_example : ∃ s : SpinSurface ℝ, s.axis.dot s.axis = 1 ∧ s.section_.getPoint 2 = .ok ⟨2, 0, 4⟩ ∧
    s.getPoint 2 Real.pi = .ok ⟨-2, 0, 4⟩ := by
  refine ⟨⟨0, ⟨0, 0, 1⟩, { getPoint := fun t => .ok ⟨t, 0, t ^ 2⟩, project := fun _ => .ok 0 }⟩, by norm_num [V3.dot], by norm_num, ?_⟩
  rw [spin_getPoint (by norm_num [V3.dot]) (q := ⟨2, 0, 4⟩) (by norm_num), Real.cos_pi, Real.sin_pi]
  congr 1
  ext <;> norm_num [Spec.spinRadial, Spec.spinHeight, V3.dot, V3.cross]

/-! ### Sweep and umbrella surfaces -/

section
variable {F : Type} [Add F] [Sub F] [Mul F] [Div F] [Neg F] [Zero F] [One F] [NatCast F] [LT F] [DecidableLT F]
  [LE F] [DecidableLE F] [Env F]

/-- **C57** (any arithmetic) A sweep point is path point plus section point; evaluation panics only if one of the
curves does. -/
theorem C57_sweep (w : SweepSurface F) (p s : F) (r : V3 F) :
    w.getPoint p s = .ok r ↔ ∃ a b, w.path.getPoint p = .ok a ∧ w.section_.getPoint s = .ok b ∧ r = a + b := by
  unfold SweepSurface.getPoint
  simp only [bind_eq_ok, pure_eq_ok, Except.ok.injEq]
  constructor
  · rintro ⟨a, h1, b, h2, rfl⟩; exact ⟨a, b, h1, h2, rfl⟩
  · rintro ⟨a, b, h1, h2, rfl⟩; exact ⟨a, h1, b, h2, rfl⟩
end

/-- **C57** Sections are translates of one another. -/
theorem C57_translates {K : Type} [Field K] [LinearOrder K] [IsStrictOrderedRing K] [Env K] {w : SweepSurface K}
    {p p' s : K} {a a' r : V3 K} (h : w.path.getPoint p = .ok a) (h' : w.path.getPoint p' = .ok a')
    (hr : w.getPoint p s = .ok r) : w.getPoint p' s = .ok (r + (a' - a)) := by
  obtain ⟨a0, b, h1, h2, rfl⟩ := (C57_sweep w p s r).1 hr
  rw [h] at h1
  cases h1
  exact (C57_sweep w p' s _).2 ⟨a', b, h', h2, by abel⟩

/-- **C57** The apex of the umbrella. -/
theorem C57_apex (m : Umbrella ℝ) (phi : ℝ) : m.getPoint 0 phi = ⟨0, 0, 2 * m.radius / Real.pi⟩ := by
  unfold Umbrella.getPoint
  simp only [Trig.sin, Trig.cos, Trig.pi, Real.sin_zero, Real.cos_zero]
  ext
  · simp
  · simp
  · simp only; ring

/-- **C57** The rim is the circle of the given radius in the plane `z = 0`. -/
theorem C57_rim (m : Umbrella ℝ) (phi : ℝ) :
    m.getPoint Real.pi phi = ⟨m.radius * Real.cos phi, m.radius * Real.sin phi, 0⟩ := by
  unfold Umbrella.getPoint
  simp only [Trig.sin, Trig.cos, Trig.pi, Real.sin_pi, Real.cos_pi]
  have := Real.pi_ne_zero
  ext
  · simp only [sub_zero]; field_simp
  · simp only [sub_zero]; field_simp
  · simp

/-- **C57** Rotational symmetry: adding to `phi` turns the point about the `z` axis. -/
theorem C57_symmetry (m : Umbrella ℝ) (theta phi delta : ℝ) :
    m.getPoint theta (phi + delta) =
      ⟨Real.cos delta * (m.getPoint theta phi).x - Real.sin delta * (m.getPoint theta phi).y,
       Real.sin delta * (m.getPoint theta phi).x + Real.cos delta * (m.getPoint theta phi).y,
       (m.getPoint theta phi).z⟩ := by
  unfold Umbrella.getPoint
  simp only [Trig.sin, Trig.cos, Trig.pi, Real.cos_add, Real.sin_add]
  ext
  · simp only; ring
  · simp only; ring
  · rfl

/-- Non-vacuity of **C57**. -/
theorem C57_example : (⟨{ getPoint := fun t => .ok ⟨t, 0, 0⟩, project := fun _ => .ok 0 },
    { getPoint := fun t => .ok ⟨0, t, t * t⟩, project := fun _ => .ok 0 }⟩ :
    SweepSurface ℚ).getPoint 2 3 = .ok ⟨2, 3, 9⟩ := by decide +kernel

end Geom3d
