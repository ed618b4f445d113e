import Verif.Props.FrontFace
import Verif.Props.Quadrics

/-! # C134: where trimmed cylinders put their new vertices -/

namespace Geom3d
open Spec

/-- **C134**, one loop: a new vertex lies on the cylinder and belongs to the point of the ring it was made for. -/
theorem C134_single {c : Cylinder ℝ} (h : CylFramed c) (hr : 0 < c.radius) {q : V2 ℝ} (hq : q ≠ ⟨0, 0⟩) {d : ℝ} (hd : d ≠ 0) :
    OnCylinder c (c.generatePointFromRing q d) ∧ c.projectToRing (c.generatePointFromRing q d) d = q := by
  have hl : 0 < q.length := by
    show 0 < Real.sqrt (q.x * q.x + q.y * q.y)
    apply Real.sqrt_pos.mpr
    rcases (add_nonneg (mul_self_nonneg q.x) (mul_self_nonneg q.y)).lt_or_eq with h | h
    · exact h
    · have hx : q.x = 0 := by nlinarith [mul_self_nonneg q.x, mul_self_nonneg q.y]
      have hy : q.y = 0 := by nlinarith [mul_self_nonneg q.x, mul_self_nonneg q.y]
      exact absurd (V2.ext hx hy) hq
  have hls : q.x ^ 2 + q.y ^ 2 = q.length ^ 2 := by
    show _ = Real.sqrt (q.x * q.x + q.y * q.y) ^ 2
    rw [Real.sq_sqrt (add_nonneg (mul_self_nonneg _) (mul_self_nonneg _))]; ring
  set k := c.radius / q.length with hk
  have hk0 : 0 < k := div_pos hr hl
  have hcc : (c.axis.cross c.refDir).dot (c.axis.cross c.refDir) = 1 := framed_cross h.base
  have e : c.generatePointFromRing q d - c.origin
      = (q.x * k) • c.refDir + (q.y * k) • c.axis.cross c.refDir + (d * (1 - k)) • c.axis := by
    unfold Cylinder.generatePointFromRing
    simp only [V3.rmul_eq, ← hk]
    abel
  have ex : (c.generatePointFromRing q d - c.origin).dot c.refDir = q.x * k := by
    rw [e]
    simp only [V3.add_dot, V3.smul_dot, h.ref, h.perp, V3.dot_comm (c.axis.cross c.refDir) c.refDir, V3.dot_cross_right]
    ring
  have ey : (c.generatePointFromRing q d - c.origin).dot (c.axis.cross c.refDir) = q.y * k := by
    rw [e]
    simp only [V3.add_dot, V3.smul_dot, hcc, V3.dot_cross_right, V3.dot_cross_left]
    ring
  have ez : height c (c.generatePointFromRing q d) = d * (1 - k) := by
    unfold height
    rw [e]
    simp only [V3.add_dot, V3.smul_dot, h.axis, V3.dot_comm c.refDir c.axis, h.perp, V3.dot_comm (c.axis.cross c.refDir) c.axis, V3.dot_cross_left]
    ring
  constructor
  · unfold OnCylinder
    rw [ez, dist3_eq, V3.distance, V3.length_eq]
    have e2 : c.generatePointFromRing q d - (c.origin + (d * (1 - k)) • c.axis)
        = (q.x * k) • c.refDir + (q.y * k) • c.axis.cross c.refDir := by
      rw [show c.generatePointFromRing q d - (c.origin + (d * (1 - k)) • c.axis)
        = (c.generatePointFromRing q d - c.origin) - (d * (1 - k)) • c.axis by abel, e]
      abel
    rw [e2]
    simp only [V3.add_dot, V3.dot_add, V3.smul_dot, V3.dot_smul, h.ref, hcc, V3.dot_cross_right,
      V3.dot_comm (c.axis.cross c.refDir) c.refDir]
    rw [show q.x * k * (q.x * k * 1 + q.y * k * 0) + q.y * k * (q.x * k * 0 + q.y * k * 1)
      = (q.x ^ 2 + q.y ^ 2) * k ^ 2 by ring, hls, ← mul_pow, hk, mul_div_cancel₀ _ hl.ne', Real.sqrt_sq hr.le]
  · unfold Cylinder.projectToRing
    simp only [ex, ey]
    have hz : (c.generatePointFromRing q d - c.origin).dot c.axis = d * (1 - k) := ez
    rw [hz]
    have : d / (d - d * (1 - k)) = 1 / k := by
      rw [show d - d * (1 - k) = d * k by ring, div_mul_eq_div_div, div_self hd]
    rw [this]
    apply V2.ext
    · show q.x * k * (1 / k) = q.x
      field_simp
    · show q.y * k * (1 / k) = q.y
      field_simp

/-- **C134**, several loops: the coordinates of the point of the ring are taken for a height and an angle. -/
theorem C134_holes {c : Cylinder ℝ} (h : CylFramed c) (q : V2 ℝ) (d : ℝ) :
    c.projectToRing (c.getPoint q.x q.y) d
      = ⟨c.radius * Real.cos q.y * (d / (d - q.x)), c.radius * Real.sin q.y * (d / (d - q.x))⟩ := by
  have hcc : (c.axis.cross c.refDir).dot (c.axis.cross c.refDir) = 1 := framed_cross h.base
  have e : c.getPoint q.x q.y - c.origin
      = (c.radius * Real.cos q.y) • c.refDir + (c.radius * Real.sin q.y) • c.axis.cross c.refDir + q.x • c.axis := by
    rw [cylinder_getPoint, circle_getPoint h.base]
    simp only [Cylinder.base]
    abel
  have hz := C54_height h q.x q.y
  unfold height at hz
  unfold Cylinder.projectToRing
  simp only [hz]
  rw [e]
  simp only [V3.add_dot, V3.smul_dot, h.ref, h.perp, hcc, V3.dot_comm (c.axis.cross c.refDir) c.refDir, V3.dot_cross_right,
    V3.dot_cross_left]
  apply V2.ext <;> simp

/-- **C134**: on the far half of the ring such a vertex never belongs to its point. -/
theorem C134_misplaced {c : Cylinder ℝ} (h : CylFramed c) (hr : 0 < c.radius) {q : V2 ℝ} (hx : q.x < 0) (hy : |q.y| ≤ Real.pi / 2)
    {d : ℝ} (hd : 0 ≤ d) : c.projectToRing (c.getPoint q.x q.y) d ≠ q := by
  intro e
  rw [C134_holes h] at e
  have ex : c.radius * Real.cos q.y * (d / (d - q.x)) = q.x := congrArg V2.x e
  obtain ⟨h1, h2⟩ := abs_le.mp hy
  have hc := Real.cos_nonneg_of_neg_pi_div_two_le_of_le (by linarith) h2
  have : 0 ≤ d / (d - q.x) := div_nonneg hd (by linarith)
  have := mul_nonneg (mul_nonneg hr.le hc) this
  linarith

/-- The distance `trim` uses is not negative. -/
theorem ringDistance_nonneg {c : Cylinder ℝ} {vs : List (V3 ℝ)} (hne : vs ≠ [])
    (hfin : ∀ v ∈ vs, Env.minV ≤ height c v ∧ height c v ≤ Env.maxV) : 0 ≤ c.ringDistance vs := by
  obtain ⟨⟨i, hi, e1⟩, ⟨j, hj, e2⟩, hall⟩ := C35_minmax (vs.map c.project) (fun p => p.x) (by simpa using hne) (by
      intro i hi
      obtain ⟨v, hv, rfl⟩ := List.mem_map.1 hi
      exact hfin v hv)
  have := hall _ hi
  unfold Cylinder.ringDistance
  simp only [Nat.cast_ofNat]
  nlinarith [this.1, this.2]

/-- **C134** `trim`: the triangles cover the ring as they should with their corners at `Q`. With one loop every new
vertex belongs to its corner. With several none does whose corner is on the far half of the ring, up to `π / 2` away from
its axis: it lies elsewhere on the cylinder. -/
theorem C134_trim {c : Cylinder ℝ} (hc : CylFramed c) (hr : 0 < c.radius) {o : TrimOracle ℝ} (hp : PickOk o.pick)
    {bounds : List (EdgeLoop ℝ)} {mesh : TriangleMesh ℝ} (h : c.trim o bounds = .ok mesh) :
    ∃ (loops : List (List (V3 ℝ))) (d : ℝ) (Q : List (V2 ℝ)),
      List.Forall₂ (fun b P => EdgeLoop.toPolygon o.divFuel (o.rnd b.2) b.1 = .ok P) bounds.zipIdx loops ∧
      d = c.ringDistance loops.flatten ∧ Q.length = mesh.vertices.length ∧
      (∀ x, OffChords Q x → signedCovering Q mesh.triangles x
        = if (nonEmpty loops).length = 1
          then -((nonEmpty loops).map fun l => winding (l.map fun v => c.projectToRing v d) x).sum
          else ((nonEmpty loops).map fun l => winding (l.map fun v => c.projectToRing v d) x).sum) ∧
      (2 ≤ (nonEmpty loops).length → (∀ v ∈ loops.flatten, Env.minV ≤ height c v ∧ height c v ≤ Env.maxV) →
        ∀ i, loops.flatten.length ≤ i → ∀ q v, Q[i]? = some q → mesh.vertices[i]? = some v →
          v = c.getPoint q.x q.y ∧ OnCylinder c v ∧ (q.x < 0 → |q.y| ≤ Real.pi / 2 → c.projectToRing v d ≠ q)) ∧
      ((nonEmpty loops).length = 1 → d ≠ 0 →
        ∀ i, loops.flatten.length ≤ i → ∀ q v, Q[i]? = some q → mesh.vertices[i]? = some v → q ≠ ⟨0, 0⟩ →
          OnCylinder c v ∧ c.projectToRing v d = q) := by
  obtain ⟨loops, d, Q, h1, hd, h2, h3, h4, -⟩ := C125_cylinder hp h
  have key : ∀ i, loops.flatten.length ≤ i → ∀ q v, Q[i]? = some q → mesh.vertices[i]? = some v →
      v = if (nonEmpty loops).length = 1 then c.generatePointFromRing q d else c.getPoint q.x q.y := by
    intro i hi q v hq hv
    rcases h2 with rfl | ⟨newQ, new, hf, h2⟩
    · simp at hq
    have : ∃ a : List (V2 ℝ), ∃ b : List (V3 ℝ), a.length = loops.flatten.length ∧ b.length = loops.flatten.length ∧
        Q = a ++ newQ ∧ mesh.vertices = b ++ new := by
      rcases h2 with ⟨e1, e2⟩ | ⟨e1, e2⟩
      · exact ⟨_, _, List.length_map _, rfl, e2, e1⟩
      · exact ⟨_, _, by rw [List.length_reverse, List.length_map], List.length_reverse, e2, e1⟩
    obtain ⟨a, b, la, lb, e1, e2⟩ := this
    rw [e1, List.getElem?_append_right (by omega), la] at hq
    rw [e2, List.getElem?_append_right (by omega), lb] at hv
    obtain ⟨hl, hf⟩ := List.forall₂_iff_get.mp hf
    obtain ⟨hiq, rfl⟩ := List.getElem?_eq_some_iff.mp hq
    obtain ⟨hiv, rfl⟩ := List.getElem?_eq_some_iff.mp hv
    have := hf _ hiq hiv
    simp only [List.get_eq_getElem, Except.ok.injEq] at this
    exact this.symm
  refine ⟨loops, d, Q, h1, hd, h3, h4, fun hl hfin i hi q v hq hv => ?_, fun hl hd0 i hi q v hq hv hq0 => ?_⟩
  · have e := key i hi q v hq hv
    rw [if_neg (by omega)] at e
    have hne : loops.flatten ≠ [] := by
      intro h0
      rw [← nonEmpty_flatten] at h0
      rcases hn : nonEmpty loops with _ | ⟨l, ls⟩
      · rw [hn] at hl; simp at hl
      · have hm : l ∈ nonEmpty loops := by rw [hn]; simp
        rw [hn, List.flatten_cons, List.append_eq_nil_iff] at h0
        have := (List.mem_filter.1 hm).2
        rw [h0.1] at this
        simp at this
    rw [e]
    refine ⟨rfl, C54_on_cylinder hc hr.le _ _, fun hx hy => ?_⟩
    exact C134_misplaced hc hr hx hy (by rw [hd]; exact ringDistance_nonneg hne hfin)
  · have e := key i hi q v hq hv
    rw [if_pos hl] at e
    rw [e]
    exact C134_single hc hr hq0 hd0

/-- On the unit cylinder: the point `(-1/2, 0)` of the ring of a face with `d = 2` stands for the point `(-1, 0, -2)` of
the cylinder; with several loops the vertex made for it is `(1, 0, -1/2)`. -/
theorem C134_example : Spec.unitCylinder.generatePointFromRing ⟨-1 / 2, 0⟩ 2 = ⟨-1, 0, -2⟩ ∧
    Spec.unitCylinder.getPoint (-1 / 2) 0 = ⟨1, 0, -1 / 2⟩ ∧
    Spec.unitCylinder.projectToRing ⟨1, 0, -1 / 2⟩ 2 = ⟨4 / 5, 0⟩ := by
  have hl : (⟨-1 / 2, 0⟩ : V2 ℝ).length = 1 / 2 := by
    show Real.sqrt (-1 / 2 * (-1 / 2) + 0 * 0) = _
    rw [show (-1 / 2 * (-1 / 2) + 0 * 0 : ℝ) = (1 / 2) ^ 2 by norm_num, Real.sqrt_sq (by norm_num)]
  refine ⟨?_, ?_, ?_⟩
  · unfold Cylinder.generatePointFromRing
    simp only [hl, V3.rmul_eq]
    ext <;> norm_num [Spec.unitCylinder, V3.cross]
  · rw [cylinder_getPoint, circle_getPoint unitCylinder_framed.base]
    ext <;> norm_num [Spec.unitCylinder, Cylinder.base, V3.cross]
  · unfold Cylinder.projectToRing
    apply V2.ext <;> norm_num [Spec.unitCylinder, V3.dot, V3.cross]

end Geom3d
