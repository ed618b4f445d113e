import Verif.Props.Smooth
import Verif.Props.Polyline
import Verif.Props.EdgeLoop
import Verif.Props.Jump
import Verif.Props.Rational
import Verif.Model.Step
import Verif.Spec.RealTrig
import Mathlib.Analysis.Calculus.ContDiff.Deriv
import Mathlib.Analysis.SpecialFunctions.Trigonometric.Deriv

/-! # C109: adaptive subdivision ends on every kind of curve -/

set_option linter.unusedSectionVars false

namespace Geom3d
open Spec

/-! ### Subdivision of a curve that is Lipschitz on an interval -/

/-- On `[lo, hi]` the curve does not panic, and points move at most `L` times as far as parameters. -/
def LipOn (g : ℝ → Res (V3 ℝ)) (lo hi L : ℝ) : Prop :=
  ∀ x ∈ Set.Icc lo hi, ∃ a, g x = .ok a ∧ ∀ y ∈ Set.Icc lo hi, ∃ b, g y = .ok b ∧ a.distance b ≤ L * |x - y|

/-- Only the values on the interval matter. -/
theorem parameterDivision_congr {g g' : ℝ → Res (V3 ℝ)} {lo hi tol : ℝ} (hg : ∀ x ∈ Set.Icc lo hi, g x = g' x)
    {rnd : List Bool → ℝ} (hr : ∀ path, 0 ≤ rnd path ∧ rnd path < 1) (fuel : Nat) (path : List Bool) {range : ℝ × ℝ}
    (h1 : range.1 ∈ Set.Icc lo hi) (h2 : range.2 ∈ Set.Icc lo hi) :
    parameterDivision g rnd tol fuel path range = parameterDivision g' rnd tol fuel path range := by
  induction fuel generalizing path range with
  | zero => rfl
  | succ n ih =>
    obtain ⟨d0, d1⟩ := drawRatio_bounds (hr path).1 (hr path).2
    have h3 : rangeAt range (drawRatio (rnd path)) ∈ Set.Icc lo hi := by
      simp only [rangeAt]
      constructor <;> nlinarith [h1.1, h1.2, h2.1, h2.2]
    have h4 : (range.1 + range.2) / (Nat.cast 2 : ℝ) ∈ Set.Icc lo hi := by
      push_cast
      constructor <;> linarith [h1.1, h1.2, h2.1, h2.2]
    rw [parameterDivision, parameterDivision, hg _ h1, hg _ h2, hg _ h3]
    dsimp only
    rw [ih (path ++ [false]) (range := (range.1, (range.1 + range.2) / (Nat.cast 2 : ℝ))) h1 h4,
      ih (path ++ [true]) (range := ((range.1 + range.2) / (Nat.cast 2 : ℝ), range.2)) h4 h2]

/-- **C30** on an interval: the recursion depth is bounded by `log2 (L |range| / tol)`, for every outcome of the random
generator. -/
theorem LipOn.terminates {g : ℝ → Res (V3 ℝ)} {lo hi L tol : ℝ} (h : LipOn g lo hi L) {rnd : List Bool → ℝ}
    (hr : ∀ path, 0 ≤ rnd path ∧ rnd path < 1) (n : Nat) (path : List Bool) {range : ℝ × ℝ}
    (h1 : range.1 ∈ Set.Icc lo hi) (h2 : range.2 ∈ Set.Icc lo hi) (hL : 0 ≤ L)
    (hn : L * |range.2 - range.1| < tol * 2 ^ (n + 1)) :
    ∃ l, parameterDivision g rnd tol (n + 1) path range = .ok l ∧ l.length ≤ 2 ^ n + 1 := by
  have hle : lo ≤ hi := le_trans h1.1 h1.2
  have hF : ∀ u, ∃ a, g (max lo (min hi u)) = .ok a := fun u => by
    obtain ⟨a, ha, -⟩ := h (max lo (min hi u)) ⟨le_max_left _ _, max_le hle (min_le_left _ _)⟩
    exact ⟨a, ha⟩
  choose F hF using hF
  have hmem : ∀ u, max lo (min hi u) ∈ Set.Icc lo hi := fun u => ⟨le_max_left _ _, max_le hle (min_le_left _ _)⟩
  have hlip : ∀ x y, (F x).distance (F y) ≤ L * |x - y| := by
    intro x y
    obtain ⟨a, ha, hx⟩ := h _ (hmem x)
    obtain ⟨b, hb, hd⟩ := hx _ (hmem y)
    rw [hF] at ha hb
    cases ha
    cases hb
    refine le_trans hd (mul_le_mul_of_nonneg_left ?_ hL)
    calc |max lo (min hi x) - max lo (min hi y)| ≤ |min hi x - min hi y| := by
          simpa using abs_max_sub_max_le_max lo (min hi x) lo (min hi y)
      _ ≤ |x - y| := by simpa using abs_min_sub_min_le_max hi x hi y
  obtain ⟨l, e, hl⟩ := C30_terminates hlip hr n path range hn
  refine ⟨l, ?_, hl⟩
  rw [← e]
  refine parameterDivision_congr (fun x hx => ?_) hr _ _ h1 h2
  have := hF x
  rwa [min_eq_right hx.2, max_eq_right hx.1] at this

/-- Every parameter returned lies between the ends of the range. -/
theorem parameterDivision_mem {g : ℝ → Res (V3 ℝ)} {lo hi tol : ℝ} {rnd : List Bool → ℝ} {fuel : Nat} {path : List Bool}
    {range : ℝ × ℝ} {l : List ℝ} (h : parameterDivision g rnd tol fuel path range = .ok l)
    (h1 : range.1 ∈ Set.Icc lo hi) (h2 : range.2 ∈ Set.Icc lo hi) : ∀ u ∈ l, u ∈ Set.Icc lo hi := by
  induction fuel generalizing path range l with
  | zero => cases h
  | succ n ih =>
    rcases parameterDivision_cases h with ⟨rfl, -⟩ | ⟨r₁, r₂, e1, e2, rfl⟩
    · intro u hu
      rcases List.mem_cons.1 hu with rfl | hu
      · exact h1
      · rw [List.mem_singleton] at hu; rw [hu]; exact h2
    · have h4 : (range.1 + range.2) / (Nat.cast 2 : ℝ) ∈ Set.Icc lo hi := by
        push_cast
        constructor <;> linarith [h1.1, h1.2, h2.1, h2.2]
      intro u hu
      rcases List.mem_append.1 hu with hu | hu
      · exact ih e1 h1 h4 u (List.dropLast_subset _ hu)
      · exact ih e2 h4 h2 u hu

/-- Subdivision of the range ends for every positive tolerance: some recursion depth suffices for every outcome of the
random generator, and no point asked for panics. -/
def Subdivides (g : ℝ → Res (V3 ℝ)) (range : ℝ × ℝ) : Prop :=
  ∀ tol, 0 < tol → ∃ fuel, ∀ rnd : List Bool → ℝ, (∀ path, 0 ≤ rnd path ∧ rnd path < 1) → ∀ fuel', fuel ≤ fuel' →
    ∃ l, parameterDivision g rnd tol fuel' [] range = .ok l ∧ ∀ u ∈ l, ∃ p, g u = .ok p

theorem LipOn.subdivides {g : ℝ → Res (V3 ℝ)} {lo hi L : ℝ} (h : LipOn g lo hi L) (hL : 0 ≤ L) {range : ℝ × ℝ}
    (h1 : range.1 ∈ Set.Icc lo hi) (h2 : range.2 ∈ Set.Icc lo hi) : Subdivides g range := by
  intro tol htol
  obtain ⟨n, hn⟩ := pow_unbounded_of_one_lt (L * |range.2 - range.1| / tol) (by norm_num : (1 : ℝ) < 2)
  rw [div_lt_iff₀ htol] at hn
  refine ⟨n + 1, fun rnd hr fuel' hf => ?_⟩
  obtain ⟨m, rfl⟩ : ∃ m, fuel' = m + 1 := ⟨fuel' - 1, by omega⟩
  obtain ⟨l, e, -⟩ := h.terminates (tol := tol) hr m [] h1 h2 hL (by
    have : (2 : ℝ) ^ n ≤ 2 ^ (m + 1) := pow_le_pow_right₀ (by norm_num) (by omega)
    nlinarith)
  exact ⟨l, e, fun u hu => by
    obtain ⟨a, ha, -⟩ := h u (parameterDivision_mem e h1 h2 u hu)
    exact ⟨a, ha⟩⟩

/-! ### Lipschitz coordinates -/

/-- A real function that is Lipschitz on an interval. -/
def LipR (f : ℝ → ℝ) (lo hi : ℝ) : Prop :=
  ∃ L, 0 ≤ L ∧ ∀ x ∈ Set.Icc lo hi, ∀ y ∈ Set.Icc lo hi, |f x - f y| ≤ L * |x - y|

theorem LipR.of_contDiff {f : ℝ → ℝ} (hf : ContDiff ℝ 1 f) (lo hi : ℝ) : LipR f lo hi := by
  obtain ⟨C, hC⟩ := isCompact_Icc.exists_bound_of_continuousOn (s := Set.Icc lo hi)
    (hf.continuous_deriv le_rfl).continuousOn
  refine ⟨max C 0, le_max_right _ _, fun x hx y hy => ?_⟩
  have := Convex.norm_image_sub_le_of_norm_deriv_le (C := max C 0)
    (fun z _ => (hf.differentiable one_ne_zero).differentiableAt) (fun z hz => le_trans (hC z hz) (le_max_left _ _))
    (convex_Icc lo hi) hy hx
  simpa only [Real.norm_eq_abs] using this

theorem LipR.bounded {f : ℝ → ℝ} {lo hi : ℝ} (hf : LipR f lo hi) : ∃ M, 0 ≤ M ∧ ∀ x ∈ Set.Icc lo hi, |f x| ≤ M := by
  obtain ⟨L, hL, h⟩ := hf
  refine ⟨|f lo| + L * |hi - lo|, by positivity, fun x hx => ?_⟩
  have h1 := h x hx lo ⟨le_refl _, le_trans hx.1 hx.2⟩
  have h2 : |x - lo| ≤ |hi - lo| := by
    rw [abs_of_nonneg (by linarith [hx.1]), abs_of_nonneg (by linarith [hx.1, hx.2])]
    linarith [hx.2]
  have h3 := mul_le_mul_of_nonneg_left h2 hL
  have h4 : |f x| ≤ |f x - f lo| + |f lo| := by simpa using abs_add_le (f x - f lo) (f lo)
  linarith

/-- A quotient, with the denominator bounded away from zero. -/
theorem LipR.div {f w : ℝ → ℝ} {lo hi ω : ℝ} (hf : LipR f lo hi) (hw : LipR w lo hi) (hω : 0 < ω)
    (h : ∀ x ∈ Set.Icc lo hi, ω ≤ w x) : LipR (fun x => 1 / w x * f x) lo hi := by
  obtain ⟨M, hM, hb⟩ := hf.bounded
  obtain ⟨L1, hL1, h1⟩ := hf
  obtain ⟨L2, hL2, h2⟩ := hw
  refine ⟨L1 / ω + M * L2 / (ω * ω), by positivity, fun x hx y hy => ?_⟩
  have wx := h x hx
  have wy := h y hy
  have px : 0 < w x := lt_of_lt_of_le hω wx
  have py : 0 < w y := lt_of_lt_of_le hω wy
  have e : 1 / w x * f x - 1 / w y * f y = (f x - f y) / w x + f y * (w y - w x) / (w x * w y) := by
    field_simp
    ring
  rw [e]
  refine le_trans (abs_add_le _ _) ?_
  rw [add_mul]
  apply add_le_add
  · rw [abs_div, abs_of_pos px, div_mul_eq_mul_div]
    exact div_le_div₀ (by positivity) (h1 x hx y hy) hω wx
  · rw [abs_div, abs_mul, abs_of_pos (mul_pos px py), div_mul_eq_mul_div, mul_assoc]
    refine div_le_div₀ (by positivity) (mul_le_mul (hb y hy) ?_ (abs_nonneg _) hM) (by positivity)
      (mul_le_mul wx wy hω.le px.le)
    rw [abs_sub_comm]
    exact h2 x hx y hy

theorem V3.length_le_sum (a : V3 ℝ) : a.length ≤ |a.x| + |a.y| + |a.z| := by
  apply le_of_sq_le_sq _ (by positivity)
  rw [V3.length_sq]
  simp only [V3.dot]
  nlinarith [abs_nonneg a.x, abs_nonneg a.y, abs_nonneg a.z, abs_mul_abs_self a.x, abs_mul_abs_self a.y,
    abs_mul_abs_self a.z, mul_nonneg (abs_nonneg a.x) (abs_nonneg a.y), mul_nonneg (abs_nonneg a.x) (abs_nonneg a.z),
    mul_nonneg (abs_nonneg a.y) (abs_nonneg a.z)]

/-- Three Lipschitz coordinates. -/
theorem subdivides_of_coords {g : ℝ → Res (V3 ℝ)} {f : ℝ → V3 ℝ} {lo hi : ℝ} (hg : ∀ x ∈ Set.Icc lo hi, g x = .ok (f x))
    (hx : LipR (fun u => (f u).x) lo hi) (hy : LipR (fun u => (f u).y) lo hi) (hz : LipR (fun u => (f u).z) lo hi)
    {range : ℝ × ℝ} (h1 : range.1 ∈ Set.Icc lo hi) (h2 : range.2 ∈ Set.Icc lo hi) : Subdivides g range := by
  obtain ⟨L1, p1, q1⟩ := hx
  obtain ⟨L2, p2, q2⟩ := hy
  obtain ⟨L3, p3, q3⟩ := hz
  refine LipOn.subdivides (L := L1 + L2 + L3) (fun x hx => ⟨_, hg x hx, fun y hy => ⟨_, hg y hy, ?_⟩⟩) (by positivity) h1 h2
  have := V3.length_le_sum (f x - f y)
  have a1 := q1 x hx y hy
  have a2 := q2 x hx y hy
  have a3 := q3 x hx y hy
  simp only [V3.sub_x, V3.sub_y, V3.sub_z] at this
  unfold V3.distance
  nlinarith

/-! ### C109: lines, circles, polylines -/

/-- **C109**: lines, on every range. -/
theorem C109_line (c : Line ℝ) (range : ℝ × ℝ) : Subdivides (DynCurve.line c).obj.getPoint range := by
  refine subdivides_of_coords (f := c.getPoint) (lo := min range.1 range.2) (hi := max range.1 range.2) (fun _ _ => rfl)
    (LipR.of_contDiff ?_ _ _) (LipR.of_contDiff ?_ _ _) (LipR.of_contDiff ?_ _ _)
    ⟨min_le_left _ _, le_max_left _ _⟩ ⟨min_le_right _ _, le_max_right _ _⟩
  all_goals
    simp only [Line.getPoint, V3.add_x, V3.add_y, V3.add_z, LawfulPoint.right, V3.smul_x, V3.smul_y, V3.smul_z]
    fun_prop

/-- **C109**: circles (also with an axis that is not a unit vector), on every range. -/
theorem C109_circle (c : Circle ℝ) (range : ℝ × ℝ) : Subdivides c.obj.getPoint range := by
  refine subdivides_of_coords (f := c.getPoint) (lo := min range.1 range.2) (hi := max range.1 range.2) (fun _ _ => rfl)
    (LipR.of_contDiff ?_ _ _) (LipR.of_contDiff ?_ _ _) (LipR.of_contDiff ?_ _ _)
    ⟨min_le_left _ _, le_max_left _ _⟩ ⟨min_le_right _ _, le_max_right _ _⟩
  all_goals
    simp only [Circle.getPoint, Quat.mulVec, Quat.fromAxisAngle, V3.add_x, V3.add_y, V3.add_z, LawfulPoint.right, V3.smul_x,
      V3.smul_y, V3.smul_z, V3.dot, V3.cross, Trig.sin, Trig.cos]
    fun_prop

/-- **C109**: polylines of positive length, on every range. -/
theorem C109_polyline {vs : List (V3 ℝ)} (h : 2 ≤ vs.length) (hL : 0 < Spec.polyLength vs) {c : Polyline ℝ}
    (hc : Polyline.new vs = .ok c) (range : ℝ × ℝ) : Subdivides (DynCurve.polyline c).obj.getPoint range := by
  have hok : ∀ t, ∃ x, c.getPoint t = .ok x := fun t => by
    obtain ⟨c1, x1, e1, e2, _⟩ := C23_arc_length h hL t
    rw [hc] at e1; cases e1
    exact ⟨x1, e2⟩
  refine LipOn.subdivides (lo := min range.1 range.2) (hi := max range.1 range.2) (L := Spec.polyLength vs) (fun x _ => ?_)
    hL.le ⟨min_le_left _ _, le_max_left _ _⟩ ⟨min_le_right _ _, le_max_right _ _⟩
  obtain ⟨a, ha⟩ := hok x
  refine ⟨a, ha, fun y _ => ?_⟩
  obtain ⟨b, hb⟩ := hok y
  refine ⟨b, hb, ?_⟩
  rw [← dist3_eq]
  exact C23_lipschitz h hL hc ha hb

/-! ### C109: Bézier curves -/

section
variable {P : Type} [AddCommGroup P] [Module ℝ P] [HMul ℝ P P] [HMul P ℝ P] [LawfulPoint ℝ P]

theorem bezier_coord_contDiff (pts : List P) (f : P →ₗ[ℝ] ℝ) : ContDiff ℝ 1 fun u : ℝ =>
    f (∑ i ∈ Finset.range pts.length, bernsteinPoly (pts.length - 1) i u • cp pts i) := by
  simp only [map_sum, map_smul, smul_eq_mul, bernsteinPoly]
  fun_prop

end

/-- **C109**: Bézier curves, on every range. -/
theorem C109_bezier (c : BezierCurve (V3 ℝ)) (h : 1 ≤ c.controlPoints.length) (range : ℝ × ℝ) :
    Subdivides c.getPoint range :=
  subdivides_of_coords (lo := min range.1 range.2) (hi := max range.1 range.2) (fun u _ => bezier_getPoint c h u)
    (LipR.of_contDiff (bezier_coord_contDiff _ V3.xL) _ _) (LipR.of_contDiff (bezier_coord_contDiff _ V3.yL) _ _)
    (LipR.of_contDiff (bezier_coord_contDiff _ V3.zL) _ _)
    ⟨min_le_left _ _, le_max_left _ _⟩ ⟨min_le_right _ _, le_max_right _ _⟩

/-- A rational curve over homogeneous coordinates that are Lipschitz, with weights bounded away from zero. -/
theorem subdivides_rational {g : ℝ → Res (V4 ℝ)} {f : ℝ → V4 ℝ} {lo hi ω : ℝ} (hg : ∀ x ∈ Set.Icc lo hi, g x = .ok (f x))
    (hf : ∀ φ : V4 ℝ →ₗ[ℝ] ℝ, LipR (fun u => φ (f u)) lo hi) (hω : 0 < ω) (hw : ∀ x ∈ Set.Icc lo hi, ω ≤ (f x).w)
    {range : ℝ × ℝ} (h1 : range.1 ∈ Set.Icc lo hi) (h2 : range.2 ∈ Set.Icc lo hi) :
    Subdivides (fun u => do let point ← g u; pure ((1 / point.w) * point.truncate)) range :=
  subdivides_of_coords (f := fun u => (1 / (f u).w) * (f u).truncate) (fun u hu => by rw [hg u hu]; rfl)
    ((hf (V3.xL.comp V4.truncL)).div (hf V4.wL) hω hw) ((hf (V3.yL.comp V4.truncL)).div (hf V4.wL) hω hw)
    ((hf (V3.zL.comp V4.truncL)).div (hf V4.wL) hω hw) h1 h2

theorem ConvexComb.ge {K P : Type} [Field K] [LinearOrder K] [IsStrictOrderedRing K] [AddCommGroup P] [Module K P]
    {pts : List P} {x : P} (h : ConvexComb (K := K) pts x) (f : P →ₗ[K] K) {b : K} (hb : ∀ p ∈ pts, b ≤ f p) :
    b ≤ f x := by
  have := Spec.ConvexComb.le h (-f) (b := -b) (fun p hp => by simpa using hb p hp)
  simpa using this

/-- The least weight. -/
theorem exists_min_weight {pts : List (V4 ℝ)} (h : ∀ p ∈ pts, 0 < p.w) : ∃ ω, 0 < ω ∧ ∀ p ∈ pts, ω ≤ p.w := by
  induction pts with
  | nil => exact ⟨1, one_pos, by simp⟩
  | cons p l ih =>
    obtain ⟨ω, h1, h2⟩ := ih fun q hq => h q (List.mem_cons_of_mem _ hq)
    refine ⟨min ω p.w, lt_min h1 (h p List.mem_cons_self), fun q hq => ?_⟩
    rcases List.mem_cons.1 hq with rfl | hq
    · exact min_le_right _ _
    · exact le_trans (min_le_left _ _) (h2 q hq)

/-- **C109**: rational Bézier curves with positive weights, on ranges inside `[0, 1]`. -/
theorem C109_bezier_rational (c : BezierCurve (V4 ℝ)) (h : 1 ≤ c.controlPoints.length)
    (hw : ∀ p ∈ c.controlPoints, 0 < p.w) (range : ℝ × ℝ) (h1 : range.1 ∈ Set.Icc 0 1) (h2 : range.2 ∈ Set.Icc 0 1) :
    Subdivides c.getPointRational range := by
  obtain ⟨ω, hω, hle⟩ := exists_min_weight hw
  refine subdivides_rational (fun u _ => bezier_getPoint c h u)
    (fun φ => LipR.of_contDiff (bezier_coord_contDiff _ φ) _ _) hω (fun u hu => ?_) h1 h2
  obtain ⟨x, e, hx⟩ := C11_convex c h u hu.1 hu.2
  rw [bezier_getPoint c h] at e
  cases e
  exact ConvexComb.ge hx V4.wL hle

/-! ### C109: B-spline curves -/

section
variable {P : Type} [AddCommGroup P] [Module ℝ P] [HMul ℝ P P] [HMul P ℝ P] [LawfulPoint ℝ P]

/-- A linear coordinate of a clamped curve whose inner knots have at most the multiplicity of the degree is Lipschitz, with
the largest coordinate of the control points of the derivative as constant. -/
theorem bspline_coord_lip {c : BSplineCurve ℝ P} (hv : c.Valid) (hp : 1 ≤ c.degree)
    (h0 : knot c.knots 0 = knot c.knots c.degree)
    (h1 : knot c.knots c.controlPoints.length = knot c.knots (c.controlPoints.length + c.degree))
    (hmult : InnerMult c c.degree) (f : P →ₗ[ℝ] ℝ) {L : ℝ}
    (hL : ∀ i, i + 1 < c.controlPoints.length →
      |f (((c.degree : ℝ) / (knot c.knots (i + c.degree + 1) - knot c.knots (i + 1)))
          • (cp c.controlPoints (i + 1) - cp c.controlPoints i))| ≤ L) :
    ∀ x ∈ Set.Icc (knot c.knots 0) (knot c.knots (c.controlPoints.length + c.degree)),
    ∀ y ∈ Set.Icc (knot c.knots 0) (knot c.knots (c.controlPoints.length + c.degree)),
      |f (valOf (c.getPoint x)) - f (valOf (c.getPoint y))| ≤ L * |x - y| := by
  obtain ⟨c', hd, hv', d1, d2, d3, k0, k1, d4, hR, -⟩ := derivative_sides hv hp h0 h1
  have hlen := hv.len
  have hN := (clamped_inner hv hp h0 h1).1
  have hbound : ∀ q ∈ c'.controlPoints, |f q| ≤ L := by
    intro q hq
    rw [derivative_eq hv.len hp (by omega) hv.resolved] at hd
    cases hd
    simp only [tab, List.mem_map, List.mem_range] at hq
    obtain ⟨i, hi, rfl⟩ := hq
    exact hL i (by omega)
  have hD : ∀ u, knot c.knots 0 ≤ u → u < knot c.knots (c.controlPoints.length + c.degree) →
      |f (valOf (c'.getPoint u))| ≤ L := by
    intro u hu0 hu1
    obtain ⟨s, hs, hg⟩ := getPoint_eq hv' (u := u) (by rw [k0]; exact hu0)
    obtain ⟨s1, s2⟩ := clamped_span hv' (by rw [k0, d3 _ (by omega), d1, h0])
      (by rw [k1, d3 _ (by omega), d2, h1]) hs.lt hs.nonempty
    have hlt : u < knot c'.knots (s + 1) := by
      rcases hs.right with h | ⟨h, -⟩
      · exact h
      · rw [k1] at h; exact absurd h (not_le.2 hu1)
    obtain ⟨x, e, hx⟩ := C13_hull hv' s1 s2 hs.nonempty hs.left (Or.inl hlt)
    rw [e]
    have hmem : ∀ q ∈ (c'.controlPoints.drop (s - c'.degree)).take (c'.degree + 1), |f q| ≤ L := fun q hq =>
      hbound q (List.mem_of_mem_drop (List.mem_of_mem_take hq))
    exact abs_le.2 ⟨ConvexComb.ge hx f fun q hq => (abs_le.1 (hmem q hq)).1,
      Spec.ConvexComb.le hx f fun q hq => (abs_le.1 (hmem q hq)).2⟩
  have hcont := C108_continuous hv hmult f
  have key : ∀ x y, knot c.knots 0 ≤ x → x ≤ y → y ≤ knot c.knots (c.controlPoints.length + c.degree) →
      |f (valOf (c.getPoint y)) - f (valOf (c.getPoint x))| ≤ L * (y - x) := by
    intro x y hx hxy hy
    have := norm_image_sub_le_of_norm_deriv_right_le_segment (C := L) (a := x) (b := y)
      (hcont.mono (Set.Icc_subset_Icc hx hy)) (fun z hz => hR z (le_trans hx hz.1) (lt_of_lt_of_le hz.2 hy) f)
      (fun z hz => hD z (le_trans hx hz.1) (lt_of_lt_of_le hz.2 hy)) y ⟨hxy, le_refl _⟩
    simpa only [Real.norm_eq_abs] using this
  intro x hx y hy
  rcases le_total x y with h | h
  · rw [abs_sub_comm, abs_sub_comm x, abs_of_nonneg (sub_nonneg.2 h)]
    exact key x y hx.1 h hy.2
  · rw [abs_of_nonneg (sub_nonneg.2 h)]
    exact key y x hy.1 h hx.2

theorem bspline_lipR {c : BSplineCurve ℝ P} (hv : c.Valid) (hp : 1 ≤ c.degree)
    (h0 : knot c.knots 0 = knot c.knots c.degree)
    (h1 : knot c.knots c.controlPoints.length = knot c.knots (c.controlPoints.length + c.degree))
    (hmult : InnerMult c c.degree) (f : P →ₗ[ℝ] ℝ) :
    LipR (fun u => f (valOf (c.getPoint u))) (knot c.knots 0) (knot c.knots (c.controlPoints.length + c.degree)) := by
  refine ⟨∑ i ∈ Finset.range c.controlPoints.length,
      |f (((c.degree : ℝ) / (knot c.knots (i + c.degree + 1) - knot c.knots (i + 1)))
          • (cp c.controlPoints (i + 1) - cp c.controlPoints i))|, by positivity,
    bspline_coord_lip hv hp h0 h1 hmult f fun i hi => ?_⟩
  exact Finset.single_le_sum (f := fun i => |f (((c.degree : ℝ) / (knot c.knots (i + c.degree + 1) - knot c.knots (i + 1)))
          • (cp c.controlPoints (i + 1) - cp c.controlPoints i))|) (fun _ _ => abs_nonneg _) (Finset.mem_range.2 (by omega))

end

/-- The product with a fixed vector. -/
def V3.dotL (d : V3 ℝ) : V3 ℝ →ₗ[ℝ] ℝ := ⟨⟨d.dot, V3.dot_add d⟩, fun s a => V3.dot_smul s d a⟩

/-- **C109**, the constant: a clamped B-spline curve of degree `p ≥ 1` none of whose inner knots has a multiplicity above
`p` moves at most `L |x - y|` between two parameters of its range, if no `p |P_{i+1} - P_i| / (t_{i+p+1} - t_{i+1})`
exceeds `L`. -/
theorem C109_lipschitz {c : BSplineCurve ℝ (V3 ℝ)} (hv : c.Valid) (hp : 1 ≤ c.degree)
    (h0 : knot c.knots 0 = knot c.knots c.degree)
    (h1 : knot c.knots c.controlPoints.length = knot c.knots (c.controlPoints.length + c.degree))
    (hmult : ∀ x, knot c.knots 0 < x → x < knot c.knots (c.controlPoints.length + c.degree) →
      c.knots.count x ≤ c.degree) {L : ℝ}
    (hL : ∀ i, i + 1 < c.controlPoints.length →
      c.degree * (c.controlPoints.getD (i + 1) 0).distance (c.controlPoints.getD i 0)
        / (knot c.knots (i + c.degree + 1) - knot c.knots (i + 1)) ≤ L) {x y : ℝ} (hx : knot c.knots 0 ≤ x)
    (hx' : x ≤ knot c.knots (c.controlPoints.length + c.degree)) (hy : knot c.knots 0 ≤ y)
    (hy' : y ≤ knot c.knots (c.controlPoints.length + c.degree)) :
    ∃ a b, c.getPoint x = .ok a ∧ c.getPoint y = .ok b ∧ a.distance b ≤ L * |x - y| := by
  have hN := (clamped_inner hv hp h0 h1).1
  obtain ⟨s, -, ex⟩ := getPoint_eq hv hx
  obtain ⟨r, -, ey⟩ := getPoint_eq hv hy
  refine ⟨_, _, ex, ey, ?_⟩
  set D := c.pieceSum s x - c.pieceSum r y with hDdef
  have hl := bspline_coord_lip hv hp h0 h1 hmult (V3.dotL D) (L := D.length * L) ?_ x ⟨hx, hx'⟩ y ⟨hy, hy'⟩
  · rw [ex, ey, ← map_sub] at hl
    have e : V3.dotL D (valOf (.ok (c.pieceSum s x)) - valOf (.ok (c.pieceSum r y))) = D.length * D.length := by
      rw [V3.length_mul_self]; rfl
    rw [e, abs_of_nonneg (mul_self_nonneg _), mul_assoc] at hl
    change D.length ≤ _
    rcases eq_or_lt_of_le (V3.length_nonneg D) with hz | hz
    · rw [← hz]
      have h0L : 0 ≤ L := by
        refine le_trans ?_ (hL 0 (by omega))
        refine div_nonneg (mul_nonneg (Nat.cast_nonneg _) (V3.distance_nonneg _ _)) (sub_nonneg.2 ?_)
        exact hv.mono _ _ (by omega) (by omega)
      exact mul_nonneg h0L (abs_nonneg _)
    · exact le_of_mul_le_mul_left hl hz
  · intro i hi
    have hk : 0 ≤ knot c.knots (i + c.degree + 1) - knot c.knots (i + 1) :=
      sub_nonneg.2 (hv.mono _ _ (by omega) (by omega))
    have h3 := hL i hi
    rw [map_smul, smul_eq_mul, abs_mul, abs_of_nonneg (div_nonneg (Nat.cast_nonneg _) hk)]
    have h4 : |V3.dotL D (cp c.controlPoints (i + 1) - cp c.controlPoints i)|
        ≤ D.length * (c.controlPoints.getD (i + 1) 0).distance (c.controlPoints.getD i 0) := by
      apply abs_le.2
      constructor
      · have := V3.dot_le D (-(cp c.controlPoints (i + 1) - cp c.controlPoints i))
        rw [V3.dot_neg, V3.length_neg] at this
        change -(D.length * (cp c.controlPoints (i + 1) - cp c.controlPoints i).length)
          ≤ D.dot (cp c.controlPoints (i + 1) - cp c.controlPoints i)
        linarith
      · exact V3.dot_le D (cp c.controlPoints (i + 1) - cp c.controlPoints i)
    calc _ ≤ (c.degree : ℝ) / (knot c.knots (i + c.degree + 1) - knot c.knots (i + 1))
          * (D.length * (c.controlPoints.getD (i + 1) 0).distance (c.controlPoints.getD i 0)) :=
          mul_le_mul_of_nonneg_left h4 (div_nonneg (Nat.cast_nonneg _) hk)
      _ = D.length * (c.degree * (c.controlPoints.getD (i + 1) 0).distance (c.controlPoints.getD i 0)
        / (knot c.knots (i + c.degree + 1) - knot c.knots (i + 1))) := by ring
      _ ≤ _ := mul_le_mul_of_nonneg_left h3 (V3.length_nonneg D)

/-- **C109**, the depth: subdividing such a curve recurses at most `n + 1` deep when `L |range| < tol 2^(n+1)`, whatever
the random generator draws. -/
theorem C109_depth {c : BSplineCurve ℝ (V3 ℝ)} (hv : c.Valid) (hp : 1 ≤ c.degree)
    (h0 : knot c.knots 0 = knot c.knots c.degree)
    (h1 : knot c.knots c.controlPoints.length = knot c.knots (c.controlPoints.length + c.degree))
    (hmult : ∀ x, knot c.knots 0 < x → x < knot c.knots (c.controlPoints.length + c.degree) →
      c.knots.count x ≤ c.degree) {L tol : ℝ} (hL0 : 0 ≤ L)
    (hL : ∀ i, i + 1 < c.controlPoints.length →
      c.degree * (c.controlPoints.getD (i + 1) 0).distance (c.controlPoints.getD i 0)
        / (knot c.knots (i + c.degree + 1) - knot c.knots (i + 1)) ≤ L) {rnd : List Bool → ℝ}
    (hr : ∀ path, 0 ≤ rnd path ∧ rnd path < 1) (n : Nat) (range : ℝ × ℝ)
    (g1 : range.1 ∈ Set.Icc (knot c.knots 0) (knot c.knots (c.controlPoints.length + c.degree)))
    (g2 : range.2 ∈ Set.Icc (knot c.knots 0) (knot c.knots (c.controlPoints.length + c.degree)))
    (hn : L * |range.2 - range.1| < tol * 2 ^ (n + 1)) :
    ∃ l, parameterDivision c.getPoint rnd tol (n + 1) [] range = .ok l ∧ l.length ≤ 2 ^ n + 1 := by
  refine LipOn.terminates (L := L) (fun x hx => ?_) hr n [] g1 g2 hL0 hn
  obtain ⟨a, -, ea, -⟩ := C109_lipschitz hv hp h0 h1 hmult hL hx.1 hx.2 hx.1 hx.2
  refine ⟨a, ea, fun y hy => ?_⟩
  obtain ⟨a', b, ea', eb, h⟩ := C109_lipschitz hv hp h0 h1 hmult hL hx.1 hx.2 hy.1 hy.2
  rw [ea] at ea'
  cases ea'
  exact ⟨b, eb, h⟩

/-- **C109**: clamped B-spline curves none of whose inner knots has a multiplicity above the degree (cf. `C98_bspline`). -/
theorem C109_bspline {c : BSplineCurve ℝ (V3 ℝ)} (hv : c.Valid) (hp : 1 ≤ c.degree)
    (h0 : knot c.knots 0 = knot c.knots c.degree)
    (h1 : knot c.knots c.controlPoints.length = knot c.knots (c.controlPoints.length + c.degree))
    (hmult : ∀ x, knot c.knots 0 < x → x < knot c.knots (c.controlPoints.length + c.degree) →
      c.knots.count x ≤ c.degree) (range : ℝ × ℝ)
    (g1 : range.1 ∈ Set.Icc (knot c.knots 0) (knot c.knots (c.controlPoints.length + c.degree)))
    (g2 : range.2 ∈ Set.Icc (knot c.knots 0) (knot c.knots (c.controlPoints.length + c.degree))) :
    Subdivides (DynCurve.bspline c).obj.getPoint range :=
  subdivides_of_coords (f := fun u => valOf (c.getPoint u)) (fun u hu => by
      obtain ⟨s, -, e⟩ := getPoint_eq hv hu.1
      change c.getPoint u = _
      rw [e]; rfl)
    (bspline_lipR hv hp h0 h1 hmult V3.xL) (bspline_lipR hv hp h0 h1 hmult V3.yL) (bspline_lipR hv hp h0 h1 hmult V3.zL)
    g1 g2

/-- **C109**: rational B-spline curves with positive weights. -/
theorem C109_bspline_rational {c : BSplineCurve ℝ (V4 ℝ)} (hv : c.Valid) (hp : 1 ≤ c.degree)
    (h0 : knot c.knots 0 = knot c.knots c.degree)
    (h1 : knot c.knots c.controlPoints.length = knot c.knots (c.controlPoints.length + c.degree))
    (hmult : ∀ x, knot c.knots 0 < x → x < knot c.knots (c.controlPoints.length + c.degree) →
      c.knots.count x ≤ c.degree) (hw : ∀ p ∈ c.controlPoints, 0 < p.w) (range : ℝ × ℝ)
    (g1 : range.1 ∈ Set.Icc (knot c.knots 0) (knot c.knots (c.controlPoints.length + c.degree)))
    (g2 : range.2 ∈ Set.Icc (knot c.knots 0) (knot c.knots (c.controlPoints.length + c.degree))) :
    Subdivides c.getPointRational range := by
  obtain ⟨ω, hω, hle⟩ := exists_min_weight hw
  refine subdivides_rational (g := c.getPoint) (f := fun u => valOf (c.getPoint u)) (fun u hu => by
      obtain ⟨s, -, e⟩ := getPoint_eq hv hu.1
      rw [e]; rfl)
    (fun φ => bspline_lipR hv hp h0 h1 hmult φ) hω (fun u hu => ?_) g1 g2
  obtain ⟨s, hs, hg⟩ := getPoint_eq hv hu.1
  obtain ⟨s1, s2⟩ := clamped_span hv h0 h1 hs.lt hs.nonempty
  obtain ⟨x, e, hx⟩ := C13_hull hv s1 s2 hs.nonempty hs.left (by
    rcases hs.right with h | ⟨h, h'⟩
    · exact Or.inl h
    · exact Or.inr ⟨by rw [h']; exact le_antisymm hu.2 h, h'⟩)
  rw [e]
  exact ConvexComb.ge hx V4.wL fun q hq => hle q (List.mem_of_mem_drop (List.mem_of_mem_take hq))

/-! ### C109: segments and loops -/

/-- **C109**: the points of a segment of a curve that subdivides are computed, at least two of them. -/
theorem C109_get_points {s : CurveSegment ℝ} (h : Subdivides s.curve.getPoint s.parameterRange) (htol : 0 < s.tolerance) :
    ∃ fuel, ∀ rnd : List Bool → ℝ, (∀ path, 0 ≤ rnd path ∧ rnd path < 1) → ∀ fuel', fuel ≤ fuel' →
      ∃ pts, s.getPoints fuel' rnd = .ok pts ∧ 2 ≤ pts.length := by
  obtain ⟨fuel, hf⟩ := h s.tolerance htol
  refine ⟨fuel, fun rnd hr fuel' hle => ?_⟩
  obtain ⟨l, e, hl⟩ := hf rnd hr fuel' hle
  obtain ⟨pts, e2, h2⟩ := mapM_ok (f := s.curve.getPoint) (P := fun _ _ => True) (l := l) fun u hu => by
    obtain ⟨p, hp⟩ := hl u hu
    exact ⟨p, hp, trivial⟩
  refine ⟨pts, ?_, ?_⟩
  · unfold CurveSegment.getPoints
    rw [e]
    exact e2
  · rw [← h2.length_eq]
    exact (C29_ends e).2.2

/-- Finitely many thresholds have a common one. -/
theorem exists_common {α : Type} {Q : α → Nat → Prop} (hm : ∀ a n m, n ≤ m → Q a n → Q a m) {l : List α}
    (h : ∀ a ∈ l, ∃ n, Q a n) : ∃ n, ∀ a ∈ l, Q a n := by
  induction l with
  | nil => exact ⟨0, by simp⟩
  | cons a l ih =>
    obtain ⟨n, hn⟩ := h a List.mem_cons_self
    obtain ⟨m, hmm⟩ := ih fun b hb => h b (List.mem_cons_of_mem _ hb)
    refine ⟨max n m, fun b hb => ?_⟩
    rcases List.mem_cons.1 hb with rfl | hb
    · exact hm _ _ _ (le_max_left _ _) hn
    · exact hm _ _ _ (le_max_right _ _) (hmm b hb)

/-- **C109**: the polygon of a loop of such segments is computed. -/
theorem C109_polygon {e : EdgeLoop ℝ} (hne : e.edges ≠ [])
    (h : ∀ s ∈ e.edges, Subdivides s.curve.getPoint s.parameterRange ∧ 0 < s.tolerance) :
    ∃ fuel, ∀ rnd : Nat → List Bool → ℝ, (∀ i path, 0 ≤ rnd i path ∧ rnd i path < 1) → ∀ fuel', fuel ≤ fuel' →
      ∃ P, e.toPolygon fuel' rnd = .ok P := by
  obtain ⟨fuel, hf⟩ := exists_common (l := e.edges) (Q := fun (s : CurveSegment ℝ) fuel => ∀ rnd : List Bool → ℝ,
      (∀ path, 0 ≤ rnd path ∧ rnd path < 1) → ∀ fuel', fuel ≤ fuel' →
        ∃ pts, s.getPoints fuel' rnd = .ok pts ∧ 2 ≤ pts.length)
    (fun s n m hnm hq => fun rnd hr fuel' hle => hq rnd hr fuel' (le_trans hnm hle))
    (fun s hs => C109_get_points (h s hs).1 (h s hs).2)
  refine ⟨fuel, fun rnd hr fuel' hle => ?_⟩
  obtain ⟨pts, e1, h1⟩ := mapM_ok (f := fun (x : CurveSegment ℝ × Nat) => x.1.getPoints fuel' (rnd x.2))
    (P := fun _ pts => 2 ≤ pts.length) (l := e.edges.zipIdx) fun x hx =>
      hf x.1 (List.fst_mem_of_mem_zipIdx hx) (rnd x.2) (hr x.2) fuel' hle
  unfold EdgeLoop.toPolygon
  change ∃ P, (e.edges.zipIdx.mapM (fun x => x.1.getPoints fuel' (rnd x.2)) >>= fun points => closePolygon points.flatten)
    = .ok P
  rw [e1, ok_bind]
  have hfl : pts.flatten ≠ [] := by
    obtain ⟨a, as, ea⟩ := List.exists_cons_of_ne_nil hne
    rw [ea, List.zipIdx_cons] at h1
    cases h1 with
    | cons hd tl =>
      rename_i p ps
      intro hnil
      rw [List.flatten_cons, List.append_eq_nil_iff] at hnil
      rw [hnil.1] at hd
      simp at hd
  obtain ⟨_, _, _, P, _, _, _, hP, _⟩ := C62_polygon hfl
  exact ⟨P, hP⟩

/-- **C109**: the boundary vertices that every `trim` starts from are computed. -/
theorem C109_loops {bounds : List (EdgeLoop ℝ)} (hne : ∀ e ∈ bounds, e.edges ≠ [])
    (h : ∀ e ∈ bounds, ∀ s ∈ e.edges, Subdivides s.curve.getPoint s.parameterRange ∧ 0 < s.tolerance) :
    ∃ fuel, ∀ o : TrimOracle ℝ, fuel ≤ o.divFuel → (∀ l i path, 0 ≤ o.rnd l i path ∧ o.rnd l i path < 1) →
      ∃ r, collectLoops o bounds = .ok r := by
  obtain ⟨fuel, hf⟩ := exists_common (l := bounds) (Q := fun (e : EdgeLoop ℝ) fuel => ∀ rnd : Nat → List Bool → ℝ,
      (∀ i path, 0 ≤ rnd i path ∧ rnd i path < 1) → ∀ fuel', fuel ≤ fuel' → ∃ P, e.toPolygon fuel' rnd = .ok P)
    (fun s n m hnm hq => fun rnd hr fuel' hle => hq rnd hr fuel' (le_trans hnm hle))
    (fun e he => C109_polygon (hne e he) (h e he))
  refine ⟨fuel, fun o ho hr => ?_⟩
  unfold collectLoops
  have : ∀ (l : List (EdgeLoop ℝ × Nat)), (∀ x ∈ l, x.1 ∈ bounds) → ∀ st : List (V3 ℝ) × List Nat × Nat,
      ∃ st', l.foldlM (fun (st : List (V3 ℝ) × List Nat × Nat) (b : EdgeLoop ℝ × Nat) => (do
        let polygon ← b.1.toPolygon o.divFuel (o.rnd b.2)
        if 0 < polygon.length then
          pure (st.1 ++ polygon, st.2.1 ++ [st.2.2 + polygon.length], st.2.2 + polygon.length)
        else pure (st.1 ++ polygon, st.2.1, st.2.2) : Res (List (V3 ℝ) × List Nat × Nat))) st = .ok st' := by
    intro l
    induction l with
    | nil => intro _ st; exact ⟨st, rfl⟩
    | cons x l ih =>
      intro hx st
      obtain ⟨P, hP⟩ := hf x.1 (hx x List.mem_cons_self) (o.rnd x.2) (hr x.2) o.divFuel ho
      rw [List.foldlM_cons, hP, ok_bind]
      split
      · exact ih (fun y hy => hx y (List.mem_cons_of_mem _ hy)) _
      · exact ih (fun y hy => hx y (List.mem_cons_of_mem _ hy)) _
  obtain ⟨st, hst⟩ := this bounds.zipIdx (fun x hx => List.fst_mem_of_mem_zipIdx hx) ([], [0], 0)
  rw [hst]
  exact ⟨_, rfl⟩

/-! ### Non-vacuity -/

theorem cubic_valid (A B C D E F : V3 ℝ) :
    (⟨[A, B, C, D, E, F], [0, 0, 0, 0, 1, 1, 2, 2, 2, 2], 3⟩ : BSplineCurve ℝ (V3 ℝ)).Valid := by
  constructor <;> first
    | exact resolved_real _
    | (simp [Sorted, knot]; done)
    | (simp [Sorted, knot]; norm_num)

theorem cubic_mult (A B C D E F : V3 ℝ) :
    InnerMult (⟨[A, B, C, D, E, F], [0, 0, 0, 0, 1, 1, 2, 2, 2, 2], 3⟩ : BSplineCurve ℝ (V3 ℝ)) 2 := by
  intro x h1 h2
  simp only [knot, List.getD_cons_zero, List.length_cons, List.length_nil, Nat.reduceAdd, List.getD_cons_succ] at h1 h2
  by_cases hx : (1 : ℝ) = x
  · subst hx; simp
  · simp [hx, h1.ne, h2.ne']

/-- A cubic with a double inner knot meets the hypotheses of `C108_differentiable` and `C108_continuous`. -/
example (A B C D E F : V3 ℝ) : ∃ c', (⟨[A, B, C, D, E, F], [0, 0, 0, 0, 1, 1, 2, 2, 2, 2], 3⟩ :
    BSplineCurve ℝ (V3 ℝ)).derivative = .ok c' ∧ ∃ d, c'.getPoint 1 = .ok d ∧ HasDerivWithinAt (fun v => (valOf
      ((⟨[A, B, C, D, E, F], [0, 0, 0, 0, 1, 1, 2, 2, 2, 2], 3⟩ : BSplineCurve ℝ (V3 ℝ)).getPoint v)).x) d.x
        (Set.Icc 0 2) 1 := by
  obtain ⟨c', e, h⟩ := C108_differentiable (cubic_valid A B C D E F) (by norm_num) (by simp [knot]) (by simp [knot])
    (cubic_mult A B C D E F)
  obtain ⟨d, ed, hd⟩ := (h V3.xL).1 1 (by simp [knot])
  simp [knot] at hd
  exact ⟨c', e, d, ed, hd⟩

/-- … and of `C109_bspline`, also with the range reversed. -/
example (A B C D E F : V3 ℝ) :
    Subdivides (DynCurve.bspline (F := ℝ) ⟨[A, B, C, D, E, F], [0, 0, 0, 0, 1, 1, 2, 2, 2, 2], 3⟩).obj.getPoint (2, 0) :=
  C109_bspline (cubic_valid A B C D E F) (by norm_num) (by simp [knot]) (by simp [knot])
    (fun x h1 h2 => le_trans (cubic_mult A B C D E F x h1 h2) (by norm_num)) _ (by simp [knot]) (by simp [knot])

/-- A loop of three lines. -/
example (A B C : V3 ℝ) : ∃ fuel, ∀ rnd : Nat → List Bool → ℝ, (∀ i path, 0 ≤ rnd i path ∧ rnd i path < 1) →
    ∀ fuel', fuel ≤ fuel' → ∃ P, (EdgeLoop.mk [⟨(DynCurve.line ⟨A, B - A⟩).obj, (0, 1), 1 / 100, 16⟩,
      ⟨(DynCurve.line ⟨B, C - B⟩).obj, (0, 1), 1 / 100, 16⟩, ⟨(DynCurve.line ⟨C, A - C⟩).obj, (0, 1), 1 / 100, 16⟩]).toPolygon
        fuel' rnd = .ok P := by
  refine C109_polygon (by simp) fun s hs => ?_
  simp only [List.mem_cons, List.not_mem_nil, or_false] at hs
  rcases hs with rfl | rfl | rfl <;> exact ⟨C109_line _ _, by norm_num⟩

end Geom3d
