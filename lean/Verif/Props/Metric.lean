import Verif.Props.Utils
import Verif.Lemmas.Real3
import Verif.Model.Point2

/-! # C26, C30, C32: distances, adaptive subdivision, Newton projection -/

set_option linter.unusedSectionVars false

namespace Geom3d

/-! ### C30: termination of parameter_division -/

theorem drawRatio_bounds {r : ℝ} (h0 : 0 ≤ r) (h1 : r < 1) : 0 ≤ drawRatio r ∧ drawRatio r ≤ 1 := by
  obtain ⟨a, b⟩ := C29_ratio h0 h1
  constructor <;> linarith

/-- On a Lipschitz curve the chord test succeeds as soon as `L * |b - a| / 2 < tol`, whatever ratio is drawn. -/
theorem chord_of_lipschitz {f : ℝ → V3 ℝ} {L tol a b p : ℝ} (hL : ∀ x y, (f x).distance (f y) ≤ L * |x - y|)
    (hp0 : 0 ≤ p) (hp1 : p ≤ 1) (h : L * |b - a| < 2 * tol) :
    (f (a + (b - a) * p)).distance (f a + (f b - f a) * p) < tol := by
  have e : f (a + (b - a) * p) - (f a + (f b - f a) * p)
      = (1 - p) • (f (a + (b - a) * p) - f a) + p • (f (a + (b - a) * p) - f b) := by
    rw [V3.rmul_eq]; module
  unfold V3.distance
  rw [e]
  have h1 := hL (a + (b - a) * p) a
  have h2 := hL (a + (b - a) * p) b
  unfold V3.distance at h1 h2
  have e1 : |a + (b - a) * p - a| = p * |b - a| := by
    rw [show a + (b - a) * p - a = p * (b - a) by ring, abs_mul, abs_of_nonneg hp0]
  have e2 : |a + (b - a) * p - b| = (1 - p) * |b - a| := by
    rw [show a + (b - a) * p - b = (1 - p) * -(b - a) by ring, abs_mul, abs_of_nonneg (by linarith : 0 ≤ 1 - p),
      abs_neg]
  rw [e1] at h1
  rw [e2] at h2
  have h3 := V3.length_add_le ((1 - p) • (f (a + (b - a) * p) - f a)) (p • (f (a + (b - a) * p) - f b))
  rw [V3.length_smul, V3.length_smul, abs_of_nonneg hp0, abs_of_nonneg (by linarith : 0 ≤ 1 - p)] at h3
  have hLw : 0 ≤ L * |b - a| := by
    have := hL b a
    exact le_trans (V3.distance_nonneg _ _) this
  have h4 : (1 - p) * (f (a + (b - a) * p) - f a).length ≤ (1 - p) * (L * (p * |b - a|)) :=
    mul_le_mul_of_nonneg_left h1 (by linarith)
  have h5 : p * (f (a + (b - a) * p) - f b).length ≤ p * (L * ((1 - p) * |b - a|)) :=
    mul_le_mul_of_nonneg_left h2 hp0
  have h6 : 2 * (p * (1 - p)) * (L * |b - a|) ≤ 1 / 2 * (L * |b - a|) := by
    apply mul_le_mul_of_nonneg_right _ hLw
    nlinarith [sq_nonneg (p - 1 / 2)]
  nlinarith

/-- **C30**: for an `L`-Lipschitz curve and any outcome of the random generator, recursion depth `n + 1` suffices as soon
as `L * |range| < tol * 2^(n+1)`; at most `2^n + 1` parameters are returned. -/
theorem C30_terminates {f : ℝ → V3 ℝ} {L tol : ℝ} (hL : ∀ x y, (f x).distance (f y) ≤ L * |x - y|)
    {rnd : List Bool → ℝ} (hr : ∀ path, 0 ≤ rnd path ∧ rnd path < 1) (n : Nat) (path : List Bool) (range : ℝ × ℝ)
    (h : L * |range.2 - range.1| < tol * 2 ^ (n + 1)) :
    ∃ l, parameterDivision (fun u => .ok (f u)) rnd tol (n + 1) path range = .ok l ∧ l.length ≤ 2 ^ n + 1 := by
  induction n generalizing path range with
  | zero =>
    rw [parameterDivision]
    simp only [ok_bind, rangeAt]
    rw [if_pos (chord_of_lipschitz hL (drawRatio_bounds (hr path).1 (hr path).2).1
      (drawRatio_bounds (hr path).1 (hr path).2).2 (by simpa [mul_comm] using h))]
    exact ⟨_, rfl, by simp⟩
  | succ n ih =>
    rw [parameterDivision]
    simp only [ok_bind]
    split
    · refine ⟨_, rfl, ?_⟩
      have : 1 ≤ 2 ^ (n + 1) := Nat.one_le_two_pow
      simp only [List.length_cons, List.length_nil]; omega
    · have half : ∀ x y : ℝ, |y - x| = |range.2 - range.1| / 2 → L * |y - x| < tol * 2 ^ (n + 1) := by
        intro x y e
        rw [e]
        have : tol * 2 ^ (n + 1 + 1) = 2 * (tol * 2 ^ (n + 1)) := by ring
        rw [this] at h
        linarith
      obtain ⟨l1, e1, c1⟩ := ih (path ++ [false]) (range.1, (range.1 + range.2) / (Nat.cast 2 : ℝ)) (half _ _ (by
        rw [show (range.1 + range.2) / (Nat.cast 2 : ℝ) - range.1 = (range.2 - range.1) / 2 by push_cast; ring,
          abs_div, abs_of_pos (by norm_num : (0 : ℝ) < 2)]))
      obtain ⟨l2, e2, c2⟩ := ih (path ++ [true]) ((range.1 + range.2) / (Nat.cast 2 : ℝ), range.2) (half _ _ (by
        rw [show range.2 - (range.1 + range.2) / (Nat.cast 2 : ℝ) = (range.2 - range.1) / 2 by push_cast; ring,
          abs_div, abs_of_pos (by norm_num : (0 : ℝ) < 2)]))
      rw [e1, e2]
      refine ⟨_, rfl, ?_⟩
      simp only [List.length_append, List.length_dropLast]
      have : 2 ^ (n + 1) = 2 ^ n + 2 ^ n := by ring
      have : 1 ≤ 2 ^ n := Nat.one_le_two_pow
      omega

/-- **C30**: termination, with the depth left implicit. -/
theorem C30_terminates_exists {f : ℝ → V3 ℝ} {L tol : ℝ} (htol : 0 < tol)
    (hL : ∀ x y, (f x).distance (f y) ≤ L * |x - y|)
    {rnd : List Bool → ℝ} (hr : ∀ path, 0 ≤ rnd path ∧ rnd path < 1) (range : ℝ × ℝ) :
    ∃ fuel l, parameterDivision (fun u => .ok (f u)) rnd tol fuel [] range = .ok l := by
  obtain ⟨n, hn⟩ := pow_unbounded_of_one_lt (L * |range.2 - range.1| / tol) (by norm_num : (1 : ℝ) < 2)
  rw [div_lt_iff₀ htol] at hn
  obtain ⟨l, h, _⟩ := C30_terminates (tol := tol) hL hr n [] range (by
    have : (2 : ℝ) ^ n ≤ 2 ^ (n + 1) := pow_le_pow_right₀ (by norm_num) (by omega)
    nlinarith)
  exact ⟨_, l, h⟩

/-- **C30**: with a tolerance `≤ 0` no recursion depth suffices, for any curve. -/
theorem C30_diverges {f : ℝ → V3 ℝ} {tol : ℝ} (htol : tol ≤ 0) (rnd : List Bool → ℝ) (fuel : Nat) (path : List Bool)
    (range : ℝ × ℝ) : parameterDivision (fun u => .ok (f u)) rnd tol fuel path range = .error .fuel :=
  C30_diverges_of (fun u => ⟨_, rfl⟩) (fun a b h => absurd (V3.distance_nonneg a b) (by linarith)) fuel path range

/-- Non-vacuity: the straight line `u ↦ (3u, 4u, 0)` is 5-Lipschitz. -/
example (rnd : List Bool → ℝ) (hr : ∀ path, 0 ≤ rnd path ∧ rnd path < 1) :
    ∃ fuel l, parameterDivision (fun u => .ok (⟨3 * u, 4 * u, 0⟩ : V3 ℝ)) rnd (1 / 100) fuel [] (0, 1) = .ok l :=
  C30_terminates_exists (L := 5) (by norm_num) (fun x y => le_of_eq (by
    have e : ((⟨3 * x, 4 * x, 0⟩ : V3 ℝ) - ⟨3 * y, 4 * y, 0⟩) = (x - y) • (⟨3, 4, 0⟩ : V3 ℝ) := by
      ext <;> simp <;> ring
    unfold V3.distance
    rw [e, V3.length_smul, V3.length_eq]
    have : Real.sqrt ((⟨3, 4, 0⟩ : V3 ℝ).dot ⟨3, 4, 0⟩) = 5 := by
      rw [show ((⟨3, 4, 0⟩ : V3 ℝ).dot ⟨3, 4, 0⟩) = 5 * 5 by norm_num [V3.dot]]
      exact Real.sqrt_mul_self (by norm_num)
    rw [this]; ring)) hr (0, 1)

/-! ### C32: distance to a segment -/

/-- The quadratic `q(s) = A - 2sP + s²N` on `[0,1]` (with `P² ≤ A N`) and its minimum. -/
theorem quad_min {A P N : ℝ} (hN : 0 ≤ N) :
    (P ≤ 0 → ∀ s, 0 ≤ s → s ≤ 1 → A ≤ A - 2 * s * P + s ^ 2 * N) ∧
    (N ≤ P → ∀ s, 0 ≤ s → s ≤ 1 → A - 2 * P + N ≤ A - 2 * s * P + s ^ 2 * N) ∧
    (0 < N → ∀ s, (A * N - P ^ 2) / N ≤ A - 2 * s * P + s ^ 2 * N) := by
  refine ⟨?_, ?_, ?_⟩
  · intro hP s h0 h1
    nlinarith [mul_nonneg h0 (neg_nonneg.2 hP), mul_nonneg (sq_nonneg s) hN]
  · intro hP s h0 h1
    have h2 : 0 ≤ 1 - s := by linarith
    nlinarith [mul_nonneg h2 (sub_nonneg.2 hP), mul_nonneg (mul_nonneg h2 h2) hN]
  · intro hN s
    rw [div_le_iff₀ hN]
    nlinarith [sq_nonneg (s * N - P)]

/-- The point `a + s(b - a)` of the closed segment. -/
def Spec.segPoint3 (a b : V3 ℝ) (s : ℝ) : V3 ℝ := ⟨a.x + s * (b.x - a.x), a.y + s * (b.y - a.y), a.z + s * (b.z - a.z)⟩
def Spec.segPoint2 (a b : V2 ℝ) (s : ℝ) : V2 ℝ := ⟨a.x + s * (b.x - a.x), a.y + s * (b.y - a.y)⟩
/-- Euclidean distances, written out. -/
noncomputable def Spec.dist3 (p q : V3 ℝ) : ℝ := Real.sqrt ((p.x - q.x) ^ 2 + (p.y - q.y) ^ 2 + (p.z - q.z) ^ 2)
noncomputable def Spec.dist2 (p q : V2 ℝ) : ℝ := Real.sqrt ((p.x - q.x) ^ 2 + (p.y - q.y) ^ 2)

theorem dist3_eq (p q : V3 ℝ) : Spec.dist3 p q = p.distance q := by
  unfold Spec.dist3 V3.distance
  rw [V3.length_eq]
  congr 1
  simp only [V3.dot, V3.sub_x, V3.sub_y, V3.sub_z]; ring

theorem dist3_seg (a b p : V3 ℝ) (s : ℝ) : Spec.dist3 p (Spec.segPoint3 a b s)
    = Real.sqrt ((p - a).dot (p - a) - 2 * s * (p - a).dot (b - a) + s ^ 2 * (b - a).dot (b - a)) := by
  unfold Spec.dist3
  congr 1
  simp only [V3.dot, V3.sub_x, V3.sub_y, V3.sub_z, Spec.segPoint3]; ring

theorem dist2_seg (a b p : V2 ℝ) (s : ℝ) : Spec.dist2 p (Spec.segPoint2 a b s)
    = Real.sqrt ((p - a).dot (p - a) - 2 * s * (p - a).dot (b - a) + s ^ 2 * (b - a).dot (b - a)) := by
  unfold Spec.dist2
  congr 1
  simp only [V2.dot, V2.sub_x, V2.sub_y, Spec.segPoint2]; ring

/-- **C32**, in space: the value is attained on the closed segment and is the minimum (degenerate segments included). -/
theorem C32_distance3 (a b p : V3 ℝ) :
    (∃ s, 0 ≤ s ∧ s ≤ 1 ∧ distanceToLineSegment a b p = Spec.dist3 p (Spec.segPoint3 a b s)) ∧
      ∀ s, 0 ≤ s → s ≤ 1 → distanceToLineSegment a b p ≤ Spec.dist3 p (Spec.segPoint3 a b s) := by
  have hN := V3.dot_self_nonneg (b - a)
  obtain ⟨q1, q2, q3⟩ := quad_min (A := (p - a).dot (p - a)) (P := (p - a).dot (b - a)) hN
  have hlag := V3.lagrange (p - a) (b - a)
  unfold distanceToLineSegment
  simp only [dist3_seg]
  split
  · rename_i h
    refine ⟨⟨0, le_refl _, by norm_num, by rw [V3.length_eq]; congr 1; ring⟩, fun s h0 h1 => ?_⟩
    rw [V3.length_eq]
    exact Real.sqrt_le_sqrt (q1 h s h0 h1)
  · split
    · rename_i h0 h
      have e : (p - b).dot (p - b) = (p - a).dot (p - a) - 2 * (p - a).dot (b - a) + (b - a).dot (b - a) := by
        simp only [V3.dot, V3.sub_x, V3.sub_y, V3.sub_z]; ring
      refine ⟨⟨1, by norm_num, le_refl _, by rw [V3.length_eq, e]; congr 1; ring⟩, fun s h0 h1 => ?_⟩
      rw [V3.length_eq, e]
      exact Real.sqrt_le_sqrt (q2 h s h0 h1)
    · rename_i h0 h
      have hP : 0 < (p - a).dot (b - a) := not_le.1 h0
      have hPN : (p - a).dot (b - a) < (b - a).dot (b - a) := not_le.1 h
      have hNpos : 0 < (b - a).dot (b - a) := lt_trans hP hPN
      have e : ((p - a).cross (b - a)).length / (b - a).length
          = Real.sqrt (((p - a).dot (p - a) * (b - a).dot (b - a) - (p - a).dot (b - a) ^ 2) / (b - a).dot (b - a)) := by
        rw [V3.length_eq, V3.length_eq, hlag, Real.sqrt_div' _ hN]
      rw [e]
      refine ⟨⟨(p - a).dot (b - a) / (b - a).dot (b - a), div_nonneg hP.le hN, (div_le_one hNpos).2 hPN.le, ?_⟩,
        fun s _ _ => Real.sqrt_le_sqrt (q3 hNpos s)⟩
      congr 1
      field_simp
      ring

/-- **C32**, in the plane. -/
theorem C32_distance2 (a b p : V2 ℝ) :
    (∃ s, 0 ≤ s ∧ s ≤ 1 ∧ distanceToLineSegment2 p a b = Spec.dist2 p (Spec.segPoint2 a b s)) ∧
      ∀ s, 0 ≤ s → s ≤ 1 → distanceToLineSegment2 p a b ≤ Spec.dist2 p (Spec.segPoint2 a b s) := by
  have hdn : ∀ v : V2 ℝ, 0 ≤ v.dot v := fun v => by simp only [V2.dot]; nlinarith [mul_self_nonneg v.x, mul_self_nonneg v.y]
  have hN := hdn (b - a)
  obtain ⟨q1, q2, q3⟩ := quad_min (A := (p - a).dot (p - a)) (P := (p - a).dot (b - a)) hN
  have hlen : ∀ v : V2 ℝ, v.length = Real.sqrt (v.dot v) := fun _ => rfl
  have hlag : (p - a).perpDot (b - a) ^ 2 = (p - a).dot (p - a) * (b - a).dot (b - a) - (p - a).dot (b - a) ^ 2 := by
    simp only [V2.dot, V2.perpDot]; ring
  unfold distanceToLineSegment2
  simp only [dist2_seg]
  split
  · rename_i h
    refine ⟨⟨0, le_refl _, by norm_num, by rw [hlen]; congr 1; ring⟩, fun s h0 h1 => ?_⟩
    rw [hlen]
    exact Real.sqrt_le_sqrt (q1 h s h0 h1)
  · split
    · rename_i h0 h
      have e : (p - b).dot (p - b) = (p - a).dot (p - a) - 2 * (p - a).dot (b - a) + (b - a).dot (b - a) := by
        simp only [V2.dot, V2.sub_x, V2.sub_y]; ring
      refine ⟨⟨1, by norm_num, le_refl _, by rw [hlen, e]; congr 1; ring⟩, fun s h0 h1 => ?_⟩
      rw [hlen, e]
      exact Real.sqrt_le_sqrt (q2 h s h0 h1)
    · rename_i h0 h
      have hP : 0 < (p - a).dot (b - a) := not_le.1 h0
      have hPN : (p - a).dot (b - a) < (b - a).dot (b - a) := not_le.1 h
      have hNpos : 0 < (b - a).dot (b - a) := lt_trans hP hPN
      have habs : ∀ x : ℝ, fabs x = |x| := fun x => by
        unfold fabs
        split
        · rename_i h; exact (abs_of_neg h).symm
        · rename_i h; exact (abs_of_nonneg (not_lt.1 h)).symm
      have e : fabs ((p - a).perpDot (b - a)) / (b - a).length
          = Real.sqrt (((p - a).dot (p - a) * (b - a).dot (b - a) - (p - a).dot (b - a) ^ 2) / (b - a).dot (b - a)) := by
        rw [habs, hlen, ← hlag, Real.sqrt_div' _ hN, Real.sqrt_sq_eq_abs]
      rw [e]
      refine ⟨⟨(p - a).dot (b - a) / (b - a).dot (b - a), div_nonneg hP.le hN, (div_le_one hNpos).2 hPN.le, ?_⟩,
        fun s _ _ => Real.sqrt_le_sqrt (q3 hNpos s)⟩
      congr 1
      field_simp
      ring

/-- Non-vacuity: the unit segment and a point above its middle. -/
example : distanceToLineSegment (⟨0, 0, 0⟩ : V3 ℝ) ⟨2, 0, 0⟩ ⟨1, 3, 0⟩ = 3 := by
  unfold distanceToLineSegment V3.lengthSq
  rw [if_neg (by norm_num [V3.dot]), if_neg (by norm_num [V3.dot]), V3.length_eq, V3.length_eq]
  rw [show (((⟨1, 3, 0⟩ : V3 ℝ) - ⟨0, 0, 0⟩).cross (⟨2, 0, 0⟩ - ⟨0, 0, 0⟩)).dot
      (((⟨1, 3, 0⟩ : V3 ℝ) - ⟨0, 0, 0⟩).cross (⟨2, 0, 0⟩ - ⟨0, 0, 0⟩)) = 6 * 6 by norm_num [V3.dot, V3.cross],
    show ((⟨2, 0, 0⟩ : V3 ℝ) - ⟨0, 0, 0⟩).dot (⟨2, 0, 0⟩ - ⟨0, 0, 0⟩) = 2 * 2 by norm_num [V3.dot],
    Real.sqrt_mul_self (by norm_num), Real.sqrt_mul_self (by norm_num)]
  norm_num

/-! ### C26: find_nearest_parameter -/

section
variable {K : Type} [Field K] [LinearOrder K] [IsStrictOrderedRing K] [Env K]

/-- One Newton step clamped to the range. -/
def Spec.newtonStep (c d1 d2 : K → V3 K) (p : V3 K) (range : K × K) (u : K) : K :=
  let f := (d1 u).dot (c u - p)
  let f' := (d2 u).dot (c u - p) + (d1 u).dot (d1 u)
  max (min range.1 range.2) (min (u - f / f') (max range.1 range.2))

/-- The two stopping conditions at `u`: the curve point is within tolerance of `p`, or `c'(u) · (c(u) - p)` is zero to
tolerance. -/
def Spec.Stops (c d1 : K → V3 K) (p : V3 K) (u : K) : Prop :=
  |(c u - p).dot (c u - p)| ≤ Env.tol ∨ |(d1 u).dot (c u - p)| ≤ Env.tol

theorem fabs_eq (x : K) : fabs x = |x| := by
  unfold fabs
  split
  · rename_i h; exact (abs_of_neg h).symm
  · rename_i h; exact (abs_of_nonneg (not_lt.1 h)).symm

theorem near_zero (x : K) : near x 0 = true ↔ |x| ≤ Env.tol := by
  unfold near
  rw [decide_eq_true_eq, fabs_eq, sub_zero]

theorem newtonLoop_spec (c d1 d2 : K → V3 K) (p : V3 K) (range : K × K) (trials : Nat) (u : K) :
    ∃ k r, k ≤ trials ∧ newtonLoop (fun u => .ok (c u)) (fun u => .ok (d1 u)) (fun u => .ok (d2 u)) p range trials u = .ok r ∧
      r = (Spec.newtonStep c d1 d2 p range)^[k] u ∧ (k < trials → Spec.Stops c d1 p r) ∧
      ∀ j, j < k → ¬ Spec.Stops c d1 p ((Spec.newtonStep c d1 d2 p range)^[j] u) := by
  induction trials generalizing u with
  | zero => exact ⟨0, u, le_refl _, rfl, rfl, by omega, by omega⟩
  | succ n ih =>
    simp only [newtonLoop, ok_bind]
    by_cases h1 : near (c u - p).lengthSq 0 = true
    · rw [if_pos h1]
      exact ⟨0, u, by omega, rfl, rfl, fun _ => Or.inl ((near_zero _).1 h1), by omega⟩
    · rw [if_neg h1]
      by_cases h2 : near ((d1 u).dot (c u - p)) 0 = true
      · rw [if_pos h2]
        exact ⟨0, u, by omega, rfl, rfl, fun _ => Or.inr ((near_zero _).1 h2), by omega⟩
      · rw [if_neg h2, clampInRange_eq]
        simp only [ok_bind]
        obtain ⟨k, r, e1, e2, e3, e4, e5⟩ := ih (Spec.newtonStep c d1 d2 p range u)
        refine ⟨k + 1, r, by omega, e2, by rw [e3, Function.iterate_succ_apply], fun h => e4 (by omega), ?_⟩
        intro j hj
        cases j with
        | zero =>
          simp only [Function.iterate_zero, id_eq]
          rintro (h | h)
          · exact h1 ((near_zero _).2 h)
          · exact h2 ((near_zero _).2 h)
        | succ j => rw [Function.iterate_succ_apply]; exact e5 j (by omega)

/-- **C26**: `find_nearest_parameter` returns (without panicking) a parameter inside the range, reached from a sample
parameter by `k ≤ trials` clamped Newton steps, none of which was taken from a point satisfying a stopping condition; if
it stops early a stopping condition holds at the result; and the starting sample is one of the `division + 1` uniform
samples, nearest to the point among them if any is closer than `Float::MAX`. -/
theorem C26_find_nearest_parameter (c d1 d2 : K → V3 K) (p : V3 K) (range : K × K) {division : Nat} (trials : Nat)
    (hd : 1 ≤ division) :
    ∃ i k r, i ≤ division ∧ k ≤ trials ∧
      findNearestParameter (fun u => .ok (c u)) (fun u => .ok (d1 u)) (fun u => .ok (d2 u)) p range division trials = .ok r ∧
      (min range.1 range.2 ≤ r ∧ r ≤ max range.1 range.2) ∧
      (let sample := fun j : Nat => range.1 + (j : K) * ((range.2 - range.1) / (division : K))
       r = (Spec.newtonStep c d1 d2 p range)^[k] (sample i) ∧ (k < trials → Spec.Stops c d1 p r) ∧
       (∀ j, j < k → ¬ Spec.Stops c d1 p ((Spec.newtonStep c d1 d2 p range)^[j] (sample i))) ∧
       ((∃ j, j ≤ division ∧ (p - c (sample j)).lengthSq < Env.maxV) →
         ∀ j, j ≤ division → (p - c (sample i)).lengthSq ≤ (p - c (sample j)).lengthSq)) := by
  obtain ⟨l, h1, h2, h3⟩ := C28_entries range hd
  obtain ⟨l', h1', h4⟩ := C28_in_range range hd
  rw [h1] at h1'; cases h1'
  have hmap : l.mapM (fun u => (.ok (c u) : Res (V3 K))) = .ok (l.map c) := by
    clear h1 h2 h3 h4
    induction l with
    | nil => rfl
    | cons a l ih => rw [List.mapM_cons, ih]; rfl
  have hne : l.map c ≠ [] := by
    intro h
    have := congrArg List.length h
    simp [h2] at this
  have hb := C31_in_bounds (l.map c) p hne
  rw [List.length_map] at hb
  unfold findNearestParameter
  rw [h1]
  simp only [ok_bind]
  rw [hmap]
  simp only [ok_bind]
  rw [idx_ok hb]
  simp only [ok_bind]
  obtain ⟨k, r, e1, e2, e3, e4, e5⟩ := newtonLoop_spec c d1 d2 p range trials l[findNearestPoint (l.map c) p]
  have hs : l[findNearestPoint (l.map c) p]
      = range.1 + (findNearestPoint (l.map c) p : K) * ((range.2 - range.1) / (division : K)) := by
    have := h3 (findNearestPoint (l.map c) p) (by omega)
    rw [List.getElem?_eq_getElem hb, Option.some.injEq] at this
    exact this
  refine ⟨findNearestPoint (l.map c) p, k, r, by omega, e1, e2, ?_, ?_, e4, ?_, ?_⟩
  · rw [e3]
    cases k with
    | zero => exact h4 _ (List.getElem_mem hb)
    | succ k =>
      rw [Function.iterate_succ_apply']
      exact ⟨le_max_left _ _, max_le min_le_max (min_le_right _ _)⟩
  · rw [e3, hs]
  · rw [← hs]; exact e5
  · rintro ⟨j, hj, hlt⟩ m hm
    have hmem : ∀ j, j ≤ division → c (range.1 + (j : K) * ((range.2 - range.1) / (division : K))) ∈ l.map c := by
      intro j hj
      exact List.mem_map.2 ⟨_, List.mem_iff_getElem?.2 ⟨j, h3 j hj⟩, rfl⟩
    obtain ⟨v, a1, a2, _⟩ := C31_nearest (l.map c) p ⟨_, hmem j hj, hlt⟩
    rw [List.getElem?_map, List.getElem?_eq_getElem hb, Option.map_some, Option.some.injEq, hs] at a1
    rw [a1]
    exact a2 _ (hmem m hm)

/-- **C26**, no Newton trials: the nearest sample itself. -/
theorem C26_no_trials (c d1 d2 : K → V3 K) (p : V3 K) (range : K × K) {division : Nat} (hd : 1 ≤ division) :
    ∃ i, i ≤ division ∧
      findNearestParameter (fun u => .ok (c u)) (fun u => .ok (d1 u)) (fun u => .ok (d2 u)) p range division 0
        = .ok (range.1 + (i : K) * ((range.2 - range.1) / (division : K))) := by
  obtain ⟨i, k, r, h1, h2, h3, _, h5, _⟩ := C26_find_nearest_parameter c d1 d2 p range (division := division) 0 hd
  have hk : k = 0 := by omega
  subst hk
  exact ⟨i, h1, by rw [h3, h5]; rfl⟩

/-- **C26**, zero divisions (a one-point Bézier curve) panic. -/
theorem C26_zero_division_panics {F : Type} [LT F] [DecidableLT F] [LE F] [DecidableLE F] [Add F] [Sub F] [Mul F]
    [Div F] [Zero F] [One F] [NatCast F] [Neg F] [Env F] (c d1 d2 : F → Res (V3 F)) (p : V3 F) (range : F × F)
    (trials : Nat) : findNearestParameter c d1 d2 p range 0 trials = .error .overflow := by
  unfold findNearestParameter
  rw [C28_zero_panics]
  rfl

end

/-- Non-vacuity: projecting onto the parabola `(u, u²)`. -/
example : findNearestParameter (F := ℚ) (fun u => .ok ⟨u, u * u, 0⟩) (fun u => .ok ⟨1, 2 * u, 0⟩) (fun _ => .ok ⟨0, 2, 0⟩)
    ⟨1, 1 / 2, 0⟩ (0, 2) 4 0 = .ok 1 := by decide +kernel

end Geom3d
