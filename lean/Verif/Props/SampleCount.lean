import Verif.Props.PatchDeviation
import Verif.Props.Tolerance

/-! # C152: how many points sampling returns -/

set_option linter.unusedSectionVars false

namespace Geom3d
open Spec

/-- Between any two parameters of `[lo, hi]` the curve can be evaluated and bows out from the chord by at most `D w² / 8`,
`w` the length of the interval. -/
def Spec.Bows (g : ℝ → Res (V3 ℝ)) (D lo hi : ℝ) : Prop :=
  ∀ a b t : ℝ, a ∈ Set.Icc lo hi → b ∈ Set.Icc lo hi → 0 ≤ t → t ≤ 1 →
    ∃ x y z, g a = .ok x ∧ g b = .ok y ∧ g (a + (b - a) * t) = .ok z ∧
      z.distance (x + (y - x) * t) ≤ D * (b - a) ^ 2 / 8

namespace Count

theorem enough {g : ℝ → Res (V3 ℝ)} {D lo hi tol : ℝ} (hg : Bows g D lo hi) {rnd : List Bool → ℝ} (hr : InUnit rnd) (n : Nat)
    (path : List Bool) (range : ℝ × ℝ) (h1 : range.1 ∈ Set.Icc lo hi) (h2 : range.2 ∈ Set.Icc lo hi)
    (h : D * (range.2 - range.1) ^ 2 < 8 * tol * 4 ^ n) :
    ∃ l, parameterDivision g rnd tol (n + 1) path range = .ok l ∧ l.length ≤ 2 ^ n + 1 := by
  induction n generalizing path range with
  | zero =>
    obtain ⟨p0, p1⟩ := drawRatio_bounds (hr path).1 (hr path).2
    obtain ⟨x, y, z, ex, ey, ez, hd⟩ := hg range.1 range.2 _ h1 h2 p0 p1
    rw [parameterDivision]
    simp only [rangeAt, ex, ey, ez, ok_bind]
    rw [if_pos (by linarith)]
    exact ⟨_, rfl, by simp⟩
  | succ n ih =>
    obtain ⟨p0, p1⟩ := drawRatio_bounds (hr path).1 (hr path).2
    obtain ⟨x, y, z, ex, ey, ez, hd⟩ := hg range.1 range.2 _ h1 h2 p0 p1
    rw [parameterDivision]
    simp only [rangeAt, ex, ey, ez, ok_bind]
    split
    · refine ⟨_, rfl, ?_⟩
      have : 1 ≤ 2 ^ (n + 1) := Nat.one_le_two_pow
      simp only [List.length_cons, List.length_nil]; omega
    · have hm : (range.1 + range.2) / (Nat.cast 2 : ℝ) ∈ Set.Icc lo hi := by
        simp only [Set.mem_Icc, Nat.cast_ofNat] at *
        constructor <;> linarith
      have half : ∀ x y : ℝ, (y - x) ^ 2 = (range.2 - range.1) ^ 2 / 4 → D * (y - x) ^ 2 < 8 * tol * 4 ^ n := by
        intro x y e
        rw [e]
        rw [pow_succ (4 : ℝ)] at h
        linarith
      obtain ⟨l1, e1, c1⟩ := ih (path ++ [false]) (range.1, (range.1 + range.2) / (Nat.cast 2 : ℝ)) h1 hm
        (half _ _ (by simp only [Nat.cast_ofNat]; ring))
      obtain ⟨l2, e2, c2⟩ := ih (path ++ [true]) ((range.1 + range.2) / (Nat.cast 2 : ℝ), range.2) hm h2
        (half _ _ (by simp only [Nat.cast_ofNat]; ring))
      rw [e1, e2]
      refine ⟨_, rfl, ?_⟩
      simp only [List.length_append, List.length_dropLast]
      have : 2 ^ (n + 1) = 2 ^ n + 2 ^ n := by ring
      have : 1 ≤ 2 ^ n := Nat.one_le_two_pow
      omega

theorem same_result {g : ℝ → Res (V3 ℝ)} {rnd : List Bool → ℝ} {tol : ℝ} {f f' : Nat} {path : List Bool} {range : ℝ × ℝ}
    {l l' : List ℝ} (h : parameterDivision g rnd tol f path range = .ok l)
    (h' : parameterDivision g rnd tol f' path range = .ok l') : l = l' := by
  have k := C29_fuel_mono f' h
  have k' := C29_fuel_mono f h'
  rw [Nat.add_comm f' f, k] at k'
  cases k'
  rfl

end Count

open Geom3d.Count

/-- **C152** Sampling a curve that bows out by at most `D w² / 8` over intervals of length `w` ends, and the number `N` of
points satisfies `(N - 1)² ≤ max 1 (D W² / (2 tol))`, `W` the length of the range, whatever is drawn. -/
theorem C152_points {g : ℝ → Res (V3 ℝ)} {D lo hi tol : ℝ} (hg : Bows g D lo hi) (htol : 0 < tol)
    {range : ℝ × ℝ} (h1 : range.1 ∈ Set.Icc lo hi) (h2 : range.2 ∈ Set.Icc lo hi) :
    ∃ fuel, ∀ rnd : List Bool → ℝ, InUnit rnd → (∃ l, parameterDivision g rnd tol fuel [] range = .ok l) ∧
      ∀ f l, parameterDivision g rnd tol f [] range = .ok l →
        2 ≤ l.length ∧ ((l.length : ℝ) - 1) ^ 2 ≤ max 1 (D * (range.2 - range.1) ^ 2 / (2 * tol)) := by
  have hex : ∃ n : Nat, D * (range.2 - range.1) ^ 2 < 8 * tol * 4 ^ n := by
    obtain ⟨n, hn⟩ := pow_unbounded_of_one_lt (D * (range.2 - range.1) ^ 2 / (8 * tol)) (show (1 : ℝ) < 4 by norm_num)
    exact ⟨n, by rw [div_lt_iff₀ (by positivity)] at hn; linarith⟩
  classical
  set n := Nat.find hex with hn
  have hlt : D * (range.2 - range.1) ^ 2 < 8 * tol * 4 ^ n := Nat.find_spec hex
  refine ⟨n + 1, fun rnd hr => ?_⟩
  obtain ⟨l, hl, hlen⟩ := enough hg hr n [] range h1 h2 hlt
  refine ⟨⟨l, hl⟩, fun f l' hl' => ?_⟩
  obtain rfl := same_result hl hl'
  obtain ⟨-, -, h2l⟩ := C29_ends hl
  refine ⟨h2l, ?_⟩
  have b1 : ((l.length : ℝ) - 1) ≤ 2 ^ n := by
    have : (l.length : ℝ) ≤ 2 ^ n + 1 := by exact_mod_cast hlen
    linarith
  have b0 : (0 : ℝ) ≤ (l.length : ℝ) - 1 := by
    have : (2 : ℝ) ≤ l.length := by exact_mod_cast h2l
    linarith
  have b2 : ((l.length : ℝ) - 1) ^ 2 ≤ 4 ^ n := by
    calc ((l.length : ℝ) - 1) ^ 2 ≤ (2 ^ n) ^ 2 := pow_le_pow_left₀ b0 b1 2
      _ = 4 ^ n := by rw [← pow_mul, mul_comm, pow_mul]; norm_num
  refine b2.trans ?_
  rcases Nat.eq_zero_or_pos n with h0 | h0
  · rw [h0]; simp
  · refine le_max_of_le_right ?_
    have hmin := Nat.find_min hex (show n - 1 < n by omega)
    rw [not_lt] at hmin
    rw [le_div_iff₀ (by positivity)]
    have : (4 : ℝ) ^ n = 4 * 4 ^ (n - 1) := by
      conv_lhs => rw [show n = n - 1 + 1 by omega, pow_succ]
      ring
    rw [this]
    linarith

/-! ### Curves -/

/-- **C152** Bézier curves: `D = n (n - 1) A`, `A` a bound of the second differences of the control points. -/
theorem C152_bezier {c : BezierCurve (V3 ℝ)} (hl : 1 ≤ c.controlPoints.length) {A : ℝ} (hA : 0 ≤ A)
    (h : ∀ i, i + 2 < c.controlPoints.length →
      (cp c.controlPoints (i + 2) - (2 : ℝ) • cp c.controlPoints (i + 1) + cp c.controlPoints i).length ≤ A) :
    Bows c.getPoint (((c.controlPoints.length : ℝ) - 1) * ((c.controlPoints.length : ℝ) - 2) * A) 0 1 := by
  intro a b t ha hb ht0 ht1
  have key : ∀ a b t : ℝ, a ∈ Set.Icc (0 : ℝ) 1 → b ∈ Set.Icc (0 : ℝ) 1 → 0 ≤ t → t ≤ 1 → a < b →
      ∃ x y z, c.getPoint a = .ok x ∧ c.getPoint b = .ok y ∧ c.getPoint (a + (b - a) * t) = .ok z ∧
      z.distance (x + (y - x) * t) ≤
        ((c.controlPoints.length : ℝ) - 1) * ((c.controlPoints.length : ℝ) - 2) * A * (b - a) ^ 2 / 8 := by
    intro a b t ha hb ht0 ht1 hab
    obtain ⟨x, y, z, h1, h2, h3, h4⟩ := C150_chord hl hA h ha.1 hab hb.2 ht0 ht1
    refine ⟨x, y, z, h1, h2, by rw [← h3]; congr 1; ring, ?_⟩
    rw [V3.rmul_eq, show x + t • (y - x) = (1 - t) • x + t • y by module]
    exact h4
  rcases lt_trichotomy a b with hab | rfl | hab
  · exact key a b t ha hb ht0 ht1 hab
  · refine ⟨_, _, _, bezier_getPoint c hl a, bezier_getPoint c hl a, by rw [sub_self, zero_mul, add_zero]; exact bezier_getPoint c hl a, ?_⟩
    rw [V3.rmul_eq, sub_self, smul_zero, add_zero, V3.distance_self]
    simp
  · obtain ⟨x, y, z, h1, h2, h3, h4⟩ := key b a (1 - t) hb ha (by linarith) (by linarith) hab
    refine ⟨y, x, z, h2, h1, by rw [← h3]; congr 1; ring, ?_⟩
    rw [V3.rmul_eq] at h4 ⊢
    rw [show y + t • (x - y) = x + (1 - t) • (y - x) by module, show (b - a) ^ 2 = (a - b) ^ 2 by ring]
    exact h4

/-- A function with a bounded second derivative and its chords. -/
theorem chord_of_second {f f' f'' : ℝ → ℝ} {D : ℝ} (h1 : ∀ x, HasDerivAt f (f' x) x) (h2 : ∀ x, HasDerivAt f' (f'' x) x)
    (h3 : ∀ x, |f'' x| ≤ D) (a b : ℝ) {t : ℝ} (ht0 : 0 ≤ t) (ht1 : t ≤ 1) :
    |f (a + (b - a) * t) - (f a + (f b - f a) * t)| ≤ D * (b - a) ^ 2 / 8 := by
  have up : ∀ (σ : ℝ), |σ| = 1 → σ * (f (a + (b - a) * t) - (f a + (f b - f a) * t)) ≤ D * (b - a) ^ 2 / 8 := by
    intro σ hσ
    have hcv : ConvexOn ℝ Set.univ fun x => σ * f x + D / 2 * x ^ 2 := by
      refine convexOn_of_hasDerivWithinAt2_nonneg (f' := fun x => σ * f' x + D * x) (f'' := fun x => σ * f'' x + D) convex_univ
        ?_ ?_ ?_ ?_
      · intro x _
        have := (((h1 x).const_mul σ).add (((hasDerivAt_id x).pow 2).const_mul (D / 2)))
        exact this.continuousAt.continuousWithinAt
      · intro x _
        have := (((h1 x).const_mul σ).add (((hasDerivAt_id x).pow 2).const_mul (D / 2)))
        exact (this.congr_deriv (by simp; ring)).hasDerivWithinAt
      · intro x _
        have := ((h2 x).const_mul σ).add ((hasDerivAt_id x).const_mul D)
        exact (this.congr_deriv (by simp)).hasDerivWithinAt
      · intro x _
        have : |σ * f'' x| ≤ D := by rw [abs_mul, hσ, one_mul]; exact h3 x
        have := neg_abs_le (σ * f'' x)
        linarith
    have hj := hcv.2 (Set.mem_univ a) (Set.mem_univ b) (show 0 ≤ 1 - t by linarith) ht0 (by ring)
    simp only [smul_eq_mul] at hj
    rw [show (1 - t) * a + t * b = a + (b - a) * t by ring] at hj
    have hD : 0 ≤ D := (abs_nonneg _).trans (h3 0)
    have e : D / 2 * ((1 - t) * a ^ 2 + t * b ^ 2 - (a + (b - a) * t) ^ 2) = D * (b - a) ^ 2 / 2 * (t * (1 - t)) := by ring
    have k : D * (b - a) ^ 2 / 2 * (t * (1 - t)) ≤ D * (b - a) ^ 2 / 2 * (1 / 4) :=
      mul_le_mul_of_nonneg_left (by nlinarith [sq_nonneg (t - 1 / 2)]) (by positivity)
    linarith
  rw [abs_le]
  have u1 := up 1 (by simp)
  have u2 := up (-1) (by simp)
  constructor <;> linarith

/-- **C152** Circles: `D` is the radius. -/
theorem C152_circle {c : Circle ℝ} (h : Framed c) (hr : 0 ≤ c.radius) (lo hi : ℝ) :
    Bows (fun u => .ok (c.getPoint u)) c.radius lo hi := by
  intro a b t _ _ ht0 ht1
  refine ⟨_, _, _, rfl, rfl, rfl, ?_⟩
  unfold V3.distance
  set X := c.getPoint (a + (b - a) * t) - (c.getPoint a + (c.getPoint b - c.getPoint a) * t) with hX
  have hl := V3.length_nonneg X
  set p := X.dot c.refDir with hp
  set q := X.dot (c.axis.cross c.refDir) with hq
  have hf : ∀ u, X.dot (c.getPoint u) = X.dot c.center + c.radius * (p * Real.cos u + q * Real.sin u) := by
    intro u
    rw [circle_getPoint h, V3.dot_add, V3.dot_add, V3.dot_smul, V3.dot_smul]
    ring
  have bound : ∀ u, |p * Real.cos u + q * Real.sin u| ≤ X.length := by
    intro u
    have e : p * Real.cos u + q * Real.sin u = X.dot (Real.cos u • c.refDir + Real.sin u • c.axis.cross c.refDir) := by
      rw [V3.dot_add, V3.dot_smul, V3.dot_smul]; ring
    rw [e]
    have := Deviation.abs_dot_le (w := X) (x := Real.cos u • c.refDir + Real.sin u • c.axis.cross c.refDir) (M := 1) (by
      rw [V3.length_eq]
      have e1 := h.ref
      have e2 := framed_cross h
      have e3 := V3.dot_cross_right c.axis c.refDir
      have : (Real.cos u • c.refDir + Real.sin u • c.axis.cross c.refDir).dot
          (Real.cos u • c.refDir + Real.sin u • c.axis.cross c.refDir) = 1 := by
        rw [V3.dot_add, V3.add_dot, V3.add_dot, V3.smul_dot, V3.smul_dot, V3.smul_dot, V3.smul_dot, V3.dot_smul, V3.dot_smul,
          V3.dot_smul, V3.dot_smul, e1, e2, e3, V3.dot_comm (c.axis.cross c.refDir), e3]
        have := Real.cos_sq_add_sin_sq u
        linarith
      rw [this, Real.sqrt_one])
    rwa [mul_one] at this
  have key := chord_of_second (f := fun u => X.dot (c.getPoint u)) (f' := fun u => c.radius * (p * -Real.sin u + q * Real.cos u))
    (f'' := fun u => c.radius * (p * -Real.cos u + q * -Real.sin u)) (D := c.radius * X.length)
    (by
      intro u
      simp only [hf]
      exact ((((Real.hasDerivAt_cos u).const_mul p).add ((Real.hasDerivAt_sin u).const_mul q)).const_mul c.radius).const_add _)
    (by
      intro u
      exact ((((Real.hasDerivAt_sin u).neg).const_mul p).add ((Real.hasDerivAt_cos u).const_mul q)).const_mul c.radius)
    (by
      intro u
      rw [abs_mul, abs_of_nonneg hr, ← abs_neg, show -(p * -Real.cos u + q * -Real.sin u) = p * Real.cos u + q * Real.sin u by ring]
      exact mul_le_mul_of_nonneg_left (bound u) hr) a b ht0 ht1
  have e : X.dot (c.getPoint (a + (b - a) * t)) - (X.dot (c.getPoint a) + (X.dot (c.getPoint b) - X.dot (c.getPoint a)) * t)
      = X.dot X := by
    conv_rhs => rw [hX]
    rw [← hX, V3.dot_sub, V3.dot_add, V3.rmul_eq, V3.dot_smul, V3.dot_sub]
    ring
  simp only [e] at key
  rw [← V3.length_mul_self] at key
  have k2 := (le_abs_self _).trans key
  rcases hl.eq_or_lt with h0 | h0
  · rw [← h0]; positivity
  · refine le_of_mul_le_mul_left (k2.trans (le_of_eq (by ring))) h0

/-! ### Circles need that many -/

/-- A list that goes from `a` to `b` in steps of at most `s`. -/
theorem chain_span {s : ℝ} : ∀ (l : List ℝ) (a b : ℝ), l.head? = some a → l.getLast? = some b →
    l.IsChain (fun x y => |y - x| ≤ s) → |b - a| ≤ ((l.length : ℝ) - 1) * s := by
  intro l
  induction l with
  | nil => intro a b h; simp at h
  | cons x l ih =>
    intro a b ha hb hc
    cases l with
    | nil =>
      simp only [List.head?_cons, Option.some.injEq, List.getLast?_singleton] at ha hb
      subst ha hb
      simp
    | cons y l =>
      rw [List.isChain_cons_cons] at hc
      simp only [List.head?_cons, Option.some.injEq] at ha
      subst ha
      rw [List.getLast?_cons_cons] at hb
      have := ih y b rfl hb hc.2
      have t : |b - x| ≤ |b - y| + |y - x| := by
        rw [show b - x = (b - y) + (y - x) by ring]; exact abs_add_le _ _
      simp only [List.length_cons] at this ⊢
      push_cast at this ⊢
      nlinarith [hc.1]

/-- An accepted chord of a circle over at most half a turn is short. -/
theorem circle_accepts {c : Circle ℝ} (h : Framed c) (hr : 0 ≤ c.radius) {a b tol r : ℝ} (hr1 : 0 ≤ r ∧ r < 1)
    (hw : |b - a| ≤ Real.pi) (ht : ChordTest (fun u => .ok (c.getPoint u)) tol (drawRatio r) a b) :
    12 * c.radius * (b - a) ^ 2 ≤ 25 * Real.pi ^ 2 * tol := by
  obtain ⟨x, y, z, ex, ey, ez, hd⟩ := ht
  simp only [Except.ok.injEq] at ex ey ez
  subst ex ey ez
  obtain ⟨p0, p1⟩ := C29_ratio (K := ℝ) hr1.1 hr1.2
  generalize drawRatio r = p at *
  set θ := a + (b - a) * p with hθ
  have e1 := h.ref
  have e2 := framed_cross h
  have e3 := V3.dot_cross_right c.axis c.refDir
  set e := Real.cos θ • c.refDir + Real.sin θ • c.axis.cross c.refDir with he
  have de : ∀ u, e.dot (c.getPoint u) = e.dot c.center + c.radius * Real.cos (θ - u) := by
    intro u
    rw [circle_getPoint h, V3.dot_add, V3.dot_add, V3.dot_smul, V3.dot_smul, he, V3.add_dot _ _ c.refDir, V3.add_dot _ _ (c.axis.cross c.refDir),
      V3.smul_dot, V3.smul_dot, V3.smul_dot, V3.smul_dot, e1, e2, e3, V3.dot_comm (c.axis.cross c.refDir), e3, Real.cos_sub]
    ring
  have el : e.length = 1 := by
    rw [V3.length_eq]
    have : e.dot e = 1 := by
      rw [he, V3.dot_add, V3.add_dot, V3.add_dot, V3.smul_dot, V3.smul_dot, V3.smul_dot, V3.smul_dot, V3.dot_smul, V3.dot_smul,
        V3.dot_smul, V3.dot_smul, e1, e2, e3, V3.dot_comm (c.axis.cross c.refDir), e3]
      have := Real.cos_sq_add_sin_sq θ
      linarith
    rw [this, Real.sqrt_one]
  unfold V3.distance at hd
  have k := V3.dot_le e (c.getPoint θ - (c.getPoint a + (c.getPoint b - c.getPoint a) * p))
  rw [el, one_mul, V3.dot_sub, V3.dot_add, V3.rmul_eq, V3.dot_smul, V3.dot_sub, de, de, de, sub_self, Real.cos_zero] at k
  rw [V3.rmul_eq] at hd
  -- the weighted cosines are at most `1 - p (1 - p) (1 - cos (b - a))`
  have hc : (1 - p) * Real.cos (θ - a) + p * Real.cos (θ - b) ≤ 1 - p * (1 - p) * (1 - Real.cos (b - a)) := by
    have ea : θ - a = (b - a) * p := by rw [hθ]; ring
    have eb : θ - b = -((b - a) * (1 - p)) := by rw [hθ]; ring
    have eab : b - a = (b - a) * p + (b - a) * (1 - p) := by ring
    rw [ea, eb, Real.cos_neg, show Real.cos (b - a) = Real.cos ((b - a) * p) * Real.cos ((b - a) * (1 - p)) -
      Real.sin ((b - a) * p) * Real.sin ((b - a) * (1 - p)) by rw [← Real.cos_add, ← eab]]
    have s1 := Real.cos_sq_add_sin_sq ((b - a) * p)
    have s2 := Real.cos_sq_add_sin_sq ((b - a) * (1 - p))
    generalize Real.cos ((b - a) * p) = C1 at *
    generalize Real.sin ((b - a) * p) = S1 at *
    generalize Real.cos ((b - a) * (1 - p)) = C2 at *
    generalize Real.sin ((b - a) * (1 - p)) = S2 at *
    -- half the square of the distance of the unit vector and the point of the chord
    have sq := add_nonneg (sq_nonneg (1 - ((1 - p) * C1 + p * C2))) (sq_nonneg ((1 - p) * S1 - p * S2))
    have ex : (1 - ((1 - p) * C1 + p * C2)) ^ 2 + ((1 - p) * S1 - p * S2) ^ 2 =
        1 - 2 * ((1 - p) * C1 + p * C2) + (1 - p) ^ 2 * (C1 ^ 2 + S1 ^ 2) + p ^ 2 * (C2 ^ 2 + S2 ^ 2) +
          2 * (p * (1 - p)) * (C1 * C2 - S1 * S2) := by ring
    rw [ex, s1, s2] at sq
    nlinarith
  have hcos : 2 / Real.pi ^ 2 * (b - a) ^ 2 ≤ 1 - Real.cos (b - a) := by
    have hpi := Real.pi_pos
    have hs := Real.mul_le_sin (x := |b - a| / 2) (by positivity) (by linarith)
    have ec : Real.cos (b - a) = 1 - 2 * Real.sin (|b - a| / 2) ^ 2 := by
      rw [← Real.cos_abs, show |b - a| = 2 * (|b - a| / 2) by ring, Real.cos_two_mul, Real.sin_sq]
      ring_nf
    have h0 : 0 ≤ 2 / Real.pi * (|b - a| / 2) := by positivity
    have hsq := pow_le_pow_left₀ h0 hs 2
    have e4 : (2 / Real.pi * (|b - a| / 2)) ^ 2 = (b - a) ^ 2 / Real.pi ^ 2 := by
      rw [← sq_abs (b - a)]; field_simp
    rw [ec]
    rw [e4] at hsq
    have : 2 / Real.pi ^ 2 * (b - a) ^ 2 = 2 * ((b - a) ^ 2 / Real.pi ^ 2) := by ring
    linarith
  have hpp : 6 / 25 ≤ p * (1 - p) := by nlinarith
  have hcn : 0 ≤ 1 - Real.cos (b - a) := by have := Real.cos_le_one (b - a); linarith
  have main : c.radius * (6 / 25 * (2 / Real.pi ^ 2 * (b - a) ^ 2)) ≤ tol := by
    have m1 : 6 / 25 * (2 / Real.pi ^ 2 * (b - a) ^ 2) ≤ p * (1 - p) * (1 - Real.cos (b - a)) :=
      mul_le_mul hpp hcos (by positivity) (by linarith)
    have m2 := mul_le_mul_of_nonneg_left (m1.trans (show _ ≤ 1 - ((1 - p) * Real.cos (θ - a) + p * Real.cos (θ - b)) by linarith)) hr
    linarith
  have hpi2 : 0 < Real.pi ^ 2 := by have := Real.pi_pos; positivity
  have e5 : c.radius * (6 / 25 * (2 / Real.pi ^ 2 * (b - a) ^ 2)) = 12 * c.radius * (b - a) ^ 2 / (25 * Real.pi ^ 2) := by
    field_simp
    ring
  rw [e5, div_le_iff₀ (by positivity)] at main
  linarith

/-- **C152** Arcs of at most half a turn: the number `N` of points satisfies `12 r W² ≤ 25 π² tol (N - 1)²`, so the bound of
`C152_points` is met up to a constant factor. -/
theorem C152_circle_needs {c : Circle ℝ} (h : Framed c) (hr : 0 < c.radius) {rnd : List Bool → ℝ} (hrnd : InUnit rnd)
    {tol : ℝ} (htol : 0 < tol) {range : ℝ × ℝ} (hw : |range.2 - range.1| ≤ Real.pi) {fuel : Nat} {l : List ℝ}
    (hl : parameterDivision (fun u => .ok (c.getPoint u)) rnd tol fuel [] range = .ok l) :
    12 * c.radius * (range.2 - range.1) ^ 2 ≤ 25 * Real.pi ^ 2 * tol * ((l.length : ℝ) - 1) ^ 2 := by
  obtain ⟨e1, e2, e3⟩ := C29_ends hl
  have hpi := Real.pi_pos
  set s := Real.sqrt (25 * Real.pi ^ 2 * tol / (12 * c.radius)) with hs
  have hchain : l.IsChain (fun x y => |y - x| ≤ s) := by
    refine (division_chords hl).imp ?_
    rintro a b ⟨-, hab, addr, ht⟩
    have := circle_accepts h hr.le (hrnd addr) (hab.trans hw) ht
    rw [hs]
    apply Real.le_sqrt_of_sq_le
    rw [sq_abs, le_div_iff₀ (by positivity)]
    linarith
  have span := chain_span l _ _ e1 e2 hchain
  have hn : (0 : ℝ) ≤ (l.length : ℝ) - 1 := by
    have : (2 : ℝ) ≤ l.length := by exact_mod_cast e3
    linarith
  have sq := pow_le_pow_left₀ (abs_nonneg _) span 2
  rw [sq_abs, mul_pow, hs, Real.sq_sqrt (by positivity)] at sq
  have : ((l.length : ℝ) - 1) ^ 2 * (25 * Real.pi ^ 2 * tol / (12 * c.radius)) =
      25 * Real.pi ^ 2 * tol * ((l.length : ℝ) - 1) ^ 2 / (12 * c.radius) := by ring
  rw [this, le_div_iff₀ (by positivity)] at sq
  linarith

/-- **C152**, an example: half a turn of the unit circle with the tolerance of the STEP reader gives 8 to 23 points. -/
theorem C152_example (rnd : List Bool → ℝ) (hr : InUnit rnd) (fuel : Nat) (l : List ℝ)
    (hl : parameterDivision (fun u => .ok ((⟨⟨0, 0, 0⟩, 1, ⟨0, 0, 1⟩, ⟨1, 0, 0⟩⟩ : Circle ℝ).getPoint u)) rnd (1 / 100)
        fuel [] (0, Real.pi) = .ok l) : 8 ≤ l.length ∧ l.length ≤ 23 := by
  have hF : Framed (⟨⟨0, 0, 0⟩, 1, ⟨0, 0, 1⟩, ⟨1, 0, 0⟩⟩ : Circle ℝ) := ⟨by simp [V3.dot], by simp [V3.dot], by simp [V3.dot]⟩
  have hpi := Real.pi_pos
  have h1 := C152_circle_needs hF (by norm_num) hr (by norm_num) (range := (0, Real.pi))
    (by rw [sub_zero, abs_of_pos hpi]) hl
  obtain ⟨fuel', hf⟩ := C152_points (C152_circle hF (by norm_num) 0 Real.pi) (show (0 : ℝ) < 1 / 100 by norm_num)
    (range := (0, Real.pi)) ⟨le_refl _, hpi.le⟩ ⟨hpi.le, le_refl _⟩
  obtain ⟨h2, h3⟩ := (hf rnd hr).2 fuel l hl
  simp only [sub_zero] at h1 h3
  have hp2 : 0 < Real.pi ^ 2 := by positivity
  have k1 : (48 : ℝ) ≤ ((l.length : ℝ) - 1) ^ 2 := by
    by_contra hlt
    rw [not_le] at hlt
    nlinarith
  have k2 : ((l.length : ℝ) - 1) ^ 2 < 500 := by
    refine h3.trans_lt (max_lt (by norm_num) ?_)
    have h4 : Real.pi ^ 2 < 10 := by
      have := Real.pi_lt_d2
      nlinarith
    rw [one_mul, div_lt_iff₀ (by norm_num)]
    linarith
  have hc : ((l.length - 1 : ℕ) : ℝ) = (l.length : ℝ) - 1 := by
    rw [Nat.cast_sub (by omega)]; simp
  rw [← hc] at k1 k2
  have n1 : 48 ≤ (l.length - 1) ^ 2 := by exact_mod_cast k1
  have n2 : (l.length - 1) ^ 2 < 500 := by exact_mod_cast k2
  constructor
  · by_contra hlt
    have : l.length - 1 ≤ 6 := by omega
    have := Nat.pow_le_pow_left this 2
    omega
  · by_contra hlt
    have : 23 ≤ l.length - 1 := by omega
    have := Nat.pow_le_pow_left this 2
    omega

end Geom3d
