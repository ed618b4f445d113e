import Verif.Props.Subdivide
import Verif.Props.Conics
import Mathlib.Analysis.Real.Pi.Bounds
import Mathlib.Analysis.SpecialFunctions.Trigonometric.Bounds

/-! # C128: when sampled curves stay within the tolerance, and cracks between faces with a common edge -/

set_option linter.unusedSectionVars false

namespace Geom3d
open Spec

/-! ### Specification -/

/-- `x` lies on the straight line from `p` to `q`. -/
def Spec.OnChord (p q x : V3 ℝ) : Prop := ∃ s : ℝ, 0 ≤ s ∧ s ≤ 1 ∧ x = (1 - s) • p + s • q

/-- Curve and chord between the parameters `a` and `b` are nowhere further apart than `ε`, in both directions. -/
def Spec.Follows (f : ℝ → V3 ℝ) (ε a b : ℝ) : Prop :=
  (∀ u ∈ Set.uIcc a b, ∃ x, OnChord (f a) (f b) x ∧ dist3 (f u) x ≤ ε) ∧
  ∀ x, OnChord (f a) (f b) x → ∃ u ∈ Set.uIcc a b, dist3 x (f u) ≤ ε

/-- `x` lies on the polygon of the samples. -/
def Spec.OnPolygon (f : ℝ → V3 ℝ) (l : List ℝ) (x : V3 ℝ) : Prop :=
  ∃ l₁ a b l₂, l = l₁ ++ a :: b :: l₂ ∧ OnChord (f a) (f b) x

/-- Curve over the parameters between `lo` and `hi` and polygon of the samples are nowhere further apart than `ε`. -/
def Spec.Traced (f : ℝ → V3 ℝ) (ε lo hi : ℝ) (l : List ℝ) : Prop :=
  (∀ u ∈ Set.uIcc lo hi, ∃ x, OnPolygon f l x ∧ dist3 (f u) x ≤ ε) ∧
  ∀ x, OnPolygon f l x → ∃ u ∈ Set.uIcc lo hi, dist3 x (f u) ≤ ε

/-- The draws of the random generator: numbers in `[0, 1)`. -/
def Spec.InUnit (rnd : List Bool → ℝ) : Prop := ∀ path, 0 ≤ rnd path ∧ rnd path < 1

/-! ### From single chords to the whole range -/

theorem uIcc_param {a b u : ℝ} (h : u ∈ Set.uIcc a b) : ∃ q, 0 ≤ q ∧ q ≤ 1 ∧ u = a + (b - a) * q := by
  rw [← segment_eq_uIcc] at h
  obtain ⟨s, t, hs, ht, hst, rfl⟩ := h
  refine ⟨t, ht, by linarith, ?_⟩
  obtain rfl : s = 1 - t := by linarith
  simp only [smul_eq_mul]
  ring

theorem param_uIcc {a b q : ℝ} (h0 : 0 ≤ q) (h1 : q ≤ 1) : a + (b - a) * q ∈ Set.uIcc a b := by
  rw [← segment_eq_uIcc]
  exact ⟨1 - q, q, by linarith, h0, by ring, by simp only [smul_eq_mul]; ring⟩

/-- Every chord of a subdivision lies inside the range, is no longer than it, and passed its test. -/
theorem division_chords {getPoint : ℝ → Res (V3 ℝ)} {rnd : List Bool → ℝ} {tol : ℝ} {fuel : Nat} {path : List Bool}
    {range : ℝ × ℝ} {l : List ℝ} (h : parameterDivision getPoint rnd tol fuel path range = .ok l) :
    l.IsChain fun a b => Set.uIcc a b ⊆ Set.uIcc range.1 range.2 ∧ |b - a| ≤ |range.2 - range.1| ∧
      ∃ addr, ChordTest getPoint tol (drawRatio (rnd addr)) a b := by
  induction fuel generalizing path range l with
  | zero => cases h
  | succ fuel ih =>
    rcases parameterDivision_cases h with ⟨rfl, ht⟩ | ⟨r₁, r₂, h1, h2, rfl⟩
    · rw [List.isChain_pair]; exact ⟨subset_rfl, le_rfl, path, ht⟩
    · obtain ⟨x, y⟩ := range
      have hm : (x + y) / (Nat.cast 2 : ℝ) = x + (y - x) * (1 / 2) := by push_cast; ring
      have hmem : (x + y) / (Nat.cast 2 : ℝ) ∈ Set.uIcc x y := by
        rw [hm]; exact param_uIcc (by norm_num) (by norm_num)
      have e1 : |(x + y) / (Nat.cast 2 : ℝ) - x| ≤ |y - x| := by
        rw [hm, show x + (y - x) * (1 / 2) - x = (y - x) * (1 / 2) by ring, abs_mul]
        have := abs_nonneg (y - x)
        norm_num
        linarith
      have e2 : |y - (x + y) / (Nat.cast 2 : ℝ)| ≤ |y - x| := by
        rw [hm, show y - (x + (y - x) * (1 / 2)) = (y - x) * (1 / 2) by ring, abs_mul]
        have := abs_nonneg (y - x)
        norm_num
        linarith
      refine join_chain (C29_ends h1).2.1 (C29_ends h2).1 ((ih h1).imp ?_) ((ih h2).imp ?_)
      · rintro a b ⟨p, q, t⟩
        exact ⟨p.trans (Set.uIcc_subset_uIcc Set.left_mem_uIcc hmem), q.trans e1, t⟩
      · rintro a b ⟨p, q, t⟩
        exact ⟨p.trans (Set.uIcc_subset_uIcc hmem Set.right_mem_uIcc), q.trans e2, t⟩

/-- The chords of a chain of parameters cover everything between its ends. -/
theorem chain_covers {l : List ℝ} {lo hi : ℝ} (h1 : l.head? = some lo) (h2 : l.getLast? = some hi) (hl : 2 ≤ l.length)
    {u : ℝ} (hu : u ∈ Set.uIcc lo hi) : ∃ l₁ a b l₂, l = l₁ ++ a :: b :: l₂ ∧ u ∈ Set.uIcc a b := by
  induction l generalizing lo with
  | nil => simp at hl
  | cons x r ih =>
    cases r with
    | nil => simp at hl
    | cons y r =>
      simp only [List.head?_cons, Option.some.injEq] at h1
      subst h1
      cases r with
      | nil =>
        simp at h2
        subst h2
        exact ⟨[], x, y, [], rfl, hu⟩
      | cons z r =>
        rcases Set.uIcc_subset_uIcc_union_uIcc (b := y) hu with h | h
        · exact ⟨[], x, y, z :: r, rfl, h⟩
        · obtain ⟨l₁, a, b, l₂, e, h⟩ := ih (lo := y) rfl (by simpa using h2) (by simp) h
          exact ⟨x :: l₁, a, b, l₂, by rw [e]; rfl, h⟩

theorem chain_at {α : Type} {R : α → α → Prop} {l₁ l₂ : List α} {a b : α} (h : (l₁ ++ a :: b :: l₂).IsChain R) :
    R a b := by
  have := (List.isChain_append.1 h).2.1
  exact (List.isChain_cons_cons.1 this).1

/-- Chords that follow the curve one by one trace it as a whole. -/
theorem traced_of_chain {getPoint : ℝ → Res (V3 ℝ)} {rnd : List Bool → ℝ} {tol : ℝ} {fuel : Nat} {path : List Bool}
    {range : ℝ × ℝ} {l : List ℝ} (h : parameterDivision getPoint rnd tol fuel path range = .ok l) {f : ℝ → V3 ℝ} {ε : ℝ}
    (hc : ∀ a b, Set.uIcc a b ⊆ Set.uIcc range.1 range.2 → |b - a| ≤ |range.2 - range.1| →
      (∃ addr, ChordTest getPoint tol (drawRatio (rnd addr)) a b) → Follows f ε a b) :
    Traced f ε range.1 range.2 l := by
  obtain ⟨e1, e2, e3⟩ := C29_ends h
  have hd := division_chords h
  constructor
  · intro u hu
    obtain ⟨l₁, a, b, l₂, rfl, hu⟩ := chain_covers e1 e2 e3 hu
    obtain ⟨p, q, t⟩ := chain_at hd
    obtain ⟨x, hx, hd⟩ := (hc a b p q t).1 u hu
    exact ⟨x, ⟨l₁, a, b, l₂, rfl, hx⟩, hd⟩
  · rintro x ⟨l₁, a, b, l₂, rfl, hx⟩
    obtain ⟨p, q, t⟩ := chain_at hd
    obtain ⟨u, hu, hd⟩ := (hc a b p q t).2 x hx
    exact ⟨u, p hu, hd⟩

/-- **C128**, two samplings of one edge: polygons that trace the same piece of a curve within `ε` and `ε'` are nowhere
further apart than `ε + ε'`; the other direction is the same statement with the samplings exchanged. -/
theorem C128_crack {f : ℝ → V3 ℝ} {ε ε' lo hi : ℝ} {l l' : List ℝ} (h : Traced f ε lo hi l) (h' : Traced f ε' lo hi l')
    {x : V3 ℝ} (hx : OnPolygon f l x) : ∃ y, OnPolygon f l' y ∧ dist3 x y ≤ ε + ε' := by
  obtain ⟨u, hu, d⟩ := h.2 x hx
  obtain ⟨y, hy, d'⟩ := h'.1 u hu
  refine ⟨y, hy, ?_⟩
  rw [dist3_eq] at d d' ⊢
  linarith [V3.distance_triangle x (f u) y]

/-! ### Polynomial curves up to degree three -/

/-- Deviation of a cubic from its chord at the ratio `q`. -/
theorem cubic_dev (A B C D : V3 ℝ) (a b q : ℝ) :
    (A + (a + (b - a) * q) • B + (a + (b - a) * q) ^ 2 • C + (a + (b - a) * q) ^ 3 • D)
      - ((A + a • B + a ^ 2 • C + a ^ 3 • D) + q • ((A + b • B + b ^ 2 • C + b ^ 3 • D) - (A + a • B + a ^ 2 • C + a ^ 3 • D)))
      = (-(q * (1 - q))) • (((b - a) ^ 2 • C + ((b - a) ^ 2 * (3 * a + (b - a))) • D) + q • (b - a) ^ 3 • D) := by
  ext <;> simp <;> ring

theorem cubic_follows {g : ℝ → Res (V3 ℝ)} {A B C D : V3 ℝ}
    {f : ℝ → V3 ℝ} (hf : ∀ u, f u = A + u • B + u ^ 2 • C + u ^ 3 • D) {a b tol r w : ℝ}
    (hg : ∀ u, g u = .ok (f u)) (hr : 0 ≤ r ∧ r < 1) (hw : |b - a| ≤ w)
    (ht : ChordTest g tol (drawRatio r) a b) : Follows f (25 / 24 * tol + 3 / 20 * (w ^ 3 * D.length)) a b := by
  obtain ⟨p0, p1⟩ := C29_ratio hr.1 hr.2
  generalize drawRatio r = p at *
  obtain ⟨pa, pb, pt, ea, eb, et, hd⟩ := ht
  rw [hg] at ea eb et
  cases ea; cases eb; cases et
  set X : V3 ℝ := (b - a) ^ 2 • C + ((b - a) ^ 2 * (3 * a + (b - a))) • D with hX
  have dev : ∀ q, f (a + (b - a) * q) - (f a + q • (f b - f a)) = (-(q * (1 - q))) • (X + q • (b - a) ^ 3 • D) := by
    intro q
    rw [hf, hf, hf, cubic_dev]
  have hY : ((b - a) ^ 3 • D).length ≤ w ^ 3 * D.length := by
    rw [V3.length_smul, abs_pow]
    exact mul_le_mul_of_nonneg_right (pow_le_pow_left₀ (abs_nonneg _) hw 3) (V3.length_nonneg _)
  have hp : (24 / 100 : ℝ) ≤ p * (1 - p) := by nlinarith
  have hXp : (X + p • (b - a) ^ 3 • D).length * (24 / 100) ≤ tol := by
    have h1 : (f (a + (b - a) * p)).distance (f a + (f b - f a) * p) = (p * (1 - p)) * (X + p • (b - a) ^ 3 • D).length := by
      unfold V3.distance
      rw [V3.rmul_eq, dev, V3.length_smul, abs_neg, abs_of_nonneg (by linarith)]
    rw [h1] at hd
    nlinarith [V3.length_nonneg (X + p • (b - a) ^ 3 • D)]
  have main : ∀ q, 0 ≤ q → q ≤ 1 → (f (a + (b - a) * q)).distance (f a + q • (f b - f a))
      ≤ 25 / 24 * tol + 3 / 20 * (w ^ 3 * D.length) := by
    intro q q0 q1
    unfold V3.distance
    rw [dev, V3.length_smul, abs_neg, abs_of_nonneg (mul_nonneg q0 (by linarith))]
    have e : X + q • (b - a) ^ 3 • D = (X + p • (b - a) ^ 3 • D) + (q - p) • (b - a) ^ 3 • D := by module
    have h2 := V3.length_add_le (X + p • (b - a) ^ 3 • D) ((q - p) • (b - a) ^ 3 • D)
    rw [← e, V3.length_smul (q - p)] at h2
    have h3 : |q - p| ≤ 3 / 5 := by rw [abs_le]; constructor <;> linarith
    have h4 : |q - p| * ((b - a) ^ 3 • D).length ≤ 3 / 5 * (w ^ 3 * D.length) :=
      mul_le_mul h3 hY (V3.length_nonneg _) (by norm_num)
    have h5 : q * (1 - q) ≤ 1 / 4 := by nlinarith [sq_nonneg (q - 1 / 2)]
    have h6 : q * (1 - q) * (X + q • (b - a) ^ 3 • D).length ≤ 1 / 4 * (X + q • (b - a) ^ 3 • D).length :=
      mul_le_mul_of_nonneg_right h5 (V3.length_nonneg _)
    linarith
  constructor
  · intro u hu
    obtain ⟨q, q0, q1, rfl⟩ := uIcc_param hu
    refine ⟨f a + q • (f b - f a), ⟨q, q0, q1, by module⟩, ?_⟩
    rw [dist3_eq]; exact main q q0 q1
  · rintro x ⟨q, q0, q1, rfl⟩
    refine ⟨_, param_uIcc q0 q1, ?_⟩
    rw [dist3_eq, V3.distance_comm, show (1 - q) • f a + q • f b = f a + q • (f b - f a) by module]
    exact main q q0 q1

/-- **C128**, cubic Bézier curves: on every range, with every outcome of the random generator, curve and polygon are
nowhere further apart than `25/24` of the tolerance plus `3/20` of the third difference of the control points times the
cube of the width of the range. -/
theorem C128_cubic (p₀ p₁ p₂ p₃ : V3 ℝ) {rnd : List Bool → ℝ} (hr : InUnit rnd) {tol : ℝ} {fuel : Nat} {range : ℝ × ℝ}
    {l : List ℝ} (h : parameterDivision (BezierCurve.mk [p₀, p₁, p₂, p₃]).getPoint rnd tol fuel [] range = .ok l) :
    ∃ f : ℝ → V3 ℝ, (∀ u, (BezierCurve.mk [p₀, p₁, p₂, p₃]).getPoint u = .ok (f u)) ∧
      Traced f (25 / 24 * tol + 3 / 20 * (|range.2 - range.1| ^ 3 * (p₃ - (3 : ℝ) • p₂ + (3 : ℝ) • p₁ - p₀).length))
        range.1 range.2 l := by
  refine ⟨fun u => p₀ + u • ((3 : ℝ) • (p₁ - p₀)) + u ^ 2 • ((3 : ℝ) • (p₂ - (2 : ℝ) • p₁ + p₀))
    + u ^ 3 • (p₃ - (3 : ℝ) • p₂ + (3 : ℝ) • p₁ - p₀), ?_, ?_⟩
  · intro u
    rw [bezier_getPoint _ (by simp)]
    congr 1
    simp [Finset.sum_range_succ, bernsteinPoly, cp, Nat.choose]
    module
  · refine traced_of_chain h fun a b _ hw ⟨addr, ht⟩ => cubic_follows (fun _ => rfl) (fun u => ?_) (hr addr) hw ht
    rw [bezier_getPoint _ (by simp)]
    congr 1
    simp [Finset.sum_range_succ, bernsteinPoly, cp, Nat.choose]
    module

/-- **C128**, quadratic Bézier curves: curve and polygon are nowhere further apart than `25/24` of the tolerance. -/
theorem C128_quadratic (p₀ p₁ p₂ : V3 ℝ) {rnd : List Bool → ℝ} (hr : InUnit rnd) {tol : ℝ} {fuel : Nat} {range : ℝ × ℝ}
    {l : List ℝ} (h : parameterDivision (BezierCurve.mk [p₀, p₁, p₂]).getPoint rnd tol fuel [] range = .ok l) :
    ∃ f : ℝ → V3 ℝ, (∀ u, (BezierCurve.mk [p₀, p₁, p₂]).getPoint u = .ok (f u)) ∧
      Traced f (25 / 24 * tol) range.1 range.2 l := by
  have key : ∀ u : ℝ, (BezierCurve.mk [p₀, p₁, p₂]).getPoint u
      = .ok (p₀ + u • ((2 : ℝ) • (p₁ - p₀)) + u ^ 2 • (p₂ - (2 : ℝ) • p₁ + p₀) + u ^ 3 • (0 : V3 ℝ)) := by
    intro u
    rw [bezier_getPoint _ (by simp)]
    congr 1
    simp [Finset.sum_range_succ, bernsteinPoly, cp, Nat.choose]
    module
  refine ⟨_, key, traced_of_chain h fun a b _ hw ⟨addr, ht⟩ => ?_⟩
  have := cubic_follows (fun _ => rfl) key (hr addr) hw ht
  rwa [V3.length_zero, mul_zero, mul_zero, add_zero] at this

/-- **C128**, lines: two samples, and the polygon is the line itself. -/
theorem C128_line (c : Line ℝ) {rnd : List Bool → ℝ} {tol : ℝ} (htol : 0 < tol) {fuel : Nat} {range : ℝ × ℝ}
    {l : List ℝ} (h : parameterDivision (fun u => .ok (c.getPoint u)) rnd tol fuel [] range = .ok l) :
    l = [range.1, range.2] ∧ Traced c.getPoint 0 range.1 range.2 l := by
  cases fuel with
  | zero => cases h
  | succ fuel =>
    have e := C98_line htol rnd fuel [] range (l := c)
    rw [h] at e
    cases e
    refine ⟨rfl, traced_of_chain h fun a b _ _ _ => ?_⟩
    have key : ∀ q, c.getPoint (a + (b - a) * q) = (1 - q) • c.getPoint a + q • c.getPoint b := by
      intro q
      simp only [Line.getPoint, V3.rmul_eq]
      module
    constructor
    · intro u hu
      obtain ⟨q, q0, q1, rfl⟩ := uIcc_param hu
      exact ⟨_, ⟨q, q0, q1, rfl⟩, by rw [key, dist3_eq, V3.distance_self]⟩
    · rintro x ⟨q, q0, q1, rfl⟩
      exact ⟨_, param_uIcc q0 q1, by rw [key, dist3_eq, V3.distance_self]⟩

/-! ### Circles -/

theorem sin_five (y : ℝ) : Real.sin (5 * y) = Real.sin y * (5 - 20 * Real.sin y ^ 2 + 16 * Real.sin y ^ 4) := by
  have h : Real.cos y ^ 2 = 1 - Real.sin y ^ 2 := by linarith [Real.sin_sq_add_cos_sq y]
  rw [show 5 * y = 3 * y + 2 * y by ring, Real.sin_add, Real.sin_three_mul, Real.cos_three_mul, Real.sin_two_mul,
    Real.cos_two_mul]
  have h4 : Real.cos y ^ 4 = (1 - Real.sin y ^ 2) ^ 2 := by rw [← h]; ring
  have : (4 * Real.cos y ^ 3 - 3 * Real.cos y) * (2 * Real.sin y * Real.cos y)
      = 2 * Real.sin y * (4 * Real.cos y ^ 4 - 3 * Real.cos y ^ 2) := by ring
  rw [this, h4, h]
  ring

/-- In the middle fifth of an arc of at most a full turn the height above the chord is at least nine tenths of the
largest height. -/
theorem arc_height {φ s : ℝ} (hφ : |φ| ≤ Real.pi) (hs : |s| ≤ |φ| / 5) :
    9 / 10 * (1 - Real.cos φ) ≤ Real.cos s - Real.cos φ := by
  have h1 : Real.cos (|φ| / 5) ≤ Real.cos s := by
    rw [← Real.cos_abs s]
    exact Real.cos_le_cos_of_nonneg_of_le_pi (abs_nonneg _) (by linarith [abs_nonneg φ]) hs
  have h2 : Real.cos (|φ| / 5) = 1 - 2 * Real.sin (|φ| / 10) ^ 2 := by
    rw [show |φ| / 5 = 2 * (|φ| / 10) by ring, Real.cos_two_mul]
    linarith [Real.sin_sq_add_cos_sq (|φ| / 10)]
  have h3 : Real.cos φ = 1 - 2 * Real.sin (5 * (|φ| / 10)) ^ 2 := by
    rw [← Real.cos_abs φ, show |φ| = 2 * (5 * (|φ| / 10)) by ring, Real.cos_two_mul]
    rw [show 2 * (5 * (|φ| / 10)) = |φ| by ring]
    linarith [Real.sin_sq_add_cos_sq (5 * (|φ| / 10))]
  set y := |φ| / 10 with hy
  have y0 : 0 ≤ y := by positivity
  have y1 : y ≤ 0.31416 := by
    have := Real.pi_lt_d4
    rw [hy]; norm_num at this ⊢; linarith
  have s0 : 0 ≤ Real.sin y := Real.sin_nonneg_of_nonneg_of_le_pi y0 (by linarith [Real.pi_gt_three])
  have s1 : Real.sin y ≤ 0.31416 := le_trans (Real.sin_le y0) y1
  have hS : Real.sin y ^ 2 ≤ 0.0987 := by nlinarith
  have h5 : 10 * Real.sin y ^ 2 ≤ Real.sin (5 * y) ^ 2 := by
    rw [sin_five, mul_pow]
    set S := Real.sin y ^ 2 with hSd
    have e4 : Real.sin y ^ 4 = S ^ 2 := by rw [hSd]; ring
    rw [e4]
    have S0 : 0 ≤ S := sq_nonneg _
    have hh : 3.17 ≤ 5 - 20 * S + 16 * S ^ 2 := by nlinarith
    have : 10 ≤ (5 - 20 * S + 16 * S ^ 2) ^ 2 := by nlinarith
    nlinarith
  linarith

/-- A point of the unit circle to the right of a vertical chord is no further from it than the right end of the
circle. -/
theorem arc_to_chord {x y c σ : ℝ} (h1 : x ^ 2 + y ^ 2 = 1) (h2 : c ^ 2 + σ ^ 2 = 1) (hx : c ≤ x) :
    ∃ w, -1 ≤ w ∧ w ≤ 1 ∧ (x - c) ^ 2 + (y - w * σ) ^ 2 ≤ (1 - c) ^ 2 := by
  have x1 : x ≤ 1 := by nlinarith [sq_nonneg y]
  by_cases h : |y| ≤ |σ|
  · by_cases hσ : σ = 0
    · subst hσ
      rw [abs_zero] at h
      have : y = 0 := abs_eq_zero.1 (le_antisymm h (abs_nonneg _))
      subst this
      exact ⟨0, by norm_num, by norm_num, by nlinarith⟩
    · have hb : |y / σ| ≤ 1 := by rw [abs_div]; exact (div_le_one (abs_pos.2 hσ)).2 h
      refine ⟨y / σ, (abs_le.1 hb).1, (abs_le.1 hb).2, ?_⟩
      rw [div_mul_cancel₀ _ hσ]
      nlinarith
  · push Not at h
    have hsq : σ ^ 2 ≤ y ^ 2 := sq_le_sq.2 h.le
    have hc : x ≤ -c := by
      by_contra hcon
      push Not at hcon
      have : |y| ^ 2 ≤ |σ| ^ 2 := by rw [sq_abs, sq_abs]; nlinarith
      nlinarith [abs_nonneg y, abs_nonneg σ]
    have c1 : -1 ≤ c := by nlinarith [sq_nonneg σ]
    have hw : ∃ w, -1 ≤ w ∧ w ≤ 1 ∧ y * (w * σ) = |y| * |σ| ∧ (w * σ) ^ 2 = σ ^ 2 := by
      rcases le_total 0 y with hy | hy <;> rcases le_total 0 σ with hs | hs
      · exact ⟨1, by norm_num, by norm_num, by rw [abs_of_nonneg hy, abs_of_nonneg hs]; ring, by ring⟩
      · exact ⟨-1, by norm_num, by norm_num, by rw [abs_of_nonneg hy, abs_of_nonpos hs]; ring, by ring⟩
      · exact ⟨-1, by norm_num, by norm_num, by rw [abs_of_nonpos hy, abs_of_nonneg hs]; ring, by ring⟩
      · exact ⟨1, by norm_num, by norm_num, by rw [abs_of_nonpos hy, abs_of_nonpos hs]; ring, by ring⟩
    obtain ⟨w, w0, w1, e1, e2⟩ := hw
    refine ⟨w, w0, w1, ?_⟩
    have h3 : σ ^ 2 ≤ |y| * |σ| := by
      have := mul_le_mul_of_nonneg_right h.le (abs_nonneg σ)
      rw [← sq, sq_abs] at this
      exact this
    nlinarith

theorem chord_to_arc {φ w : ℝ} (hφ : |φ| ≤ Real.pi) (w0 : -1 ≤ w) (w1 : w ≤ 1) :
    ∃ s, |s| ≤ |φ| ∧ (Real.cos s - Real.cos φ) ^ 2 + (Real.sin s - w * Real.sin φ) ^ 2 ≤ (1 - Real.cos φ) ^ 2 := by
  have hsin : |Real.sin φ| = Real.sin |φ| := by
    rcases le_total 0 φ with h | h
    · rw [abs_of_nonneg h] at hφ ⊢
      exact abs_of_nonneg (Real.sin_nonneg_of_nonneg_of_le_pi h hφ)
    · rw [abs_of_nonpos h] at hφ ⊢
      rw [Real.sin_neg, abs_of_nonpos (by
        have := Real.sin_nonneg_of_nonneg_of_le_pi (x := -φ) (by linarith) hφ
        rw [Real.sin_neg] at this; linarith)]
  have hb : |w * Real.sin φ| ≤ Real.sin |φ| := by
    rw [abs_mul, hsin]
    have := Real.sin_nonneg_of_nonneg_of_le_pi (abs_nonneg φ) hφ
    have : |w| ≤ 1 := abs_le.2 ⟨w0, w1⟩
    nlinarith
  have hb1 : |w * Real.sin φ| ≤ 1 := le_trans hb (Real.sin_le_one _)
  have hle : |Real.arcsin (w * Real.sin φ)| ≤ |φ| := by
    by_cases h : Real.pi / 2 ≤ |φ|
    · exact le_trans (abs_le.2 ⟨Real.neg_pi_div_two_le_arcsin _, Real.arcsin_le_pi_div_two _⟩) h
    · push Not at h
      have hr : Real.arcsin (Real.sin |φ|) = |φ| :=
        Real.arcsin_sin (by linarith [abs_nonneg φ, Real.pi_pos]) h.le
      rw [abs_le]
      constructor
      · rw [← hr, ← Real.arcsin_neg]
        exact Real.monotone_arcsin (by linarith [(abs_le.1 hb).1])
      · conv_rhs => rw [← hr]
        exact Real.monotone_arcsin (abs_le.1 hb).2
  refine ⟨_, hle, ?_⟩
  rw [Real.sin_arcsin (abs_le.1 hb1).1 (abs_le.1 hb1).2]
  have hc : Real.cos φ ≤ Real.cos (Real.arcsin (w * Real.sin φ)) := by
    rw [← Real.cos_abs φ, ← Real.cos_abs (Real.arcsin _)]
    exact Real.cos_le_cos_of_nonneg_of_le_pi (abs_nonneg _) hφ hle
  have hc1 := Real.cos_le_one (Real.arcsin (w * Real.sin φ))
  nlinarith

/-- A circle seen from the middle of an arc. -/
theorem circle_around {c : Circle ℝ} (h : Framed c) (m : ℝ) :
    ∃ e₁ e₂ : V3 ℝ, e₁.dot e₁ = 1 ∧ e₂.dot e₂ = 1 ∧ e₁.dot e₂ = 0 ∧
      ∀ s, c.getPoint (m + s) = c.center + (c.radius * Real.cos s) • e₁ + (c.radius * Real.sin s) • e₂ := by
  have hcc := framed_cross h
  have hrr : c.refDir.dot (c.axis.cross c.refDir) = 0 := V3.dot_cross_right _ _
  have href := h.ref
  have hm := Real.cos_sq_add_sin_sq m
  refine ⟨Real.cos m • c.refDir + Real.sin m • c.axis.cross c.refDir,
    (-Real.sin m) • c.refDir + Real.cos m • c.axis.cross c.refDir, ?_, ?_, ?_, ?_⟩
  · simp only [V3.add_dot, V3.dot_add, V3.smul_dot, V3.dot_smul, href, hcc, hrr, V3.dot_comm (c.axis.cross c.refDir) c.refDir]
    linarith
  · simp only [V3.add_dot, V3.dot_add, V3.smul_dot, V3.dot_smul, href, hcc, hrr, V3.dot_comm (c.axis.cross c.refDir) c.refDir]
    linarith
  · simp only [V3.add_dot, V3.dot_add, V3.smul_dot, V3.dot_smul, href, hcc, hrr, V3.dot_comm (c.axis.cross c.refDir) c.refDir]
    ring
  · intro s
    rw [circle_getPoint h, Real.cos_add, Real.sin_add]
    module

theorem frame_length {e₁ e₂ : V3 ℝ} (h1 : e₁.dot e₁ = 1) (h2 : e₂.dot e₂ = 1) (h3 : e₁.dot e₂ = 0) (r x y : ℝ) :
    ((r * x) • e₁ + (r * y) • e₂).length = |r| * Real.sqrt (x ^ 2 + y ^ 2) := by
  rw [V3.length_eq, ← Real.sqrt_sq_eq_abs, ← Real.sqrt_mul (sq_nonneg r)]
  congr 1
  simp only [V3.add_dot, V3.dot_add, V3.smul_dot, V3.dot_smul, h1, h2, h3, V3.dot_comm e₂ e₁]
  ring

theorem circle_follows {c : Circle ℝ} (h : Framed c) {a b tol r : ℝ} (hr : 0 ≤ r ∧ r < 1) (hw : |b - a| ≤ 2 * Real.pi)
    (ht : ChordTest (fun u => .ok (c.getPoint u)) tol (drawRatio r) a b) :
    Follows c.getPoint (10 / 9 * tol) a b := by
  obtain ⟨p0, p1⟩ := C29_ratio hr.1 hr.2
  generalize drawRatio r = p at *
  obtain ⟨pa, pb, pt, ea, eb, et, hd⟩ := ht
  cases ea; cases eb; cases et
  obtain ⟨e₁, e₂, h1, h2, h3, hf⟩ := circle_around h ((a + b) / 2)
  set φ := (b - a) / 2 with hφd
  have hφ : |φ| ≤ Real.pi := by rw [hφd, abs_div, abs_two]; linarith
  have fa : c.getPoint a = c.center + (c.radius * Real.cos φ) • e₁ + (c.radius * (-Real.sin φ)) • e₂ := by
    rw [← Real.sin_neg, ← Real.cos_neg φ, ← hf]
    congr 1; rw [hφd]; ring
  have fb : c.getPoint b = c.center + (c.radius * Real.cos φ) • e₁ + (c.radius * Real.sin φ) • e₂ := by
    rw [← hf]
    congr 1; rw [hφd]; ring
  have dist : ∀ s t, (c.getPoint ((a + b) / 2 + s)).distance ((1 - t) • c.getPoint a + t • c.getPoint b)
      = |c.radius| * Real.sqrt ((Real.cos s - Real.cos φ) ^ 2 + (Real.sin s - (2 * t - 1) * Real.sin φ) ^ 2) := by
    intro s t
    unfold V3.distance
    rw [← frame_length h1 h2 h3, hf, fa, fb]
    congr 1
    module
  -- the height of the arc
  have hheight : |c.radius| * (1 - Real.cos φ) ≤ 10 / 9 * tol := by
    have e : c.getPoint (a + (b - a) * p) = c.getPoint ((a + b) / 2 + (2 * p - 1) * φ) := by
      congr 1; rw [hφd]; ring
    rw [e, V3.rmul_eq, show c.getPoint a + p • (c.getPoint b - c.getPoint a) = (1 - p) • c.getPoint a + p • c.getPoint b by module,
      dist] at hd
    have hs : |(2 * p - 1) * φ| ≤ |φ| / 5 := by
      rw [abs_mul]
      have : |2 * p - 1| ≤ 1 / 5 := abs_le.2 ⟨by linarith, by linarith⟩
      nlinarith [abs_nonneg φ]
    have g1 := arc_height hφ hs
    have g2 : Real.cos ((2 * p - 1) * φ) - Real.cos φ ≤ Real.sqrt ((Real.cos ((2 * p - 1) * φ) - Real.cos φ) ^ 2
        + (Real.sin ((2 * p - 1) * φ) - (2 * p - 1) * Real.sin φ) ^ 2) := by
      apply Real.le_sqrt_of_sq_le
      nlinarith [sq_nonneg (Real.sin ((2 * p - 1) * φ) - (2 * p - 1) * Real.sin φ)]
    have g3 := mul_le_mul_of_nonneg_left (le_trans g1 g2) (abs_nonneg c.radius)
    linarith
  have hc1 : 0 ≤ 1 - Real.cos φ := by linarith [Real.cos_le_one φ]
  have bound : ∀ s t, (Real.cos s - Real.cos φ) ^ 2 + (Real.sin s - (2 * t - 1) * Real.sin φ) ^ 2 ≤ (1 - Real.cos φ) ^ 2 →
      (c.getPoint ((a + b) / 2 + s)).distance ((1 - t) • c.getPoint a + t • c.getPoint b) ≤ 10 / 9 * tol := by
    intro s t hst
    rw [dist]
    refine le_trans (mul_le_mul_of_nonneg_left ?_ (abs_nonneg _)) hheight
    rw [← Real.sqrt_sq hc1]
    exact Real.sqrt_le_sqrt hst
  constructor
  · intro u hu
    obtain ⟨q, q0, q1, rfl⟩ := uIcc_param hu
    have e : a + (b - a) * q = (a + b) / 2 + (2 * q - 1) * φ := by rw [hφd]; ring
    have hcos : Real.cos φ ≤ Real.cos ((2 * q - 1) * φ) := by
      rw [← Real.cos_abs φ, ← Real.cos_abs ((2 * q - 1) * φ)]
      refine Real.cos_le_cos_of_nonneg_of_le_pi (abs_nonneg _) hφ ?_
      rw [abs_mul]
      have : |2 * q - 1| ≤ 1 := abs_le.2 ⟨by linarith, by linarith⟩
      nlinarith [abs_nonneg φ]
    obtain ⟨w, w0, w1, hw⟩ := arc_to_chord (Real.cos_sq_add_sin_sq ((2 * q - 1) * φ)) (Real.cos_sq_add_sin_sq φ) hcos
    refine ⟨_, ⟨(w + 1) / 2, by linarith, by linarith, rfl⟩, ?_⟩
    rw [dist3_eq, e]
    apply bound
    rwa [show 2 * ((w + 1) / 2) - 1 = w by ring]
  · rintro x ⟨t, t0, t1, rfl⟩
    obtain ⟨s, hs, hst⟩ := chord_to_arc (w := 2 * t - 1) hφ (by linarith) (by linarith)
    refine ⟨(a + b) / 2 + s, ?_, ?_⟩
    · rw [Set.mem_uIcc]
      rw [abs_le] at hs
      rcases le_total a b with hab | hab
      · left
        rw [abs_of_nonneg (by rw [hφd]; linarith)] at hs
        rw [hφd] at hs
        constructor <;> linarith
      · right
        rw [abs_of_nonpos (by rw [hφd]; linarith)] at hs
        rw [hφd] at hs
        constructor <;> linarith
    · rw [dist3_eq, V3.distance_comm]
      exact bound s t hst

/-- **C128**, circles: on every range of at most a full turn, with every outcome of the random generator, arc and polygon
are nowhere further apart than `10/9` of the tolerance. -/
theorem C128_circle {c : Circle ℝ} (h : Framed c) {rnd : List Bool → ℝ} (hr : InUnit rnd) {tol : ℝ} {fuel : Nat}
    {range : ℝ × ℝ} (hw : |range.2 - range.1| ≤ 2 * Real.pi) {l : List ℝ}
    (hl : parameterDivision (fun u => .ok (c.getPoint u)) rnd tol fuel [] range = .ok l) :
    Traced c.getPoint (10 / 9 * tol) range.1 range.2 l :=
  traced_of_chain hl fun _ _ _ hab ⟨addr, ht⟩ => circle_follows h (hr addr) (le_trans hab hw) ht

/-- **C128**, two faces with a common circular edge: whatever the two draws, the polygons of the edge in the two faces are
nowhere further apart than `20/9` of the tolerance. -/
theorem C128_circle_crack {c : Circle ℝ} (h : Framed c) {rnd rnd' : List Bool → ℝ} (hr : InUnit rnd) (hr' : InUnit rnd')
    {tol : ℝ} {fuel fuel' : Nat} {range : ℝ × ℝ} (hw : |range.2 - range.1| ≤ 2 * Real.pi) {l l' : List ℝ}
    (hl : parameterDivision (fun u => .ok (c.getPoint u)) rnd tol fuel [] range = .ok l)
    (hl' : parameterDivision (fun u => .ok (c.getPoint u)) rnd' tol fuel' [] range = .ok l') {x : V3 ℝ}
    (hx : OnPolygon c.getPoint l x) : ∃ y, OnPolygon c.getPoint l' y ∧ dist3 x y ≤ 20 / 9 * tol := by
  obtain ⟨y, hy, hd⟩ := C128_crack (C128_circle h hr hw hl) (C128_circle h hr' hw hl') hx
  exact ⟨y, hy, by linarith⟩

/-- Non-vacuity: a full unit circle, sampled with the tolerance of the STEP reader. -/
theorem C128_example (rnd : List Bool → ℝ) (hr : InUnit rnd) :
    ∃ fuel l, parameterDivision (fun u => .ok ((⟨⟨0, 0, 0⟩, 1, ⟨0, 0, 1⟩, ⟨1, 0, 0⟩⟩ : Circle ℝ).getPoint u)) rnd (1 / 100)
        fuel [] (0, 2 * Real.pi) = .ok l ∧
      Traced (⟨⟨0, 0, 0⟩, 1, ⟨0, 0, 1⟩, ⟨1, 0, 0⟩⟩ : Circle ℝ).getPoint (1 / 90) 0 (2 * Real.pi) l := by
  obtain ⟨fuel, hf⟩ := C109_circle ⟨⟨0, 0, 0⟩, 1, ⟨0, 0, 1⟩, ⟨1, 0, 0⟩⟩ (0, 2 * Real.pi) (1 / 100) (by norm_num)
  obtain ⟨l, hl, -⟩ := hf rnd hr fuel le_rfl
  refine ⟨fuel, l, hl, ?_⟩
  have := C128_circle (c := ⟨⟨0, 0, 0⟩, 1, ⟨0, 0, 1⟩, ⟨1, 0, 0⟩⟩) ⟨by simp [V3.dot], by simp [V3.dot], by simp [V3.dot]⟩ hr
    (range := (0, 2 * Real.pi)) (by rw [sub_zero, abs_of_pos (by linarith [Real.pi_pos])]) hl
  norm_num at this ⊢
  exact this

/-! ### Findings -/

theorem chord_flat {p q x : V3 ℝ} (hp : p.y = 0) (hq : q.y = 0) (h : OnChord p q x) : x.y = 0 := by
  obtain ⟨s, -, -, rfl⟩ := h
  simp [hp, hq]

theorem polygon_pair {f : ℝ → V3 ℝ} {a b : ℝ} {x : V3 ℝ} (h : OnPolygon f [a, b] x) : OnChord (f a) (f b) x := by
  obtain ⟨l₁, a', b', l₂, he, hx⟩ := h
  match l₁, he with
  | [], he => cases he; exact hx
  | [_], he => simp at he
  | _ :: _ :: _, he => simp at he

theorem dist3_ge_y (a b : V3 ℝ) : |a.y - b.y| ≤ dist3 a b := by
  rw [dist3_eq]
  unfold V3.distance
  rw [V3.length_eq]
  apply Real.abs_le_sqrt
  simp only [V3.dot, V3.sub_x, V3.sub_y, V3.sub_z]
  nlinarith [sq_nonneg (a.x - b.x), sq_nonneg (a.z - b.z)]

/-- An S-shaped cubic. -/
theorem sCurve_getPoint (H u : ℝ) : (BezierCurve.mk [⟨0, 0, 0⟩, ⟨1, H, 0⟩, ⟨2, -H, 0⟩, (⟨3, 0, 0⟩ : V3 ℝ)]).getPoint u
    = .ok ⟨3 * u, 3 * u * (1 - u) * (1 - 2 * u) * H, 0⟩ := by
  rw [bezier_getPoint _ (by simp)]
  congr 1
  ext <;> simp [Finset.sum_range_succ, bernsteinPoly, cp, Nat.choose] <;> ring

/-- **Finding (C128)**: the tolerance is not honoured on cubic curves.  For every distance `K` and every tolerance there
is a cubic Bézier curve and an interval of draws with which only its two ends are sampled, although points of the curve
are further than `K` away from the polygon. -/
theorem C128_missed {K tol : ℝ} (hK : 0 < K) (htol : 0 < tol) : ∃ pts : List (V3 ℝ), pts.length = 4 ∧ ∃ f : ℝ → V3 ℝ,
    (∀ u, (BezierCurve.mk pts).getPoint u = .ok (f u)) ∧ ∃ δ > 0, ∀ rnd : List Bool → ℝ, |rnd [] - 1 / 2| < δ →
      (∀ fuel, parameterDivision (BezierCurve.mk pts).getPoint rnd tol (fuel + 1) [] (0, 1) = .ok [0, 1]) ∧
      ∃ u ∈ Set.Icc (0 : ℝ) 1, ∀ x, OnPolygon f [0, 1] x → K < dist3 (f u) x := by
  refine ⟨[⟨0, 0, 0⟩, ⟨1, 4 * K, 0⟩, ⟨2, -(4 * K), 0⟩, ⟨3, 0, 0⟩], rfl, _, sCurve_getPoint (4 * K), min 1 (tol / (6 / 5 * K)),
    by positivity, fun rnd hr => ⟨fun fuel => ?_, 1 / 4, by norm_num, ?_⟩⟩
  · rw [parameterDivision]
    simp only [sCurve_getPoint, ok_bind, rangeAt]
    rw [if_pos]
    · rfl
    · have e : drawRatio (rnd []) = 1 / 2 + 1 / 5 * (rnd [] - 1 / 2) := by unfold drawRatio; push_cast; ring
      rw [e]
      set ρ := rnd [] - 1 / 2
      unfold V3.distance
      rw [V3.rmul_eq]
      have e2 : (⟨3 * (0 + (1 - 0) * (1 / 2 + 1 / 5 * ρ)), 3 * (0 + (1 - 0) * (1 / 2 + 1 / 5 * ρ))
          * (1 - (0 + (1 - 0) * (1 / 2 + 1 / 5 * ρ))) * (1 - 2 * (0 + (1 - 0) * (1 / 2 + 1 / 5 * ρ))) * (4 * K), 0⟩ : V3 ℝ)
          - ((⟨3 * 0, 3 * 0 * (1 - 0) * (1 - 2 * 0) * (4 * K), 0⟩ : V3 ℝ) + (1 / 2 + 1 / 5 * ρ) •
            ((⟨3 * 1, 3 * 1 * (1 - 1) * (1 - 2 * 1) * (4 * K), 0⟩ : V3 ℝ) - ⟨3 * 0, 3 * 0 * (1 - 0) * (1 - 2 * 0) * (4 * K), 0⟩))
          = (-(3 * (1 / 4 - 1 / 25 * ρ ^ 2) * (2 / 5 * ρ) * (4 * K))) • (⟨0, 1, 0⟩ : V3 ℝ) := by
        ext <;> simp <;> ring
      rw [e2, V3.length_smul]
      have e3 : (⟨0, 1, 0⟩ : V3 ℝ).length = 1 := by rw [V3.length_eq]; simp [V3.dot]
      rw [e3, mul_one, abs_neg]
      have h1 : |ρ| < 1 := lt_of_lt_of_le hr (min_le_left _ _)
      have h2 : |ρ| * (6 / 5 * K) < tol := (lt_div_iff₀ (by positivity)).1 (lt_of_lt_of_le hr (min_le_right _ _))
      have h3 : ρ ^ 2 ≤ 1 := by rw [← sq_abs]; nlinarith [abs_nonneg ρ]
      rw [show 3 * (1 / 4 - 1 / 25 * ρ ^ 2) * (2 / 5 * ρ) * (4 * K) = (1 - 4 / 25 * ρ ^ 2) * (6 / 5 * K) * ρ by ring, abs_mul,
        abs_of_nonneg (mul_nonneg (by linarith) (by positivity))]
      have h4 : (1 - 4 / 25 * ρ ^ 2) * (6 / 5 * K) ≤ 6 / 5 * K := by nlinarith [sq_nonneg ρ]
      have h5 := mul_le_mul_of_nonneg_right h4 (abs_nonneg ρ)
      linarith
  · intro x hx
    have hy := chord_flat (by simp) (by simp) (polygon_pair hx)
    refine lt_of_lt_of_le ?_ (dist3_ge_y _ _)
    rw [hy, sub_zero, show 3 * (1 / 4) * (1 - 1 / 4) * (1 - 2 * (1 / 4)) * (4 * K) = 9 / 8 * K by ring, abs_of_pos (by linarith)]
    linarith

/-- A parabola. -/
theorem parabola_getPoint (H u : ℝ) : (BezierCurve.mk [⟨0, 0, 0⟩, ⟨1, 2 * H, 0⟩, (⟨2, 0, 0⟩ : V3 ℝ)]).getPoint u
    = .ok ⟨2 * u, 4 * u * (1 - u) * H, 0⟩ := by
  rw [bezier_getPoint _ (by simp)]
  congr 1
  ext <;> simp [Finset.sum_range_succ, bernsteinPoly, cp, Nat.choose] <;> ring

theorem parabola_dev (H a b q : ℝ) : (⟨2 * (a + (b - a) * q), 4 * (a + (b - a) * q) * (1 - (a + (b - a) * q)) * H, 0⟩ : V3 ℝ).distance
    (⟨2 * a, 4 * a * (1 - a) * H, 0⟩ + ((⟨2 * b, 4 * b * (1 - b) * H, 0⟩ : V3 ℝ) - ⟨2 * a, 4 * a * (1 - a) * H, 0⟩) * q)
    = |4 * (b - a) ^ 2 * (q * (1 - q)) * H| := by
  unfold V3.distance
  rw [V3.rmul_eq]
  have e : (⟨2 * (a + (b - a) * q), 4 * (a + (b - a) * q) * (1 - (a + (b - a) * q)) * H, 0⟩ : V3 ℝ)
      - (⟨2 * a, 4 * a * (1 - a) * H, 0⟩ + q • ((⟨2 * b, 4 * b * (1 - b) * H, 0⟩ : V3 ℝ) - ⟨2 * a, 4 * a * (1 - a) * H, 0⟩))
      = (4 * (b - a) ^ 2 * (q * (1 - q)) * H) • (⟨0, 1, 0⟩ : V3 ℝ) := by
    ext <;> simp <;> ring
  rw [e, V3.length_smul]
  have e3 : (⟨0, 1, 0⟩ : V3 ℝ).length = 1 := by rw [V3.length_eq]; simp [V3.dot]
  rw [e3, mul_one]

/-- The edge of a face along a parabola of height `tol`, sampled with tolerance `tol`. -/
noncomputable def parabolaEdge (tol : ℝ) : CurveSegment ℝ :=
  ⟨{ getPoint := (BezierCurve.mk [⟨0, 0, 0⟩, ⟨1, 2 * tol, 0⟩, (⟨2, 0, 0⟩ : V3 ℝ)]).getPoint, project := fun _ => .ok 0 },
    (0, 1), tol, 16⟩

/-- **Finding (C128)**: two faces that share an edge sample it with different draws, so there can be a crack between
them: one face gets the chord, the other one an additional vertex whose distance from the chord is the tolerance. -/
theorem C128_cracks {tol : ℝ} (htol : 0 < tol) (fuel : Nat) :
    (parabolaEdge tol).getPoints (fuel + 2) (fun _ => 0) = .ok [⟨0, 0, 0⟩, ⟨2, 0, 0⟩] ∧
    (parabolaEdge tol).getPoints (fuel + 2) (fun _ => 1 / 2) = .ok [⟨0, 0, 0⟩, ⟨1, tol, 0⟩, ⟨2, 0, 0⟩] ∧
    ∀ x, OnChord ⟨0, 0, 0⟩ ⟨2, 0, 0⟩ x → tol ≤ dist3 ⟨1, tol, 0⟩ x := by
  have d0 : drawRatio (0 : ℝ) = 2 / 5 := by unfold drawRatio; norm_num
  have d1 : drawRatio (1 / 2 : ℝ) = 1 / 2 := by unfold drawRatio; norm_num
  have leaf : ∀ (fuel : Nat) (path : List Bool) (a b r : ℝ), |4 * (b - a) ^ 2 * (drawRatio r * (1 - drawRatio r)) * tol| < tol →
      parameterDivision (parabolaEdge tol).curve.getPoint (fun _ => r) tol (fuel + 1) path (a, b) = .ok [a, b] := by
    intro fuel path a b r h
    rw [parameterDivision]
    simp only [parabolaEdge, parabola_getPoint, ok_bind, rangeAt, parabola_dev]
    rw [if_pos h]
    rfl
  refine ⟨?_, ?_, ?_⟩
  · unfold CurveSegment.getPoints
    have := leaf (fuel + 1) [] 0 1 0 (by rw [d0, abs_of_nonneg (by positivity)]; norm_num; linarith)
    show (parameterDivision (parabolaEdge tol).curve.getPoint (fun _ => 0) tol (fuel + 1 + 1) [] (0, 1)).bind _ = _
    rw [this]
    simp only [Except.bind, parabolaEdge, List.mapM_cons, List.mapM_nil, parabola_getPoint, ok_bind, pure_eq_ok]
    norm_num
  · unfold CurveSegment.getPoints
    have h1 := leaf fuel ([] ++ [false]) 0 (1 / 2) (1 / 2) (by rw [d1, abs_of_nonneg (by positivity)]; norm_num; linarith)
    have h2 := leaf fuel ([] ++ [true]) (1 / 2) 1 (1 / 2) (by rw [d1, abs_of_nonneg (by positivity)]; norm_num; linarith)
    have h3 : parameterDivision (parabolaEdge tol).curve.getPoint (fun _ => 1 / 2) tol (fuel + 1 + 1) [] (0, 1)
        = .ok [0, 1 / 2, 1] := by
      rw [parameterDivision]
      have e : ((0 : ℝ) + 1) / (Nat.cast 2 : ℝ) = 1 / 2 := by norm_num
      simp only [e, h1, h2]
      simp only [parabolaEdge, parabola_getPoint, ok_bind, rangeAt, parabola_dev, d1]
      rw [if_neg]
      · rfl
      · rw [abs_of_nonneg (by positivity)]; norm_num
    show (parameterDivision (parabolaEdge tol).curve.getPoint (fun _ => 1 / 2) tol (fuel + 1 + 1) [] (0, 1)).bind _ = _
    rw [h3]
    simp only [Except.bind, parabolaEdge, List.mapM_cons, List.mapM_nil, parabola_getPoint, ok_bind, pure_eq_ok]
    norm_num
  · intro x hx
    have hy := chord_flat rfl rfl hx
    refine le_trans ?_ (dist3_ge_y _ _)
    rw [hy, sub_zero, abs_of_pos htol]

/-- **Finding (C128)**: beyond a full turn circles can be lost altogether.  Two turns with the draw `1/2` are sampled by
the two ends, which coincide, although the opposite point of the circle is a diameter away. -/
theorem C128_two_turns {c : Circle ℝ} (h : Framed c) (hr : 0 ≤ c.radius) {tol : ℝ} (htol : 0 < tol) (fuel : Nat) :
    parameterDivision (fun u => .ok (c.getPoint u)) (fun _ => 1 / 2) tol (fuel + 1) [] (0, 4 * Real.pi)
      = .ok [0, 4 * Real.pi] ∧
    c.getPoint (4 * Real.pi) = c.getPoint 0 ∧ dist3 (c.getPoint Real.pi) (c.getPoint 0) = 2 * c.radius := by
  have d1 : drawRatio (1 / 2 : ℝ) = 1 / 2 := by unfold drawRatio; norm_num
  have e2 : c.getPoint (2 * Real.pi) = c.getPoint 0 := by
    have := C21_periodic h 0; rwa [zero_add] at this
  have e4 : c.getPoint (4 * Real.pi) = c.getPoint 0 := by
    rw [show 4 * Real.pi = 2 * Real.pi + 2 * Real.pi by ring, C21_periodic h, e2]
  refine ⟨?_, e4, ?_⟩
  · rw [parameterDivision]
    simp only [ok_bind, rangeAt, d1]
    rw [if_pos]
    · rfl
    · rw [show 0 + (4 * Real.pi - 0) * (1 / 2) = 2 * Real.pi by ring, e2, e4, sub_self, V3.rmul_eq, smul_zero, add_zero,
        V3.distance_self]
      exact htol
  · rw [dist3_eq]
    unfold V3.distance
    rw [circle_getPoint h, circle_getPoint h, Real.cos_pi, Real.sin_pi, Real.cos_zero, Real.sin_zero]
    rw [show c.center + (c.radius * -1) • c.refDir + (c.radius * 0) • c.axis.cross c.refDir
      - (c.center + (c.radius * 1) • c.refDir + (c.radius * 0) • c.axis.cross c.refDir) = (-(2 * c.radius)) • c.refDir by module,
      V3.length_smul, V3.length_eq, h.ref, Real.sqrt_one, abs_neg, abs_of_nonneg (by linarith), mul_one]

end Geom3d
