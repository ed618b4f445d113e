import Verif.Props.Metric
import Verif.Props.Curves
import Verif.Props.Subdivide
import Mathlib.Analysis.Calculus.Deriv.MeanValue
import Mathlib.Analysis.Calculus.Deriv.Pow
import Mathlib.Topology.Order.IntermediateValue

/-!
# Projection onto Bézier curves: where Newton's iteration leads (C157)

`find_nearest_parameter` (`src/utils.rs:137-170`) starts at the nearest sample and looks for a zero of the derivative of
the squared distance.  It finds the nearest point if the squared distance is convex along the curve and its second
derivative does not change too fast from one sample to the next.  It is not told minima from maxima, and may end at the
point of the curve furthest from the given point.
-/

namespace Geom3d
open Spec

/-- `w` is where the increasing function `g` changes sign on `[lo, hi]`, or the end nearest to that. -/
structure Spec.SignChange (g : ℝ → ℝ) (lo hi w : ℝ) : Prop where
  lo_le : lo ≤ w
  le_hi : w ≤ hi
  left : lo < w → g w ≤ 0
  right : w < hi → 0 ≤ g w

/-- On the part of `[lo, hi]` within `r` of `w` the derivative `g'` of `g` is at least `m` and changes at most at rate `L`. -/
structure Spec.Tame (g g' : ℝ → ℝ) (lo hi w r m L : ℝ) : Prop where
  deriv : ∀ x, lo ≤ x → x ≤ hi → |x - w| ≤ r → HasDerivAt g (g' x) x
  steep : ∀ x, lo ≤ x → x ≤ hi → |x - w| ≤ r → m ≤ g' x
  lip : ∀ x y, lo ≤ x → x ≤ hi → |x - w| ≤ r → lo ≤ y → y ≤ hi → |y - w| ≤ r → |g' x - g' y| ≤ L * |x - y|

section
variable {g g' : ℝ → ℝ} {lo hi w r m L : ℝ}

/-- Mean value between `u` and `w`. -/
theorem Spec.Tame.mean (ht : Tame g g' lo hi w r m L) (hw : SignChange g lo hi w) {u : ℝ} (h0 : lo ≤ u) (h1 : u ≤ hi)
    (hu : |u - w| ≤ r) :
    ∃ x, lo ≤ x ∧ x ≤ hi ∧ |x - w| ≤ r ∧ |x - u| ≤ |u - w| ∧ g w - g u = g' x * (w - u) := by
  have hw1 := hw.lo_le
  have hw2 := hw.le_hi
  have inr : ∀ x, min u w ≤ x → x ≤ max u w → lo ≤ x ∧ x ≤ hi ∧ |x - w| ≤ r ∧ |x - u| ≤ |u - w| := by
    intro x hx1 hx2
    rcases le_total u w with h | h
    · rw [min_eq_left h] at hx1
      rw [max_eq_right h] at hx2
      have e : |u - w| = w - u := by rw [abs_sub_comm, abs_of_nonneg (by linarith)]
      rw [e] at hu ⊢
      refine ⟨by linarith, by linarith, ?_, ?_⟩ <;> rw [abs_le] <;> constructor <;> linarith
    · rw [min_eq_right h] at hx1
      rw [max_eq_left h] at hx2
      have e : |u - w| = u - w := abs_of_nonneg (by linarith)
      rw [e] at hu ⊢
      refine ⟨by linarith, by linarith, ?_, ?_⟩ <;> rw [abs_le] <;> constructor <;> linarith
  rcases lt_trichotomy u w with h | h | h
  · obtain ⟨x, hx, e⟩ := exists_hasDerivAt_eq_slope g g' h
      (fun y hy => by
        obtain ⟨a1, a2, a3, -⟩ := inr y (by rw [min_eq_left h.le]; exact hy.1) (by rw [max_eq_right h.le]; exact hy.2)
        exact (ht.deriv y a1 a2 a3).continuousAt.continuousWithinAt)
      (fun y hy => by
        obtain ⟨a1, a2, a3, -⟩ := inr y (by rw [min_eq_left h.le]; exact hy.1.le) (by rw [max_eq_right h.le]; exact hy.2.le)
        exact ht.deriv y a1 a2 a3)
    obtain ⟨a1, a2, a3, a4⟩ := inr x (by rw [min_eq_left h.le]; exact hx.1.le) (by rw [max_eq_right h.le]; exact hx.2.le)
    refine ⟨x, a1, a2, a3, a4, ?_⟩
    rw [e, div_mul_cancel₀ _ (by linarith : w - u ≠ 0)]
  · subst h
    exact ⟨u, h0, h1, hu, by simp, by simp⟩
  · obtain ⟨x, hx, e⟩ := exists_hasDerivAt_eq_slope g g' h
      (fun y hy => by
        obtain ⟨a1, a2, a3, -⟩ := inr y (by rw [min_eq_right h.le]; exact hy.1) (by rw [max_eq_left h.le]; exact hy.2)
        exact (ht.deriv y a1 a2 a3).continuousAt.continuousWithinAt)
      (fun y hy => by
        obtain ⟨a1, a2, a3, -⟩ := inr y (by rw [min_eq_right h.le]; exact hy.1.le) (by rw [max_eq_left h.le]; exact hy.2.le)
        exact ht.deriv y a1 a2 a3)
    obtain ⟨a1, a2, a3, a4⟩ := inr x (by rw [min_eq_right h.le]; exact hx.1.le) (by rw [max_eq_left h.le]; exact hx.2.le)
    refine ⟨x, a1, a2, a3, a4, ?_⟩
    have : g' x * (u - w) = g u - g w := by rw [e, div_mul_cancel₀ _ (by linarith : u - w ≠ 0)]
    linarith

/-- One clamped Newton step squares the error. -/
theorem Spec.Tame.step (ht : Tame g g' lo hi w r m L) (hw : SignChange g lo hi w) (hm : 0 < m) {u : ℝ} (h0 : lo ≤ u)
    (h1 : u ≤ hi) (hu : |u - w| ≤ r) :
    |max lo (min (u - g u / g' u) hi) - w| ≤ L / m * |u - w| ^ 2 := by
  obtain ⟨x, a1, a2, a3, a4, e⟩ := ht.mean hw h0 h1 hu
  have hg := ht.steep u h0 h1 hu
  have hg0 : 0 < g' u := by linarith
  have hl := ht.lip x u a1 a2 a3 h0 h1 hu
  have hb : |(g' x - g' u) * (w - u)| ≤ L * |u - w| ^ 2 := by
    rw [abs_mul, abs_sub_comm w u]
    have hL : 0 ≤ L * |u - w| := by
      have hpos : 0 ≤ L * |x - u| := (abs_nonneg _).trans hl
      rcases (abs_nonneg (x - u)).lt_or_eq with hx | hx
      · exact mul_nonneg (nonneg_of_mul_nonneg_left hpos hx) (abs_nonneg _)
      · by_contra hneg
        rw [not_le] at hneg
        have hL' : L < 0 := by
          by_contra hc
          rw [not_lt] at hc
          linarith [mul_nonneg hc (abs_nonneg (u - w))]
        have hwu : 0 < |u - w| := by
          rcases (abs_nonneg (u - w)).lt_or_eq with h | h
          · exact h
          · rw [← h] at hneg; simp at hneg
        have := (abs_nonneg _).trans (ht.lip u w h0 h1 hu hw.lo_le hw.le_hi (by simpa using (abs_nonneg _).trans hu))
        linarith
    have hle : |g' x - g' u| ≤ L * |u - w| := by
      rcases (abs_nonneg (u - w)).lt_or_eq with hx | hx
      · have hL' : 0 ≤ L := nonneg_of_mul_nonneg_left hL hx
        exact hl.trans (mul_le_mul_of_nonneg_left a4 hL')
      · have : |x - u| = 0 := le_antisymm (by linarith) (abs_nonneg _)
        rw [this] at hl
        rw [← hx]
        exact hl
    calc |g' x - g' u| * |u - w| ≤ (L * |u - w|) * |u - w| := mul_le_mul_of_nonneg_right hle (abs_nonneg _)
      _ = L * |u - w| ^ 2 := by ring
  set ρ := (g' x - g' u) * (w - u) with hρ
  have hn : u - g u / g' u = w + (ρ - g w) / g' u := by
    rw [hρ]
    field_simp
    linarith
  have hK : |ρ| / g' u ≤ L / m * |u - w| ^ 2 := by
    rw [div_le_iff₀ hg0, div_mul_eq_mul_div, div_mul_eq_mul_div, le_div_iff₀ hm]
    calc |ρ| * m ≤ |ρ| * g' u := mul_le_mul_of_nonneg_left hg (abs_nonneg _)
      _ ≤ L * |u - w| ^ 2 * g' u := mul_le_mul_of_nonneg_right hb hg0.le
  have hK0 : 0 ≤ L / m * |u - w| ^ 2 := (div_nonneg (abs_nonneg _) hg0.le).trans hK
  rw [abs_le]
  have hw1 := hw.lo_le
  have hw2 := hw.le_hi
  constructor
  · rcases hw1.lt_or_eq with h | h
    · have hs := hw.left h
      have : w - L / m * |u - w| ^ 2 ≤ u - g u / g' u := by
        rw [hn]
        have : -(|ρ| / g' u) ≤ (ρ - g w) / g' u := by
          rw [← neg_div]
          apply div_le_div_of_nonneg_right _ hg0.le
          have := neg_abs_le ρ
          linarith
        linarith
      have h2 : w - L / m * |u - w| ^ 2 ≤ min (u - g u / g' u) hi := le_min this (by linarith)
      linarith [le_max_right lo (min (u - g u / g' u) hi)]
    · have := le_max_left lo (min (u - g u / g' u) hi)
      linarith
  · rcases hw2.lt_or_eq with h | h
    · have hs := hw.right h
      have : u - g u / g' u ≤ w + L / m * |u - w| ^ 2 := by
        rw [hn]
        have : (ρ - g w) / g' u ≤ |ρ| / g' u := by
          apply div_le_div_of_nonneg_right _ hg0.le
          have := le_abs_self ρ
          linarith
        linarith
      have h2 : max lo (min (u - g u / g' u) hi) ≤ w + L / m * |u - w| ^ 2 :=
        max_le (by linarith) ((min_le_left _ _).trans this)
      linarith
    · have : max lo (min (u - g u / g' u) hi) ≤ hi := max_le (by linarith) (min_le_right _ _)
      linarith

/-- Where `g` is small `w` is near. -/
theorem Spec.Tame.near (ht : Tame g g' lo hi w r m L) (hw : SignChange g lo hi w) (hm : 0 < m) {u : ℝ} (h0 : lo ≤ u)
    (h1 : u ≤ hi) (hu : |u - w| ≤ r) : |u - w| ≤ |g u| / m := by
  obtain ⟨x, a1, a2, a3, -, e⟩ := ht.mean hw h0 h1 hu
  have hg := ht.steep x a1 a2 a3
  rw [le_div_iff₀ hm]
  rcases lt_trichotomy u w with h | h | h
  · have := hw.left (lt_of_le_of_lt h0 h)
    rw [abs_of_neg (by linarith : u - w < 0)]
    have h2 : m * (w - u) ≤ g' x * (w - u) := mul_le_mul_of_nonneg_right hg (by linarith)
    have := neg_le_abs (g u)
    nlinarith
  · subst h; simp
  · have := hw.right (lt_of_lt_of_le h h1)
    rw [abs_of_pos (by linarith : 0 < u - w)]
    have h2 : m * (u - w) ≤ g' x * (u - w) := mul_le_mul_of_nonneg_right hg (by linarith)
    have := le_abs_self (g u)
    nlinarith

end

/-- **C157** Newton's iteration near a foot point: it is found with an error that is squared with each trial, or up to the
tolerance of the stopping criterion, or a point of the curve is found within the square root of the tolerance. -/
theorem C157_newton {c d1 d2 : ℝ → V3 ℝ} {p : V3 ℝ} {lo hi w ρ m L : ℝ} (hm : 0 < m)
    (hw : SignChange (fun u => (d1 u).dot (c u - p)) lo hi w)
    (ht : Tame (fun u => (d1 u).dot (c u - p)) (fun u => (d2 u).dot (c u - p) + (d1 u).dot (d1 u)) lo hi w ρ m L)
    (hL : 0 ≤ L) (hr : 2 * (L * ρ) ≤ m) (trials : Nat) {u : ℝ} (h0 : lo ≤ u) (h1 : u ≤ hi) (hu : |u - w| ≤ ρ) :
    ∃ r, newtonLoop (fun u => .ok (c u)) (fun u => .ok (d1 u)) (fun u => .ok (d2 u)) p (lo, hi) trials u = .ok r ∧
      lo ≤ r ∧ r ≤ hi ∧ |r - w| ≤ ρ ∧
      ((c r - p).dot (c r - p) ≤ Env.tol ∨ |r - w| ≤ Env.tol / m ∨ |r - w| ≤ ρ * (1 / 2) ^ (2 ^ trials - 1)) := by
  obtain ⟨k, r, hk, e1, e2, e3, -⟩ := newtonLoop_spec c d1 d2 p (lo, hi) trials u
  have hlh : lo ≤ hi := h0.trans h1
  have hρ : 0 ≤ ρ := (abs_nonneg _).trans hu
  have it : ∀ k, lo ≤ (newtonStep c d1 d2 p (lo, hi))^[k] u ∧ (newtonStep c d1 d2 p (lo, hi))^[k] u ≤ hi ∧
      |(newtonStep c d1 d2 p (lo, hi))^[k] u - w| ≤ ρ * (1 / 2) ^ (2 ^ k - 1) := by
    intro k
    induction k with
    | zero => exact ⟨h0, h1, by simpa using hu⟩
    | succ k ih =>
      obtain ⟨i1, i2, i3⟩ := ih
      rw [Function.iterate_succ_apply']
      set v := (newtonStep c d1 d2 p (lo, hi))^[k] u with hv
      have i4 : |v - w| ≤ ρ := i3.trans (mul_le_of_le_one_right hρ (pow_le_one₀ (by norm_num) (by norm_num)))
      have st := ht.step hw hm i1 i2 i4
      have hst : newtonStep c d1 d2 p (lo, hi) v
          = max lo (min (v - (d1 v).dot (c v - p) / ((d2 v).dot (c v - p) + (d1 v).dot (d1 v))) hi) := by
        simp only [newtonStep, min_eq_left hlh, max_eq_right hlh]
      rw [hst]
      refine ⟨le_max_left _ _, max_le hlh (min_le_right _ _), st.trans ?_⟩
      have hpow : 2 ^ (k + 1) - 1 = (2 ^ k - 1) + (2 ^ k - 1) + 1 := by
        have : 1 ≤ 2 ^ k := Nat.one_le_two_pow
        rw [pow_succ]
        omega
      have hsq : |v - w| ^ 2 ≤ (ρ * (1 / 2) ^ (2 ^ k - 1)) ^ 2 := pow_le_pow_left₀ (abs_nonneg _) i3 2
      have hLm : L / m * ρ ≤ 1 / 2 := by
        rw [div_mul_eq_mul_div, div_le_iff₀ hm]
        linarith
      calc L / m * |v - w| ^ 2 ≤ L / m * (ρ * (1 / 2) ^ (2 ^ k - 1)) ^ 2 :=
            mul_le_mul_of_nonneg_left hsq (div_nonneg hL hm.le)
        _ = (L / m * ρ) * (ρ * ((1 / 2) ^ (2 ^ k - 1) * (1 / 2) ^ (2 ^ k - 1))) := by ring
        _ ≤ 1 / 2 * (ρ * ((1 / 2) ^ (2 ^ k - 1) * (1 / 2) ^ (2 ^ k - 1))) :=
            mul_le_mul_of_nonneg_right hLm (mul_nonneg hρ (by positivity))
        _ = ρ * (1 / 2) ^ (2 ^ (k + 1) - 1) := by rw [hpow, pow_succ, pow_add]; ring
  obtain ⟨i1, i2, i3⟩ := it k
  rw [← e2] at i1 i2 i3
  have i4 : |r - w| ≤ ρ := i3.trans (mul_le_of_le_one_right hρ (pow_le_one₀ (by norm_num) (by norm_num)))
  refine ⟨r, e1, i1, i2, i4, ?_⟩
  rcases hk.lt_or_eq with hlt | heq
  · rcases e3 hlt with h | h
    · exact Or.inl ((le_abs_self _).trans h)
    · refine Or.inr (Or.inl ((ht.near hw hm i1 i2 i4).trans ?_))
      exact div_le_div_of_nonneg_right h hm.le
  · rw [heq] at i3
    exact Or.inr (Or.inr i3)

/-- `d` is the derivative of the curve `c`. -/
def Spec.IsDeriv (c d : ℝ → V3 ℝ) : Prop := ∀ u (f : V3 ℝ →ₗ[ℝ] ℝ), HasDerivAt (fun v => f (c v)) (f (d u)) u

theorem Spec.IsDeriv.dot {a a' b b' : ℝ → V3 ℝ} (ha : IsDeriv a a') (hb : IsDeriv b b') (u : ℝ) :
    HasDerivAt (fun v => (a v).dot (b v)) ((a' u).dot (b u) + (a u).dot (b' u)) u := by
  have h := (((ha u V3.xL).mul (hb u V3.xL)).add ((ha u V3.yL).mul (hb u V3.yL))).add ((ha u V3.zL).mul (hb u V3.zL))
  refine (h.congr_of_eventuallyEq ?_).congr_deriv ?_
  · filter_upwards with v
    simp [V3.dot, V3.xL, V3.yL, V3.zL]
  · simp [V3.dot, V3.xL, V3.yL, V3.zL]
    ring

theorem Spec.IsDeriv.shift {c d : ℝ → V3 ℝ} (h : IsDeriv c d) (p : V3 ℝ) : IsDeriv (fun u => c u - p) d := by
  intro u f
  refine ((h u f).sub_const (f p)).congr_of_eventuallyEq ?_
  filter_upwards with v
  rw [map_sub]

/-- `find_nearest_parameter` is Newton's iteration from the nearest sample. -/
theorem findNearest_start (c d1 d2 : ℝ → V3 ℝ) (p : V3 ℝ) (lo hi : ℝ) {division : Nat} (trials : Nat) (hd : 1 ≤ division)
    (hmax : (p - c lo).lengthSq < Env.maxV) :
    ∃ i, i ≤ division ∧
      findNearestParameter (fun u => .ok (c u)) (fun u => .ok (d1 u)) (fun u => .ok (d2 u)) p (lo, hi) division trials =
        newtonLoop (fun u => .ok (c u)) (fun u => .ok (d1 u)) (fun u => .ok (d2 u)) p (lo, hi) trials
          (lo + (i : ℝ) * ((hi - lo) / division)) ∧
      ∀ j, j ≤ division → (p - c (lo + (i : ℝ) * ((hi - lo) / division))).lengthSq ≤
        (p - c (lo + (j : ℝ) * ((hi - lo) / division))).lengthSq := by
  obtain ⟨l, h1, h2, h3⟩ := C28_entries (lo, hi) hd
  have hmap : l.mapM (fun u => (.ok (c u) : Res (V3 ℝ))) = .ok (l.map c) := by
    clear h1 h2 h3
    induction l with
    | nil => rfl
    | cons a l ih => rw [List.mapM_cons, ih]; rfl
  have hne : l.map c ≠ [] := by
    intro h
    have := congrArg List.length h
    simp [h2] at this
  have hb := C31_in_bounds (l.map c) p hne
  rw [List.length_map] at hb
  have hs : l[findNearestPoint (l.map c) p]
      = lo + (findNearestPoint (l.map c) p : ℝ) * ((hi - lo) / (division : ℝ)) := by
    have := h3 (findNearestPoint (l.map c) p) (by omega)
    rw [List.getElem?_eq_getElem hb, Option.some.injEq] at this
    exact this
  have hmem : ∀ j, j ≤ division → c (lo + (j : ℝ) * ((hi - lo) / (division : ℝ))) ∈ l.map c := by
    intro j hj
    exact List.mem_map.2 ⟨_, List.mem_iff_getElem?.2 ⟨j, h3 j hj⟩, rfl⟩
  refine ⟨findNearestPoint (l.map c) p, by omega, ?_, fun m hm => ?_⟩
  · unfold findNearestParameter
    rw [h1]
    simp only [ok_bind]
    rw [hmap]
    simp only [ok_bind]
    rw [idx_ok hb]
    simp only [ok_bind]
    rw [hs]
  · obtain ⟨v, a1, a2, _⟩ := C31_nearest (l.map c) p ⟨_, hmem 0 (Nat.zero_le _), by simpa using hmax⟩
    rw [List.getElem?_map, List.getElem?_eq_getElem hb, Option.map_some, Option.some.injEq, hs] at a1
    rw [a1]
    exact a2 _ (hmem m hm)

/-- **C157** If the squared distance is convex along the curve, with a second derivative that changes by at most half its
least value from sample to sample, then `find_nearest_parameter` finds the nearest point of the curve. -/
theorem C157_nearest {c d1 d2 : ℝ → V3 ℝ} (h1 : IsDeriv c d1) (h2 : IsDeriv d1 d2) {p : V3 ℝ} {lo hi m L : ℝ}
    (hlh : lo < hi) (hm : 0 < m) (hL : 0 ≤ L) {division : Nat} (hd : 1 ≤ division) (trials : Nat)
    (hsteep : ∀ x, lo ≤ x → x ≤ hi → m ≤ (d2 x).dot (c x - p) + (d1 x).dot (d1 x))
    (hlip : ∀ x y, lo ≤ x → x ≤ hi → lo ≤ y → y ≤ hi →
      |((d2 x).dot (c x - p) + (d1 x).dot (d1 x)) - ((d2 y).dot (c y - p) + (d1 y).dot (d1 y))| ≤ L * |x - y|)
    (hfine : 2 * (L * ((hi - lo) / division)) ≤ m) (hmax : (p - c lo).lengthSq < Env.maxV) :
    ∃ w r, lo ≤ w ∧ w ≤ hi ∧ (∀ x, lo ≤ x → x ≤ hi → (c w - p).dot (c w - p) + m * (x - w) ^ 2 ≤ (c x - p).dot (c x - p)) ∧
      findNearestParameter (fun u => .ok (c u)) (fun u => .ok (d1 u)) (fun u => .ok (d2 u)) p (lo, hi) division trials = .ok r ∧
      lo ≤ r ∧ r ≤ hi ∧
      ((c r - p).dot (c r - p) ≤ Env.tol ∨ |r - w| ≤ Env.tol / m ∨
        |r - w| ≤ (hi - lo) / division * (1 / 2) ^ (2 ^ trials - 1)) := by
  set g : ℝ → ℝ := fun u => (d1 u).dot (c u - p) with hg
  set g' : ℝ → ℝ := fun u => (d2 u).dot (c u - p) + (d1 u).dot (d1 u) with hg'
  have hder : ∀ x, HasDerivAt g (g' x) x := fun x => h2.dot (h1.shift p) x
  have hφ : ∀ x, HasDerivAt (fun u => (c u - p).dot (c u - p)) (2 * g x) x := by
    intro x
    refine ((h1.shift p).dot (h1.shift p) x).congr_deriv ?_
    rw [V3.dot_comm (c x - p) (d1 x)]
    ring
  -- slopes of g
  have slope : ∀ a b, lo ≤ a → a < b → b ≤ hi → g a + m * (b - a) ≤ g b := by
    intro a b ha hab hb
    obtain ⟨x, hx, e⟩ := exists_hasDerivAt_eq_slope g g' hab (fun y _ => (hder y).continuousAt.continuousWithinAt)
      (fun y _ => hder y)
    have hs := hsteep x (by linarith [hx.1]) (by linarith [hx.2])
    have : g b - g a = g' x * (b - a) := by rw [e, div_mul_cancel₀ _ (by linarith : b - a ≠ 0)]
    have h3 : m * (b - a) ≤ g' x * (b - a) := mul_le_mul_of_nonneg_right hs (by linarith)
    linarith
  have hcont : Continuous g := continuous_iff_continuousAt.2 fun x => (hder x).continuousAt
  obtain ⟨w, hw⟩ : ∃ w, SignChange g lo hi w := by
    by_cases ha : 0 ≤ g lo
    · exact ⟨lo, le_refl _, hlh.le, fun h => absurd h (lt_irrefl _), fun _ => ha⟩
    · by_cases hb : g hi ≤ 0
      · exact ⟨hi, hlh.le, le_refl _, fun _ => hb, fun h => absurd h (lt_irrefl _)⟩
      · rw [not_le] at ha hb
        obtain ⟨w, hw, e⟩ := intermediate_value_Icc hlh.le hcont.continuousOn (show (0 : ℝ) ∈ Set.Icc (g lo) (g hi) from ⟨ha.le, hb.le⟩)
        exact ⟨w, hw.1, hw.2, fun _ => e.le, fun _ => e.ge⟩
  have hw1 := hw.lo_le
  have hw2 := hw.le_hi
  -- the squared distance grows away from w
  have grow : ∀ x, lo ≤ x → x ≤ hi → (c w - p).dot (c w - p) + m * (x - w) ^ 2 ≤ (c x - p).dot (c x - p) := by
    intro x hx1 hx2
    set ψ : ℝ → ℝ := fun u => (c u - p).dot (c u - p) - m * (u - w) ^ 2 with hψ
    have hψd : ∀ y, HasDerivAt ψ (2 * g y - 2 * m * (y - w)) y := by
      intro y
      refine ((hφ y).sub ((((hasDerivAt_id y).sub_const w).pow 2).const_mul m)).congr_deriv ?_
      simp
      ring
    have hψw : ψ w = (c w - p).dot (c w - p) := by simp [hψ]
    have key : ψ w ≤ ψ x := by
      rcases lt_trichotomy x w with h | h | h
      · obtain ⟨y, hy, e⟩ := exists_hasDerivAt_eq_slope ψ _ h (fun y _ => (hψd y).continuousAt.continuousWithinAt)
          (fun y _ => hψd y)
        have : ψ w - ψ x = (2 * g y - 2 * m * (y - w)) * (w - x) := by
          rw [e, div_mul_cancel₀ _ (by linarith : w - x ≠ 0)]
        have s := slope y w (by linarith [hy.1]) hy.2 hw2
        have hwl := hw.left (lt_of_le_of_lt hx1 h)
        have : (2 * g y - 2 * m * (y - w)) * (w - x) ≤ 0 :=
          mul_nonpos_of_nonpos_of_nonneg (by linarith) (by linarith)
        linarith
      · rw [h]
      · obtain ⟨y, hy, e⟩ := exists_hasDerivAt_eq_slope ψ _ h (fun y _ => (hψd y).continuousAt.continuousWithinAt)
          (fun y _ => hψd y)
        have : ψ x - ψ w = (2 * g y - 2 * m * (y - w)) * (x - w) := by
          rw [e, div_mul_cancel₀ _ (by linarith : x - w ≠ 0)]
        have s := slope w y hw1 hy.1 (by linarith [hy.2])
        have hwl := hw.right (lt_of_lt_of_le h hx2)
        have : 0 ≤ (2 * g y - 2 * m * (y - w)) * (x - w) := mul_nonneg (by linarith) (by linarith)
        linarith
    rw [hψw] at key
    simp only [hψ] at key
    linarith
  obtain ⟨i, hi', e1, hnear'⟩ := findNearest_start c d1 d2 p lo hi trials hd hmax
  have hD : (0 : ℝ) < division := by exact_mod_cast hd
  set h := (hi - lo) / (division : ℝ) with hh
  have hh0 : 0 < h := div_pos (by linarith) hD
  have hDh : (division : ℝ) * h = hi - lo := by rw [hh]; field_simp
  have swap : ∀ a : V3 ℝ, (p - a).lengthSq = (a - p).dot (a - p) := by
    intro a
    simp only [V3.lengthSq, V3.dot, V3.sub_x, V3.sub_y, V3.sub_z]
    ring
  have smp : ∀ j : Nat, j ≤ division → lo ≤ lo + (j : ℝ) * h ∧ lo + (j : ℝ) * h ≤ hi := by
    intro j hj
    have : (j : ℝ) * h ≤ division * h := mul_le_mul_of_nonneg_right (by exact_mod_cast hj) hh0.le
    exact ⟨by have := mul_nonneg (Nat.cast_nonneg (α := ℝ) j) hh0.le; linarith, by linarith⟩
  -- the nearest sample is next to w
  have hclose : |lo + (i : ℝ) * h - w| ≤ h := by
    obtain ⟨s1, s2⟩ := smp i hi'
    by_contra hfar
    rw [not_le, lt_abs] at hfar
    rcases hfar with hfar | hfar
    · -- the sample before is nearer
      have hi0 : i ≠ 0 := by
        rintro rfl
        simp at hfar
        linarith
      have hj := hnear' (i - 1) (by omega)
      obtain ⟨t1, t2⟩ := smp (i - 1) (by omega)
      have hcast : ((i - 1 : Nat) : ℝ) = (i : ℝ) - 1 := by rw [Nat.cast_sub (by omega)]; simp
      rw [hcast] at hj t1 t2
      rw [swap, swap] at hj
      have hab : lo + ((i : ℝ) - 1) * h < lo + (i : ℝ) * h := by nlinarith
      obtain ⟨y, hy, e⟩ := exists_hasDerivAt_eq_slope _ _ hab (fun y _ => (hφ y).continuousAt.continuousWithinAt)
        (fun y _ => hφ y)
      have hwy : w < y := by have := hy.1; nlinarith
      have s := slope w y hw1 hwy (by linarith [hy.2])
      have hwr := hw.right (by linarith [hy.2])
      have hgy : 0 < g y := by nlinarith
      rw [eq_div_iff (by linarith)] at e
      have : 0 < 2 * g y * (lo + (i : ℝ) * h - (lo + ((i : ℝ) - 1) * h)) := mul_pos (by linarith) (by linarith)
      linarith
    · have hi0 : i ≠ division := by
        rintro rfl
        linarith
      have hj := hnear' (i + 1) (by omega)
      obtain ⟨t1, t2⟩ := smp (i + 1) (by omega)
      push_cast at hj t1 t2
      rw [swap, swap] at hj
      have hab : lo + (i : ℝ) * h < lo + ((i : ℝ) + 1) * h := by nlinarith
      obtain ⟨y, hy, e⟩ := exists_hasDerivAt_eq_slope _ _ hab (fun y _ => (hφ y).continuousAt.continuousWithinAt)
        (fun y _ => hφ y)
      have hwy : y < w := by have := hy.2; nlinarith
      have s := slope y w (by linarith [hy.1]) hwy hw2
      have hwr := hw.left (by linarith [hy.1])
      have hgy : g y < 0 := by nlinarith
      rw [eq_div_iff (by linarith)] at e
      have : 2 * g y * (lo + ((i : ℝ) + 1) * h - (lo + (i : ℝ) * h)) < 0 := mul_neg_of_neg_of_pos (by linarith) (by linarith)
      linarith
  have ht : Tame g g' lo hi w h m L :=
    ⟨fun x _ _ _ => hder x, fun x a b _ => hsteep x a b, fun x y a b _ a' b' _ => hlip x y a b a' b'⟩
  obtain ⟨s1, s2⟩ := smp i hi'
  obtain ⟨r', f1, f2, f3, -, f5⟩ := C157_newton (trials := trials) hm hw ht hL hfine s1 s2 hclose
  exact ⟨w, r', hw1, hw2, grow, e1.trans f1, f2, f3, f5⟩

/-- Projection onto a Bézier curve of degree 2 or more is `find_nearest_parameter`, with its derivatives. -/
theorem bezier_project {b b1 b2 : BezierCurve (V3 ℝ)} {n : Nat} (hn : b.controlPoints.length = n + 1) (h2 : 2 ≤ n)
    (hb1 : b.derivative (F := ℝ) = .ok b1) (hb2 : b1.derivative (F := ℝ) = .ok b2) (p : V3 ℝ) :
    b.project p = findNearestParameter (fun u => .ok (valOf (b.getPoint u))) (fun u => .ok (valOf (b1.getPoint u)))
        (fun u => .ok (valOf (b2.getPoint u))) p (0, 1) (n * 4) 10 ∧
      IsDeriv (fun u => valOf (b.getPoint u)) (fun u => valOf (b1.getPoint u)) ∧
      IsDeriv (fun u => valOf (b1.getPoint u)) (fun u => valOf (b2.getPoint u)) := by
  obtain ⟨b1', e1, l1, d1⟩ := C12_derivative b (by omega)
  rw [hb1, Except.ok.injEq] at e1
  subst e1
  obtain ⟨b2', e2, l2, d2⟩ := C12_derivative b1 (by omega)
  rw [hb2, Except.ok.injEq] at e2
  subst e2
  have vo : ∀ x : V3 ℝ, valOf (.ok x) = x := fun _ => rfl
  have g0 : b.getPoint = fun u : ℝ => .ok (valOf (b.getPoint u)) := by
    funext u
    obtain ⟨⟨x, hx⟩, -⟩ := d1 u
    rw [hx, vo]
  have g1 : b1.getPoint = fun u : ℝ => .ok (valOf (b1.getPoint u)) := by
    funext u
    obtain ⟨⟨x, hx⟩, -⟩ := d2 u
    rw [hx, vo]
  have g2 : b2.getPoint = fun u : ℝ => .ok (valOf (b2.getPoint u)) := by
    funext u
    obtain ⟨-, x, hx, -⟩ := d2 u
    rw [hx, vo]
  refine ⟨?_, ?_, ?_⟩
  · have hdeg : b.degree = .ok n := by
      unfold BezierCurve.degree
      rw [hn, usub_ok (by omega)]
      simp
    unfold BezierCurve.project
    rw [hdeg]
    simp only [ok_bind]
    rw [if_neg (by omega), hb1]
    simp only [ok_bind]
    rw [hb2]
    simp only [ok_bind]
    rw [← g0, ← g1, ← g2]
  · intro u f
    obtain ⟨-, x, hx, h⟩ := d1 u
    simp only
    rw [hx, vo]
    exact h f
  · intro u f
    obtain ⟨-, x, hx, h⟩ := d2 u
    simp only
    rw [hx, vo]
    exact h f

/-- What holds of the control points in all directions holds of the curve. -/
theorem bezier_within {b : BezierCurve (V3 ℝ)} (hb : 1 ≤ b.controlPoints.length) {q : V3 ℝ} {R : ℝ} (hR : 0 ≤ R)
    (h : ∀ x ∈ b.controlPoints, (x - q).length ≤ R) {u : ℝ} (h0 : 0 ≤ u) (h1 : u ≤ 1) :
    (valOf (b.getPoint u) - q).length ≤ R := by
  obtain ⟨x, hx, hc⟩ := C11_convex b hb u h0 h1
  rw [hx]
  change (x - q).length ≤ R
  by_cases hz : (x - q).length = 0
  · rw [hz]; exact hR
  have hpos : 0 < (x - q).length := lt_of_le_of_ne (V3.length_nonneg _) (Ne.symm hz)
  have := hc.le (V3.dotL (x - q)) (b := (x - q).dot q + (x - q).length * R) (by
    intro y hy
    have e : V3.dotL (x - q) y = (x - q).dot q + (x - q).dot (y - q) := by
      change (x - q).dot y = _
      rw [V3.dot_sub (x - q) y q]
      ring
    rw [e]
    have := (V3.dot_le (x - q) (y - q)).trans (mul_le_mul_of_nonneg_left (h y hy) hpos.le)
    linarith)
  change (x - q).dot x ≤ _ at this
  have e : (x - q).dot (x - q) ≤ (x - q).length * R := by
    rw [V3.dot_sub (x - q) x q]
    linarith
  rw [← V3.length_mul_self] at e
  exact le_of_mul_le_mul_left e hpos

/-- A curve with a bounded derivative moves by no more than the bound. -/
theorem Spec.IsDeriv.moves {c d : ℝ → V3 ℝ} (h : IsDeriv c d) {lo hi V : ℝ} (hV : ∀ u, lo ≤ u → u ≤ hi → (d u).length ≤ V)
    {x y : ℝ} (hx0 : lo ≤ x) (hx1 : x ≤ hi) (hy0 : lo ≤ y) (hy1 : y ≤ hi) : (c x - c y).length ≤ V * |x - y| := by
  by_cases hz : (c x - c y).length = 0
  · rw [hz]
    exact mul_nonneg ((V3.length_nonneg _).trans (hV x hx0 hx1)) (abs_nonneg _)
  have hpos : 0 < (c x - c y).length := lt_of_le_of_ne (V3.length_nonneg _) (Ne.symm hz)
  set e := c x - c y with he
  have hd : ∀ v, HasDerivAt (fun v => e.dot (c v)) (e.dot (d v)) v := fun v => h v (V3.dotL e)
  have hb : ∀ v, lo ≤ v → v ≤ hi → |e.dot (d v)| ≤ e.length * V := by
    intro v h0 h1
    have h2 := mul_le_mul_of_nonneg_left (hV v h0 h1) hpos.le
    rw [abs_le]
    constructor
    · have h3 := V3.dot_le e (-(d v))
      rw [V3.dot_neg, V3.length_neg] at h3
      linarith
    · exact (V3.dot_le e (d v)).trans h2
  have key : |e.dot (c x) - e.dot (c y)| ≤ e.length * V * |x - y| := by
    rcases lt_trichotomy x y with hxy | hxy | hxy
    · obtain ⟨v, hv, ev⟩ := exists_hasDerivAt_eq_slope _ _ hxy (fun y _ => (hd y).continuousAt.continuousWithinAt)
        (fun y _ => hd y)
      rw [eq_div_iff (by linarith)] at ev
      rw [abs_sub_comm, ← ev, abs_mul, abs_sub_comm x y]
      exact mul_le_mul_of_nonneg_right (hb v (by linarith [hv.1]) (by linarith [hv.2])) (abs_nonneg _)
    · rw [hxy]; simp
    · obtain ⟨v, hv, ev⟩ := exists_hasDerivAt_eq_slope _ _ hxy (fun y _ => (hd y).continuousAt.continuousWithinAt)
        (fun y _ => hd y)
      rw [eq_div_iff (by linarith)] at ev
      rw [← ev, abs_mul]
      exact mul_le_mul_of_nonneg_right (hb v (by linarith [hv.1]) (by linarith [hv.2])) (abs_nonneg _)
  have e2 : e.length * e.length ≤ e.length * (V * |x - y|) := by
    rw [V3.length_mul_self]
    have : e.dot e = e.dot (c x) - e.dot (c y) := by rw [← V3.dot_sub, ← he]
    rw [this]
    calc _ ≤ _ := le_abs_self _
      _ ≤ _ := key
      _ = _ := by ring
  exact le_of_mul_le_mul_left e2 hpos

/-- **C157** `project` of a Bézier curve of degree `n ≥ 2` that advances in the direction `e` at least at speed `s` finds
the nearest point of the curve, if the point is within `R` of the control points with `R` times the second derivative less
than `s²`, and the derivatives are bounded as stated. -/
theorem C157_bezier {b b1 b2 b3 : BezierCurve (V3 ℝ)} {n : Nat} (hn : b.controlPoints.length = n + 1) (h2 : 2 ≤ n)
    (hb1 : b.derivative (F := ℝ) = .ok b1) (hb2 : b1.derivative (F := ℝ) = .ok b2) (hb3 : b2.derivative (F := ℝ) = .ok b3)
    {p e : V3 ℝ} {s R V B T : ℝ} (he : e.length ≤ 1) (hs : 0 < s) (hR : ∀ x ∈ b.controlPoints, (x - p).length ≤ R)
    (hs1 : ∀ x ∈ b1.controlPoints, s ≤ e.dot x) (hV : ∀ x ∈ b1.controlPoints, x.length ≤ V)
    (hB : ∀ x ∈ b2.controlPoints, x.length ≤ B) (hT0 : 0 ≤ T) (hT : ∀ x ∈ b3.controlPoints, x.length ≤ T)
    (hm : B * R < s ^ 2) (hfine : T * R + 3 * (B * V) ≤ 2 * n * (s ^ 2 - B * R)) (hmax : R * R < Env.maxV) :
    ∃ w r, 0 ≤ w ∧ w ≤ 1 ∧
      (∀ x : ℝ, 0 ≤ x → x ≤ 1 → (valOf (b.getPoint w) - p).length ≤ (valOf (b.getPoint x) - p).length) ∧
      (∀ x : ℝ, 0 ≤ x → x ≤ 1 → (valOf (b.getPoint x) - p).length = (valOf (b.getPoint w) - p).length → x = w) ∧
      b.project p = .ok r ∧ 0 ≤ r ∧ r ≤ 1 ∧
      ((valOf (b.getPoint r) - p).length ^ 2 ≤ Env.tol ∨ |r - w| ≤ Env.tol / (s ^ 2 - B * R) ∨ |r - w| ≤ (1 / 2) ^ 1023) := by
  obtain ⟨hproj, D1, D2⟩ := bezier_project hn h2 hb1 hb2 p
  obtain ⟨b1', e1, l1, -⟩ := C12_derivative b (by omega)
  rw [hb1, Except.ok.injEq] at e1
  subst e1
  obtain ⟨b2', e2, l2, -⟩ := C12_derivative b1 (by omega)
  rw [hb2, Except.ok.injEq] at e2
  subst e2
  set c := fun u : ℝ => valOf (b.getPoint u) with hc
  set d1 := fun u : ℝ => valOf (b1.getPoint u) with hd1
  set d2 := fun u : ℝ => valOf (b2.getPoint u) with hd2
  have ne : ∀ {l : List (V3 ℝ)}, 1 ≤ l.length → ∃ x, x ∈ l := fun {l} h => List.exists_mem_of_length_pos (by omega)
  have hR0 : 0 ≤ R := by obtain ⟨x, hx⟩ := ne (l := b.controlPoints) (by omega); exact (V3.length_nonneg _).trans (hR x hx)
  have hV0 : 0 ≤ V := by obtain ⟨x, hx⟩ := ne (l := b1.controlPoints) (by omega); exact (V3.length_nonneg _).trans (hV x hx)
  have hB0 : 0 ≤ B := by obtain ⟨x, hx⟩ := ne (l := b2.controlPoints) (by omega); exact (V3.length_nonneg _).trans (hB x hx)
  have sub0 : ∀ x : V3 ℝ, x - 0 = x := fun x => sub_zero x
  have bc : ∀ u, 0 ≤ u → u ≤ 1 → (c u - p).length ≤ R := fun u h0 h1 => bezier_within (by omega) hR0 hR h0 h1
  have b1d : ∀ u, 0 ≤ u → u ≤ 1 → (d1 u).length ≤ V := by
    intro u h0 h1
    have := bezier_within (b := b1) (q := 0) (by omega) hV0 (fun x hx => by rw [sub0]; exact hV x hx) h0 h1
    rwa [sub0] at this
  have b2d : ∀ u, 0 ≤ u → u ≤ 1 → (d2 u).length ≤ B := by
    intro u h0 h1
    have := bezier_within (b := b2) (q := 0) (by omega) hB0 (fun x hx => by rw [sub0]; exact hB x hx) h0 h1
    rwa [sub0] at this
  have fast : ∀ u, 0 ≤ u → u ≤ 1 → s ≤ (d1 u).length := by
    intro u h0 h1
    obtain ⟨x, hx, hcc⟩ := C11_convex b1 (by omega) u h0 h1
    have h3 := hcc.le (-(V3.dotL e)) (b := -s) (fun y hy => by
      change -(e.dot y) ≤ -s
      linarith [hs1 y hy])
    change -(e.dot x) ≤ -s at h3
    have e3 : d1 u = x := by rw [hd1]; simp only; rw [hx]; rfl
    rw [e3]
    have h4 := V3.dot_le e x
    have h5 : e.length * x.length ≤ 1 * x.length := mul_le_mul_of_nonneg_right he (V3.length_nonneg _)
    linarith
  have m2 : ∀ x y, 0 ≤ x → x ≤ 1 → 0 ≤ y → y ≤ 1 → (d2 x - d2 y).length ≤ T * |x - y| := by
    intro x y hx0 hx1 hy0 hy1
    by_cases hn2 : n = 2
    · -- the second derivative is constant
      have hl : b2.controlPoints.length = 1 := by omega
      obtain ⟨q, hq⟩ := List.length_eq_one_iff.1 hl
      have hconst : ∀ u : ℝ, d2 u = q := by
        intro u
        rw [hd2]
        simp only
        rw [bezier_getPoint b2 (by omega) u, hl]
        simp [hq, cp, bernsteinPoly, valOf]
      rw [hconst, hconst, sub_self, V3.length_zero]
      exact mul_nonneg hT0 (abs_nonneg _)
    · obtain ⟨b3', e3, l3, f3⟩ := C12_derivative b2 (by omega)
      rw [hb3, Except.ok.injEq] at e3
      subst e3
      have D3 : IsDeriv d2 (fun u => valOf (b3.getPoint u)) := by
        intro u f
        obtain ⟨-, z, hz, h⟩ := f3 u
        simp only
        rw [hz]
        exact h f
      exact D3.moves (V := T) (lo := 0) (hi := 1) (fun u h0 h1 => by
        have := bezier_within (b := b3) (q := 0) (by omega) hT0 (fun x hx => by rw [sub0]; exact hT x hx) h0 h1
        rwa [sub0] at this) hx0 hx1 hy0 hy1
  have absdot : ∀ a b : V3 ℝ, |a.dot b| ≤ a.length * b.length := by
    intro a b
    rw [abs_le]
    constructor
    · have := V3.dot_le a (-b)
      rw [V3.dot_neg, V3.length_neg] at this
      linarith
    · exact V3.dot_le a b
  have hn0 : (0 : ℝ) < n := by exact_mod_cast (by omega : 0 < n)
  have hmpos : 0 < s ^ 2 - B * R := by linarith
  have hlen2 : ∀ x : V3 ℝ, x.dot x = x.length ^ 2 := fun x => by rw [sq, V3.length_mul_self]
  obtain ⟨w, r, w0, w1, hmin, hfind, r0, r1, hr⟩ := C157_nearest D1 D2 (p := p) (lo := 0) (hi := 1) (m := s ^ 2 - B * R)
    (L := T * R + 3 * (B * V)) zero_lt_one hmpos (by positivity) (division := n * 4) (by omega) 10
    (by
      intro x h0 h1
      have h3 := absdot (d2 x) (c x - p)
      have h4 : (d2 x).length * (c x - p).length ≤ B * R :=
        mul_le_mul (b2d x h0 h1) (bc x h0 h1) (V3.length_nonneg _) hB0
      have h5 := neg_abs_le ((d2 x).dot (c x - p))
      have h6 : s ^ 2 ≤ (d1 x).dot (d1 x) := by
        rw [hlen2]
        exact pow_le_pow_left₀ hs.le (fast x h0 h1) 2
      change s ^ 2 - B * R ≤ (d2 x).dot (c x - p) + (d1 x).dot (d1 x)
      linarith)
    (by
      intro x y hx0 hx1 hy0 hy1
      have e : ((d2 x).dot (c x - p) + (d1 x).dot (d1 x)) - ((d2 y).dot (c y - p) + (d1 y).dot (d1 y))
          = (d2 x).dot (c x - c y) + (d2 x - d2 y).dot (c y - p) + (d1 x - d1 y).dot (d1 x + d1 y) := by
        simp only [V3.dot, V3.sub_x, V3.sub_y, V3.sub_z, V3.add_x, V3.add_y, V3.add_z]
        ring
      change |((d2 x).dot (c x - p) + (d1 x).dot (d1 x)) - ((d2 y).dot (c y - p) + (d1 y).dot (d1 y))| ≤ _
      rw [e]
      have t1 : |(d2 x).dot (c x - c y)| ≤ B * (V * |x - y|) :=
        (absdot _ _).trans (mul_le_mul (b2d x hx0 hx1) (D1.moves b1d hx0 hx1 hy0 hy1) (V3.length_nonneg _) hB0)
      have t2 : |(d2 x - d2 y).dot (c y - p)| ≤ (T * |x - y|) * R :=
        (absdot _ _).trans (mul_le_mul (m2 x y hx0 hx1 hy0 hy1) (bc y hy0 hy1) (V3.length_nonneg _)
          (mul_nonneg hT0 (abs_nonneg _)))
      have t3 : |(d1 x - d1 y).dot (d1 x + d1 y)| ≤ (B * |x - y|) * (V + V) :=
        (absdot _ _).trans (mul_le_mul (D2.moves b2d hx0 hx1 hy0 hy1)
          ((V3.length_add_le _ _).trans (add_le_add (b1d x hx0 hx1) (b1d y hy0 hy1))) (V3.length_nonneg _)
          (mul_nonneg hB0 (abs_nonneg _)))
      have := abs_add_three ((d2 x).dot (c x - c y)) ((d2 x - d2 y).dot (c y - p)) ((d1 x - d1 y).dot (d1 x + d1 y))
      calc _ ≤ _ := this
        _ ≤ B * (V * |x - y|) + (T * |x - y|) * R + (B * |x - y|) * (V + V) := by linarith
        _ = (T * R + 3 * (B * V)) * |x - y| := by ring)
    (by
      rw [show ((n * 4 : Nat) : ℝ) = n * 4 by push_cast; rfl, sub_zero]
      rw [show 2 * ((T * R + 3 * (B * V)) * (1 / ((n : ℝ) * 4))) = (T * R + 3 * (B * V)) / (2 * n) by field_simp; ring,
        div_le_iff₀ (by positivity)]
      linarith)
    (by
      have h3 := bc 0 (le_refl _) zero_le_one
      have h4 : (p - c 0).lengthSq = (c 0 - p).length * (c 0 - p).length := by
        rw [V3.length_mul_self]
        simp only [V3.lengthSq, V3.dot, V3.sub_x, V3.sub_y, V3.sub_z]
        ring
      rw [h4]
      exact lt_of_le_of_lt (mul_le_mul h3 h3 (V3.length_nonneg _) hR0) hmax)
  refine ⟨w, r, w0, w1, ?_, ?_, hproj.trans hfind, r0, r1, ?_⟩
  · intro x h0 h1
    have h3 := hmin x h0 h1
    have : 0 ≤ (s ^ 2 - B * R) * (x - w) ^ 2 := by positivity
    rw [V3.length_eq, V3.length_eq]
    exact Real.sqrt_le_sqrt (by change (c w - p).dot (c w - p) ≤ (c x - p).dot (c x - p); linarith)
  · intro x h0 h1 hx
    have h3 := hmin x h0 h1
    have h4 : (c x - p).dot (c x - p) = (c w - p).dot (c w - p) := by
      rw [hlen2, hlen2]
      change (c x - p).length = (c w - p).length at hx
      rw [hx]
    rw [h4] at h3
    have h5 : (x - w) ^ 2 ≤ 0 := by
      by_contra hneg
      rw [not_le] at hneg
      linarith [mul_pos hmpos hneg]
    have : x - w = 0 := by
      rw [← sq_eq_zero_iff]
      exact le_antisymm h5 (sq_nonneg _)
    linarith
  · rcases hr with h | h | h
    · exact Or.inl (by rw [← hlen2]; exact h)
    · exact Or.inr (Or.inl h)
    · refine Or.inr (Or.inr (h.trans ?_))
      rw [show 2 ^ 10 - 1 = 1023 by norm_num]
      apply mul_le_of_le_one_left (by positivity)
      rw [sub_zero, div_le_one (by exact_mod_cast (by omega : 0 < n * 4))]
      exact_mod_cast (by omega : 1 ≤ n * 4)

theorem maxV_big : (2 : ℝ) ^ 52 ≤ Env.maxV := by
  change (2 : ℝ) ^ 52 ≤ (2 ^ 53 - 1) * 2 ^ 971
  have h : (1 : ℝ) ≤ 2 ^ 971 := one_le_pow₀ (by norm_num)
  have h2 : (2 : ℝ) ^ 52 ≤ 2 ^ 53 - 1 := by norm_num
  calc (2 : ℝ) ^ 52 ≤ (2 ^ 53 - 1) * 1 := by rw [mul_one]; exact h2
    _ ≤ _ := mul_le_mul_of_nonneg_left h (by norm_num)

/-- The derivatives of a quadratic Bézier curve. -/
theorem quad_derivs (A B C : V3 ℝ) :
    (BezierCurve.mk [A, B, C]).derivative (F := ℝ) = .ok ⟨[(2 : ℝ) • (B - A), (2 : ℝ) • (C - B)]⟩ ∧
    (BezierCurve.mk [(2 : ℝ) • (B - A), (2 : ℝ) • (C - B)]).derivative (F := ℝ) = .ok ⟨[(2 : ℝ) • (C - B) - (2 : ℝ) • (B - A)]⟩ ∧
    (BezierCurve.mk [(2 : ℝ) • (C - B) - (2 : ℝ) • (B - A)]).derivative (F := ℝ) = .ok ⟨[]⟩ := by
  refine ⟨?_, ?_, ?_⟩
  · simp [BezierCurve.derivative, BezierCurve.degree, usub, pairs, V3.rmul_eq]
  · simp [BezierCurve.derivative, BezierCurve.degree, usub, pairs, V3.rmul_eq]
  · simp [BezierCurve.derivative, BezierCurve.degree, usub, pairs]

theorem quad_points (A B C : V3 ℝ) (u : ℝ) :
    valOf ((BezierCurve.mk [A, B, C]).getPoint u) = (1 - u) ^ 2 • A + (2 * u * (1 - u)) • B + u ^ 2 • C ∧
    valOf ((BezierCurve.mk [A, B]).getPoint u) = (1 - u) • A + u • B ∧ valOf ((BezierCurve.mk [A]).getPoint u) = A := by
  have vo : ∀ x : V3 ℝ, valOf (.ok x) = x := fun _ => rfl
  refine ⟨?_, ?_, ?_⟩
  · rw [bezier_getPoint _ (by simp), vo]
    simp [Finset.sum_range_succ, bernsteinPoly, cp]
  · rw [bezier_getPoint _ (by simp), vo]
    simp [Finset.sum_range_succ, bernsteinPoly, cp]
  · rw [bezier_getPoint _ (by simp), vo]
    simp [bernsteinPoly, cp]

/-- **C157**, an example: a flat arch and a point above it. -/
theorem C157_example :
    ∃ w r, 0 ≤ w ∧ w ≤ 1 ∧
      (∀ x : ℝ, 0 ≤ x → x ≤ 1 → (valOf ((BezierCurve.mk [⟨0, 0, 0⟩, ⟨1, 1 / 8, 0⟩, ⟨2, 0, 0⟩]).getPoint w) - (⟨1 / 2, 1, 0⟩ : V3 ℝ)).length ≤
        (valOf ((BezierCurve.mk [⟨0, 0, 0⟩, ⟨1, 1 / 8, 0⟩, ⟨2, 0, 0⟩]).getPoint x) - (⟨1 / 2, 1, 0⟩ : V3 ℝ)).length) ∧
      (BezierCurve.mk [⟨0, 0, 0⟩, ⟨1, 1 / 8, 0⟩, ⟨2, 0, 0⟩]).project (⟨1 / 2, 1, 0⟩ : V3 ℝ) = .ok r ∧ |r - w| ≤ 1 / 10 ^ 7 := by
  obtain ⟨q1, q2, q3⟩ := quad_derivs (⟨0, 0, 0⟩ : V3 ℝ) ⟨1, 1 / 8, 0⟩ ⟨2, 0, 0⟩
  have len : ∀ (x : V3 ℝ) (R : ℝ), 0 ≤ R → x.dot x ≤ R ^ 2 → x.length ≤ R := by
    intro x R hR h
    rw [V3.length_eq]
    exact Real.sqrt_le_iff.2 ⟨hR, h⟩
  obtain ⟨w, r, w0, w1, hmin, -, hp, r0, r1, hr⟩ := C157_bezier (n := 2) rfl (le_refl _) q1 q2 q3 (p := ⟨1 / 2, 1, 0⟩) (e := ⟨1, 0, 0⟩)
    (s := 2) (R := 2) (V := 9 / 4) (B := 1 / 2) (T := 0) (len _ _ (by norm_num) (by norm_num [V3.dot])) (by norm_num)
    (by
      intro x hx
      simp only [List.mem_cons, List.not_mem_nil, or_false] at hx
      rcases hx with rfl | rfl | rfl <;> exact len _ _ (by norm_num) (by norm_num [V3.dot]))
    (by
      intro x hx
      simp only [List.mem_cons, List.not_mem_nil, or_false] at hx
      rcases hx with rfl | rfl <;> norm_num [V3.dot])
    (by
      intro x hx
      simp only [List.mem_cons, List.not_mem_nil, or_false] at hx
      rcases hx with rfl | rfl <;> exact len _ _ (by norm_num) (by norm_num [V3.dot]))
    (by
      intro x hx
      simp only [List.mem_cons, List.not_mem_nil, or_false] at hx
      rcases hx with rfl
      exact len _ _ (by norm_num) (by norm_num [V3.dot]))
    (le_refl _) (by simp) (by norm_num) (by norm_num) (lt_of_lt_of_le (by norm_num) maxV_big)
  refine ⟨w, r, w0, w1, hmin, hp, ?_⟩
  have far : ∀ x : ℝ, 0 ≤ x → x ≤ 1 →
      1 / 4 ≤ (valOf ((BezierCurve.mk [⟨0, 0, 0⟩, ⟨1, 1 / 8, 0⟩, ⟨2, 0, 0⟩]).getPoint x) - (⟨1 / 2, 1, 0⟩ : V3 ℝ)).length := by
    intro x h0 h1
    rw [V3.length_eq, (quad_points _ _ _ x).1]
    apply Real.le_sqrt_of_sq_le
    simp only [V3.dot, V3.sub_x, V3.sub_y, V3.sub_z, V3.add_x, V3.add_y, V3.add_z, V3.smul_x, V3.smul_y, V3.smul_z]
    nlinarith [sq_nonneg ((1 - x) ^ 2 * 0 + 2 * x * (1 - x) * 1 + x ^ 2 * 2 - 1 / 2), sq_nonneg (1 - 2 * x)]
  rcases hr with h | h | h
  · exfalso
    have h3 := far r r0 r1
    have h4 := pow_le_pow_left₀ (by norm_num) h3 2
    have h5 := h4.trans h
    norm_num [Env.tol] at h5
  · refine h.trans ?_
    norm_num [Env.tol]
  · refine h.trans ?_
    calc ((1 : ℝ) / 2) ^ 1023 ≤ (1 / 2) ^ 24 := pow_le_pow_of_le_one (by norm_num) (by norm_num) (by norm_num)
      _ ≤ _ := by norm_num

/-- **C157** Projection may return the end furthest from the point although the other end is nearest: on the segment from
`0` to `3 / 2` run through at falling speed, for all points more than 4 before it. -/
theorem C157_furthest {a : ℝ} (ha : 4 < a) (hmax : a * a < Env.maxV) :
    let b : BezierCurve (V3 ℝ) := ⟨[⟨0, 0, 0⟩, ⟨1, 0, 0⟩, ⟨3 / 2, 0, 0⟩]⟩
    b.project ⟨-a, 0, 0⟩ = .ok 1 ∧
      (∀ u : ℝ, 0 ≤ u → u ≤ 1 → (valOf (b.getPoint u) - ⟨-a, 0, 0⟩).length ≤ (valOf (b.getPoint (1 : ℝ)) - ⟨-a, 0, 0⟩).length) ∧
      (valOf (b.getPoint (0 : ℝ)) - ⟨-a, 0, 0⟩).length = a ∧ (valOf (b.getPoint (1 : ℝ)) - ⟨-a, 0, 0⟩).length = a + 3 / 2 := by
  intro b
  obtain ⟨q1, q2, -⟩ := quad_derivs (⟨0, 0, 0⟩ : V3 ℝ) ⟨1, 0, 0⟩ ⟨3 / 2, 0, 0⟩
  have len : ∀ x : ℝ, 0 ≤ x → (⟨x, 0, 0⟩ : V3 ℝ).length = x := by
    intro x hx
    rw [V3.length_eq, show (⟨x, 0, 0⟩ : V3 ℝ).dot ⟨x, 0, 0⟩ = x * x by simp [V3.dot], Real.sqrt_mul_self hx]
  have c0 : ∀ u : ℝ, valOf ((BezierCurve.mk [⟨0, 0, 0⟩, ⟨1, 0, 0⟩, (⟨3 / 2, 0, 0⟩ : V3 ℝ)]).getPoint u) = ⟨2 * u - u ^ 2 / 2, 0, 0⟩ := by
    intro u
    rw [(quad_points _ _ _ u).1]
    ext <;> simp
    all_goals ring
  have c1 : ∀ u : ℝ, valOf ((BezierCurve.mk [(2 : ℝ) • ((⟨1, 0, 0⟩ : V3 ℝ) - ⟨0, 0, 0⟩), (2 : ℝ) • ((⟨3 / 2, 0, 0⟩ : V3 ℝ) - ⟨1, 0, 0⟩)]).getPoint u) = ⟨2 - u, 0, 0⟩ := by
    intro u
    rw [(quad_points _ _ 0 u).2.1]
    ext <;> simp
    all_goals ring
  have c2 : ∀ u : ℝ, valOf ((BezierCurve.mk [(2 : ℝ) • ((⟨3 / 2, 0, 0⟩ : V3 ℝ) - ⟨1, 0, 0⟩) - (2 : ℝ) • ((⟨1, 0, 0⟩ : V3 ℝ) - ⟨0, 0, 0⟩)]).getPoint u) = ⟨-1, 0, 0⟩ := by
    intro u
    rw [(quad_points _ 0 0 u).2.2]
    ext <;> simp
    all_goals ring
  have pt : ∀ u : ℝ, valOf (b.getPoint u) - ⟨-a, 0, 0⟩ = ⟨2 * u - u ^ 2 / 2 + a, 0, 0⟩ := by
    intro u
    change valOf ((BezierCurve.mk [⟨0, 0, 0⟩, ⟨1, 0, 0⟩, (⟨3 / 2, 0, 0⟩ : V3 ℝ)]).getPoint u) - _ = _
    rw [c0]
    ext <;> simp
  refine ⟨?_, ?_, ?_, ?_⟩
  · rw [(bezier_project (n := 2) rfl (le_refl _) q1 q2 _).1]
    simp only [c0, c1, c2]
    obtain ⟨i, hi, e, hnear⟩ := findNearest_start (fun u : ℝ => (⟨2 * u - u ^ 2 / 2, 0, 0⟩ : V3 ℝ)) (fun u => ⟨2 - u, 0, 0⟩)
      (fun _ => ⟨-1, 0, 0⟩) ⟨-a, 0, 0⟩ 0 1 (division := 2 * 4) 10 (by norm_num) (by
        simp only [V3.lengthSq, V3.dot, V3.sub_x, V3.sub_y, V3.sub_z]
        linarith)
    rw [e]
    have h0 := hnear 0 (Nat.zero_le _)
    have hi0 : i = 0 := by
      by_contra hne
      have h1 : (1 : ℝ) ≤ i := by exact_mod_cast Nat.one_le_iff_ne_zero.2 hne
      have h8 : (i : ℝ) ≤ 8 := by exact_mod_cast hi
      simp only [V3.lengthSq, V3.dot, V3.sub_x, V3.sub_y, V3.sub_z] at h0
      push_cast at h0
      have hx : 0 < 2 * (0 + (i : ℝ) * ((1 - 0) / (2 * 4))) - (0 + (i : ℝ) * ((1 - 0) / (2 * 4))) ^ 2 / 2 := by nlinarith
      nlinarith
    rw [hi0]
    have tol : (Env.tol : ℝ) = 1 / 10000000 := rfl
    have stay : ∀ n, newtonLoop (fun u : ℝ => .ok (⟨2 * u - u ^ 2 / 2, 0, 0⟩ : V3 ℝ)) (fun u => .ok ⟨2 - u, 0, 0⟩)
        (fun _ => .ok ⟨-1, 0, 0⟩) ⟨-a, 0, 0⟩ (0, 1) n 1 = .ok 1 := by
      intro n
      induction n with
      | zero => rfl
      | succ n ih =>
        simp only [newtonLoop, ok_bind]
        rw [if_neg, if_neg, clampInRange_eq]
        · simp only [ok_bind]
          rw [show (max (min (0 : ℝ) 1) (min (1 - (⟨2 - 1, 0, 0⟩ : V3 ℝ).dot (⟨2 * 1 - 1 ^ 2 / 2, 0, 0⟩ - ⟨-a, 0, 0⟩) /
              ((⟨-1, 0, 0⟩ : V3 ℝ).dot (⟨2 * 1 - 1 ^ 2 / 2, 0, 0⟩ - ⟨-a, 0, 0⟩) + (⟨2 - 1, 0, 0⟩ : V3 ℝ).lengthSq)) (max 0 1))) = 1 from ?_]
          · exact ih
          · simp only [V3.lengthSq, V3.dot, V3.sub_x, V3.sub_y, V3.sub_z]
            have hneg : (2 - 1) * (2 * 1 - 1 ^ 2 / 2 - -a) + 0 * (0 - 0) + 0 * (0 - 0) > 0 := by linarith
            have hden : -1 * (2 * 1 - 1 ^ 2 / 2 - -a) + 0 * (0 - 0) + 0 * (0 - 0) + ((2 - 1) * (2 - 1) + 0 * 0 + 0 * 0) < 0 := by linarith
            have := div_neg_of_pos_of_neg hneg hden
            rw [min_eq_left (by norm_num : (0 : ℝ) ≤ 1), max_eq_right (by norm_num : (0 : ℝ) ≤ 1), min_eq_right (by linarith),
              max_eq_right (by norm_num)]
        · rw [near_zero, tol, not_le, lt_abs]
          left
          simp only [V3.dot, V3.sub_x, V3.sub_y, V3.sub_z]
          linarith
        · rw [near_zero, tol, not_le, lt_abs]
          left
          simp only [V3.lengthSq, V3.dot, V3.sub_x, V3.sub_y, V3.sub_z]
          nlinarith
    rw [show (0 : ℝ) + ((0 : Nat) : ℝ) * ((1 - 0) / ((2 * 4 : Nat) : ℝ)) = 0 by simp]
    rw [show (10 : Nat) = 9 + 1 from rfl]
    rw [newtonLoop.eq_2]
    simp only [ok_bind]
    rw [if_neg, if_neg, clampInRange_eq]
    · simp only [ok_bind]
      rw [show (max (min (0 : ℝ) 1) (min (0 - (⟨2 - 0, 0, 0⟩ : V3 ℝ).dot (⟨2 * 0 - 0 ^ 2 / 2, 0, 0⟩ - ⟨-a, 0, 0⟩) /
          ((⟨-1, 0, 0⟩ : V3 ℝ).dot (⟨2 * 0 - 0 ^ 2 / 2, 0, 0⟩ - ⟨-a, 0, 0⟩) + (⟨2 - 0, 0, 0⟩ : V3 ℝ).lengthSq)) (max 0 1))) = 1 from ?_]
      · exact stay 9
      · simp only [V3.lengthSq, V3.dot, V3.sub_x, V3.sub_y, V3.sub_z]
        have : (2 - 0) * (2 * 0 - 0 ^ 2 / 2 - -a) + 0 * (0 - 0) + 0 * (0 - 0) = 2 * a := by ring
        rw [this]
        have : -1 * (2 * 0 - 0 ^ 2 / 2 - -a) + 0 * (0 - 0) + 0 * (0 - 0) + ((2 - 0) * (2 - 0) + 0 * 0 + 0 * 0) = 4 - a := by ring
        rw [this]
        have h3 : 2 * a / (4 - a) ≤ -1 := by
          rw [div_le_iff_of_neg (by linarith)]
          linarith
        rw [min_eq_left (by norm_num : (0 : ℝ) ≤ 1), max_eq_right (by norm_num : (0 : ℝ) ≤ 1), min_eq_right (by linarith),
          max_eq_right (by norm_num)]
    · rw [near_zero, tol, not_le, lt_abs]
      left
      simp only [V3.dot, V3.sub_x, V3.sub_y, V3.sub_z]
      linarith
    · rw [near_zero, tol, not_le, lt_abs]
      left
      simp only [V3.lengthSq, V3.dot, V3.sub_x, V3.sub_y, V3.sub_z]
      nlinarith
  · intro u h0 h1
    rw [pt, pt, len _ (by nlinarith), len _ (by linarith)]
    nlinarith
  · rw [pt, len _ (by linarith)]
    ring
  · rw [pt, len _ (by linarith)]
    ring

/-- **C157** The same in binary64. -/
theorem C157_furthest_f64 :
    (BezierCurve.mk [⟨0, 0, 0⟩, ⟨1, 0, 0⟩, (⟨1.5, 0, 0⟩ : V3 Float)]).project ⟨-10, 0, 0⟩ = .ok 1 := by decide +kernel

/-- **C157** Where the first two control points coincide, points of the curve itself are not found: those nearer to the
start than to the other samples get the parameter of the start. -/
theorem C157_double {A B : V3 ℝ} (hAB : A ≠ B) {t : ℝ} (ht : 128 * t ^ 2 < 1) (hmax : (B - A).lengthSq < Env.maxV) :
    let b : BezierCurve (V3 ℝ) := ⟨[A, A, B]⟩
    b.project (valOf (b.getPoint t)) = .ok 0 ∧
      (valOf (b.getPoint (0 : ℝ)) - valOf (b.getPoint t)).length = t ^ 2 * (B - A).length := by
  intro b
  obtain ⟨q1, q2, -⟩ := quad_derivs A A B
  have c0 : ∀ u : ℝ, valOf ((BezierCurve.mk [A, A, B]).getPoint u) = A + u ^ 2 • (B - A) := by
    intro u
    rw [(quad_points _ _ _ u).1]
    ext <;> simp
    all_goals ring
  have c1 : ∀ u : ℝ, valOf ((BezierCurve.mk [(2 : ℝ) • (A - A), (2 : ℝ) • (B - A)]).getPoint u) = (2 * u) • (B - A) := by
    intro u
    rw [(quad_points _ _ 0 u).2.1]
    ext <;> simp
    all_goals ring
  have c2 : ∀ u : ℝ, valOf ((BezierCurve.mk [(2 : ℝ) • (B - A) - (2 : ℝ) • (A - A)]).getPoint u) = (2 : ℝ) • (B - A) := by
    intro u
    rw [(quad_points _ 0 0 u).2.2]
    ext <;> simp
  have hD : 0 < (B - A).dot (B - A) := V3.dot_self_pos (sub_ne_zero.2 (Ne.symm hAB))
  have hsq : ∀ x y : ℝ, ((A + x • (B - A)) - (A + y • (B - A))).lengthSq = (x - y) ^ 2 * (B - A).dot (B - A) := by
    intro x y
    simp only [V3.lengthSq, V3.dot, V3.sub_x, V3.sub_y, V3.sub_z, V3.add_x, V3.add_y, V3.add_z, V3.smul_x, V3.smul_y, V3.smul_z]
    ring
  have ht0 := sq_nonneg t
  constructor
  · rw [(bezier_project (n := 2) rfl (le_refl _) q1 q2 _).1]
    change findNearestParameter _ _ _ (valOf ((BezierCurve.mk [A, A, B]).getPoint t)) _ _ _ = _
    simp only [c0, c1, c2]
    obtain ⟨i, hi, e, hnear⟩ := findNearest_start (fun u : ℝ => A + u ^ 2 • (B - A)) (fun u => (2 * u) • (B - A))
      (fun _ => (2 : ℝ) • (B - A)) (A + t ^ 2 • (B - A)) 0 1 (division := 2 * 4) 10 (by norm_num) (by
        rw [hsq]
        refine lt_of_le_of_lt ?_ hmax
        unfold V3.lengthSq
        apply mul_le_of_le_one_left hD.le
        nlinarith)
    rw [e]
    have h0 := hnear 0 (Nat.zero_le _)
    have hi0 : i = 0 := by
      by_contra hne
      have h1 : (1 : ℝ) ≤ i := by exact_mod_cast Nat.one_le_iff_ne_zero.2 hne
      rw [hsq, hsq] at h0
      have h2 := le_of_mul_le_mul_right h0 hD
      push_cast at h2
      have h3 : 1 / 64 ≤ (0 + (i : ℝ) * ((1 - 0) / (2 * 4))) ^ 2 := by nlinarith
      nlinarith
    rw [hi0, show (0 : ℝ) + ((0 : Nat) : ℝ) * ((1 - 0) / ((2 * 4 : Nat) : ℝ)) = 0 by simp]
    rw [show (10 : Nat) = 9 + 1 from rfl]
    rw [newtonLoop.eq_2]
    simp only [ok_bind]
    split
    · rfl
    · rw [if_pos]
      · rfl
      · rw [near_zero, mul_zero, zero_smul, V3.zero_dot, abs_zero]
        norm_num [Env.tol]
  · change (valOf ((BezierCurve.mk [A, A, B]).getPoint (0 : ℝ)) - valOf ((BezierCurve.mk [A, A, B]).getPoint t)).length = _
    rw [c0, c0, V3.length_eq, V3.length_eq]
    have := hsq (0 ^ 2) (t ^ 2)
    unfold V3.lengthSq at this
    rw [this, Real.sqrt_mul (sq_nonneg _), Real.sqrt_sq_eq_abs, abs_of_nonpos (by nlinarith)]
    ring

/-- The hypotheses of C157_furthest and C157_double can be met. -/
example : (BezierCurve.mk [⟨0, 0, 0⟩, ⟨1, 0, 0⟩, (⟨3 / 2, 0, 0⟩ : V3 ℝ)]).project ⟨-5, 0, 0⟩ = .ok 1 :=
  (C157_furthest (a := 5) (by norm_num) (lt_of_lt_of_le (by norm_num) maxV_big)).1
example : (BezierCurve.mk [⟨0, 0, 0⟩, ⟨0, 0, 0⟩, (⟨128, 0, 0⟩ : V3 ℝ)]).project
    (valOf ((BezierCurve.mk [⟨0, 0, 0⟩, ⟨0, 0, 0⟩, (⟨128, 0, 0⟩ : V3 ℝ)]).getPoint (1 / 12 : ℝ))) = .ok 0 :=
  (C157_double (A := ⟨0, 0, 0⟩) (B := ⟨128, 0, 0⟩) (by simp [V3.ext_iff]) (by norm_num)
    (lt_of_lt_of_le (by norm_num [V3.lengthSq, V3.dot]) maxV_big)).1

end Geom3d
