import Verif.Props.Examples
import Verif.Lemmas.Deviation

/-! # C150: how far the mesh of a Bézier patch is from the patch -/

set_option linter.unusedSectionVars false

namespace Geom3d
open Spec

/-- The second differences of the control points `P i j`, `i ≤ m`, `j ≤ n`, are not longer than `A` along the first index,
`B` across, and `C` along the second index. -/
structure Spec.NetBends (m n : Nat) (P : Nat → Nat → V3 ℝ) (A B C : ℝ) : Prop where
  uu : ∀ i j, i + 2 ≤ m → j ≤ n → (P (i + 2) j - (2 : ℝ) • P (i + 1) j + P i j).length ≤ A
  uv : ∀ i j, i + 1 ≤ m → j + 1 ≤ n → (P (i + 1) (j + 1) - P (i + 1) j - P i (j + 1) + P i j).length ≤ B
  vv : ∀ i j, i ≤ m → j + 2 ≤ n → (P i (j + 2) - (2 : ℝ) • P i (j + 1) + P i j).length ≤ C
  nonneg : 0 ≤ A ∧ 0 ≤ B ∧ 0 ≤ C

/-- The bound for cells of sides `g`, `h` of a patch of degrees `m`, `n`. -/
noncomputable def Spec.patchError (m n : Nat) (A B C g h : ℝ) : ℝ :=
  ((m : ℝ) * (m - 1) * A * g ^ 2 + 2 * (m * n * B) * (g * h) + n * (n - 1) * C * h ^ 2) / 8

/-- Weights of a point of a triangle. -/
structure Spec.Shares (r s t : ℝ) : Prop where
  first : 0 ≤ r
  second : 0 ≤ s
  third : 0 ≤ t
  sum : r + s + t = 1

/-- The point of a triangle with given weights. -/
noncomputable def Spec.mix (T : Tri ℝ) (r s t : ℝ) : V3 ℝ := r • T.1 + s • T.2.1 + t • T.2.2

/-- The point of a patch with control points `P i j`. -/
noncomputable def Spec.patchPoint (m n : Nat) (P : Nat → Nat → V3 ℝ) (u v : ℝ) : V3 ℝ :=
  ∑ i ∈ Finset.range (m + 1), ∑ j ∈ Finset.range (n + 1), (bernsteinPoly m i u * bernsteinPoly n j v) • P i j

namespace Deviation

theorem dot_sum {ι : Type} (w : V3 ℝ) (S : Finset ι) (f : ι → V3 ℝ) : w.dot (∑ i ∈ S, f i) = ∑ i ∈ S, w.dot (f i) := by
  classical
  induction S using Finset.induction_on with
  | empty => simp [V3.dot_zero]
  | insert a S ha ih => rw [Finset.sum_insert ha, Finset.sum_insert ha, V3.dot_add, ih]

theorem dot_patch (m n : Nat) (P : Nat → Nat → V3 ℝ) (u v : ℝ) (w : V3 ℝ) :
    w.dot (patchPoint m n P u v) = tens m n (fun i j => w.dot (P i j)) u v := by
  simp only [patchPoint, tens, dot_sum, V3.dot_smul]

theorem abs_dot_le {w x : V3 ℝ} {M : ℝ} (h : x.length ≤ M) : |w.dot x| ≤ w.length * M := by
  have h1 := V3.dot_le w x
  have h2 := V3.dot_le w (-x)
  rw [V3.dot_neg, V3.length_neg] at h2
  have h3 := mul_le_mul_of_nonneg_left h (V3.length_nonneg w)
  rw [abs_le]
  constructor <;> linarith

theorem bends_dot {m n : Nat} {P : Nat → Nat → V3 ℝ} {A B C : ℝ} (h : NetBends m n P A B C) (w : V3 ℝ) :
    Bends m n (fun i j => w.dot (P i j)) (w.length * A) (w.length * B) (w.length * C) := by
  constructor
  · intro i j hi hj
    have := abs_dot_le (w := w) (h.uu i j hi hj)
    rwa [V3.dot_add, V3.dot_sub, V3.dot_smul] at this
  · intro i j hi hj
    have := abs_dot_le (w := w) (h.uv i j hi hj)
    rwa [V3.dot_add, V3.dot_sub, V3.dot_sub] at this
  · intro i j hi hj
    have := abs_dot_le (w := w) (h.vv i j hi hj)
    rwa [V3.dot_add, V3.dot_sub, V3.dot_smul] at this

theorem cast_pred (k : Nat) : (k : ℝ) * ((k - 1 : ℕ) : ℝ) = k * ((k : ℝ) - 1) := by
  cases k with
  | zero => simp
  | succ k => simp

/-- A point of the patch and the point of a triangle between points of the patch, in one cell of the parameters. -/
theorem patch_dist {m n : Nat} {P : Nat → Nat → V3 ℝ} {A B C : ℝ} (hN : NetBends m n P A B C) {a b g h : ℝ} (hg : 0 < g)
    (hh : 0 < h) (ha0 : 0 ≤ a) (ha1 : a + g ≤ 1) (hb0 : 0 ≤ b) (hb1 : b + h ≤ 1) {x y z : ℝ × ℝ} (hx : Corner a b g h x)
    (hy : Corner a b g h y) (hz : Corner a b g h z) {r s t : ℝ} (hw : Shares r s t) :
    (patchPoint m n P (r * x.1 + s * y.1 + t * z.1) (r * x.2 + s * y.2 + t * z.2)).distance
      (mix (patchPoint m n P x.1 x.2, patchPoint m n P y.1 y.2, patchPoint m n P z.1 z.2) r s t)
        ≤ patchError m n A B C g h := by
  unfold V3.distance
  set X := patchPoint m n P (r * x.1 + s * y.1 + t * z.1) (r * x.2 + s * y.2 + t * z.2) -
    mix (patchPoint m n P x.1 x.2, patchPoint m n P y.1 y.2, patchPoint m n P z.1 z.2) r s t with hX
  have hl := V3.length_nonneg X
  obtain ⟨nA, nB, nC⟩ := hN.nonneg
  have key := abs_tens_sub_le (bends_dot hN X) hg hh ha0 ha1 hb0 hb1 (mul_nonneg hl nA) (mul_nonneg hl nB)
    (mul_nonneg hl nC) hx hy hz hw.first hw.second hw.third hw.sum
  simp only [← dot_patch] at key
  have e : X.dot (patchPoint m n P (r * x.1 + s * y.1 + t * z.1) (r * x.2 + s * y.2 + t * z.2)) -
      (r * X.dot (patchPoint m n P x.1 x.2) + s * X.dot (patchPoint m n P y.1 y.2) +
        t * X.dot (patchPoint m n P z.1 z.2)) = X.dot X := by
    conv_rhs => rw [hX]
    rw [← hX, V3.dot_sub, mix, V3.dot_add, V3.dot_add, V3.dot_smul, V3.dot_smul, V3.dot_smul]
  rw [e, ← V3.length_mul_self] at key
  have k2 := (le_abs_self _).trans key
  have e2 : (↑m * ↑(m - 1) * (X.length * A) * g ^ 2 + 2 * (↑m * ↑n * (X.length * B)) * (g * h) +
      ↑n * ↑(n - 1) * (X.length * C) * h ^ 2) / 8 = X.length * patchError m n A B C g h := by
    unfold patchError
    have e3 := cast_pred m
    have e4 := cast_pred n
    linear_combination X.length * A * g ^ 2 / 8 * e3 + X.length * C * h ^ 2 / 8 * e4
  rw [e2] at k2
  rcases hl.eq_or_lt with h0 | h0
  · rw [← h0]
    have h1 := cast_pred m
    have h2 := cast_pred n
    unfold patchError
    rw [← h1, ← h2]
    positivity
  · exact le_of_mul_le_mul_left k2 h0

/-- Every point of a cell lies in one of its two triangles. -/
theorem cell_weights {a b g h u v : ℝ} (hg : 0 < g) (hh : 0 < h) (hu0 : a ≤ u) (hu1 : u ≤ a + g) (hv0 : b ≤ v)
    (hv1 : v ≤ b + h) :
    (∃ r s t, Shares r s t ∧ u = r * a + s * (a + g) + t * a ∧ v = r * b + s * b + t * (b + h)) ∨
    (∃ r s t, Shares r s t ∧ u = r * a + s * (a + g) + t * (a + g) ∧ v = r * (b + h) + s * b + t * (b + h)) := by
  have p0 : 0 ≤ (u - a) / g := div_nonneg (by linarith) hg.le
  have p1 : (u - a) / g ≤ 1 := (div_le_one hg).2 (by linarith)
  have q0 : 0 ≤ (v - b) / h := div_nonneg (by linarith) hh.le
  have q1 : (v - b) / h ≤ 1 := (div_le_one hh).2 (by linarith)
  have eu : u = a + (u - a) / g * g := by field_simp; ring
  have ev : v = b + (v - b) / h * h := by field_simp; ring
  generalize (u - a) / g = p at *
  generalize (v - b) / h = q at *
  rcases le_total (p + q) 1 with hpq | hpq
  · exact Or.inl ⟨1 - p - q, p, q, ⟨by linarith, p0, q0, by ring⟩, by rw [eu]; ring, by rw [ev]; ring⟩
  · exact Or.inr ⟨1 - p, 1 - q, p + q - 1, ⟨by linarith, by linarith, by linarith, by ring⟩, by rw [eu]; ring,
      by rw [ev]; ring⟩

/-- Every point of a divided range lies between two neighbouring entries. -/
theorem find_cell {a g u : ℝ} {k : Nat} (hk : 1 ≤ k) (h0 : a ≤ u) (h1 : u ≤ a + k * g) :
    ∃ i, i < k ∧ a + i * g ≤ u ∧ u ≤ a + (i * g) + g := by
  induction k with
  | zero => omega
  | succ k ih =>
    rcases le_total u (a + k * g) with hu | hu
    · rcases Nat.eq_zero_or_pos k with rfl | hp
      · exact ⟨0, by omega, by simpa using h0, by simpa using h1⟩
      · obtain ⟨i, hi, k1, k2⟩ := ih hp hu
        exact ⟨i, by omega, k1, k2⟩
    · exact ⟨k, by omega, hu, by push_cast at h1; linarith⟩

end Deviation

open Deviation

/-- The triangles of a patch over a divided rectangle of parameters are near the patch, and the patch is near them. -/
structure Spec.CloseMesh (S : ℝ → ℝ → V3 ℝ) (U V : ℝ × ℝ) (ts : List (Tri ℝ)) (ε : ℝ) : Prop where
  triangles : ∀ T ∈ ts, ∃ x y z : ℝ × ℝ, (∀ q ∈ [x, y, z], (U.1 ≤ q.1 ∧ q.1 ≤ U.2) ∧ V.1 ≤ q.2 ∧ q.2 ≤ V.2) ∧
    T = (S x.1 x.2, S y.1 y.2, S z.1 z.2) ∧ ∀ r s t, Shares r s t →
      (S (r * x.1 + s * y.1 + t * z.1) (r * x.2 + s * y.2 + t * z.2)).distance (mix T r s t) ≤ ε
  surface : ∀ u v, U.1 ≤ u → u ≤ U.2 → V.1 ≤ v → v ≤ V.2 → ∃ T ∈ ts, ∃ r s t, Shares r s t ∧
    (S u v).distance (mix T r s t) ≤ ε

theorem mem_gridTriangles {F : Type} {q : Nat → Nat → V3 F} {a b : Nat} {T : Tri F} :
    T ∈ gridTriangles q a b ↔ ∃ i j, i < a ∧ j < b ∧
      (T = (q i j, q (i + 1) j, q i (j + 1)) ∨ T = (q i (j + 1), q (i + 1) j, q (i + 1) (j + 1))) := by
  simp only [gridTriangles, List.mem_flatMap, List.mem_range, List.mem_cons, List.not_mem_nil, or_false]
  constructor
  · rintro ⟨i, hi, j, hj, h⟩; exact ⟨i, j, hi, hj, h⟩
  · rintro ⟨i, j, hi, hj, h⟩; exact ⟨i, hi, j, hj, h⟩

theorem near_grid {m n : Nat} {P : Nat → Nat → V3 ℝ} {A B C : ℝ} (hN : NetBends m n P A B C) {u0 u1 v0 v1 : ℝ}
    (hu : u0 < u1) (hv : v0 < v1) (hu0 : 0 ≤ u0) (hu1 : u1 ≤ 1) (hv0 : 0 ≤ v0) (hv1 : v1 ≤ 1) {a b : Nat} (ha : 1 ≤ a)
    (hb : 1 ≤ b) :
    CloseMesh (patchPoint m n P) (u0, u1) (v0, v1)
      (gridTriangles (fun i j => patchPoint m n P (u0 + i * ((u1 - u0) / a)) (v0 + j * ((v1 - v0) / b))) a b)
      (patchError m n A B C ((u1 - u0) / a) ((v1 - v0) / b)) := by
  have ha' : (0 : ℝ) < a := by exact_mod_cast ha
  have hb' : (0 : ℝ) < b := by exact_mod_cast hb
  have hg : 0 < (u1 - u0) / a := div_pos (by linarith) ha'
  have hh : 0 < (v1 - v0) / b := div_pos (by linarith) hb'
  have eg : u0 + a * ((u1 - u0) / a) = u1 := by field_simp; ring
  have eh : v0 + b * ((v1 - v0) / b) = v1 := by field_simp; ring
  generalize (u1 - u0) / a = g at *
  generalize (v1 - v0) / b = h at *
  have cell : ∀ i j, i < a → j < b → 0 ≤ u0 + i * g ∧ u0 + i * g + g ≤ u1 ∧ 0 ≤ v0 + j * h ∧ v0 + j * h + h ≤ v1 := by
    intro i j hi hj
    have hi' : (i : ℝ) + 1 ≤ a := by exact_mod_cast hi
    have hj' : (j : ℝ) + 1 ≤ b := by exact_mod_cast hj
    have z1 : (0 : ℝ) ≤ i := Nat.cast_nonneg i
    have z2 : (0 : ℝ) ≤ j := Nat.cast_nonneg j
    exact ⟨by positivity, by rw [← eg]; nlinarith, by positivity, by rw [← eh]; nlinarith⟩
  have e1 : ∀ i : Nat, u0 + ((i + 1 : ℕ) : ℝ) * g = u0 + i * g + g := fun i => by push_cast; ring
  have e2 : ∀ j : Nat, v0 + ((j + 1 : ℕ) : ℝ) * h = v0 + j * h + h := fun j => by push_cast; ring
  constructor
  · intro T hT
    rw [mem_gridTriangles] at hT
    obtain ⟨i, j, hi, hj, hT⟩ := hT
    obtain ⟨c1, c2, c3, c4⟩ := cell i j hi hj
    have m1 : u0 ≤ u0 + i * g := by have : (0 : ℝ) ≤ i := Nat.cast_nonneg i; nlinarith
    have m2 : v0 ≤ v0 + j * h := by have : (0 : ℝ) ≤ j := Nat.cast_nonneg j; nlinarith
    simp only [e1, e2] at hT
    rcases hT with rfl | rfl
    · refine ⟨(u0 + i * g, v0 + j * h), (u0 + i * g + g, v0 + j * h), (u0 + i * g, v0 + j * h + h), ?_, rfl, ?_⟩
      · simp only [List.mem_cons, List.not_mem_nil, or_false]
        rintro q (rfl | rfl | rfl) <;> refine ⟨⟨?_, ?_⟩, ?_, ?_⟩ <;> simp only [] <;> linarith
      · intro r s t hw
        exact patch_dist hN hg hh c1 (c2.trans hu1) c3 (c4.trans hv1) (x := (_, _)) (y := (_, _)) (z := (_, _))
          ⟨Or.inl rfl, Or.inl rfl⟩ ⟨Or.inr rfl, Or.inl rfl⟩ ⟨Or.inl rfl, Or.inr rfl⟩ hw
    · refine ⟨(u0 + i * g, v0 + j * h + h), (u0 + i * g + g, v0 + j * h), (u0 + i * g + g, v0 + j * h + h), ?_, rfl, ?_⟩
      · simp only [List.mem_cons, List.not_mem_nil, or_false]
        rintro q (rfl | rfl | rfl) <;> refine ⟨⟨?_, ?_⟩, ?_, ?_⟩ <;> simp only [] <;> linarith
      · intro r s t hw
        exact patch_dist hN hg hh c1 (c2.trans hu1) c3 (c4.trans hv1) (x := (_, _)) (y := (_, _)) (z := (_, _))
          ⟨Or.inl rfl, Or.inr rfl⟩ ⟨Or.inr rfl, Or.inl rfl⟩ ⟨Or.inr rfl, Or.inr rfl⟩ hw
  · intro u v k1 k2 k3 k4
    simp only [] at k1 k2 k3 k4
    obtain ⟨i, hi, i1, i2⟩ := find_cell ha k1 (by rw [eg]; exact k2)
    obtain ⟨j, hj, j1, j2⟩ := find_cell hb k3 (by rw [eh]; exact k4)
    obtain ⟨c1, c2, c3, c4⟩ := cell i j hi hj
    rcases cell_weights hg hh i1 i2 j1 j2 with ⟨r, s, t, hw, eu, ev⟩ | ⟨r, s, t, hw, eu, ev⟩
    · refine ⟨_, mem_gridTriangles.2 ⟨i, j, hi, hj, Or.inl rfl⟩, r, s, t, hw, ?_⟩
      simp only [e1, e2]
      rw [eu, ev]
      exact patch_dist hN hg hh c1 (c2.trans hu1) c3 (c4.trans hv1) (x := (_, _)) (y := (_, _)) (z := (_, _))
        ⟨Or.inl rfl, Or.inl rfl⟩ ⟨Or.inr rfl, Or.inl rfl⟩ ⟨Or.inl rfl, Or.inr rfl⟩ hw
    · refine ⟨_, mem_gridTriangles.2 ⟨i, j, hi, hj, Or.inr rfl⟩, r, s, t, hw, ?_⟩
      simp only [e1, e2]
      rw [eu, ev]
      exact patch_dist hN hg hh c1 (c2.trans hu1) c3 (c4.trans hv1) (x := (_, _)) (y := (_, _)) (z := (_, _))
        ⟨Or.inl rfl, Or.inr rfl⟩ ⟨Or.inr rfl, Or.inl rfl⟩ ⟨Or.inr rfl, Or.inr rfl⟩ hw

theorem surface_patchPoint {s : BezierSurface (V3 ℝ)} (hg : NetOk s.controlPoints) (hr : 1 ≤ s.controlPoints.rows)
    (hc : 1 ≤ s.controlPoints.cols) (u v : ℝ) : s.getPoint u v =
      .ok (patchPoint (s.controlPoints.rows - 1) (s.controlPoints.cols - 1) (entry s.controlPoints) u v) := by
  rw [bezierSurface_getPoint hg hr hc]
  congr 1
  unfold patchPoint
  rw [Nat.sub_add_cancel hr, Nat.sub_add_cancel hc]

/-- **C150** The mesh of a Bézier patch over a rectangle of parameters in the unit square, divided `a` by `b`: every point of
every triangle is within `patchError` of the point of the patch with the same weights of the parameters of the corners, and
every point of the patch is within `patchError` of a triangle. -/
theorem C150_mesh {s : BezierSurface (V3 ℝ)} (hg : NetOk s.controlPoints) (hr : 1 ≤ s.controlPoints.rows)
    (hc : 1 ≤ s.controlPoints.cols) {A B C : ℝ}
    (hN : NetBends (s.controlPoints.rows - 1) (s.controlPoints.cols - 1) (entry s.controlPoints) A B C) {u0 u1 v0 v1 : ℝ}
    (hu : u0 < u1) (hv : v0 < v1) (hu0 : 0 ≤ u0) (hu1 : u1 ≤ 1) (hv0 : 0 ≤ v0) (hv1 : v1 ≤ 1) {a b : Nat} (ha : 1 ≤ a)
    (hb : 1 ≤ b) (hsz : (a + 1) * (b + 1) ≤ 2 ^ 32) :
    ∃ S mesh ts, (∀ u v, s.getPoint u v = .ok (S u v)) ∧
      (SurfacePatch.mk s.surface ((u0, u1), (v0, v1)) (a, b)).getTriangleMesh = .ok mesh ∧ corners mesh = some ts ∧
      ts.length = 2 * (a * b) ∧
      CloseMesh S (u0, u1) (v0, v1) ts
        (patchError (s.controlPoints.rows - 1) (s.controlPoints.cols - 1) A B C ((u1 - u0) / a) ((v1 - v0) / b)) := by
  have hS := surface_patchPoint hg hr hc
  set S := patchPoint (s.controlPoints.rows - 1) (s.controlPoints.cols - 1) (entry s.controlPoints) with hSd
  obtain ⟨mesh, h1, -, -, h2, -⟩ := patch_mesh (p := SurfacePatch.mk s.surface ((u0, u1), (v0, v1)) (a, b)) rfl ha hb hsz
    (q := fun i j => S (u0 + i * ((u1 - u0) / a)) (v0 + j * ((v1 - v0) / b))) (by
      refine ⟨?_, fun us vs _ _ => ⟨[], rfl, Or.inl rfl⟩⟩
      intro us vs e1 e2 i j u v hui hvj
      obtain ⟨l1, f1, f2, f3⟩ := C28_entries (u0, u1) ha
      obtain ⟨l2, g1, g2, g3⟩ := C28_entries (v0, v1) hb
      simp only [] at e1 e2
      rw [e1] at f1; cases f1
      rw [e2] at g1; cases g1
      have hi : i ≤ a := by have := (List.getElem?_eq_some_iff.1 hui).1; omega
      have hj : j ≤ b := by have := (List.getElem?_eq_some_iff.1 hvj).1; omega
      have k1 := f3 i hi
      have k2 := g3 j hj
      rw [hui, Option.some.injEq] at k1
      rw [hvj, Option.some.injEq] at k2
      subst k1 k2
      exact hS _ _)
  refine ⟨S, mesh, _, hS, h1, h2, ?_, near_grid hN hu hv hu0 hu1 hv0 hv1 ha hb⟩
  simp [gridTriangles, List.length_flatMap]
  ring

/-- The bound shrinks with the square of the number of divisions. -/
theorem patchError_div (m n : Nat) (A B C g h : ℝ) {k : Nat} (hk : 1 ≤ k) :
    patchError m n A B C (g / k) (h / k) = patchError m n A B C g h / k ^ 2 := by
  have : (k : ℝ) ≠ 0 := by positivity
  unfold patchError
  field_simp

/-- **C150** The mesh converges: for every tolerance there is a number of divisions from which on it is met. -/
theorem C150_converges (m n : Nat) (A B C : ℝ) {ε : ℝ} (hε : 0 < ε) :
    ∃ N : Nat, 1 ≤ N ∧ ∀ k, N ≤ k → patchError m n A B C (1 / k) (1 / k) ≤ ε := by
  obtain ⟨N, hN⟩ := exists_nat_ge (patchError m n A B C 1 1 / ε)
  refine ⟨N + 1, by omega, fun k hk => ?_⟩
  have hk1 : 1 ≤ k := by omega
  rw [patchError_div _ _ _ _ _ _ _ hk1]
  have hk' : (N : ℝ) ≤ k := by exact_mod_cast (by omega : N ≤ k)
  have h1 : (1 : ℝ) ≤ k := by exact_mod_cast hk1
  rw [div_le_iff₀ (by positivity)]
  have := (div_le_iff₀ hε).1 (hN.trans hk')
  have h2 : (k : ℝ) * ε ≤ k * ε * k := le_mul_of_one_le_right (by positivity) h1
  linarith [show ε * (k : ℝ) ^ 2 = k * ε * k by ring]

/-- **C150** The files of `examples/bezier.rs`: the faces of the OBJ file are, patch by patch, triangles near the patch. -/
theorem C150_file {τ : Type} {parseN : τ → Option Nat} {parseF : τ → Option ℝ} {showN : Nat → τ} {showF : ℝ → τ}
    (hN : ∀ k, parseN (showN k) = some k) (hF : ∀ x, parseF (showF x) = some x) (f32 : ℝ → UInt32)
    {patches : List (BptPatch ℝ)} (h : patches ≠ []) (ho : ∀ p ∈ patches, 1 ≤ p.m ∧ 1 ≤ p.n) {a b : Nat} (ha : 1 ≤ a)
    (hb : 1 ≤ b) (hn : 2 * (patches.length * ((a + 1) * (b + 1))) < 2 ^ 32) :
    ∃ stl obj tss, bezierMain parseN parseF f32 (a, b) (bptFile showN showF patches) = .ok (stl, obj) ∧
      (objRead obj).faces = (List.flatten tss).map plainFace ∧
      List.Forall₂ (fun (p : BptPatch ℝ) ts => ∀ A B C, NetBends p.m p.n p.P A B C →
        CloseMesh p.point (0, 1) (0, 1) ts (patchError p.m p.n A B C (1 / a) (1 / b))) patches tss := by
  obtain ⟨stl, obj, h1, -, h3, -⟩ := C115_bezier hN hF f32 h ho ha hb hn
  refine ⟨stl, obj, patches.map fun p => gridTriangles (fun i j => p.point ((i : ℝ) / a) ((j : ℝ) / b)) a b, h1, ?_, ?_⟩
  · rw [h3, List.flatMap_def]
  · rw [List.forall₂_map_right_iff, List.forall₂_same]
    intro p _ A B C hB
    have := near_grid hB (show (0 : ℝ) < 1 by norm_num) (show (0 : ℝ) < 1 by norm_num) (le_refl _) (le_refl _) (le_refl _)
      (le_refl _) ha hb
    simp only [sub_zero, zero_add, mul_one_div] at this
    exact this

/-! ### Curves -/

/-- **C150** Between two parameters `u0 < u1` of the unit interval a Bézier curve is within `n (n - 1) A (u1 - u0)² / 8` of the
chord, where `A` bounds the second differences of its control points. -/
theorem C150_chord {c : BezierCurve (V3 ℝ)} (hl : 1 ≤ c.controlPoints.length) {A : ℝ} (hA : 0 ≤ A)
    (h : ∀ i, i + 2 < c.controlPoints.length →
      (cp c.controlPoints (i + 2) - (2 : ℝ) • cp c.controlPoints (i + 1) + cp c.controlPoints i).length ≤ A) {u0 u1 : ℝ}
    (h0 : 0 ≤ u0) (h01 : u0 < u1) (h1 : u1 ≤ 1) {t : ℝ} (ht0 : 0 ≤ t) (ht1 : t ≤ 1) :
    ∃ x y z, c.getPoint u0 = .ok x ∧ c.getPoint u1 = .ok y ∧ c.getPoint ((1 - t) * u0 + t * u1) = .ok z ∧
      z.distance ((1 - t) • x + t • y) ≤
        ((c.controlPoints.length : ℝ) - 1) * ((c.controlPoints.length : ℝ) - 2) * A * (u1 - u0) ^ 2 / 8 := by
  obtain ⟨n, hn⟩ : ∃ n, c.controlPoints.length = n + 1 := ⟨c.controlPoints.length - 1, by omega⟩
  set P : Nat → Nat → V3 ℝ := fun i _ => cp c.controlPoints i with hP
  have hB : NetBends n 0 P A 0 0 := by
    refine ⟨fun i j hi _ => h i (by omega), fun i j _ hj => by omega, fun i j _ hj => by omega, hA, le_refl _, le_refl _⟩
  have hpt : ∀ u v, c.getPoint u = .ok (patchPoint n 0 P u v) := by
    intro u v
    rw [bezier_getPoint c hl u, hn]
    congr 1
    unfold patchPoint
    apply Finset.sum_congr rfl
    intro i _
    simp [bernsteinPoly, hP]
  have key := patch_dist hB (a := u0) (b := 0) (g := u1 - u0) (h := 1) (by linarith) (by norm_num) h0 (by linarith)
    (by norm_num) (by norm_num) (x := (u0, 0)) (y := (u1, 0)) (z := (u0, 0)) ⟨Or.inl rfl, Or.inl rfl⟩
    ⟨Or.inr (by simp), Or.inl rfl⟩ ⟨Or.inl rfl, Or.inl rfl⟩ (r := 1 - t) (s := t) (t := 0)
    ⟨by linarith, ht0, le_refl _, by ring⟩
  refine ⟨_, _, _, hpt u0 0, hpt u1 0, hpt _ ((1 - t) * 0 + t * 0 + 0 * 0), ?_⟩
  have e : mix (patchPoint n 0 P u0 0, patchPoint n 0 P u1 0, patchPoint n 0 P u0 0) (1 - t) t 0 =
      (1 - t) • patchPoint n 0 P u0 0 + t • patchPoint n 0 P u1 0 := by
    simp [mix]
  simp only [zero_mul, add_zero] at key ⊢
  rw [e] at key
  refine key.trans (le_of_eq ?_)
  rw [hn]
  unfold patchError
  push_cast
  ring

/-! ### Examples -/

/-- The parabolic trough `(u, v, u²)`. -/
noncomputable def trough : Grid (V3 ℝ) := ⟨[⟨0, 0, 0⟩, ⟨0, 1, 0⟩, ⟨1 / 2, 0, 0⟩, ⟨1 / 2, 1, 0⟩, ⟨1, 0, 1⟩, ⟨1, 1, 1⟩], 3, 2⟩

theorem trough_bends : NetBends 2 1 (entry trough) 1 0 0 := by
  refine ⟨?_, ?_, fun i j _ hj => by omega, by norm_num, le_refl _, le_refl _⟩
  · intro i j hi hj
    have : i = 0 := by omega
    subst this
    have e : entry trough 2 j - (2 : ℝ) • entry trough 1 j + entry trough 0 j = ⟨0, 0, 1⟩ := by
      interval_cases j <;> ext <;> norm_num [entry, trough]
    rw [Nat.zero_add, e, V3.length_eq]
    simp [V3.dot]
  · intro i j hi hj
    have : j = 0 := by omega
    subst this
    have e : entry trough (i + 1) (0 + 1) - entry trough (i + 1) 0 - entry trough i (0 + 1) + entry trough i 0 = 0 := by
      have : i ≤ 1 := by omega
      interval_cases i <;> ext <;> norm_num [entry, trough]
    rw [e, V3.length_zero]

/-- **C150**, an example: the trough divided `a` by `b` is within `1 / (4 a²)` of its mesh. -/
example {a b : Nat} (ha : 1 ≤ a) (hb : 1 ≤ b) (hsz : (a + 1) * (b + 1) ≤ 2 ^ 32) :
    ∃ S mesh ts, (∀ u v, (BezierSurface.mk trough).getPoint u v = .ok (S u v)) ∧
      (SurfacePatch.mk (BezierSurface.mk trough).surface ((0, 1), (0, 1)) (a, b)).getTriangleMesh = .ok mesh ∧
      corners mesh = some ts ∧ ts.length = 2 * (a * b) ∧ CloseMesh S (0, 1) (0, 1) ts (1 / (4 * (a : ℝ) ^ 2)) := by
  obtain ⟨S, mesh, ts, h1, h2, h3, h4, h5⟩ := C150_mesh (s := ⟨trough⟩) rfl (by simp [trough]) (by simp [trough]) trough_bends
    (show (0 : ℝ) < 1 by norm_num) (show (0 : ℝ) < 1 by norm_num) (le_refl _) (le_refl _) (le_refl _) (le_refl _) ha hb hsz
  refine ⟨S, mesh, ts, h1, h2, h3, h4, ?_⟩
  have e : patchError 2 1 1 0 0 ((1 - 0) / (a : ℝ)) ((1 - 0) / (b : ℝ)) = 1 / (4 * (a : ℝ) ^ 2) := by
    have : (a : ℝ) ≠ 0 := by positivity
    unfold patchError
    field_simp
    norm_num
    ring
  rw [← e]
  exact h5

/-- **C150** The bound cannot be lowered: the trough in one cell is `1 / 4` away from its mesh in the middle of a side. -/
theorem C150_sharp : patchError 2 1 1 0 0 1 1 = 1 / 4 ∧
    ∃ x y z, (BezierSurface.mk trough).getPoint (0 : ℝ) 0 = .ok x ∧ (BezierSurface.mk trough).getPoint (1 : ℝ) 0 = .ok y ∧
      (BezierSurface.mk trough).getPoint (1 / 2 : ℝ) 0 = .ok z ∧
      z.distance ((1 / 2 : ℝ) • x + (1 / 2 : ℝ) • y) = 1 / 4 := by
  have hS := surface_patchPoint (s := ⟨trough⟩) rfl (by simp [trough]) (by simp [trough])
  refine ⟨by unfold patchError; norm_num, _, _, _, hS 0 0, hS 1 0, hS (1 / 2) 0, ?_⟩
  have e : ∀ u : ℝ, patchPoint 2 1 (entry trough) u 0 = ⟨u, 0, u ^ 2⟩ := by
    intro u
    unfold patchPoint
    ext <;> (simp [Finset.sum_range_succ, bernsteinPoly, entry, trough]; try ring)
  show (patchPoint 2 1 (entry trough) (1 / 2) 0).distance
    ((1 / 2 : ℝ) • patchPoint 2 1 (entry trough) 0 0 + (1 / 2 : ℝ) • patchPoint 2 1 (entry trough) 1 0) = 1 / 4
  rw [e, e, e]
  unfold V3.distance
  have : (⟨1 / 2, 0, (1 / 2) ^ 2⟩ - ((1 / 2 : ℝ) • (⟨0, 0, 0 ^ 2⟩ : V3 ℝ) + (1 / 2 : ℝ) • (⟨1, 0, 1 ^ 2⟩ : V3 ℝ)) : V3 ℝ) =
      ⟨0, 0, -(1 / 4)⟩ := by ext <;> norm_num
  rw [this, V3.length_eq]
  simp only [V3.dot]
  rw [show (0 : ℝ) * 0 + 0 * 0 + -(1 / 4) * -(1 / 4) = (1 / 4) ^ 2 by norm_num, Real.sqrt_sq (by norm_num)]

end Geom3d
