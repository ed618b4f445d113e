import Verif.Props.Watertight
import Mathlib.Analysis.SpecialFunctions.Integrals.Basic

/-!
# The volume of meshes (C163)

The volume of the cones over the triangles of a mesh, with sign, is what a slicer or a viewer takes for the volume of the solid.  It
converges to the flux integral of the surface, with an explicit bound.
-/

set_option linter.unusedSectionVars false

namespace Geom3d
open Spec

/-- The volume of the cone from `o` over a surface with the tangents `su`, `sv`, with sign. -/
noncomputable def Spec.coneVolume (o : V3 ℝ) (S su sv : ℝ → ℝ → V3 ℝ) (U V : ℝ × ℝ) : ℝ :=
  ∫ u in U.1..U.2, ∫ v in V.1..V.2, (S u v - o).dot ((su u v).cross (sv u v)) / 3

namespace Volume
open Area

/-- Sums over the cells of a grid and integrals over the rectangle. -/
theorem cells_integral {f : ℝ → ℝ → ℝ} {u0 u1 v0 v1 K ε : ℝ} (hK : 0 ≤ K) (hu : u0 < u1) (hv : v0 < v1)
    (hf : ∀ u ∈ Set.Icc u0 u1, ∀ v ∈ Set.Icc v0 v1, ∀ u' ∈ Set.Icc u0 u1, ∀ v' ∈ Set.Icc v0 v1,
      |f u v - f u' v'| ≤ K * (|u - u'| + |v - v'|))
    {a b : Nat} (ha : 1 ≤ a) (hb : 1 ≤ b) {X : Nat → Nat → ℝ}
    (hX : ∀ i j, i < a → j < b → ∀ u v, u0 + i * ((u1 - u0) / a) ≤ u → u ≤ u0 + i * ((u1 - u0) / a) + (u1 - u0) / a →
      v0 + j * ((v1 - v0) / b) ≤ v → v ≤ v0 + j * ((v1 - v0) / b) + (v1 - v0) / b →
      |X i j - (u1 - u0) / a * ((v1 - v0) / b * f u v)| ≤ (u1 - u0) / a * ((v1 - v0) / b * ε)) :
    |∑ i ∈ Finset.range a, ∑ j ∈ Finset.range b, X i j - ∫ u in u0..u1, ∫ v in v0..v1, f u v| ≤ (u1 - u0) * (v1 - v0) * ε := by
  have ha' : (0 : ℝ) < a := by exact_mod_cast ha
  have hb' : (0 : ℝ) < b := by exact_mod_cast hb
  have hg : 0 < (u1 - u0) / a := div_pos (by linarith) ha'
  have hh : 0 < (v1 - v0) / b := div_pos (by linarith) hb'
  have eg : (a : ℝ) * ((u1 - u0) / a) = u1 - u0 := by field_simp
  have eh : (b : ℝ) * ((v1 - v0) / b) = v1 - v0 := by field_simp
  generalize (u1 - u0) / (a : ℝ) = g at *
  generalize (v1 - v0) / (b : ℝ) = k at *
  have eu : u0 + a * g = u1 := by linarith
  have ev : v0 + b * k = v1 := by linarith
  have bi : ∀ {n i : Nat} {x : ℝ}, 0 < x → i < n → (0 : ℝ) ≤ i * x ∧ (i : ℝ) * x + x ≤ n * x := by
    intro n i x hx hi
    have h1 : (i : ℝ) + 1 ≤ n := by exact_mod_cast hi
    exact ⟨by positivity, by nlinarith⟩
  have fc : ∀ u ∈ Set.Icc u0 u1, ContinuousOn (f u) (Set.Icc v0 v1) := by
    intro u hu'
    refine LipschitzOnWith.continuousOn (K := ⟨K, hK⟩) (LipschitzOnWith.of_dist_le_mul fun x hx y hy => ?_)
    have := hf u hu' x hx u hu' y hy
    rw [sub_self, abs_zero, zero_add] at this
    exact this
  have ii : ∀ u ∈ Set.Icc u0 u1, IntervalIntegrable (f u) MeasureTheory.volume v0 v1 := by
    intro u hu'
    refine ContinuousOn.intervalIntegrable ?_
    rw [Set.uIcc_of_le hv.le]
    exact fc u hu'
  have Fc : ContinuousOn (fun u => ∫ v in v0..v1, f u v) (Set.Icc u0 u1) := by
    refine LipschitzOnWith.continuousOn (K := ⟨K * (v1 - v0), mul_nonneg hK (by linarith)⟩)
      (LipschitzOnWith.of_dist_le_mul fun x hx y hy => ?_)
    rw [Real.dist_eq, ← intervalIntegral.integral_sub (ii x hx) (ii y hy), ← Real.norm_eq_abs]
    have := intervalIntegral.norm_integral_le_of_norm_le_const (a := v0) (b := v1) (C := K * |x - y|)
      (f := fun v => f x v - f y v) (fun v hv' => by
        rw [Set.uIoc_of_le hv.le] at hv'
        have := hf x hx v ⟨hv'.1.le, hv'.2⟩ y hy v ⟨hv'.1.le, hv'.2⟩
        rw [sub_self, abs_zero, add_zero] at this
        exact this)
    rw [abs_of_pos (by linarith : 0 < v1 - v0)] at this
    refine this.trans (le_of_eq ?_)
    rw [Real.dist_eq]
    show _ = K * (v1 - v0) * |x - y|
    ring
  have outer := riemann (f := fun u => ∫ v in v0..v1, f u v) (x0 := u0) (ε := (v1 - v0) * ε) hg a (by rw [eu]; exact Fc)
    (c := fun i => ∑ j ∈ Finset.range b, X i j)
    (by
      intro i hi u hu0 hu1'
      obtain ⟨b1, b2⟩ := bi hg hi
      have hu' : u ∈ Set.Icc u0 u1 := ⟨by linarith, by linarith⟩
      have inner := riemann (f := f u) (x0 := v0) (ε := ε) hh b (by rw [ev]; exact fc u hu') (c := fun j => X i j / g)
        (by
          intro j hj v hv0 hv1'
          refine le_of_mul_le_mul_left ?_ hg
          rw [← abs_of_pos hg, ← abs_mul, abs_of_pos hg, mul_sub, mul_div_cancel₀ _ hg.ne']
          exact hX i j hi hj u v hu0 hu1' hv0 hv1')
      rw [ev, eh, ← Finset.sum_div] at inner
      have := mul_le_mul_of_nonneg_left inner hg.le
      rw [← abs_of_pos hg, ← abs_mul, abs_of_pos hg, mul_sub, mul_div_cancel₀ _ hg.ne'] at this
      exact this)
  rw [eu, eg] at outer
  refine outer.trans (le_of_eq ?_)
  ring

theorem volumeFrom_flatMap (o : V3 ℝ) {α : Type} (l : List α) (f : α → List (Tri ℝ)) :
    volumeFrom o (l.flatMap f) = (l.map fun x => volumeFrom o (f x)).sum := by
  induction l with
  | nil => rfl
  | cons x l ih =>
    rw [List.flatMap_cons, List.map_cons, List.sum_cons, ← ih]
    simp [volumeFrom]

theorem volumeFrom_grid (o : V3 ℝ) (q : Nat → Nat → V3 ℝ) (a b : Nat) : volumeFrom o (gridTriangles q a b) =
    ∑ i ∈ Finset.range a, ∑ j ∈ Finset.range b,
      ((q i j - o).dot ((q (i + 1) j - q i j).cross (q i (j + 1) - q i j)) / 6
        + (q i (j + 1) - o).dot ((q (i + 1) (j + 1) - q i (j + 1)).cross (q (i + 1) (j + 1) - q (i + 1) j)) / 6) := by
  unfold gridTriangles
  rw [volumeFrom_flatMap, sum_range_list]
  refine Finset.sum_congr rfl fun i _ => ?_
  rw [volumeFrom_flatMap, sum_range_list]
  refine Finset.sum_congr rfl fun j _ => ?_
  unfold volumeFrom
  simp only [List.map_cons, List.map_nil, List.sum_cons, List.sum_nil, add_zero]
  simp only [V3.dot, V3.cross, V3.sub_x, V3.sub_y, V3.sub_z]
  ring

/-- Products of nearly equal vectors. -/
theorem dot_near {a b c d : V3 ℝ} {ε δ A B : ℝ} (h1 : (a - c).length ≤ ε) (h2 : (b - d).length ≤ δ) (hc : a.length ≤ A)
    (hb : d.length ≤ B) : |a.dot b - c.dot d| ≤ A * δ + ε * B := by
  have e : a.dot b - c.dot d = a.dot (b - d) + (a - c).dot d := by
    rw [V3.dot_sub, V3.sub_dot]; ring
  rw [e]
  refine (abs_add_le _ _).trans (add_le_add ?_ ?_)
  · refine (Deviation.abs_dot_le h2).trans ?_
    exact mul_le_mul_of_nonneg_right hc ((V3.length_nonneg _).trans h2)
  · refine (Deviation.abs_dot_le hb).trans ?_
    exact mul_le_mul_of_nonneg_right h1 ((V3.length_nonneg _).trans hb)

variable {S su sv : ℝ → ℝ → V3 ℝ} {u0 u1 v0 v1 L M R : ℝ} {o : V3 ℝ}

/-- The surface is Lipschitz. -/
theorem point_lip (h : Tangents S su sv (u0, u1) (v0, v1) L M) {u v u' v' : ℝ} (hu : u ∈ Set.Icc u0 u1) (hv : v ∈ Set.Icc v0 v1)
    (hu' : u' ∈ Set.Icc u0 u1) (hv' : v' ∈ Set.Icc v0 v1) : (S u v - S u' v').length ≤ L * (|u - u'| + |v - v'|) := by
  have one : ∀ (c c' : ℝ → V3 ℝ) (x0 x1 : ℝ), (∀ x ∈ Set.Icc x0 x1, ∀ w : V3 ℝ,
      HasDerivWithinAt (fun x => w.dot (c x)) (w.dot (c' x)) (Set.Icc x0 x1) x) → (∀ x ∈ Set.Icc x0 x1, (c' x).length ≤ L) →
      ∀ x ∈ Set.Icc x0 x1, ∀ y ∈ Set.Icc x0 x1, x ≤ y → (c y - c x).length ≤ L * |y - x| := by
    intro c c' x0 x1 hd hl x hx y hy hxy
    have := mean_value (c := c) (c' := c') hxy (z := 0) (ε := L)
      (fun t ht w => (hd t ⟨hx.1.trans ht.1, ht.2.trans hy.2⟩ w).mono (Set.Icc_subset_Icc hx.1 hy.2))
      (fun t ht => by rw [sub_zero]; exact hl t ⟨hx.1.trans ht.1, ht.2.trans hy.2⟩)
    rw [smul_zero, sub_zero] at this
    rwa [abs_of_nonneg (by linarith)]
  have two : ∀ (c c' : ℝ → V3 ℝ) (x0 x1 : ℝ), (∀ x ∈ Set.Icc x0 x1, ∀ w : V3 ℝ,
      HasDerivWithinAt (fun x => w.dot (c x)) (w.dot (c' x)) (Set.Icc x0 x1) x) → (∀ x ∈ Set.Icc x0 x1, (c' x).length ≤ L) →
      ∀ x ∈ Set.Icc x0 x1, ∀ y ∈ Set.Icc x0 x1, (c y - c x).length ≤ L * |y - x| := by
    intro c c' x0 x1 hd hl x hx y hy
    rcases le_total x y with hxy | hxy
    · exact one c c' x0 x1 hd hl x hx y hy hxy
    · rw [← V3.length_neg, neg_sub, abs_sub_comm]
      exact one c c' x0 x1 hd hl y hy x hx hxy
  have k1 := two (fun x => S x v) (fun x => su x v) u0 u1 (fun x hx w => h.du x hx v hv w) (fun x hx => h.su_le x hx v hv) u' hu' u hu
  have k2 := two (fun y => S u' y) (fun y => sv u' y) v0 v1 (fun y hy w => h.dv u' hu' y hy w) (fun y hy => h.sv_le u' hu' y hy) v' hv' v hv
  rw [← sub_add_sub_cancel (S u v) (S u' v) (S u' v')]
  refine (V3.length_add_le _ _).trans ?_
  linarith

theorem normal_le (h : Tangents S su sv (u0, u1) (v0, v1) L M) {u v : ℝ} (hu : u ∈ Set.Icc u0 u1) (hv : v ∈ Set.Icc v0 v1) :
    ((su u v).cross (sv u v)).length ≤ L ^ 2 := by
  refine (cross_le _ _).trans ?_
  rw [pow_two]
  exact mul_le_mul (h.su_le u hu v hv) (h.sv_le u hu v hv) (V3.length_nonneg _) ((V3.length_nonneg _).trans (h.su_le u hu v hv))

/-- The integrand is Lipschitz. -/
theorem flux_lip (h : Tangents S su sv (u0, u1) (v0, v1) L M)
    (hR : ∀ u ∈ Set.Icc u0 u1, ∀ v ∈ Set.Icc v0 v1, (S u v - o).length ≤ R) {u v u' v' : ℝ} (hu : u ∈ Set.Icc u0 u1)
    (hv : v ∈ Set.Icc v0 v1) (hu' : u' ∈ Set.Icc u0 u1) (hv' : v' ∈ Set.Icc v0 v1) :
    |(S u v - o).dot ((su u v).cross (sv u v)) / 3 - (S u' v' - o).dot ((su u' v').cross (sv u' v')) / 3| ≤
      (2 * (L * M) * R + L ^ 3) / 3 * (|u - u'| + |v - v'|) := by
  have k := cross_near_vec (h.su_lip u hu v hv u' hu' v' hv') (h.sv_lip u hu v hv u' hu' v' hv') (h.sv_le u hu v hv) (h.su_le u' hu' v' hv')
  have p := point_lip h hu hv hu' hv'
  rw [← sub_sub_sub_cancel_right _ _ o] at p
  have := dot_near p k (hR u hu v hv) (normal_le h hu' hv')
  rw [← sub_div, abs_div, abs_of_pos (by norm_num : (0 : ℝ) < 3), div_le_iff₀ (by norm_num)]
  refine this.trans (le_of_eq ?_)
  ring

/-- The cones over the two triangles of a cell. -/
theorem cell_volume (h : Tangents S su sv (u0, u1) (v0, v1) L M) (hu01 : u0 < u1) (hv01 : v0 ≤ v1)
    (hR : ∀ u ∈ Set.Icc u0 u1, ∀ v ∈ Set.Icc v0 v1, (S u v - o).length ≤ R) {a b g k : ℝ} (hg : 0 ≤ g)
    (hk : 0 ≤ k) (ha0 : u0 ≤ a) (ha1 : a + g ≤ u1) (hb0 : v0 ≤ b) (hb1 : b + k ≤ v1) {u v : ℝ} (hu : a ≤ u ∧ u ≤ a + g)
    (hv : b ≤ v ∧ v ≤ b + k) :
    |(S a b - o).dot ((S (a + g) b - S a b).cross (S a (b + k) - S a b)) / 6
      + (S a (b + k) - o).dot ((S (a + g) (b + k) - S a (b + k)).cross (S (a + g) (b + k) - S (a + g) b)) / 6
      - g * (k * ((S u v - o).dot ((su u v).cross (sv u v)) / 3))| ≤ g * (k * ((2 * (L * M) * R + L ^ 3) / 3 * (g + k))) := by
  obtain ⟨k1, k2⟩ := cell_vectors h hu01 hv01 hg hk ha0 ha1 hb0 hb1 hu hv
  have mu : ∀ x, a ≤ x → x ≤ a + g → x ∈ Set.Icc u0 u1 := fun x h1 h2 => ⟨by linarith, by linarith⟩
  have mv : ∀ x, b ≤ x → x ≤ b + k → x ∈ Set.Icc v0 v1 := fun x h1 h2 => ⟨by linarith, by linarith⟩
  obtain ⟨hL, hM⟩ := nonneg h hu01 hv01
  have near : ∀ y, b ≤ y → y ≤ b + k → (S a y - o - (S u v - o)).length ≤ L * (g + k) := by
    intro y hy0 hy1
    rw [sub_sub_sub_cancel_right]
    refine (point_lip h (mu a le_rfl (by linarith)) (mv y hy0 hy1) (mu u hu.1 hu.2) (mv v hv.1 hv.2)).trans (mul_le_mul_of_nonneg_left ?_ hL)
    exact add_le_add (abs_le.2 ⟨by linarith, by linarith⟩) (abs_le.2 ⟨by linarith, by linarith⟩)
  have hN : (g • k • (su u v).cross (sv u v)).length ≤ g * (k * L ^ 2) := by
    rw [V3.length_smul, V3.length_smul, abs_of_nonneg hg, abs_of_nonneg hk]
    have := normal_le h (mu u hu.1 hu.2) (mv v hv.1 hv.2)
    gcongr
  have d1 := dot_near (near b le_rfl (by linarith)) k1 (hR a (mu a le_rfl (by linarith)) b (mv b le_rfl (by linarith))) hN
  have d2 := dot_near (near (b + k) (by linarith) le_rfl) k2
    (hR a (mu a le_rfl (by linarith)) (b + k) (mv (b + k) (by linarith) le_rfl)) hN
  rw [V3.dot_smul, V3.dot_smul] at d1 d2
  rw [abs_le] at d1 d2 ⊢
  constructor <;> nlinarith [d1.1, d1.2, d2.1, d2.2]

end Volume

open Volume Area

/-- **C163** The volume of the cones over the triangles of a grid differs from the volume of the cone over the surface by at most
`(2 L M R + L³) / 3 (g + h)` times the area of the rectangle of parameters. -/
theorem C163_grid {S su sv : ℝ → ℝ → V3 ℝ} {u0 u1 v0 v1 L M R : ℝ} {o : V3 ℝ} (h : Tangents S su sv (u0, u1) (v0, v1) L M) (hu : u0 < u1)
    (hv : v0 < v1) (hR : ∀ u ∈ Set.Icc u0 u1, ∀ v ∈ Set.Icc v0 v1, (S u v - o).length ≤ R) {a b : Nat} (ha : 1 ≤ a) (hb : 1 ≤ b) :
    |volumeFrom o (gridTriangles (fun i j => S (u0 + i * ((u1 - u0) / a)) (v0 + j * ((v1 - v0) / b))) a b)
      - coneVolume o S su sv (u0, u1) (v0, v1)| ≤
        (u1 - u0) * (v1 - v0) * ((2 * (L * M) * R + L ^ 3) / 3 * ((u1 - u0) / a + (v1 - v0) / b)) := by
  obtain ⟨hL, hM⟩ := nonneg h hu hv.le
  have hR0 : 0 ≤ R := (V3.length_nonneg _).trans (hR u0 ⟨le_rfl, hu.le⟩ v0 ⟨le_rfl, hv.le⟩)
  have ha' : (0 : ℝ) < a := by exact_mod_cast ha
  have hb' : (0 : ℝ) < b := by exact_mod_cast hb
  rw [volumeFrom_grid]
  have e1 : ∀ i : Nat, u0 + ((i + 1 : ℕ) : ℝ) * ((u1 - u0) / a) = u0 + i * ((u1 - u0) / a) + (u1 - u0) / a := fun i => by push_cast; ring
  have e2 : ∀ j : Nat, v0 + ((j + 1 : ℕ) : ℝ) * ((v1 - v0) / b) = v0 + j * ((v1 - v0) / b) + (v1 - v0) / b := fun j => by push_cast; ring
  simp only [e1, e2]
  refine cells_integral (K := (2 * (L * M) * R + L ^ 3) / 3) (by positivity) hu hv
    (fun u hu' v hv' u' hu'' v' hv'' => flux_lip h hR hu' hv' hu'' hv'') ha hb (fun i j hi hj u v hu0' hu1' hv0' hv1' => ?_)
  have hg : 0 < (u1 - u0) / a := div_pos (by linarith) ha'
  have hh : 0 < (v1 - v0) / b := div_pos (by linarith) hb'
  have bi : ∀ {n i : Nat} {x y : ℝ}, 0 < n → 0 < x → i < n → (0 : ℝ) ≤ i * (x / n) ∧ (i : ℝ) * (x / n) + x / n ≤ x := by
    intro n i x y hn hx hi
    have h1 : (i : ℝ) + 1 ≤ n := by exact_mod_cast hi
    have h2 : (0 : ℝ) < n := by exact_mod_cast hn
    refine ⟨by positivity, ?_⟩
    rw [← add_one_mul, ← mul_div_assoc, div_le_iff₀ h2]
    nlinarith
  obtain ⟨b1, b2⟩ := bi (y := 0) ha (by linarith : 0 < u1 - u0) hi
  obtain ⟨c1, c2⟩ := bi (y := 0) hb (by linarith : 0 < v1 - v0) hj
  exact cell_volume h hu hv.le hR hg.le hh.le (by linarith) (by linarith) (by linarith) (by linarith) ⟨hu0', hu1'⟩ ⟨hv0', hv1'⟩

/-- **C163** The volume over the mesh of a surface with tangents `su`, `sv`, no longer than `L` and `M`-Lipschitz. -/
theorem C163_mesh {s : Surface ℝ} {S su sv : ℝ → ℝ → V3 ℝ} {u0 u1 v0 v1 L M R : ℝ} {o : V3 ℝ}
    (hs : ∀ u v, u ∈ Set.Icc u0 u1 → v ∈ Set.Icc v0 v1 → s.getPoint u v = .ok (S u v))
    (hn : ∀ us vs, (∀ u ∈ us, u ∈ Set.Icc u0 u1) → (∀ v ∈ vs, v ∈ Set.Icc v0 v1) →
      ∃ N, s.getNormals (gridParams us vs) = .ok N ∧ (N = [] ∨ N.length = (gridParams us vs).length))
    (h : Tangents S su sv (u0, u1) (v0, v1) L M) (hu : u0 < u1) (hv : v0 < v1)
    (hR : ∀ u ∈ Set.Icc u0 u1, ∀ v ∈ Set.Icc v0 v1, (S u v - o).length ≤ R) {a b : Nat} (ha : 1 ≤ a) (hb : 1 ≤ b)
    (hsz : (a + 1) * (b + 1) ≤ 2 ^ 32) :
    ∃ mesh ts, (SurfacePatch.mk s ((u0, u1), (v0, v1)) (a, b)).getTriangleMesh = .ok mesh ∧ corners mesh = some ts ∧
      |volumeFrom o ts - coneVolume o S su sv (u0, u1) (v0, v1)| ≤
        (u1 - u0) * (v1 - v0) * ((2 * (L * M) * R + L ^ 3) / 3 * ((u1 - u0) / a + (v1 - v0) / b)) := by
  obtain ⟨mesh, h1, h2⟩ := grid_mesh hs hn hu hv ha hb hsz
  exact ⟨mesh, _, h1, h2, C163_grid h hu hv hR ha hb⟩

/-- **C163** The volumes over the grids converge. -/
theorem C163_limit {S su sv : ℝ → ℝ → V3 ℝ} {u0 u1 v0 v1 L M R : ℝ} {o : V3 ℝ} (h : Tangents S su sv (u0, u1) (v0, v1) L M) (hu : u0 < u1)
    (hv : v0 < v1) (hR : ∀ u ∈ Set.Icc u0 u1, ∀ v ∈ Set.Icc v0 v1, (S u v - o).length ≤ R) {ε : ℝ} (hε : 0 < ε) :
    ∃ N : Nat, 1 ≤ N ∧ ∀ a b, N ≤ a → N ≤ b →
      |volumeFrom o (gridTriangles (fun i j => S (u0 + i * ((u1 - u0) / a)) (v0 + j * ((v1 - v0) / b))) a b)
        - coneVolume o S su sv (u0, u1) (v0, v1)| ≤ ε := by
  obtain ⟨hL, hM⟩ := nonneg h hu hv.le
  have hR0 : 0 ≤ R := (V3.length_nonneg _).trans (hR u0 ⟨le_rfl, hu.le⟩ v0 ⟨le_rfl, hv.le⟩)
  have hu' : 0 < u1 - u0 := by linarith
  have hv' : 0 < v1 - v0 := by linarith
  set C := (2 * (L * M) * R + L ^ 3) / 3 with hC
  have hC0 : 0 ≤ C := by positivity
  set K := (u1 - u0) * (v1 - v0) * (C * ((u1 - u0) + (v1 - v0))) with hK
  have hK0 : 0 ≤ K := by positivity
  obtain ⟨N, hN⟩ := exists_nat_ge (K / ε)
  refine ⟨N + 1, by omega, fun a b ha hb => (C163_grid h hu hv hR (by omega) (by omega)).trans ?_⟩
  have hN1 : (0 : ℝ) < ((N + 1 : ℕ) : ℝ) := by positivity
  have ha' : ((N + 1 : ℕ) : ℝ) ≤ a := by exact_mod_cast ha
  have hb' : ((N + 1 : ℕ) : ℝ) ≤ b := by exact_mod_cast hb
  have i1 : (u1 - u0) / a ≤ (u1 - u0) / ((N + 1 : ℕ) : ℝ) := div_le_div_of_nonneg_left hu'.le hN1 ha'
  have i2 : (v1 - v0) / b ≤ (v1 - v0) / ((N + 1 : ℕ) : ℝ) := div_le_div_of_nonneg_left hv'.le hN1 hb'
  rw [← hC]
  calc (u1 - u0) * (v1 - v0) * (C * ((u1 - u0) / a + (v1 - v0) / b))
      ≤ (u1 - u0) * (v1 - v0) * (C * ((u1 - u0) / ((N + 1 : ℕ) : ℝ) + (v1 - v0) / ((N + 1 : ℕ) : ℝ))) := by gcongr
    _ = K / ((N + 1 : ℕ) : ℝ) := by rw [hK]; field_simp
    _ ≤ ε := by
      rw [div_le_iff₀ hN1]
      rw [div_le_iff₀ hε] at hN
      push_cast
      nlinarith

namespace Volume

/-- A patch stays as near to a point as its control points. -/
theorem patch_near {m n : Nat} {P : Nat → Nat → V3 ℝ} {o : V3 ℝ} {R : ℝ} (h : ∀ i j, i ≤ m → j ≤ n → (P i j - o).length ≤ R) {u v : ℝ}
    (hu0 : 0 ≤ u) (hu1 : u ≤ 1) (hv0 : 0 ≤ v) (hv1 : v ≤ 1) : (patchPoint m n P u v - o).length ≤ R := by
  have e : patchPoint m n P u v - o = patchPoint m n (fun i j => P i j - o) u v := by
    unfold patchPoint
    simp only [smul_sub, Finset.sum_sub_distrib]
    congr 1
    simp only [← Finset.sum_smul, ← Finset.mul_sum, sum_bernsteinPoly, mul_one, one_smul]
  rw [e]
  exact patch_le ((V3.length_nonneg _).trans (h 0 0 (by omega) (by omega))) h hu0 hu1 hv0 hv1

end Volume

/-- **C163** The volume over the mesh of a Bézier patch with control points within `R` of the apex. -/
theorem C163_bezier {s : BezierSurface (V3 ℝ)} (hg : NetOk s.controlPoints) (hr : 1 ≤ s.controlPoints.rows)
    (hc : 1 ≤ s.controlPoints.cols) {m n : Nat} (hm : s.controlPoints.rows = m + 1) (hn : s.controlPoints.cols = n + 1)
    {A B C D E L M R : ℝ} {o : V3 ℝ} (hS : NetSlopes m n (entry s.controlPoints) D E) (hN : NetBends m n (entry s.controlPoints) A B C)
    (l1 : m * D ≤ L) (l2 : n * E ≤ L) (m1 : m * (m - 1 : ℕ) * A ≤ M) (m2 : m * n * B ≤ M) (m3 : n * (n - 1 : ℕ) * C ≤ M)
    {u0 u1 v0 v1 : ℝ} (hu : u0 < u1) (hv : v0 < v1) (hu0 : 0 ≤ u0) (hu1 : u1 ≤ 1) (hv0 : 0 ≤ v0) (hv1 : v1 ≤ 1)
    (hR : ∀ i j, i ≤ m → j ≤ n → (entry s.controlPoints i j - o).length ≤ R) {a b : Nat}
    (ha : 1 ≤ a) (hb : 1 ≤ b) (hsz : (a + 1) * (b + 1) ≤ 2 ^ 32) :
    ∃ mesh ts, (SurfacePatch.mk s.surface ((u0, u1), (v0, v1)) (a, b)).getTriangleMesh = .ok mesh ∧ corners mesh = some ts ∧
      |volumeFrom o ts - coneVolume o (patchPoint m n (entry s.controlPoints)) (patchU m n (entry s.controlPoints))
        (patchV m n (entry s.controlPoints)) (u0, u1) (v0, v1)| ≤
        (u1 - u0) * (v1 - v0) * ((2 * (L * M) * R + L ^ 3) / 3 * ((u1 - u0) / a + (v1 - v0) / b)) := by
  have hp := surface_patchPoint hg hr hc
  rw [hm, hn] at hp
  exact C163_mesh (s := s.surface) (S := patchPoint m n (entry s.controlPoints)) (fun u v _ _ => hp u v)
    (fun us vs _ _ => ⟨[], rfl, Or.inl rfl⟩) (Area.patch_tangents hS hN l1 l2 m1 m2 m3 hu0 hu1 hv0 hv1) hu hv
    (fun u hu v hv => patch_near hR (hu0.trans hu.1) (hu.2.trans hu1) (hv0.trans hv.1) (hv.2.trans hv1)) ha hb hsz

/-- **C163**, an example: the cone from the origin over the parabolic trough `(u, v, u²)` has the volume 1/9, and lies above the patch. -/
example {a b : Nat} (ha : 1 ≤ a) (hb : 1 ≤ b) (hsz : (a + 1) * (b + 1) ≤ 2 ^ 32) :
    ∃ mesh ts, (SurfacePatch.mk (BezierSurface.mk trough).surface ((0, 1), (0, 1)) (a, b)).getTriangleMesh = .ok mesh ∧
      corners mesh = some ts ∧ |volumeFrom 0 ts - -(1 / 9)| ≤ 17 * (1 / a + 1 / b) := by
  have hS : NetSlopes 2 1 (entry trough) (3 / 2) 1 := by
    refine ⟨fun i j hi hj => ?_, fun i j hi hj => ?_, by norm_num, by norm_num⟩
    · have hi' : i ≤ 1 := by omega
      rw [V3.length_eq]
      apply Real.sqrt_le_iff.2
      refine ⟨by norm_num, ?_⟩
      interval_cases i <;> interval_cases j <;> norm_num [entry, trough, V3.dot]
    · have hj' : j = 0 := by omega
      subst hj'
      rw [V3.length_eq]
      apply Real.sqrt_le_iff.2
      refine ⟨by norm_num, ?_⟩
      interval_cases i <;> norm_num [entry, trough, V3.dot]
  obtain ⟨mesh, ts, h1, h2, h3⟩ := C163_bezier (s := ⟨trough⟩) (o := 0) (R := 2) rfl (by simp [trough]) (by simp [trough]) (m := 2) (n := 1)
    rfl rfl hS trough_bends (L := 3) (M := 2) (by norm_num) (by norm_num) (by norm_num) (by norm_num) (by norm_num)
    (show (0 : ℝ) < 1 by norm_num) (show (0 : ℝ) < 1 by norm_num) (le_refl _) (le_refl _) (le_refl _) (le_refl _) (fun i j hi hj => by
      rw [sub_zero, V3.length_eq]
      apply Real.sqrt_le_iff.2
      refine ⟨by norm_num, ?_⟩
      interval_cases i <;> interval_cases j <;> norm_num [entry, trough, V3.dot]) ha hb hsz
  refine ⟨mesh, ts, h1, h2, ?_⟩
  have e : coneVolume 0 (patchPoint 2 1 (entry trough)) (patchU 2 1 (entry trough)) (patchV 2 1 (entry trough)) (0, 1) (0, 1) = -(1 / 9) := by
    have e0 : ∀ u v, patchPoint 2 1 (entry trough) u v = ⟨u, v, u ^ 2⟩ := by
      intro u v
      unfold patchPoint
      ext <;> (simp [Finset.sum_range_succ, bernsteinPoly, entry, trough]; try ring)
    have e1 : ∀ u v, patchU 2 1 (entry trough) u v = ⟨1, 0, 2 * u⟩ := by
      intro u v
      unfold patchU patchPoint
      ext <;> (simp [Finset.sum_range_succ, bernsteinPoly, entry, trough]; try ring)
    have e2 : ∀ u v, patchV 2 1 (entry trough) u v = ⟨0, 1, 0⟩ := by
      intro u v
      unfold patchV patchPoint
      ext <;> (simp [Finset.sum_range_succ, bernsteinPoly, entry, trough]; try ring)
    have e3 : ∀ u v : ℝ, ((⟨u, v, u ^ 2⟩ : V3 ℝ) - 0).dot ((⟨1, 0, 2 * u⟩ : V3 ℝ).cross ⟨0, 1, 0⟩) / 3 = -(1 / 3) * u ^ 2 := by
      intro u v
      simp [V3.dot, V3.cross]
      ring
    unfold coneVolume
    simp only [e0, e1, e2, e3]
    simp only [intervalIntegral.integral_const, smul_eq_mul, sub_zero, one_mul]
    rw [intervalIntegral.integral_const_mul, integral_pow]
    norm_num
  simp only [e, sub_zero] at h3
  refine h3.trans (le_of_eq (by ring))

end Geom3d
