import Verif.Props.FloatMeasure
import Verif.Props.RationalSolids
import Verif.Props.RationalClosed

/-!
# Area and volume of meshes computed in binary64, for patches of any kind and rational patches (C175)

If the points of a patch over the unit square computed in binary64 are near the exact ones, then so are the vertices of its mesh, and the area
of the mesh and the volume over it are near those of the exact patch.  Rational Bézier patches are an instance (C107, C172).
-/

set_option linter.unusedSectionVars false

namespace Geom3d
open Spec F64 Deviation Nudge

/-- **C175** The mesh of a patch of any kind over the unit square, all in binary64: the computed points are off by at most `e` in every
coordinate, and `δ` is a bound for the effect of this and of the rounding of the divisions. -/
theorem C175_mesh {s : Surface Float} {S su sv : ℝ → ℝ → V3 ℝ} {L M R e δ : ℝ} {o : V3 ℝ}
    (hs : ∀ u v : Float, 0 ≤ u → u ≤ 1 → 0 ≤ v → v ≤ 1 → ∃ x, s.getPoint u v = .ok x ∧ Near e x (S (val u) (val v)))
    (hn : ∀ params, s.getNormals params = .ok []) (hT : Tangents S su sv (0, 1) (0, 1) L M)
    (near : ∀ u ∈ Set.Icc (0 : ℝ) 1, ∀ v ∈ Set.Icc (0 : ℝ) 1, (S u v - o).length ≤ R)
    {a b : Nat} (ha : 1 ≤ a) (hb1 : 1 ≤ b) (ha2 : a ≤ 2 ^ 20) (hb2 : b ≤ 2 ^ 20) (hsz : (a + 1) * (b + 1) ≤ 2 ^ 32)
    (hδ : L * ((a + b) * 2 ^ (-49 : Int)) + 2 * e ≤ δ) :
    ∃ mesh ts, (SurfacePatch.mk s ((0, 1), (0, 1)) (a, b)).getTriangleMesh = .ok mesh ∧ corners mesh = some ts ∧
      |totalArea (ts.map triReal) - surfaceArea su sv (0, 1) (0, 1)| ≤
        2 * (L * M) * (1 / a + 1 / b) + 2 * δ * (L * (a + b) + 2 * (a * b * δ)) ∧
      |volumeFrom o (ts.map triReal) - coneVolume o S su sv (0, 1) (0, 1)| ≤
        (2 * (L * M) * R + L ^ 3) / 3 * (1 / a + 1 / b) + δ / 3 * (2 * R * (L * (a + b) + 2 * (a * b * δ)) + (L + 2 * (a * δ)) * (L + 2 * (b * δ))) := by
  obtain ⟨hL0, hM0⟩ := Area.nonneg hT one_pos zero_le_one
  obtain ⟨us, e1, l1, f1, z1, o1, s1⟩ := unit_steps ha ha2
  obtain ⟨vs, e2, l2, f2, z2, o2, s2⟩ := unit_steps hb1 hb2
  have pt : ∀ i j, ∃ x, i ≤ a → j ≤ b → s.getPoint (us.getD i 0) (vs.getD j 0) = .ok x ∧ Near e x (S (val (us.getD i 0)) (val (vs.getD j 0))) := by
    intro i j
    by_cases hij : i ≤ a ∧ j ≤ b
    · obtain ⟨fu, -⟩ := f1 i hij.1
      obtain ⟨fv, -⟩ := f2 j hij.2
      obtain ⟨x, h1, h3⟩ := hs (us.getD i 0) (vs.getD j 0)
        ((le_iff zero_val.1 fu).2 (by rw [zero_val.2]; exact s1.low i hij.1))
        ((le_iff fu one_val.1).2 (by rw [one_val.2]; exact s1.high i hij.1))
        ((le_iff zero_val.1 fv).2 (by rw [zero_val.2]; exact s2.low j hij.2))
        ((le_iff fv one_val.1).2 (by rw [one_val.2]; exact s2.high j hij.2))
      exact ⟨x, fun _ _ => ⟨h1, h3⟩⟩
    · exact ⟨0, fun h1 h2 => absurd ⟨h1, h2⟩ hij⟩
  choose q hq using pt
  obtain ⟨mesh, h1, -, -, h2, -⟩ := patch_mesh (p := SurfacePatch.mk s ((0, 1), (0, 1)) (a, b)) rfl ha hb1 hsz
    (q := q) (by
      refine ⟨?_, fun us vs _ _ => ⟨[], hn _, Or.inl rfl⟩⟩
      intro us' vs' k1 k2 i j u v hu hv
      simp only [] at k1 k2
      rw [e1] at k1; cases k1
      rw [e2] at k2; cases k2
      have hi : i ≤ a := by have := (List.getElem?_eq_some_iff.1 hu).1; omega
      have hj : j ≤ b := by have := (List.getElem?_eq_some_iff.1 hv).1; omega
      have w1 := (f1 i hi).2
      have w2 := (f2 j hj).2
      rw [hu, Option.some.injEq] at w1
      rw [hv, Option.some.injEq] at w2
      rw [w1, w2]
      exact (hq i j hi hj).1)
  have et : (gridTriangles q a b).map triReal = gridTriangles (fun i j => toReal (q i j)) a b := by
    simp [gridTriangles, List.map_flatMap, triReal]
  have a0 : (0 : ℝ) < a := by exact_mod_cast ha
  have b0 : (0 : ℝ) < b := by exact_mod_cast hb1
  have inU : ∀ (i d : ℕ), 1 ≤ d → i ≤ d → (0 + (i : ℝ) * ((1 - 0) / d)) ∈ Set.Icc (0 : ℝ) 1 := by
    intro i d hd hi
    have hd0 : (0 : ℝ) < d := by exact_mod_cast hd
    have hid : (i : ℝ) ≤ d := by exact_mod_cast hi
    rw [sub_zero, zero_add, mul_one_div]
    exact ⟨by positivity, (div_le_one hd0).2 hid⟩
  have step : ∀ (i d : ℕ), 1 ≤ d → |(0 + ((i + 1 : ℕ) : ℝ) * ((1 - 0) / d)) - (0 + (i : ℝ) * ((1 - 0) / d))| = 1 / d := by
    intro i d hd
    have hd0 : (0 : ℝ) < d := by exact_mod_cast hd
    push_cast
    rw [show (0 : ℝ) + ((i : ℝ) + 1) * ((1 - 0) / d) - (0 + (i : ℝ) * ((1 - 0) / d)) = 1 / d by ring]
    exact abs_of_pos (by positivity)
  have vertex : ∀ i j, i ≤ a → j ≤ b → (toReal (q i j) - S (0 + i * ((1 - 0) / a)) (0 + j * ((1 - 0) / b))).length ≤ δ := by
    intro i j hi hj
    obtain ⟨⟨n1, x1⟩, ⟨n2, x2⟩, n3, x3⟩ := (hq i j hi hj).2
    have r1 : (toReal (q i j) - S (val (us.getD i 0)) (val (vs.getD j 0))).length ≤ 2 * e := length_le_of_within x1 x2 x3
    have r2 := Volume.point_lip hT (u := val (us.getD i 0)) (v := val (vs.getD j 0)) ⟨s1.low i hi, s1.high i hi⟩ ⟨s2.low j hj, s2.high j hj⟩
      (inU i a ha hi) (inU j b hb1 hj)
    have r3 : |val (us.getD i 0) - (0 + (i : ℝ) * ((1 - 0) / a))| + |val (vs.getD j 0) - (0 + (j : ℝ) * ((1 - 0) / b))| ≤
        (a + b) * 2 ^ (-49 : Int) := by
      rw [sub_zero, zero_add, zero_add, add_mul]
      exact add_le_add (unit_at ha ha2 e1 hi) (unit_at hb1 hb2 e2 hj)
    have r4 := r2.trans (mul_le_mul_of_nonneg_left r3 hL0)
    rw [← sub_add_sub_cancel (toReal (q i j)) (S (val (us.getD i 0)) (val (vs.getD j 0))) (S (0 + (i : ℝ) * ((1 - 0) / a)) (0 + (j : ℝ) * ((1 - 0) / b)))]
    refine (V3.length_add_le _ _).trans (le_trans ?_ hδ)
    exact (add_le_add r1 r4).trans (le_of_eq (add_comm _ _))
  have hd : 0 ≤ δ := (V3.length_nonneg _).trans (vertex 0 0 (by omega) (by omega))
  have hm : Moved (fun i j => S (0 + i * ((1 - 0) / a)) (0 + j * ((1 - 0) / b))) (fun i j => toReal (q i j)) a b δ (L * (1 / a)) (L * (1 / b)) := by
    refine ⟨vertex, fun i j hi hj => ?_, fun i j hi hj => ?_⟩
    · refine (Volume.point_lip hT (inU (i + 1) a ha hi) (inU j b hb1 hj) (inU i a ha hi.le) (inU j b hb1 hj)).trans (le_of_eq ?_)
      rw [step i a ha, sub_self, abs_zero, add_zero]
    · refine (Volume.point_lip hT (inU i a ha hi) (inU (j + 1) b hb1 hj) (inU i a ha hi) (inU j b hb1 hj.le)).trans (le_of_eq ?_)
      rw [step j b hb1, sub_self, abs_zero, zero_add]
  refine ⟨mesh, _, h1, h2, ?_, ?_⟩
  · rw [et]
    have t1 := area_moved hm
    have t2 := C160_grid hT one_pos one_pos ha hb1
    refine (abs_sub_le _ _ _).trans ((add_le_add t1 t2).trans (le_of_eq ?_))
    field_simp
    ring
  · rw [et]
    have t1 := volume_moved hm (o := o) (R := R) (fun i j hi hj => near _ (inU i a ha hi) _ (inU j b hb1 hj)) (by positivity) hd
    have t2 := C163_grid hT one_pos one_pos near ha hb1
    refine (abs_sub_le _ _ _).trans ((add_le_add t1 t2).trans (le_of_eq ?_))
    field_simp
    ring

/-- **C175** The meshes of a set of patches of any kind computed in binary64 with the same divisions: the volume of the cones over their
triangles is near that of the cones over the exact patches. -/
theorem C175_solid {ι : Type} {l : List ι} {s : ι → Surface Float} {S su sv : ι → ℝ → ℝ → V3 ℝ} {L M R e δ : ℝ} {o : V3 ℝ}
    (hs : ∀ x ∈ l, ∀ u v : Float, 0 ≤ u → u ≤ 1 → 0 ≤ v → v ≤ 1 → ∃ y, (s x).getPoint u v = .ok y ∧ Near e y (S x (val u) (val v)))
    (hn : ∀ x ∈ l, ∀ params, (s x).getNormals params = .ok []) (hT : ∀ x ∈ l, Tangents (S x) (su x) (sv x) (0, 1) (0, 1) L M)
    (near : ∀ x ∈ l, ∀ u ∈ Set.Icc (0 : ℝ) 1, ∀ v ∈ Set.Icc (0 : ℝ) 1, (S x u v - o).length ≤ R)
    {n : Nat} (h1 : 1 ≤ n) (h2 : n ≤ 2 ^ 20) (hsz : (n + 1) * (n + 1) ≤ 2 ^ 32) (hδ : L * ((n + n) * 2 ^ (-49 : Int)) + 2 * e ≤ δ) :
    ∃ tss, List.Forall₂ (fun x ts => ∃ mesh, (SurfacePatch.mk (s x) ((0, 1), (0, 1)) (n, n)).getTriangleMesh = .ok mesh ∧ corners mesh = some ts) l tss ∧
      |volumeFrom o (tss.flatten.map triReal) - (l.map fun x => coneVolume o (S x) (su x) (sv x) (0, 1) (0, 1)).sum| ≤ l.length *
        ((2 * (L * M) * R + L ^ 3) / 3 * (1 / n + 1 / n) + δ / 3 * (2 * R * (L * (n + n) + 2 * (n * n * δ)) + (L + 2 * (n * δ)) * (L + 2 * (n * δ)))) := by
  induction l with
  | nil => exact ⟨[], .nil, by simp [volumeFrom]⟩
  | cons x l ih =>
    obtain ⟨tss, k1, k2⟩ := ih (fun y hy => hs y (by simp [hy])) (fun y hy => hn y (by simp [hy])) (fun y hy => hT y (by simp [hy]))
      (fun y hy => near y (by simp [hy]))
    obtain ⟨mesh, ts, m1, m2, -, m3⟩ := C175_mesh (hs x (by simp)) (hn x (by simp)) (hT x (by simp)) (near x (by simp)) h1 h1 h2 h2 hsz hδ
    refine ⟨ts :: tss, .cons ⟨mesh, m1, m2⟩ k1, ?_⟩
    have ev : volumeFrom o ((ts :: tss).flatten.map triReal) = volumeFrom o (ts.map triReal) + volumeFrom o (tss.flatten.map triReal) := by
      rw [List.flatten_cons, List.map_append]
      simp [volumeFrom]
    rw [ev, List.map_cons, List.sum_cons, List.length_cons, add_sub_add_comm]
    refine (abs_add_le _ _).trans ((add_le_add m3 k2).trans (le_of_eq ?_))
    push_cast
    ring

/-! ### Rational patches -/

/-- How far the points of a rational patch computed in binary64 are off (C107): `N` is the number of control points, `M` bounds their
homogeneous coordinates, `ω` their weights from below and `R` the coordinates of their points. -/
noncomputable def Spec.rationalError (M ω R : ℝ) (N : Nat) : ℝ :=
  (1 + R) * (2 * (N * 2 ^ (-49 : Int) * M + N * 2 ^ (-1073 : Int)) / ω + 2 ^ (-50 : Int))

/-- The points of a rational patch computed in binary64 are near the exact ones. -/
theorem rational_close {g : Grid (V4 Float)} {M ω R : ℝ} (hg : WeightedNet M ω R g) (hM : M ≤ 2 ^ (1021 : Int))
    (hω : (2 : ℝ) ^ (-1000 : Int) ≤ ω) (hR : R ≤ 2 ^ (1000 : Int)) (a b : Nat) {u v : Float} (hu0 : 0 ≤ u) (hu1 : u ≤ 1) (hv0 : 0 ≤ v) (hv1 : v ≤ 1) :
    ∃ x, (BezierSurface.mk g).surfaceRational.getPoint u v = .ok x ∧
      Near (rationalError M ω R (g.rows * g.cols)) x ((rationalPiece (mapNet toReal4 g) a b).S (val u) (val v)) := by
  obtain ⟨x, q, k1, k2, k3⟩ := C107_bezier_surface ⟨g⟩ hg.ok hg.rows hg.cols hg.size u v hu0 hu1 hv0 hv1 M ω R _ hM hω hR hg.points rfl hg.safe
  have hok : NetOk (mapNet toReal4 g) := by
    have := hg.ok
    unfold NetOk at this ⊢
    simpa [mapNet] using this
  rw [Projection.rational_point hok hg.rows hg.cols] at k2
  cases k2
  exact ⟨x, k1, k3⟩

/-- **C175** The area of the mesh of a rational Bézier patch computed in binary64, and the volume over it. -/
theorem C175_rational {g : Grid (V4 Float)} {M ω R : ℝ} (hg : WeightedNet M ω R g) (hM : M ≤ 2 ^ (1021 : Int))
    (hω : (2 : ℝ) ^ (-1000 : Int) ≤ ω) (hR : R ≤ 2 ^ (1000 : Int)) {k : Nat} {Q T : ℝ} (hs : SmallRational (mapNet toReal4 g) k Q T ω)
    {a b : Nat} (ha : 1 ≤ a) (hb : 1 ≤ b) (ha2 : a ≤ 2 ^ 20) (hb2 : b ≤ 2 ^ 20) (hsz : (a + 1) * (b + 1) ≤ 2 ^ 32)
    {L δ : ℝ} (hL : L = 4 * (k * Q * T / ω ^ 2)) (hδ : L * ((a + b) * 2 ^ (-49 : Int)) + 2 * rationalError M ω R (g.rows * g.cols) ≤ δ) :
    ∃ mesh ts, (SurfacePatch.mk (BezierSurface.mk g).surfaceRational ((0, 1), (0, 1)) (a, b)).getTriangleMesh = .ok mesh ∧ corners mesh = some ts ∧
      |totalArea (ts.map triReal) - surfaceArea (rationalPiece (mapNet toReal4 g) a b).su (rationalPiece (mapNet toReal4 g) a b).sv (0, 1) (0, 1)| ≤
        192 * (k ^ 3 * Q ^ 2 * T ^ 3 / ω ^ 5) * (1 / a + 1 / b) + 2 * δ * (L * (a + b) + 2 * (a * b * δ)) ∧
      |volumeFrom 0 (ts.map triReal) - (rationalPiece (mapNet toReal4 g) a b).volume 0| ≤
        256 / 3 * (k ^ 3 * Q ^ 3 * T ^ 3 / ω ^ 6) * (1 / a + 1 / b) +
          δ / 3 * (2 * (Q / ω) * (L * (a + b) + 2 * (a * b * δ)) + (L + 2 * (a * δ)) * (L + 2 * (b * δ))) := by
  have hω0 : 0 < ω := (two_zpow_pos _).trans_le hω
  have hp := C172_sound hω0 hs ha hb
  rw [← hL] at hp
  obtain ⟨mesh, ts, h1, h2, h3, h4⟩ := C175_mesh (s := (BezierSurface.mk g).surfaceRational)
    (fun u v h1 h2 h3 h4 => rational_close hg hM hω hR a b h1 h2 h3 h4) (fun _ => rfl) hp.tangents hp.near ha hb ha2 hb2 hsz hδ
  have w0 := hω0.ne'
  refine ⟨mesh, ts, h1, h2, h3.trans (le_of_eq ?_), h4.trans (le_of_eq ?_)⟩
  · congr 1
    rw [hL]
    field_simp
    ring
  · congr 1
    rw [hL]
    field_simp
    ring

theorem meshes_unique {ι : Type} {l : List ι} {f : ι → Res (TriangleMesh Float)} {t t' : List (List (Tri Float))}
    (h : List.Forall₂ (fun x ts => ∃ mesh, f x = .ok mesh ∧ corners mesh = some ts) l t)
    (h' : List.Forall₂ (fun x ts => ∃ mesh, f x = .ok mesh ∧ corners mesh = some ts) l t') : t = t' := by
  induction h generalizing t' with
  | nil => cases h'; rfl
  | cons a _ ih =>
    cases h' with
    | cons b h' =>
      obtain ⟨m, a1, a2⟩ := a
      obtain ⟨m', b1, b2⟩ := b
      rw [a1] at b1
      cases b1
      rw [a2] at b2
      cases b2
      rw [ih h']

/-- **C175** The meshes of a set of rational Bézier patches computed in binary64, if the homogeneous sides passed forwards are the sides passed
backwards: the volume they enclose, from whatever point, is near that of the cones over the exact patches. -/
theorem C175_rational_solid {gs : List (Grid (V4 Float))} {M ω R : ℝ} (hg : ∀ g ∈ gs, WeightedNet M ω R g) (hM : M ≤ 2 ^ (1021 : Int))
    (hω : (2 : ℝ) ^ (-1000 : Int) ≤ ω) (hR : R ≤ 2 ^ (1000 : Int)) {k : Nat} {Q T e : ℝ} (hs : ∀ g ∈ gs, SmallRational (mapNet toReal4 g) k Q T ω)
    (hm : (gs.flatMap forthRational).Perm (gs.flatMap backRational)) (he : ∀ g ∈ gs, rationalError M ω R (g.rows * g.cols) ≤ e)
    {n : Nat} (hn : 1 ≤ n) (hsz : (n + 1) * (n + 1) ≤ 2 ^ 32)
    {L δ : ℝ} (hL : L = 4 * (k * Q * T / ω ^ 2)) (hδ : L * ((n + n) * 2 ^ (-49 : Int)) + 2 * e ≤ δ) :
    ∃ tss, List.Forall₂ (fun g ts => ∃ mesh, (SurfacePatch.mk (BezierSurface.mk g).surfaceRational ((0, 1), (0, 1)) (n, n)).getTriangleMesh = .ok mesh ∧
      corners mesh = some ts) gs tss ∧ Watertight (tss.flatten.map triReal) ∧
      ∀ o, |volumeFrom o (tss.flatten.map triReal) - (gs.map fun g => (rationalPiece (mapNet toReal4 g) 1 1).volume 0).sum| ≤ gs.length *
        (256 / 3 * (k ^ 3 * Q ^ 3 * T ^ 3 / ω ^ 6) * (1 / n + 1 / n) +
          δ / 3 * (2 * (Q / ω) * (L * (n + n) + 2 * (n * n * δ)) + (L + 2 * (n * δ)) * (L + 2 * (n * δ)))) := by
  have hω0 : 0 < ω := (two_zpow_pos _).trans_le hω
  have hn2 : n ≤ 2 ^ 20 := by
    by_contra hc
    have := Nat.mul_le_mul (show 2 ^ 16 + 1 ≤ n + 1 by omega) (show 2 ^ 16 + 1 ≤ n + 1 by omega)
    omega
  obtain ⟨tss, h1, -, h2, h3⟩ := C171_watertight hM hω hR hg hm hn hsz
  have hp := fun g (h : g ∈ gs) => C172_sound hω0 (hs g h) (le_refl 1) (le_refl 1)
  rw [← hL] at hp
  obtain ⟨tss', k1, k2⟩ := C175_solid (l := gs) (s := fun g => (BezierSurface.mk g).surfaceRational) (e := e)
    (fun g h u v q1 q2 q3 q4 => by
      obtain ⟨x, r1, ⟨a1, a2⟩, ⟨b1, b2⟩, c1, c2⟩ := rational_close (hg g h) hM hω hR 1 1 q1 q2 q3 q4
      exact ⟨x, r1, ⟨a1, a2.trans (he g h)⟩, ⟨b1, b2.trans (he g h)⟩, c1, c2.trans (he g h)⟩)
    (fun _ _ _ => rfl) (fun g h => (hp g h).tangents) (fun g h => (hp g h).near) hn hn2 hsz hδ
  obtain rfl := meshes_unique h1 k1
  refine ⟨tss, h1, h2, fun o => ?_⟩
  rw [h3 o 0]
  refine k2.trans (le_of_eq ?_)
  have w0 := hω0.ne'
  congr 2
  rw [hL]
  field_simp
  ring

/-! ### Example -/

/-- A bilinear rational patch. -/
def Spec.saddleF : Grid (V4 Float) := ⟨[⟨0, 0, 0, 1⟩, ⟨0, 1, 0, 1⟩, ⟨1, 0, 0, 1⟩, ⟨0, 0, 2, 2⟩], 2, 2⟩

/-- **C175**, an example: with 50000 by 50000 divisions, the area of the mesh computed in binary64 is off by at most 3/10 and the volume
over it by at most 1/4. -/
theorem C175_example :
    ∃ mesh ts, (SurfacePatch.mk (BezierSurface.mk saddleF).surfaceRational ((0, 1), (0, 1)) (50000, 50000)).getTriangleMesh = .ok mesh ∧
      corners mesh = some ts ∧
      |totalArea (ts.map triReal) - surfaceArea (rationalPiece (mapNet toReal4 saddleF) 50000 50000).su
        (rationalPiece (mapNet toReal4 saddleF) 50000 50000).sv (0, 1) (0, 1)| ≤ 3 / 10 ∧
      |volumeFrom 0 (ts.map triReal) - (rationalPiece (mapNet toReal4 saddleF) 50000 50000).volume 0| ≤ 1 / 4 := by
  have v0 := zero_val
  have v1 := one_val
  have v2 : IsFin (2 : Float) ∧ val (2 : Float) = 2 := by
    obtain ⟨a, b⟩ := ofNat_val (n := 2) (by norm_num)
    exact ⟨a, b.trans (by norm_num)⟩
  have t73 : (2 : ℝ) ^ (-1073 : Int) ≤ 2 ^ (-49 : Int) := two_zpow_le (by norm_num)
  have e49 : (2 : ℝ) ^ (-49 : Int) = 1 / 562949953421312 := by norm_num
  have e50 : (2 : ℝ) ^ (-50 : Int) = 1 / 1125899906842624 := by norm_num
  have hg : WeightedNet 2 1 1 saddleF := by
    refine ⟨rfl, by norm_num [saddleF], by norm_num [saddleF], by norm_num [saddleF], fun p hp => ?_, ?_⟩
    · simp only [saddleF, List.mem_cons, List.not_mem_nil, or_false] at hp
      rcases hp with rfl | rfl | rfl | rfl <;> refine ⟨⟨⟨?_, ?_⟩, ⟨?_, ?_⟩, ⟨?_, ?_⟩, ?_, ?_⟩, ?_, ?_, ?_, ?_⟩ <;>
        first | exact v0.1 | exact v1.1 | exact v2.1 | norm_num [v0.2, v1.2, v2.2]
    · change ((2 * 2 : Nat) : ℝ) * 2 ^ (-49 : Int) * 2 + ((2 * 2 : Nat) : ℝ) * 2 ^ (-1073 : Int) ≤ 1 / 2
      rw [e49] at t73 ⊢
      push_cast
      linarith
  have hs : SmallRational (mapNet toReal4 saddleF) 1 2 2 1 := by
    refine ⟨rfl, by norm_num [mapNet, saddleF], by norm_num [mapNet, saddleF], fun i j hi hj => (V3.length_le_sum _).trans ?_, fun i j hi hj => ?_⟩ <;>
      (change i < 2 at hi; change j < 2 at hj; interval_cases i <;> interval_cases j <;>
        norm_num [entry, mapNet, saddleF, toReal4, V4.truncate, v0.2, v1.2, v2.2])
  have hδ : (16 : ℝ) * (((50000 : Nat) + (50000 : Nat)) * 2 ^ (-49 : Int)) + 2 * rationalError 2 1 1 (saddleF.rows * saddleF.cols) ≤ 1 / 10 ^ 8 := by
    change (16 : ℝ) * (((50000 : Nat) + (50000 : Nat)) * 2 ^ (-49 : Int)) + 2 * rationalError 2 1 1 (2 * 2) ≤ 1 / 10 ^ 8
    unfold rationalError
    rw [e49] at t73 ⊢
    rw [e50]
    push_cast
    linarith
  obtain ⟨mesh, ts, h1, h2, h3, h4⟩ := C175_rational hg (le_trans (by norm_num) (two_zpow_le (show (1 : Int) ≤ 1021 by norm_num)))
    (zpow_le_one_of_nonpos₀ (by norm_num) (by norm_num)) (one_le_zpow₀ (by norm_num) (by norm_num)) hs (a := 50000) (b := 50000)
    (by norm_num) (by norm_num) (by norm_num) (by norm_num) (by norm_num) (L := 16) (by norm_num) hδ
  exact ⟨mesh, ts, h1, h2, h3.trans (by norm_num), h4.trans (by norm_num)⟩

end Geom3d
