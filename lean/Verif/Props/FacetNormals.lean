import Verif.Props.MeshArea
import Verif.Props.Orientation

/-!
# The normals of the triangles of meshes (C161)

`SurfacePatch::get_triangle_mesh` (`src/face.rs:16-66`) with `create_triangles` (`src/mesh.rs`): on a regular surface the triangles
of fine enough grids are not degenerate, turn in the sense of `su × sv`, and their normals deviate little from the normal of the
surface; where the surface has normals, those stored at the three vertices do so too.
-/

namespace Geom3d
open Spec Area

/-- The normal of a triangle, as long as twice its area. -/
noncomputable def Spec.facet (T : Tri ℝ) : V3 ℝ := (T.2.1 - T.1).cross (T.2.2 - T.1)

/-- `x` and `y` are not zero, and the sine of the angle between them, which is acute, is at most `δ`. -/
structure Spec.Facing (δ : ℝ) (x y : V3 ℝ) : Prop where
  acute : 0 < x.dot y
  angle : Real.sqrt (1 - δ ^ 2) * (x.length * y.length) ≤ x.dot y

namespace Area

/-- Vectors near each other point in nearly the same direction. -/
theorem facing_of_near {x y : V3 ℝ} {δ : ℝ} (h0 : 0 ≤ δ) (h1 : δ < 1) (hy : 0 < y.length) (h : (x - y).length ≤ δ * y.length) :
    Facing δ x y := by
  have hx := V3.length_nonneg x
  have h2 : (x - y).length ^ 2 ≤ (δ * y.length) ^ 2 := pow_le_pow_left₀ (V3.length_nonneg _) h 2
  have e : (x - y).length ^ 2 = x.length ^ 2 + y.length ^ 2 - 2 * x.dot y := by
    rw [V3.length_sq, V3.length_sq, V3.length_sq, V3.dot_sub, V3.sub_dot, V3.sub_dot, V3.dot_comm y x]
    ring
  rw [e] at h2
  have hs : 0 < 1 - δ ^ 2 := by nlinarith
  have hq := Real.sq_sqrt hs.le
  have hq0 := Real.sqrt_nonneg (1 - δ ^ 2)
  have hy2 : 0 < (1 - δ ^ 2) * y.length ^ 2 := by positivity
  refine ⟨by nlinarith, ?_⟩
  have : 0 ≤ (x.length - Real.sqrt (1 - δ ^ 2) * y.length) ^ 2 := sq_nonneg _
  nlinarith

theorem facing_smul {x y : V3 ℝ} {δ t : ℝ} (ht : 0 < t) (h : Facing δ x y) : Facing δ x (t • y) := by
  refine ⟨?_, ?_⟩
  · rw [V3.dot_smul]; exact mul_pos ht h.acute
  · rw [V3.dot_smul, V3.length_smul, abs_of_pos ht]
    have := mul_le_mul_of_nonneg_left h.angle ht.le
    linarith

theorem facing_of_smul {x y : V3 ℝ} {δ t : ℝ} (ht : 0 < t) (h : Facing δ x (t • y)) : Facing δ x y := by
  have := facing_smul (inv_pos.2 ht) h
  rwa [smul_smul, inv_mul_cancel₀ ht.ne', one_smul] at this

theorem facing_normalize {x y : V3 ℝ} {δ : ℝ} (h : Facing δ x y) : Facing δ x y.normalize := by
  have hy : 0 < y.length := by
    rcases (V3.length_nonneg y).lt_or_eq with h' | h'
    · exact h'
    · have h1 := h.acute
      have h2 := V3.dot_le x y
      rw [← h', mul_zero] at h2
      linarith
  have e : y.normalize = (1 / y.length) • y := by
    unfold V3.normalize; rw [V3.rmul_eq]
  rw [e]
  exact facing_smul (by positivity) h

theorem facet_low (q00 q10 q01 : V3 ℝ) : facet (q00, q10, q01) = (q10 - q00).cross (q01 - q00) := rfl

theorem facet_high (q01 q10 q11 : V3 ℝ) : facet (q01, q10, q11) = (q11 - q01).cross (q11 - q10) := by
  unfold facet
  ext <;> simp [V3.cross] <;> ring

variable {S su sv : ℝ → ℝ → V3 ℝ} {u0 u1 v0 v1 L M : ℝ}

/-- The two triangles of a cell face the direction of the surface. -/
theorem cell_facing (h : Tangents S su sv (u0, u1) (v0, v1) L M) (hu01 : u0 < u1) (hv01 : v0 ≤ v1) {κ δ : ℝ} (hκ : 0 < κ)
    (hreg : ∀ u ∈ Set.Icc u0 u1, ∀ v ∈ Set.Icc v0 v1, κ ≤ ((su u v).cross (sv u v)).length) {a b g k : ℝ} (hg : 0 < g)
    (hk : 0 < k) (hδ : 2 * (L * M) * (g + k) ≤ δ * κ) (hδ1 : δ < 1)
    (ha0 : u0 ≤ a) (ha1 : a + g ≤ u1) (hb0 : v0 ≤ b) (hb1 : b + k ≤ v1) {u v : ℝ} (hu : a ≤ u ∧ u ≤ a + g)
    (hv : b ≤ v ∧ v ≤ b + k) :
    Facing δ (facet (S a b, S (a + g) b, S a (b + k))) ((su u v).cross (sv u v)) ∧
    Facing δ (facet (S a (b + k), S (a + g) b, S (a + g) (b + k))) ((su u v).cross (sv u v)) := by
  obtain ⟨hL, hM⟩ := nonneg h hu01 hv01
  have hκ' := hreg u ⟨by linarith, by linarith⟩ v ⟨by linarith, by linarith⟩
  have hδ0 : 0 ≤ δ := by
    by_contra hc
    have : 0 ≤ 2 * (L * M) * (g + k) := by positivity
    nlinarith
  obtain ⟨k1, k2⟩ := cell_vectors h hu01 hv01 hg.le hk.le ha0 ha1 hb0 hb1 hu hv
  have len : (g • k • (su u v).cross (sv u v)).length = g * (k * ((su u v).cross (sv u v)).length) := by
    rw [V3.length_smul, V3.length_smul, abs_of_pos hg, abs_of_pos hk]
  have hb : g * (k * (2 * (L * M) * (g + k))) ≤ δ * (g • k • (su u v).cross (sv u v)).length := by
    rw [len]
    have : 2 * (L * M) * (g + k) ≤ δ * ((su u v).cross (sv u v)).length := hδ.trans (mul_le_mul_of_nonneg_left hκ' hδ0)
    calc g * (k * (2 * (L * M) * (g + k))) ≤ g * (k * (δ * ((su u v).cross (sv u v)).length)) := by gcongr
      _ = _ := by ring
  have pos : 0 < (g • k • (su u v).cross (sv u v)).length := by
    have : 0 < ((su u v).cross (sv u v)).length := hκ.trans_le hκ'
    rw [len]
    positivity
  rw [facet_low, facet_high]
  exact ⟨facing_of_smul hk (facing_of_smul hg (facing_of_near hδ0 hδ1 pos (k1.trans hb))),
    facing_of_smul hk (facing_of_smul hg (facing_of_near hδ0 hδ1 pos (k2.trans hb)))⟩

end Area

/-- Every triangle of the list has its corners in a rectangle of parameters no larger than `g` by `k`, and faces the direction
`n u v` at all parameters of the rectangle. -/
def Spec.FacesAlong (S n : ℝ → ℝ → V3 ℝ) (U V : ℝ × ℝ) (g k δ : ℝ) (ts : List (Tri ℝ)) : Prop :=
  ∀ T ∈ ts, ∃ a b, U.1 ≤ a ∧ a + g ≤ U.2 ∧ V.1 ≤ b ∧ b + k ≤ V.2 ∧
    (T = (S a b, S (a + g) b, S a (b + k)) ∨ T = (S a (b + k), S (a + g) b, S (a + g) (b + k))) ∧
    ∀ u v, a ≤ u ∧ u ≤ a + g → b ≤ v ∧ v ≤ b + k → Facing δ (facet T) (n u v)

/-- Places of a divided range. -/
theorem Area.cell_place {n i : Nat} {x0 x1 : ℝ} (hx : x0 < x1) (hn : 1 ≤ n) (hi : i < n) :
    0 < (x1 - x0) / n ∧ x0 ≤ x0 + i * ((x1 - x0) / n) ∧ x0 + i * ((x1 - x0) / n) + (x1 - x0) / n ≤ x1 ∧
      x0 + ((i + 1 : ℕ) : ℝ) * ((x1 - x0) / n) = x0 + i * ((x1 - x0) / n) + (x1 - x0) / n := by
  have hn' : (0 : ℝ) < n := by exact_mod_cast hn
  have hg : 0 < (x1 - x0) / n := div_pos (by linarith) hn'
  have eg : (n : ℝ) * ((x1 - x0) / n) = x1 - x0 := by field_simp
  have h1 : (i : ℝ) + 1 ≤ n := by exact_mod_cast hi
  have h0 : (0 : ℝ) ≤ i := Nat.cast_nonneg i
  exact ⟨hg, by nlinarith, by nlinarith, by push_cast; ring⟩

/-- **C161** The triangles of a grid on a regular surface. -/
theorem C161_grid {S su sv : ℝ → ℝ → V3 ℝ} {u0 u1 v0 v1 L M κ δ : ℝ} (h : Tangents S su sv (u0, u1) (v0, v1) L M) (hu : u0 < u1)
    (hv : v0 < v1) (hκ : 0 < κ) (hreg : ∀ u ∈ Set.Icc u0 u1, ∀ v ∈ Set.Icc v0 v1, κ ≤ ((su u v).cross (sv u v)).length)
    {a b : Nat} (ha : 1 ≤ a) (hb : 1 ≤ b) (hδ : 2 * (L * M) * ((u1 - u0) / a + (v1 - v0) / b) ≤ δ * κ) (hδ1 : δ < 1) :
    FacesAlong S (fun u v => (su u v).cross (sv u v)) (u0, u1) (v0, v1) ((u1 - u0) / a) ((v1 - v0) / b) δ
      (gridTriangles (fun i j => S (u0 + i * ((u1 - u0) / a)) (v0 + j * ((v1 - v0) / b))) a b) := by
  intro T hT
  obtain ⟨i, j, hi, hj, hT⟩ := mem_gridTriangles.1 hT
  obtain ⟨hg, a0, a1, e1⟩ := cell_place hu ha hi
  obtain ⟨hk, b0, b1, e2⟩ := cell_place hv hb hj
  rw [e1, e2] at hT
  refine ⟨_, _, a0, a1, b0, b1, hT, fun u v hu' hv' => ?_⟩
  obtain ⟨k1, k2⟩ := cell_facing h hu hv.le hκ hreg hg hk hδ hδ1 a0 a1 b0 b1 hu' hv'
  rcases hT with rfl | rfl
  · exact k1
  · exact k2

/-- **C161** The mesh of a regular surface: the triangles are not degenerate and turn in the sense of the tangents. -/
theorem C161_mesh {s : Surface ℝ} {S su sv : ℝ → ℝ → V3 ℝ} {u0 u1 v0 v1 L M κ δ : ℝ}
    (hs : ∀ u v, u ∈ Set.Icc u0 u1 → v ∈ Set.Icc v0 v1 → s.getPoint u v = .ok (S u v))
    (hn : ∀ us vs, (∀ u ∈ us, u ∈ Set.Icc u0 u1) → (∀ v ∈ vs, v ∈ Set.Icc v0 v1) →
      ∃ N, s.getNormals (gridParams us vs) = .ok N ∧ (N = [] ∨ N.length = (gridParams us vs).length))
    (h : Tangents S su sv (u0, u1) (v0, v1) L M) (hu : u0 < u1) (hv : v0 < v1) (hκ : 0 < κ)
    (hreg : ∀ u ∈ Set.Icc u0 u1, ∀ v ∈ Set.Icc v0 v1, κ ≤ ((su u v).cross (sv u v)).length) {a b : Nat} (ha : 1 ≤ a) (hb : 1 ≤ b)
    (hsz : (a + 1) * (b + 1) ≤ 2 ^ 32) (hδ : 2 * (L * M) * ((u1 - u0) / a + (v1 - v0) / b) ≤ δ * κ) (hδ1 : δ < 1) :
    ∃ mesh ts, (SurfacePatch.mk s ((u0, u1), (v0, v1)) (a, b)).getTriangleMesh = .ok mesh ∧ corners mesh = some ts ∧
      FacesAlong S (fun u v => (su u v).cross (sv u v)) (u0, u1) (v0, v1) ((u1 - u0) / a) ((v1 - v0) / b) δ ts := by
  obtain ⟨mesh, h1, h2⟩ := grid_mesh hs hn hu hv ha hb hsz
  exact ⟨mesh, _, h1, h2, C161_grid h hu hv hκ hreg ha hb hδ hδ1⟩

/-! ### The normals stored in the mesh -/

namespace Area

theorem flatMap_forall₂ {α β γ : Type} {R : β → γ → Prop} {l : List α} {f : α → List β} {g : α → List γ}
    (h : ∀ x ∈ l, List.Forall₂ R (f x) (g x)) : List.Forall₂ R (l.flatMap f) (l.flatMap g) := by
  induction l with
  | nil => exact List.Forall₂.nil
  | cons x l ih =>
    rw [List.flatMap_cons, List.flatMap_cons]
    exact List.rel_append (h x (by simp)) (ih fun y hy => h y (by simp [hy]))

theorem grid_forall₂ {q n : Nat → Nat → V3 ℝ} {a b : Nat} {R : Tri ℝ → Tri ℝ → Prop}
    (h : ∀ i j, i < a → j < b → R (q i j, q (i + 1) j, q i (j + 1)) (n i j, n (i + 1) j, n i (j + 1)) ∧
      R (q i (j + 1), q (i + 1) j, q (i + 1) (j + 1)) (n i (j + 1), n (i + 1) j, n (i + 1) (j + 1))) :
    List.Forall₂ R (gridTriangles q a b) (gridTriangles n a b) := by
  refine flatMap_forall₂ fun i hi => flatMap_forall₂ fun j hj => ?_
  obtain ⟨h1, h2⟩ := h i j (List.mem_range.1 hi) (List.mem_range.1 hj)
  exact List.Forall₂.cons h1 (List.Forall₂.cons h2 List.Forall₂.nil)

end Area

/-- **C161** Where the surface has normals, those that the mesh stores at the corners of a triangle face the side from which the
triangle is seen counter-clockwise. -/
theorem C161_normals {s : Surface ℝ} {S su sv : ℝ → ℝ → V3 ℝ} {u0 u1 v0 v1 L M κ δ : ℝ}
    (hs : ∀ u v, u ∈ Set.Icc u0 u1 → v ∈ Set.Icc v0 v1 → s.getPoint u v = .ok (S u v))
    (hn : ∀ us vs, (∀ u ∈ us, u ∈ Set.Icc u0 u1) → (∀ v ∈ vs, v ∈ Set.Icc v0 v1) →
      s.getNormals (gridParams us vs) = .ok ((gridParams us vs).map fun p => ((su p.x p.y).cross (sv p.x p.y)).normalize))
    (h : Tangents S su sv (u0, u1) (v0, v1) L M) (hu : u0 < u1) (hv : v0 < v1) (hκ : 0 < κ)
    (hreg : ∀ u ∈ Set.Icc u0 u1, ∀ v ∈ Set.Icc v0 v1, κ ≤ ((su u v).cross (sv u v)).length) {a b : Nat} (ha : 1 ≤ a) (hb : 1 ≤ b)
    (hsz : (a + 1) * (b + 1) ≤ 2 ^ 32) (hδ : 2 * (L * M) * ((u1 - u0) / a + (v1 - v0) / b) ≤ δ * κ) (hδ1 : δ < 1) :
    ∃ mesh ts ns, (SurfacePatch.mk s ((u0, u1), (v0, v1)) (a, b)).getTriangleMesh = .ok mesh ∧ corners mesh = some ts ∧
      corners ⟨mesh.normals, [], mesh.triangles⟩ = some ns ∧
      List.Forall₂ (fun T N => Facing δ (facet T) N.1 ∧ Facing δ (facet T) N.2.1 ∧ Facing δ (facet T) N.2.2) ts ns := by
  obtain ⟨mesh, h1, h2⟩ := grid_mesh hs (fun us vs hu hv => ⟨_, hn us vs hu hv, Or.inr (by simp)⟩) hu hv ha hb hsz
  obtain ⟨us, vs, N, hsam, hN, -, hrep⟩ := C45_mesh h1 rfl
  obtain ⟨l1, f1, f2, f3⟩ := C28_entries (u0, u1) ha
  obtain ⟨l2, g1, g2, g3⟩ := C28_entries (v0, v1) hb
  have e1 := hsam.usDef
  have e2 := hsam.vsDef
  simp only [] at e1 e2
  rw [e1] at f1; cases f1
  rw [e2] at g1; cases g1
  have inU : ∀ i, i ≤ a → u0 + i * ((u1 - u0) / a) ∈ Set.Icc u0 u1 := by
    intro i hi
    have ha' : (0 : ℝ) < a := by exact_mod_cast ha
    have hi' : (i : ℝ) ≤ a := by exact_mod_cast hi
    have hg : 0 < (u1 - u0) / a := div_pos (by linarith) ha'
    have eg : (a : ℝ) * ((u1 - u0) / a) = u1 - u0 := by field_simp
    exact ⟨by have : (0 : ℝ) ≤ i := Nat.cast_nonneg i; nlinarith, by nlinarith⟩
  have inV : ∀ i, i ≤ b → v0 + i * ((v1 - v0) / b) ∈ Set.Icc v0 v1 := by
    intro i hi
    have ha' : (0 : ℝ) < b := by exact_mod_cast hb
    have hi' : (i : ℝ) ≤ b := by exact_mod_cast hi
    have hg : 0 < (v1 - v0) / b := div_pos (by linarith) ha'
    have eg : (b : ℝ) * ((v1 - v0) / b) = v1 - v0 := by field_simp
    exact ⟨by have : (0 : ℝ) ≤ i := Nat.cast_nonneg i; nlinarith, by nlinarith⟩
  have memU : ∀ u ∈ us, u ∈ Set.Icc u0 u1 := by
    intro u hu'
    obtain ⟨i, hi, rfl⟩ := List.getElem_of_mem hu'
    have k1 := f3 i (by omega)
    rw [List.getElem?_eq_getElem hi, Option.some.injEq] at k1
    rw [k1]
    exact inU i (by omega)
  have memV : ∀ u ∈ vs, u ∈ Set.Icc v0 v1 := by
    intro u hu'
    obtain ⟨i, hi, rfl⟩ := List.getElem_of_mem hu'
    have k1 := g3 i (by omega)
    rw [List.getElem?_eq_getElem hi, Option.some.injEq] at k1
    rw [k1]
    exact inV i (by omega)
  have hN2 := hn us vs memU memV
  rw [show (SurfacePatch.mk s ((u0, u1), (v0, v1)) (a, b)).surface = s from rfl, hN2, Except.ok.injEq] at hN
  have hlen : N.length = (a + 1) * (b + 1) := by
    rw [← hN, List.length_map, length_gridParams, hsam.usLength, hsam.vsLength]
  obtain ⟨-, hkeep, -⟩ := C45_copies (Nat.succ_pos b) (hrep hlen)
  set n : Nat → Nat → V3 ℝ := fun i j => ((su (u0 + i * ((u1 - u0) / a)) (v0 + j * ((v1 - v0) / b))).cross
    (sv (u0 + i * ((u1 - u0) / a)) (v0 + j * ((v1 - v0) / b)))).normalize with hnd
  have hnorm : ∀ i j, i ≤ a → j ≤ b → mesh.normals[i * (b + 1) + j]? = some (n i j) := by
    intro i j hi hj
    apply hkeep
    · rw [← hN, List.getElem?_map]
      have := getElem?_gridParams (f3 i hi) (g3 j hj)
      rw [g2] at this
      rw [this]
      rfl
    · rfl
  obtain ⟨us', vs', N'', -, -, hT, -, -⟩ := getTriangleMesh_eq_ok h1
  obtain ⟨-, -, -, htl, -, -⟩ := C44_mesh h1 rfl
  have hc2 : corners ⟨mesh.normals, [], mesh.triangles⟩ = some (gridTriangles n a b) := by
    refine corners_grid hsz hnorm htl ?_
    rw [createTriangles_eq (by simp) (by simp)] at hT ⊢
    exact hT
  refine ⟨mesh, _, _, h1, h2, hc2, grid_forall₂ fun i j hi hj => ?_⟩
  obtain ⟨hg, a0, a1, q1⟩ := cell_place hu ha hi
  obtain ⟨hk, b0, b1, q2⟩ := cell_place hv hb hj
  simp only [hnd, q1, q2]
  have key := fun u v hu' hv' => cell_facing h hu hv.le hκ hreg hg hk hδ hδ1 a0 a1 b0 b1 (u := u) (v := v) hu' hv'
  generalize (u1 - u0) / (a : ℝ) = g at *
  generalize (v1 - v0) / (b : ℝ) = k at *
  generalize u0 + (i : ℝ) * g = x at *
  generalize v0 + (j : ℝ) * k = y at *
  have c00 := key x y ⟨le_rfl, by linarith⟩ ⟨le_rfl, by linarith⟩
  have c10 := key (x + g) y ⟨by linarith, le_rfl⟩ ⟨le_rfl, by linarith⟩
  have c01 := key x (y + k) ⟨le_rfl, by linarith⟩ ⟨by linarith, le_rfl⟩
  have c11 := key (x + g) (y + k) ⟨by linarith, le_rfl⟩ ⟨by linarith, le_rfl⟩
  exact ⟨⟨facing_normalize c00.1, facing_normalize c10.1, facing_normalize c01.1⟩,
    ⟨facing_normalize c01.2, facing_normalize c10.2, facing_normalize c11.2⟩⟩

/-! ### Bézier patches -/

/-- **C161** The mesh of a regular Bézier patch: `BezierSurface` stores no normals, but its triangles turn in the sense of the patch. -/
theorem C161_bezier {s : BezierSurface (V3 ℝ)} (hg : NetOk s.controlPoints) (hr : 1 ≤ s.controlPoints.rows)
    (hc : 1 ≤ s.controlPoints.cols) {m n : Nat} (hm : s.controlPoints.rows = m + 1) (hn : s.controlPoints.cols = n + 1)
    {A B C D E L M κ δ : ℝ} (hS : NetSlopes m n (entry s.controlPoints) D E) (hN : NetBends m n (entry s.controlPoints) A B C)
    (l1 : m * D ≤ L) (l2 : n * E ≤ L) (m1 : m * (m - 1 : ℕ) * A ≤ M) (m2 : m * n * B ≤ M) (m3 : n * (n - 1 : ℕ) * C ≤ M)
    {u0 u1 v0 v1 : ℝ} (hu : u0 < u1) (hv : v0 < v1) (hu0 : 0 ≤ u0) (hu1 : u1 ≤ 1) (hv0 : 0 ≤ v0) (hv1 : v1 ≤ 1) (hκ : 0 < κ)
    (hreg : ∀ u ∈ Set.Icc u0 u1, ∀ v ∈ Set.Icc v0 v1,
      κ ≤ ((patchU m n (entry s.controlPoints) u v).cross (patchV m n (entry s.controlPoints) u v)).length) {a b : Nat}
    (ha : 1 ≤ a) (hb : 1 ≤ b) (hsz : (a + 1) * (b + 1) ≤ 2 ^ 32)
    (hδ : 2 * (L * M) * ((u1 - u0) / a + (v1 - v0) / b) ≤ δ * κ) (hδ1 : δ < 1) :
    ∃ mesh ts, (SurfacePatch.mk s.surface ((u0, u1), (v0, v1)) (a, b)).getTriangleMesh = .ok mesh ∧ corners mesh = some ts ∧
      FacesAlong (patchPoint m n (entry s.controlPoints))
        (fun u v => (patchU m n (entry s.controlPoints) u v).cross (patchV m n (entry s.controlPoints) u v)) (u0, u1) (v0, v1)
        ((u1 - u0) / a) ((v1 - v0) / b) δ ts := by
  have hp := surface_patchPoint hg hr hc
  rw [hm, hn] at hp
  exact C161_mesh (s := s.surface) (S := patchPoint m n (entry s.controlPoints)) (fun u v _ _ => hp u v)
    (fun us vs _ _ => ⟨[], rfl, Or.inl rfl⟩) (Area.patch_tangents hS hN l1 l2 m1 m2 m3 hu0 hu1 hv0 hv1) hu hv hκ hreg ha hb hsz hδ hδ1

/-- **C161**, an example: the parabolic trough `(u, v, u²)`: with 48 by 48 cells all triangles are within 30 degrees of the surface. -/
example : ∃ mesh ts, (SurfacePatch.mk (BezierSurface.mk trough).surface ((0, 1), (0, 1)) (48, 48)).getTriangleMesh = .ok mesh ∧
    corners mesh = some ts ∧
    FacesAlong (patchPoint 2 1 (entry trough)) (fun u v => (patchU 2 1 (entry trough) u v).cross (patchV 2 1 (entry trough) u v))
      (0, 1) (0, 1) ((1 - 0) / (48 : ℕ)) ((1 - 0) / (48 : ℕ)) (1 / 2) ts := by
  have hS : NetSlopes 2 1 (entry trough) (3 / 2) 1 := by
    refine ⟨fun i j hi hj => ?_, fun i j hi hj => ?_, by norm_num, by norm_num⟩
    · have hi' : i ≤ 1 := by omega
      rw [V3.length_eq]
      apply Real.sqrt_le_iff.2
      refine ⟨by norm_num, ?_⟩
      interval_cases i <;> interval_cases j <;> norm_num [entry, trough, V3.dot]
    · have hj' : j = 0 := by omega
      subst hj'
      rw [V3.length_eq]
      apply Real.sqrt_le_iff.2
      refine ⟨by norm_num, ?_⟩
      interval_cases i <;> norm_num [entry, trough, V3.dot]
  refine C161_bezier (s := ⟨trough⟩) rfl (by simp [trough]) (by simp [trough]) (m := 2) (n := 1) rfl rfl hS
    trough_bends (L := 3) (M := 2) (κ := 1) (by norm_num) (by norm_num) (by norm_num) (by norm_num) (by norm_num)
    (show (0 : ℝ) < 1 by norm_num) (show (0 : ℝ) < 1 by norm_num) (le_refl _) (le_refl _) (le_refl _) (le_refl _) (by norm_num)
    (fun u _ v _ => ?_) (by norm_num) (by norm_num) (by norm_num) (by norm_num) (by norm_num)
  have e1 : patchU 2 1 (entry trough) u v = ⟨1, 0, 2 * u⟩ := by
    unfold patchU patchPoint
    ext <;> (simp [Finset.sum_range_succ, bernsteinPoly, entry, trough]; try ring)
  have e2 : patchV 2 1 (entry trough) u v = ⟨0, 1, 0⟩ := by
    unfold patchV patchPoint
    ext <;> (simp [Finset.sum_range_succ, bernsteinPoly, entry, trough]; try ring)
  simp only [e1, e2, V3.length_eq]
  apply Real.one_le_sqrt.2
  simp only [V3.cross, V3.dot]
  nlinarith [sq_nonneg u]

end Geom3d
