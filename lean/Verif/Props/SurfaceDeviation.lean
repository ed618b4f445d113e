import Verif.Props.PatchDeviation
import Verif.Props.SampleCount
import Verif.Props.Quadrics
import Verif.Props.Subdivide
import Verif.Model.Step

/-! # C154: how far the mesh of a surface is from the surface, for every kind of surface -/

set_option linter.unusedSectionVars false

namespace Geom3d
open Spec Deviation

/-- Over the rectangle `U × V` the curves of constant `v` and `u` bow out from their chords by at most `D w² / 8` and
`E w² / 8`, and the mixed differences over cells of sides `g`, `h` are at most `C g h`. -/
structure Spec.SurfaceBows (S : ℝ → ℝ → V3 ℝ) (U V : ℝ × ℝ) (D C E : ℝ) : Prop where
  along : ∀ a b v t : ℝ, a ∈ Set.Icc U.1 U.2 → b ∈ Set.Icc U.1 U.2 → v ∈ Set.Icc V.1 V.2 → 0 ≤ t → t ≤ 1 →
    (S (a + (b - a) * t) v).distance (S a v + t • (S b v - S a v)) ≤ D * (b - a) ^ 2 / 8
  across : ∀ u c d t : ℝ, u ∈ Set.Icc U.1 U.2 → c ∈ Set.Icc V.1 V.2 → d ∈ Set.Icc V.1 V.2 → 0 ≤ t → t ≤ 1 →
    (S u (c + (d - c) * t)).distance (S u c + t • (S u d - S u c)) ≤ E * (d - c) ^ 2 / 8
  mixed : ∀ a b c d : ℝ, a ∈ Set.Icc U.1 U.2 → b ∈ Set.Icc U.1 U.2 → c ∈ Set.Icc V.1 V.2 → d ∈ Set.Icc V.1 V.2 →
    (S b d - S a d - (S b c - S a c)).length ≤ C * (|b - a| * |d - c|)

/-- The bound for cells of sides `g`, `h`. -/
noncomputable def Spec.cellError (D C E g h : ℝ) : ℝ := (D * g ^ 2 + 2 * C * (g * h) + E * h ^ 2) / 8

namespace Deviation

theorem length_add3_le (a b c : V3 ℝ) : (a + b + c).length ≤ a.length + b.length + c.length := by
  have h1 := V3.length_add_le (a + b) c
  have h2 := V3.length_add_le a b
  linarith

/-- A point of a cell and the bilinear combination of the corners. -/
theorem bilinear {S : ℝ → ℝ → V3 ℝ} {U V : ℝ × ℝ} {D C E : ℝ} (hS : SurfaceBows S U V D C E) {a b g h : ℝ}
    (ha : a ∈ Set.Icc U.1 U.2) (ha' : a + g ∈ Set.Icc U.1 U.2) (hb : b ∈ Set.Icc V.1 V.2) (hb' : b + h ∈ Set.Icc V.1 V.2)
    {s t : ℝ} (hs0 : 0 ≤ s) (hs1 : s ≤ 1) (ht0 : 0 ≤ t) (ht1 : t ≤ 1) :
    (S (a + s * g) (b + t * h) - ((1 - t) • ((1 - s) • S a b + s • S (a + g) b) +
      t • ((1 - s) • S a (b + h) + s • S (a + g) (b + h)))).length ≤ D * g ^ 2 / 8 + E * h ^ 2 / 8 := by
  have hm : a + s * g ∈ Set.Icc U.1 U.2 := by
    obtain ⟨a0, a1⟩ := ha
    obtain ⟨b0, b1⟩ := ha'
    constructor <;> nlinarith
  have k1 := hS.across (a + s * g) b (b + h) t hm hb hb' ht0 ht1
  have k2 := hS.along a (a + g) b s ha ha' hb hs0 hs1
  have k3 := hS.along a (a + g) (b + h) s ha ha' hb' hs0 hs1
  simp only [add_sub_cancel_left] at k1 k2 k3
  rw [mul_comm h t] at k1
  rw [mul_comm g s] at k2 k3
  unfold V3.distance at k1 k2 k3
  have l2 := mul_le_mul_of_nonneg_left k2 (show 0 ≤ 1 - t by linarith)
  have l3 := mul_le_mul_of_nonneg_left k3 ht0
  rw [← abs_of_nonneg (show 0 ≤ 1 - t by linarith), ← V3.length_smul, abs_of_nonneg (show 0 ≤ 1 - t by linarith)] at l2
  nth_rw 1 [← abs_of_nonneg ht0] at l3
  rw [← V3.length_smul] at l3
  have := length_add3_le _ _ _ |>.trans (add_le_add (add_le_add k1 l2) l3)
  refine le_trans (le_of_eq ?_) (this.trans (le_of_eq (by ring)))
  congr 1
  module

theorem mixed_le {S : ℝ → ℝ → V3 ℝ} {U V : ℝ × ℝ} {D C E : ℝ} (hS : SurfaceBows S U V D C E) {a b g h : ℝ}
    (hg : 0 ≤ g) (hh : 0 ≤ h)
    (ha : a ∈ Set.Icc U.1 U.2) (ha' : a + g ∈ Set.Icc U.1 U.2) (hb : b ∈ Set.Icc V.1 V.2) (hb' : b + h ∈ Set.Icc V.1 V.2)
    {p q : ℝ} (hp : 0 ≤ p) (hq : 0 ≤ q) (hpq : p + q ≤ 1) :
    ((p * q) • (S (a + g) (b + h) - S a (b + h) - (S (a + g) b - S a b))).length ≤ C * (g * h) / 4 := by
  have k := hS.mixed a (a + g) b (b + h) ha ha' hb hb'
  simp only [add_sub_cancel_left, abs_of_nonneg hg, abs_of_nonneg hh] at k
  rw [V3.length_smul, abs_of_nonneg (mul_nonneg hp hq)]
  have hn := (V3.length_nonneg _).trans k
  have h4 : p * q ≤ 1 / 4 := by nlinarith [sq_nonneg (p - q)]
  calc _ ≤ p * q * (C * (g * h)) := mul_le_mul_of_nonneg_left k (mul_nonneg hp hq)
    _ ≤ 1 / 4 * (C * (g * h)) := mul_le_mul_of_nonneg_right h4 hn
    _ = _ := by ring

/-- The two triangles of a cell. -/
theorem lower_dist {S : ℝ → ℝ → V3 ℝ} {U V : ℝ × ℝ} {D C E : ℝ} (hS : SurfaceBows S U V D C E) {a b g h : ℝ}
    (hg : 0 ≤ g) (hh : 0 ≤ h)
    (ha : a ∈ Set.Icc U.1 U.2) (ha' : a + g ∈ Set.Icc U.1 U.2) (hb : b ∈ Set.Icc V.1 V.2) (hb' : b + h ∈ Set.Icc V.1 V.2)
    {r s t : ℝ} (hw : Shares r s t) :
    (S (r * a + s * (a + g) + t * a) (r * b + s * b + t * (b + h))).distance
      (mix (S a b, S (a + g) b, S a (b + h)) r s t) ≤ cellError D C E g h := by
  obtain ⟨r0, s0, t0, e⟩ := hw
  obtain rfl : r = 1 - s - t := by linarith
  have k1 := bilinear hS ha ha' hb hb' s0 (by linarith) t0 (by linarith)
  have k2 := mixed_le hS hg hh ha ha' hb hb' s0 t0 (by linarith)
  rw [show (1 - s - t) * a + s * (a + g) + t * a = a + s * g by ring,
    show (1 - s - t) * b + s * b + t * (b + h) = b + t * h by ring]
  have := (V3.length_add_le _ _).trans (add_le_add k1 k2)
  unfold V3.distance mix cellError
  refine le_trans (le_of_eq ?_) (this.trans (le_of_eq (by ring)))
  congr 1
  module

theorem upper_dist {S : ℝ → ℝ → V3 ℝ} {U V : ℝ × ℝ} {D C E : ℝ} (hS : SurfaceBows S U V D C E) {a b g h : ℝ}
    (hg : 0 ≤ g) (hh : 0 ≤ h)
    (ha : a ∈ Set.Icc U.1 U.2) (ha' : a + g ∈ Set.Icc U.1 U.2) (hb : b ∈ Set.Icc V.1 V.2) (hb' : b + h ∈ Set.Icc V.1 V.2)
    {r s t : ℝ} (hw : Shares r s t) :
    (S (r * a + s * (a + g) + t * (a + g)) (r * (b + h) + s * b + t * (b + h))).distance
      (mix (S a (b + h), S (a + g) b, S (a + g) (b + h)) r s t) ≤ cellError D C E g h := by
  obtain ⟨r0, s0, t0, e⟩ := hw
  obtain rfl : t = 1 - r - s := by linarith
  have k1 := bilinear hS ha ha' hb hb' (s := 1 - r) (by linarith) (by linarith) (t := 1 - s) (by linarith) (by linarith)
  have k2 := mixed_le hS hg hh ha ha' hb hb' r0 s0 (by linarith)
  rw [show r * a + s * (a + g) + (1 - r - s) * (a + g) = a + (1 - r) * g by ring,
    show r * (b + h) + s * b + (1 - r - s) * (b + h) = b + (1 - s) * h by ring]
  have := (V3.length_add_le _ _).trans (add_le_add k1 k2)
  unfold V3.distance mix cellError
  refine le_trans (le_of_eq ?_) (this.trans (le_of_eq (by ring)))
  congr 1
  module

theorem close_grid {S : ℝ → ℝ → V3 ℝ} {u0 u1 v0 v1 D C E : ℝ} (hS : SurfaceBows S (u0, u1) (v0, v1) D C E)
    (hu : u0 < u1) (hv : v0 < v1) {a b : Nat} (ha : 1 ≤ a) (hb : 1 ≤ b) :
    CloseMesh S (u0, u1) (v0, v1)
      (gridTriangles (fun i j => S (u0 + i * ((u1 - u0) / a)) (v0 + j * ((v1 - v0) / b))) a b)
      (cellError D C E ((u1 - u0) / a) ((v1 - v0) / b)) := by
  have ha' : (0 : ℝ) < a := by exact_mod_cast ha
  have hb' : (0 : ℝ) < b := by exact_mod_cast hb
  have hg : 0 < (u1 - u0) / a := div_pos (by linarith) ha'
  have hh : 0 < (v1 - v0) / b := div_pos (by linarith) hb'
  have eg : u0 + a * ((u1 - u0) / a) = u1 := by field_simp; ring
  have eh : v0 + b * ((v1 - v0) / b) = v1 := by field_simp; ring
  generalize (u1 - u0) / a = g at *
  generalize (v1 - v0) / b = h at *
  have cell : ∀ i j, i < a → j < b → u0 ≤ u0 + i * g ∧ u0 + i * g + g ≤ u1 ∧ v0 ≤ v0 + j * h ∧ v0 + j * h + h ≤ v1 := by
    intro i j hi hj
    have hi' : (i : ℝ) + 1 ≤ a := by exact_mod_cast hi
    have hj' : (j : ℝ) + 1 ≤ b := by exact_mod_cast hj
    have z1 : (0 : ℝ) ≤ i := Nat.cast_nonneg i
    have z2 : (0 : ℝ) ≤ j := Nat.cast_nonneg j
    exact ⟨by nlinarith, by rw [← eg]; nlinarith, by nlinarith, by rw [← eh]; nlinarith⟩
  have e1 : ∀ i : Nat, u0 + ((i + 1 : ℕ) : ℝ) * g = u0 + i * g + g := fun i => by push_cast; ring
  have e2 : ∀ j : Nat, v0 + ((j + 1 : ℕ) : ℝ) * h = v0 + j * h + h := fun j => by push_cast; ring
  have low : ∀ i j, i < a → j < b → ∀ r s t, Shares r s t → _ := fun i j hi hj r s t hw =>
    let c := cell i j hi hj
    lower_dist hS hg.le hh.le (a := u0 + i * g) (b := v0 + j * h) ⟨c.1, by simp only []; linarith [c.2.1]⟩
      ⟨by simp only []; linarith [c.1], c.2.1⟩ ⟨c.2.2.1, by simp only []; linarith [c.2.2.2]⟩
      ⟨by simp only []; linarith [c.2.2.1], c.2.2.2⟩ hw
  have upp : ∀ i j, i < a → j < b → ∀ r s t, Shares r s t → _ := fun i j hi hj r s t hw =>
    let c := cell i j hi hj
    upper_dist hS hg.le hh.le (a := u0 + i * g) (b := v0 + j * h) ⟨c.1, by simp only []; linarith [c.2.1]⟩
      ⟨by simp only []; linarith [c.1], c.2.1⟩ ⟨c.2.2.1, by simp only []; linarith [c.2.2.2]⟩
      ⟨by simp only []; linarith [c.2.2.1], c.2.2.2⟩ hw
  constructor
  · intro T hT
    rw [mem_gridTriangles] at hT
    obtain ⟨i, j, hi, hj, hT⟩ := hT
    obtain ⟨c1, c2, c3, c4⟩ := cell i j hi hj
    simp only [e1, e2] at hT
    rcases hT with rfl | rfl
    · refine ⟨(u0 + i * g, v0 + j * h), (u0 + i * g + g, v0 + j * h), (u0 + i * g, v0 + j * h + h), ?_, rfl,
        low i j hi hj⟩
      simp only [List.mem_cons, List.not_mem_nil, or_false]
      rintro q (rfl | rfl | rfl) <;> refine ⟨⟨?_, ?_⟩, ?_, ?_⟩ <;> simp only [] <;> linarith
    · refine ⟨(u0 + i * g, v0 + j * h + h), (u0 + i * g + g, v0 + j * h), (u0 + i * g + g, v0 + j * h + h), ?_, rfl,
        upp i j hi hj⟩
      simp only [List.mem_cons, List.not_mem_nil, or_false]
      rintro q (rfl | rfl | rfl) <;> refine ⟨⟨?_, ?_⟩, ?_, ?_⟩ <;> simp only [] <;> linarith
  · intro u v k1 k2 k3 k4
    simp only [] at k1 k2 k3 k4
    obtain ⟨i, hi, i1, i2⟩ := find_cell ha k1 (by rw [eg]; exact k2)
    obtain ⟨j, hj, j1, j2⟩ := find_cell hb k3 (by rw [eh]; exact k4)
    rcases cell_weights hg hh i1 i2 j1 j2 with ⟨r, s, t, hw, eu, ev⟩ | ⟨r, s, t, hw, eu, ev⟩
    · refine ⟨_, mem_gridTriangles.2 ⟨i, j, hi, hj, Or.inl rfl⟩, r, s, t, hw, ?_⟩
      simp only [e1, e2]
      rw [eu, ev]
      exact low i j hi hj r s t hw
    · refine ⟨_, mem_gridTriangles.2 ⟨i, j, hi, hj, Or.inr rfl⟩, r, s, t, hw, ?_⟩
      simp only [e1, e2]
      rw [eu, ev]
      exact upp i j hi hj r s t hw

end Deviation

/-- The mesh of a surface over a rectangle of parameters divided `a` by `b` consists of the triangles of the grid. -/
theorem grid_mesh {s : Surface ℝ} {S : ℝ → ℝ → V3 ℝ} {u0 u1 v0 v1 : ℝ}
    (hs : ∀ u v, u ∈ Set.Icc u0 u1 → v ∈ Set.Icc v0 v1 → s.getPoint u v = .ok (S u v))
    (hn : ∀ us vs, (∀ u ∈ us, u ∈ Set.Icc u0 u1) → (∀ v ∈ vs, v ∈ Set.Icc v0 v1) →
      ∃ N, s.getNormals (gridParams us vs) = .ok N ∧ (N = [] ∨ N.length = (gridParams us vs).length))
    (hu : u0 < u1) (hv : v0 < v1) {a b : Nat} (ha : 1 ≤ a) (hb : 1 ≤ b) (hsz : (a + 1) * (b + 1) ≤ 2 ^ 32) :
    ∃ mesh, (SurfacePatch.mk s ((u0, u1), (v0, v1)) (a, b)).getTriangleMesh = .ok mesh ∧
      corners mesh = some (gridTriangles (fun i j => S (u0 + i * ((u1 - u0) / a)) (v0 + j * ((v1 - v0) / b))) a b) := by
  have entries : ∀ {x0 x1 : ℝ} {k : Nat}, x0 < x1 → 1 ≤ k → ∀ xs, uniformDivide (x0, x1) k = .ok xs →
      (∀ (i : Nat) (x : ℝ), xs[i]? = some x → x = x0 + i * ((x1 - x0) / k)) ∧ ∀ x ∈ xs, x ∈ Set.Icc x0 x1 := by
    intro x0 x1 k hx hk xs e
    obtain ⟨l, f1, f2, f3⟩ := C28_entries (x0, x1) hk
    rw [e] at f1; cases f1
    have hget : ∀ (i : Nat) (x : ℝ), xs[i]? = some x → i ≤ k ∧ x = x0 + i * ((x1 - x0) / k) := by
      intro i x hix
      have hi : i ≤ k := by have := (List.getElem?_eq_some_iff.1 hix).1; omega
      have k1 := f3 i hi
      rw [hix, Option.some.injEq] at k1
      exact ⟨hi, k1⟩
    refine ⟨fun i x h => (hget i x h).2, fun x hxm => ?_⟩
    obtain ⟨i, hi, rfl⟩ := List.getElem_of_mem hxm
    obtain ⟨hik, e⟩ := hget i _ (List.getElem?_eq_getElem hi)
    rw [e]
    have hk' : (0 : ℝ) < k := by exact_mod_cast hk
    have hik' : (i : ℝ) ≤ k := by exact_mod_cast hik
    have hd : 0 < (x1 - x0) / k := div_pos (by linarith) hk'
    have he : (k : ℝ) * ((x1 - x0) / k) = x1 - x0 := by field_simp
    have hi0 : (0 : ℝ) ≤ i := Nat.cast_nonneg i
    constructor <;> nlinarith
  obtain ⟨mesh, h1, -, -, h2, -⟩ := patch_mesh (p := SurfacePatch.mk s ((u0, u1), (v0, v1)) (a, b)) rfl ha hb hsz
    (q := fun i j => S (u0 + i * ((u1 - u0) / a)) (v0 + j * ((v1 - v0) / b))) (by
      refine ⟨fun us vs e1 e2 i j u v hui hvj => ?_, fun us vs e1 e2 => ?_⟩
      · obtain ⟨p1, p2⟩ := entries hu ha us e1
        obtain ⟨q1, q2⟩ := entries hv hb vs e2
        rw [← p1 i u hui, ← q1 j v hvj]
        exact hs u v (p2 u (List.mem_of_getElem? hui)) (q2 v (List.mem_of_getElem? hvj))
      · exact hn us vs (entries hu ha us e1).2 (entries hv hb vs e2).2)
  exact ⟨mesh, h1, h2⟩

/-- **C154** The mesh of a surface over a rectangle of parameters divided `a` by `b`: every point of every triangle is within
`(D g² + 2 C g h + E h²) / 8` of the point of the surface with the same weights of the parameters of the corners, and every
point of the surface is within that of a triangle. `g` and `h` are the sides of the cells. -/
theorem C154_mesh {s : Surface ℝ} {S : ℝ → ℝ → V3 ℝ} {u0 u1 v0 v1 D C E : ℝ}
    (hs : ∀ u v, u ∈ Set.Icc u0 u1 → v ∈ Set.Icc v0 v1 → s.getPoint u v = .ok (S u v))
    (hn : ∀ us vs, (∀ u ∈ us, u ∈ Set.Icc u0 u1) → (∀ v ∈ vs, v ∈ Set.Icc v0 v1) →
      ∃ N, s.getNormals (gridParams us vs) = .ok N ∧ (N = [] ∨ N.length = (gridParams us vs).length))
    (hS : SurfaceBows S (u0, u1) (v0, v1) D C E) (hu : u0 < u1) (hv : v0 < v1) {a b : Nat} (ha : 1 ≤ a) (hb : 1 ≤ b)
    (hsz : (a + 1) * (b + 1) ≤ 2 ^ 32) :
    ∃ mesh ts, (SurfacePatch.mk s ((u0, u1), (v0, v1)) (a, b)).getTriangleMesh = .ok mesh ∧ corners mesh = some ts ∧
      ts.length = 2 * (a * b) ∧
      CloseMesh S (u0, u1) (v0, v1) ts (cellError D C E ((u1 - u0) / a) ((v1 - v0) / b)) := by
  obtain ⟨mesh, h1, h2⟩ := grid_mesh hs hn hu hv ha hb hsz
  refine ⟨mesh, _, h1, h2, ?_, close_grid hS hu hv ha hb⟩
  simp [gridTriangles, List.length_flatMap]
  ring

/-! ### Planes, cylinders, sweeps, spins, umbrellas -/

/-- **C154** Planes: the mesh lies on the plane. -/
theorem C154_plane (p : Plane ℝ) (U V : ℝ × ℝ) : SurfaceBows p.getPoint U V 0 0 0 := by
  have e : ∀ x y : V3 ℝ, x = y → x.distance y ≤ 0 := fun x y h => by rw [h, V3.distance_self]
  refine ⟨?_, ?_, ?_⟩
  · intro a b v t _ _ _ _ _
    rw [zero_mul, zero_div]
    refine e _ _ ?_
    simp only [Plane.getPoint, V3.rmul_eq]
    module
  · intro a b v t _ _ _ _ _
    rw [zero_mul, zero_div]
    refine e _ _ ?_
    simp only [Plane.getPoint, V3.rmul_eq]
    module
  · intro a b c d _ _ _ _
    rw [zero_mul]
    refine le_of_eq ?_
    rw [show p.getPoint b d - p.getPoint a d - (p.getPoint b c - p.getPoint a c) = 0 by
      simp only [Plane.getPoint, V3.rmul_eq]; module, V3.length_zero]

namespace Deviation

/-- A linear motion and a rotation. -/
theorem trig_chord {c k p q : V3 ℝ} {R : ℝ} (hR : ∀ u : ℝ, (Real.cos u • p + Real.sin u • q).length ≤ R) (a b : ℝ) {t : ℝ}
    (ht0 : 0 ≤ t) (ht1 : t ≤ 1) :
    ((fun u : ℝ => c + u • k + Real.cos u • p + Real.sin u • q) (a + (b - a) * t)).distance
      ((c + a • k + Real.cos a • p + Real.sin a • q) +
        t • ((c + b • k + Real.cos b • p + Real.sin b • q) - (c + a • k + Real.cos a • p + Real.sin a • q)))
      ≤ R * (b - a) ^ 2 / 8 := by
  unfold V3.distance
  set F : ℝ → V3 ℝ := fun u : ℝ => c + u • k + Real.cos u • p + Real.sin u • q with hF
  change (F (a + (b - a) * t) - (F a + t • (F b - F a))).length ≤ _
  set X := F (a + (b - a) * t) - (F a + t • (F b - F a)) with hX
  have hl := V3.length_nonneg X
  have hf : ∀ u, X.dot (F u) = X.dot c + u * X.dot k + (Real.cos u * X.dot p + Real.sin u * X.dot q) := by
    intro u
    rw [hF]
    simp only [V3.dot_add, V3.dot_smul]
    ring
  have hR0 : 0 ≤ R := (V3.length_nonneg _).trans (hR 0)
  have key := chord_of_second (f := fun u => X.dot (F u))
    (f' := fun u => X.dot k + (-Real.sin u * X.dot p + Real.cos u * X.dot q))
    (f'' := fun u => -Real.cos u * X.dot p + -Real.sin u * X.dot q) (D := X.length * R)
    (by
      intro u
      simp only [hf]
      have := ((hasDerivAt_id u).mul_const (X.dot k)).const_add (X.dot c) |>.add
        (((Real.hasDerivAt_cos u).mul_const (X.dot p)).add ((Real.hasDerivAt_sin u).mul_const (X.dot q)))
      exact this.congr_deriv (by ring))
    (by
      intro u
      exact ((((Real.hasDerivAt_sin u).neg).mul_const _).add ((Real.hasDerivAt_cos u).mul_const _)).const_add _)
    (by
      intro u
      have := abs_dot_le (w := X) (hR u)
      rw [V3.dot_add, V3.dot_smul, V3.dot_smul] at this
      rw [← abs_neg]
      refine le_trans (le_of_eq ?_) this
      congr 1
      ring) a b ht0 ht1
  have e : X.dot (F (a + (b - a) * t)) - (X.dot (F a) + (X.dot (F b) - X.dot (F a)) * t) = X.dot X := by
    have : X.dot X = X.dot (F (a + (b - a) * t) - (F a + t • (F b - F a))) := by rw [← hX]
    rw [this]
    clear_value F X
    rw [V3.dot_sub, V3.dot_add X (F a), V3.dot_smul, V3.dot_sub]
    ring
  simp only [e] at key
  rw [← V3.length_mul_self] at key
  have k2 := (le_abs_self _).trans key
  rcases hl.eq_or_lt with h0 | h0
  · rw [← h0]; positivity
  · refine le_of_mul_le_mul_left (k2.trans (le_of_eq (by ring))) h0

theorem trig_step {p q : V3 ℝ} {R : ℝ} (hR : ∀ u : ℝ, (Real.cos u • p + Real.sin u • q).length ≤ R) (a b : ℝ) :
    ((Real.cos b - Real.cos a) • p + (Real.sin b - Real.sin a) • q).length ≤ R * |b - a| := by
  have h := hR ((b + a) / 2 + Real.pi / 2)
  have e : (Real.cos b - Real.cos a) • p + (Real.sin b - Real.sin a) • q = (2 * Real.sin ((b - a) / 2)) •
      (Real.cos ((b + a) / 2 + Real.pi / 2) • p + Real.sin ((b + a) / 2 + Real.pi / 2) • q) := by
    rw [Real.cos_sub_cos, Real.sin_sub_sin, Real.cos_add_pi_div_two, Real.sin_add_pi_div_two]
    module
  rw [e, V3.length_smul]
  have hs : |2 * Real.sin ((b - a) / 2)| ≤ |b - a| := by
    rw [abs_mul, abs_two]
    have : |Real.sin ((b - a) / 2)| ≤ |(b - a) / 2| := Real.abs_sin_le_abs
    rw [abs_div, abs_two] at this
    linarith
  rw [mul_comm]
  exact mul_le_mul h hs (abs_nonneg _) ((V3.length_nonneg _).trans h)

theorem trig_length {p q : V3 ℝ} {R : ℝ} (hR : 0 ≤ R) (hp : p.dot p = R ^ 2) (hq : q.dot q = R ^ 2) (hpq : p.dot q = 0)
    (u : ℝ) : (Real.cos u • p + Real.sin u • q).length ≤ R := by
  rw [V3.length_eq]
  have : (Real.cos u • p + Real.sin u • q).dot (Real.cos u • p + Real.sin u • q) = R ^ 2 := by
    rw [V3.dot_add, V3.add_dot, V3.add_dot, V3.smul_dot, V3.smul_dot, V3.smul_dot, V3.smul_dot, V3.dot_smul, V3.dot_smul,
      V3.dot_smul, V3.dot_smul, hp, hq, hpq, V3.dot_comm q, hpq]
    linear_combination R ^ 2 * Real.cos_sq_add_sin_sq u
  rw [this, Real.sqrt_sq hR]

end Deviation

/-- **C154** Cylinders: straight along the axis, the radius around it. -/
theorem C154_cylinder {c : Cylinder ℝ} (h : CylFramed c) (hr : 0 ≤ c.radius) (U V : ℝ × ℝ) :
    SurfaceBows c.getPoint U V 0 0 c.radius := by
  have hp : ∀ l a, c.getPoint l a =
      (c.origin + l • c.axis) + a • (0 : V3 ℝ) + Real.cos a • (c.radius • c.refDir) + Real.sin a • (c.radius • c.axis.cross c.refDir) := by
    intro l a
    rw [cylinder_getPoint, circle_getPoint h.base]
    simp only [Cylinder.base]
    module
  have hR : ∀ u : ℝ, (Real.cos u • (c.radius • c.refDir) + Real.sin u • (c.radius • c.axis.cross c.refDir)).length ≤ c.radius := by
    have e1 := h.ref
    have e2 := framed_cross h.base
    have e3 := V3.dot_cross_right c.axis c.refDir
    simp only [Cylinder.base] at e2
    refine trig_length hr ?_ ?_ ?_
    · rw [V3.smul_dot, V3.dot_smul, e1]; ring
    · rw [V3.smul_dot, V3.dot_smul, e2]; ring
    · rw [V3.smul_dot, V3.dot_smul, e3]; ring
  refine ⟨?_, ?_, ?_⟩
  · intro a b v t _ _ _ _ _
    rw [zero_mul, zero_div]
    refine le_of_eq ?_
    rw [show c.getPoint a v + t • (c.getPoint b v - c.getPoint a v) = c.getPoint (a + (b - a) * t) v by
      simp only [hp]; module, V3.distance_self]
  · intro u a b t _ _ _ ht0 ht1
    simp only [hp]
    exact trig_chord hR a b ht0 ht1
  · intro a b d e _ _ _ _
    rw [zero_mul]
    refine le_of_eq ?_
    rw [show c.getPoint b e - c.getPoint a e - (c.getPoint b d - c.getPoint a d) = 0 by simp only [hp]; module, V3.length_zero]

/-- **C154** Sweeps: as the path one way, as the section the other way. -/
theorem C154_sweep {w : SweepSurface ℝ} {U V : ℝ × ℝ} {D E : ℝ} (hp : Bows w.path.getPoint D U.1 U.2)
    (hq : Bows w.section_.getPoint E V.1 V.2) :
    (∀ u v, u ∈ Set.Icc U.1 U.2 → v ∈ Set.Icc V.1 V.2 → w.getPoint u v = .ok (valOf (w.getPoint u v))) ∧
      SurfaceBows (fun u v => valOf (w.getPoint u v)) U V D 0 E := by
  have okp : ∀ u ∈ Set.Icc U.1 U.2, w.path.getPoint u = .ok (valOf (w.path.getPoint u)) := by
    intro u hu
    obtain ⟨x, -, -, h, -⟩ := hp u u 0 hu hu (le_refl _) zero_le_one
    rw [h]; rfl
  have okq : ∀ v ∈ Set.Icc V.1 V.2, w.section_.getPoint v = .ok (valOf (w.section_.getPoint v)) := by
    intro v hv
    obtain ⟨x, -, -, h, -⟩ := hq v v 0 hv hv (le_refl _) zero_le_one
    rw [h]; rfl
  have val : ∀ u v, u ∈ Set.Icc U.1 U.2 → v ∈ Set.Icc V.1 V.2 →
      w.getPoint u v = .ok (valOf (w.path.getPoint u) + valOf (w.section_.getPoint v)) := by
    intro u v hu hv
    unfold SweepSurface.getPoint
    rw [okp u hu, okq v hv]
    rfl
  have val' : ∀ u v, u ∈ Set.Icc U.1 U.2 → v ∈ Set.Icc V.1 V.2 →
      valOf (w.getPoint u v) = valOf (w.path.getPoint u) + valOf (w.section_.getPoint v) := by
    intro u v hu hv
    rw [val u v hu hv]; rfl
  have mid : ∀ {I : ℝ × ℝ} {a b t : ℝ}, a ∈ Set.Icc I.1 I.2 → b ∈ Set.Icc I.1 I.2 → 0 ≤ t → t ≤ 1 →
      a + (b - a) * t ∈ Set.Icc I.1 I.2 := by
    intro I a b t ha hb h0 h1
    obtain ⟨a0, a1⟩ := ha
    obtain ⟨b0, b1⟩ := hb
    constructor <;> nlinarith
  refine ⟨fun u v hu hv => by rw [val u v hu hv]; rfl, ?_, ?_, ?_⟩
  · intro a b v t ha hb hv h0 h1
    obtain ⟨x, y, z, e1, e2, e3, hd⟩ := hp a b t ha hb h0 h1
    rw [val' _ _ (mid ha hb h0 h1) hv, val' _ _ ha hv, val' _ _ hb hv, e1, e2, e3]
    refine le_trans (le_of_eq ?_) hd
    unfold V3.distance
    congr 1
    rw [V3.rmul_eq]
    simp only [valOf]
    module
  · intro u a b t hu ha hb h0 h1
    obtain ⟨x, y, z, e1, e2, e3, hd⟩ := hq a b t ha hb h0 h1
    rw [val' _ _ hu (mid ha hb h0 h1), val' _ _ hu ha, val' _ _ hu hb, e1, e2, e3]
    refine le_trans (le_of_eq ?_) hd
    unfold V3.distance
    congr 1
    rw [V3.rmul_eq]
    simp only [valOf]
    module
  · intro a b c d ha hb hc hd
    rw [zero_mul, val' _ _ hb hd, val' _ _ ha hd, val' _ _ hb hc, val' _ _ ha hc]
    refine le_of_eq ?_
    rw [add_sub_add_right_eq_sub, add_sub_add_right_eq_sub, sub_self, V3.length_zero]

/-- **C154** Spins: as the section along it, the largest distance from the axis around it, and the speed of the section
across. -/
theorem C154_spin {s : SpinSurface ℝ} (hax : s.axis.dot s.axis = 1) {U V : ℝ × ℝ} {D L R : ℝ}
    (hb : Bows s.section_.getPoint D U.1 U.2) (hL : LipOn s.section_.getPoint U.1 U.2 L)
    (hR : ∀ u ∈ Set.Icc U.1 U.2, ∀ q, s.section_.getPoint u = .ok q → (spinRadial s q).length ≤ R) :
    (∀ u v, u ∈ Set.Icc U.1 U.2 → v ∈ Set.Icc V.1 V.2 → s.getPoint u v = .ok (valOf (s.getPoint u v))) ∧
      SurfaceBows (fun u v => valOf (s.getPoint u v)) U V D L R := by
  -- the rotation as a linear map
  have lag : ∀ y : V3 ℝ, s.axis.dot y = 0 → (s.axis.cross y).dot (s.axis.cross y) = y.dot y := by
    intro y hy
    rw [V3.lagrange, hax, hy]; ring
  have radlen : ∀ y : V3 ℝ, s.axis.dot y = 0 → ∀ u : ℝ, (Real.cos u • y + Real.sin u • s.axis.cross y).length ≤ y.length := by
    intro y hy
    have e : y.dot y = y.length ^ 2 := by rw [← V3.length_mul_self]; ring
    exact trig_length (V3.length_nonneg y) e (by rw [lag y hy, e]) (V3.dot_cross_right _ _)
  have okq : ∀ u ∈ Set.Icc U.1 U.2, s.section_.getPoint u = .ok (valOf (s.section_.getPoint u)) := by
    intro u hu
    obtain ⟨x, -, -, h, -⟩ := hb u u 0 hu hu (le_refl _) zero_le_one
    rw [h]; rfl
  set x : ℝ → V3 ℝ := fun u => valOf (s.section_.getPoint u) with hx
  have val : ∀ u v, u ∈ Set.Icc U.1 U.2 → s.getPoint u v = .ok (s.origin + spinHeight s (x u) • s.axis +
      Real.cos v • spinRadial s (x u) + Real.sin v • s.axis.cross (spinRadial s (x u))) := fun u v hu =>
    spin_getPoint hax (okq u hu) v
  have val' : ∀ u v, u ∈ Set.Icc U.1 U.2 → valOf (s.getPoint u v) = s.origin + spinHeight s (x u) • s.axis +
      Real.cos v • spinRadial s (x u) + Real.sin v • s.axis.cross (spinRadial s (x u)) := by
    intro u v hu
    rw [val u v hu]; rfl
  -- the turned vector
  set rot : ℝ → V3 ℝ → V3 ℝ := fun v y => y.dot s.axis • s.axis + Real.cos v • (y - y.dot s.axis • s.axis) +
    Real.sin v • s.axis.cross (y - y.dot s.axis • s.axis) with hrot
  have perp : ∀ y : V3 ℝ, s.axis.dot (y - y.dot s.axis • s.axis) = 0 := by
    intro y
    rw [V3.dot_sub, V3.dot_smul, hax, V3.dot_comm]; ring
  have rotlen : ∀ v y, (rot v y).length ≤ y.length := by
    intro v y
    rw [V3.length_eq, V3.length_eq]
    apply Real.sqrt_le_sqrt
    have p0 := perp y
    set z := y - y.dot s.axis • s.axis with hz
    have ey : y = y.dot s.axis • s.axis + z := by rw [hz]; abel
    have q1 := V3.dot_cross_left s.axis z
    have q2 := V3.dot_cross_right s.axis z
    have q3 := lag z p0
    have e1 : (rot v y).dot (rot v y) = (y.dot s.axis) ^ 2 + z.dot z := by
      simp only [hrot]
      rw [← hz]
      simp only [V3.dot_add, V3.add_dot, V3.smul_dot, V3.dot_smul, hax, p0, q1, q2, q3, V3.dot_comm z s.axis,
        V3.dot_comm (s.axis.cross z) s.axis, V3.dot_comm (s.axis.cross z) z]
      linear_combination z.dot z * Real.cos_sq_add_sin_sq v
    have e2 : y.dot y = (y.dot s.axis) ^ 2 + z.dot z := by
      conv_lhs => rw [ey]
      simp only [V3.dot_add, V3.add_dot, V3.smul_dot, V3.dot_smul, hax, p0, V3.dot_comm z s.axis]
      ring
    rw [e1, e2]
  refine ⟨fun u v hu hv => by rw [val u v hu]; rfl, ?_, ?_, ?_⟩
  · intro a b v t ha hb' hv h0 h1
    have hm : a + (b - a) * t ∈ Set.Icc U.1 U.2 := by
      obtain ⟨a0, a1⟩ := ha
      obtain ⟨b0, b1⟩ := hb'
      constructor <;> nlinarith
    obtain ⟨p, q, z, e1, e2, e3, hd⟩ := hb a b t ha hb' h0 h1
    refine le_trans ?_ hd
    rw [V3.rmul_eq]
    have f1 : x a = p := by rw [hx]; simp only [e1]; rfl
    have f2 : x b = q := by rw [hx]; simp only [e2]; rfl
    have f3 : x (a + (b - a) * t) = z := by rw [hx]; simp only [e3]; rfl
    have := rotlen v (z - (p + t • (q - p)))
    simp only [val' _ _ hm, val' _ _ ha, val' _ _ hb', f1, f2, f3]
    unfold V3.distance
    refine le_trans (le_of_eq ?_) this
    congr 1
    simp only [hrot, spinRadial, spinHeight]
    ext <;> simp [V3.cross, V3.dot] <;> ring
  · intro u a b t hu ha hb' h0 h1
    have := trig_chord (c := s.origin + spinHeight s (x u) • s.axis) (k := 0) (p := spinRadial s (x u))
      (q := s.axis.cross (spinRadial s (x u))) (R := R)
      (fun w => (radlen _ (spinRadial_perp hax _) w).trans (hR u hu _ (okq u hu))) a b h0 h1
    simp only [smul_zero, add_zero] at this
    simp only [val' _ _ hu]
    exact this
  · intro a b c d ha hb' hc hd
    obtain ⟨p, e1, hp⟩ := hL a ha
    obtain ⟨q, e2, hq⟩ := hp b hb'
    have f1 : x a = p := by rw [hx]; simp only [e1]; rfl
    have f2 : x b = q := by rw [hx]; simp only [e2]; rfl
    set y := q - p with hy
    have k := trig_step (p := y - y.dot s.axis • s.axis) (q := s.axis.cross (y - y.dot s.axis • s.axis))
      (radlen _ (perp y)) c d
    have k2 : (y - y.dot s.axis • s.axis).length ≤ y.length := by
      have := rotlen (Real.pi) y
      rw [V3.length_eq, V3.length_eq]
      apply Real.sqrt_le_sqrt
      have p0 := perp y
      set z := y - y.dot s.axis • s.axis with hz
      have ey : y = y.dot s.axis • s.axis + z := by rw [hz]; abel
      have e2 : y.dot y = (y.dot s.axis) ^ 2 + z.dot z := by
        conv_lhs => rw [ey]
        simp only [V3.dot_add, V3.add_dot, V3.smul_dot, V3.dot_smul, hax, p0, V3.dot_comm z s.axis]
        ring
      rw [e2]
      nlinarith [sq_nonneg (y.dot s.axis)]
    have k3 : y.length ≤ L * |b - a| := by
      rw [hy, ← V3.length_neg, neg_sub, abs_sub_comm]
      exact hq
    simp only [val' _ _ ha, val' _ _ hb', f1, f2]
    refine le_trans (le_of_eq ?_) (k.trans ((mul_le_mul_of_nonneg_right (k2.trans k3) (abs_nonneg _)).trans (le_of_eq (by ring))))
    congr 1
    simp only [hy, spinRadial, spinHeight]
    ext <;> simp [V3.cross, V3.dot] <;> ring

/-- **C154** Umbrellas: from the apex to the rim. -/
theorem C154_umbrella (m : Umbrella ℝ) (hr : 0 ≤ m.radius) (V : ℝ × ℝ) :
    SurfaceBows m.getPoint (0, Real.pi) V (m.radius / Real.pi) (2 * (m.radius / Real.pi)) m.radius := by
  have hpi := Real.pi_pos
  set ρ := m.radius / Real.pi with hρ
  have hρ0 : 0 ≤ ρ := by positivity
  have unit : ∀ {R : ℝ}, 0 ≤ R → ∀ u : ℝ, (Real.cos u • (⟨R, 0, 0⟩ : V3 ℝ) + Real.sin u • ⟨0, R, 0⟩).length ≤ R := by
    intro R hR
    refine trig_length hR ?_ ?_ ?_ <;> simp [V3.dot] <;> ring
  have hs : ∀ θ : ℝ, 0 ≤ θ → 0 ≤ θ - Real.sin θ := fun θ h => by have := Real.sin_le h; linarith
  refine ⟨?_, ?_, ?_⟩
  · intro a b v t _ _ _ h0 h1
    have := trig_chord (c := ⟨0, 0, ρ⟩) (k := ⟨ρ * Real.cos v, ρ * Real.sin v, 0⟩) (p := ⟨0, 0, ρ⟩)
      (q := ⟨-(ρ * Real.cos v), -(ρ * Real.sin v), 0⟩) (R := ρ) (by
        refine trig_length hρ0 ?_ ?_ ?_
        · simp [V3.dot]; ring
        · simp only [V3.dot]
          linear_combination ρ ^ 2 * Real.cos_sq_add_sin_sq v
        · simp [V3.dot]) a b h0 h1
    refine le_trans (le_of_eq ?_) this
    congr 1 <;> ext <;> simp [Umbrella.getPoint, Trig.sin, Trig.cos, Trig.pi, ← hρ] <;> ring
  · intro u a b t hu _ _ h0 h1
    have hw := hs u hu.1
    have := trig_chord (c := ⟨0, 0, ρ * (1 + Real.cos u)⟩) (k := 0) (p := ⟨ρ * (u - Real.sin u), 0, 0⟩)
      (q := ⟨0, ρ * (u - Real.sin u), 0⟩) (unit (mul_nonneg hρ0 hw)) a b h0 h1
    have hE : ρ * (u - Real.sin u) * (b - a) ^ 2 / 8 ≤ m.radius * (b - a) ^ 2 / 8 := by
      have h2 : ρ * (u - Real.sin u) ≤ m.radius := by
        have h3 : u - Real.sin u ≤ Real.pi := by
          have := Real.sin_nonneg_of_nonneg_of_le_pi hu.1 hu.2
          have := hu.2
          simp only [] at this
          linarith
        calc ρ * (u - Real.sin u) ≤ ρ * Real.pi := mul_le_mul_of_nonneg_left h3 hρ0
          _ = m.radius := by rw [hρ]; field_simp
      have := mul_le_mul_of_nonneg_right h2 (sq_nonneg (b - a))
      linarith
    refine le_trans (le_of_eq ?_) (this.trans hE)
    congr 1 <;> ext <;> simp [Umbrella.getPoint, Trig.sin, Trig.cos, Trig.pi, ← hρ] <;> ring
  · intro a b c d _ _ _ _
    have k := trig_step (p := ⟨1, 0, 0⟩) (q := ⟨0, 1, 0⟩) (R := 1) (unit zero_le_one) c d
    have hw : |(b - Real.sin b) - (a - Real.sin a)| ≤ 2 * |b - a| := by
      have e := trig_step (p := ⟨1, 0, 0⟩) (q := ⟨0, 1, 0⟩) (R := 1) (unit zero_le_one) a b
      have := abs_dot_le (w := ⟨0, 1, 0⟩) e
      have hl : (⟨0, 1, 0⟩ : V3 ℝ).length = 1 := by rw [V3.length_eq]; simp [V3.dot]
      rw [hl, one_mul, one_mul] at this
      simp [V3.dot] at this
      have t := abs_sub (b - a) (Real.sin b - Real.sin a)
      rw [show (b - Real.sin b) - (a - Real.sin a) = (b - a) - (Real.sin b - Real.sin a) by ring]
      linarith
    have e : m.getPoint b d - m.getPoint a d - (m.getPoint b c - m.getPoint a c) =
        (ρ * ((b - Real.sin b) - (a - Real.sin a))) • ((Real.cos d - Real.cos c) • (⟨1, 0, 0⟩ : V3 ℝ) +
          (Real.sin d - Real.sin c) • ⟨0, 1, 0⟩) := by
      ext <;> simp [Umbrella.getPoint, Trig.sin, Trig.cos, Trig.pi, ← hρ] <;> ring
    rw [e, V3.length_smul, abs_mul, abs_of_nonneg hρ0]
    rw [one_mul] at k
    calc _ ≤ ρ * (2 * |b - a|) * |d - c| := by
          refine mul_le_mul (mul_le_mul_of_nonneg_left hw hρ0) k (V3.length_nonneg _) (by positivity)
      _ = _ := by ring

/-- **C154**, an example: the umbrella of `src/surface/umbrella.rs:28-39` is meshed to within 1/400. -/
theorem C154_example :
    ∃ mesh ts, (SurfacePatch.mk (Umbrella.surface (⟨Real.pi⟩ : Umbrella ℝ)) ((0, Real.pi), (0, 2 * Real.pi)) (64, 128)).getTriangleMesh
        = .ok mesh ∧ corners mesh = some ts ∧ ts.length = 16384 ∧
      ∃ ε < 1 / 400, CloseMesh (⟨Real.pi⟩ : Umbrella ℝ).getPoint (0, Real.pi) (0, 2 * Real.pi) ts ε := by
  have hpi := Real.pi_pos
  obtain ⟨mesh, ts, h1, h2, h3, h4⟩ := C154_mesh (s := Umbrella.surface (⟨Real.pi⟩ : Umbrella ℝ))
    (S := (⟨Real.pi⟩ : Umbrella ℝ).getPoint) (fun u v _ _ => rfl) (fun us vs _ _ => ⟨[], rfl, Or.inl rfl⟩)
    (C154_umbrella ⟨Real.pi⟩ hpi.le (0, 2 * Real.pi)) hpi (by linarith) (a := 64) (b := 128) (by norm_num) (by norm_num)
    (by norm_num)
  refine ⟨mesh, ts, h1, h2, h3, _, ?_, h4⟩
  unfold cellError
  have h5 := Real.pi_lt_d4
  have h6 : Real.pi / Real.pi = 1 := div_self hpi.ne'
  have h7 : Real.pi ^ 2 < 9.8698 := by nlinarith
  have h8 : Real.pi ^ 3 < 31.0070 := by nlinarith
  simp only [h6]
  push_cast
  nlinarith

/-- Points of a circle move at most the radius times as far as the angles. -/
theorem circle_lip {c : Circle ℝ} (h : Framed c) (hr : 0 ≤ c.radius) (lo hi : ℝ) :
    LipOn (fun u => .ok (c.getPoint u)) lo hi c.radius := by
  intro x _
  refine ⟨_, rfl, fun y _ => ⟨_, rfl, ?_⟩⟩
  have hR := trig_length (p := c.radius • c.refDir) (q := c.radius • c.axis.cross c.refDir) hr
    (by rw [V3.smul_dot, V3.dot_smul, h.ref]; ring) (by rw [V3.smul_dot, V3.dot_smul, framed_cross h]; ring)
    (by rw [V3.smul_dot, V3.dot_smul, V3.dot_cross_right]; ring)
  refine le_trans (le_of_eq ?_) (trig_step hR y x)
  unfold V3.distance
  rw [circle_getPoint h, circle_getPoint h]
  congr 1
  module

/-- The circle of radius 1 around (2, 0, 0) in the plane of x and z, spun about the axis z. -/
noncomputable def Spec.ring : SpinSurface ℝ := ⟨⟨0, 0, 0⟩, ⟨0, 0, 1⟩, Circle.obj ⟨⟨2, 0, 0⟩, 1, ⟨0, 1, 0⟩, ⟨1, 0, 0⟩⟩⟩

/-- **C154**, an example: the mesh of a torus with 32 by 64 cells. -/
theorem C154_example_torus :
    ∃ mesh ts, (SurfacePatch.mk ring.surface ((0, 2 * Real.pi), (0, 2 * Real.pi)) (32, 64)).getTriangleMesh = .ok mesh ∧
      corners mesh = some ts ∧ ts.length = 4096 ∧
      ∃ ε < 1 / 75, CloseMesh (fun u v => valOf (ring.getPoint u v)) (0, 2 * Real.pi) (0, 2 * Real.pi) ts ε := by
  have hpi := Real.pi_pos
  have hF : Framed (⟨⟨2, 0, 0⟩, 1, ⟨0, 1, 0⟩, ⟨1, 0, 0⟩⟩ : Circle ℝ) := ⟨by simp [V3.dot], by simp [V3.dot], by simp [V3.dot]⟩
  obtain ⟨k1, k2⟩ := C154_spin (s := ring) (by simp [ring, V3.dot]) (U := (0, 2 * Real.pi)) (V := (0, 2 * Real.pi))
    (D := 1) (L := 1) (R := 3)
    (C152_circle hF (by norm_num) _ _) (circle_lip hF (by norm_num) _ _) (by
      intro u _ q hq
      have e : q = (⟨⟨2, 0, 0⟩, 1, ⟨0, 1, 0⟩, ⟨1, 0, 0⟩⟩ : Circle ℝ).getPoint u := by
        cases hq; rfl
      rw [e, circle_getPoint hF, V3.length_eq, Real.sqrt_le_left (by norm_num)]
      simp [spinRadial, spinHeight, ring, V3.dot, V3.cross]
      nlinarith [Real.cos_le_one u, Real.neg_one_le_cos u])
  obtain ⟨mesh, ts, h1, h2, h3, h4⟩ := C154_mesh (s := ring.surface) k1 (fun us vs _ _ => ⟨[], rfl, Or.inl rfl⟩) k2
    (by linarith) (by linarith) (a := 32) (b := 64) (by norm_num) (by norm_num) (by norm_num)
  refine ⟨mesh, ts, h1, h2, h3, _, ?_, h4⟩
  unfold cellError
  have h5 := Real.pi_lt_d4
  have h7 : Real.pi ^ 2 < 9.8698 := by nlinarith
  push_cast
  nlinarith

/-- **C154**, an example: a cylinder with the radius, ranges and divisions of the test at `src/surface/cylinder.rs:134-143` is meshed to
within 1/50. -/
theorem C154_example_cylinder :
    ∃ mesh ts, (SurfacePatch.mk (Cylinder.surface (⟨⟨0, 0, 0⟩, ⟨0, 0, 1⟩, ⟨1, 0, 0⟩, 3⟩ : Cylinder ℝ))
        ((0, 10), (0, Real.pi)) (16, 16)).getTriangleMesh = .ok mesh ∧ corners mesh = some ts ∧ ts.length = 512 ∧
      ∃ ε < 1 / 50, CloseMesh (⟨⟨0, 0, 0⟩, ⟨0, 0, 1⟩, ⟨1, 0, 0⟩, 3⟩ : Cylinder ℝ).getPoint (0, 10) (0, Real.pi) ts ε := by
  have hpi := Real.pi_pos
  obtain ⟨mesh, ts, h1, h2, h3, h4⟩ := C154_mesh
    (s := Cylinder.surface (⟨⟨0, 0, 0⟩, ⟨0, 0, 1⟩, ⟨1, 0, 0⟩, 3⟩ : Cylinder ℝ))
    (S := (⟨⟨0, 0, 0⟩, ⟨0, 0, 1⟩, ⟨1, 0, 0⟩, 3⟩ : Cylinder ℝ).getPoint) (fun u v _ _ => rfl)
    (fun us vs _ _ => ⟨[], rfl, Or.inl rfl⟩)
    (C154_cylinder ⟨by simp [V3.dot], by simp [V3.dot], by simp [V3.dot]⟩ (by norm_num) (0, 10) (0, Real.pi))
    (by norm_num) hpi (a := 16) (b := 16) (by norm_num) (by norm_num) (by norm_num)
  refine ⟨mesh, ts, h1, h2, h3, _, ?_, h4⟩
  unfold cellError
  have h5 := Real.pi_lt_d4
  have h7 : Real.pi ^ 2 < 9.8698 := by nlinarith
  push_cast
  nlinarith

end Geom3d
