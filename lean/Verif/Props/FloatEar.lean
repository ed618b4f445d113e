import Verif.Props.EarComplete
import Verif.Props.FloatOrient

/-!
# Ear clipping in binary64 (C120)

C119 is about exact arithmetic.  Here the vertices are binary64 numbers and the determinants of the tests are rounded.  If
every three vertices span a triangle whose area clears the tolerance and the rounding error, then every test comes out as
in exact arithmetic, and the triangulation is complete.
-/

namespace Geom3d
open Spec F64

/-- Twice the area that three points with coordinates up to `M` must span: more than the tolerance `10 ^ -7`, plus a bound
of the rounding error. -/
noncomputable def Spec.clearance (M : ℝ) : ℝ := 1 / 2 ^ 23 + M ^ 2 / 2 ^ 47

/-- Every three vertices span a triangle with more than the clearance. -/
def Spec.ClearOfLines (M : ℝ) (Q : List (V2 ℝ)) : Prop :=
  ∀ i j k, i < Q.length → j < Q.length → k < Q.length → i ≠ j → i ≠ k → j ≠ k →
    clearance M < |triArea2 (Q.getD i 0) (Q.getD j 0) (Q.getD k 0)|

theorem abs_sub_le_two {M a b : ℝ} (ha : |a| ≤ M) (hb : |b| ≤ M) : |a - b| ≤ 2 * M := by
  rw [abs_le] at *
  constructor <;> linarith [ha.1, ha.2, hb.1, hb.2]

theorem eta_tiny : 3 * eta + val (Env.tol : Float) ≤ 1 / 2 ^ 23 := by
  have h1 : eta ≤ 2 ^ (-60 : Int) := by rw [eta]; exact two_zpow_le (by norm_num)
  rw [tol_val.2]
  norm_num at h1 ⊢
  linarith

/-- The error of a determinant of differences of points with coordinates up to `M`, plus the tolerance. -/
theorem orientErr_clear {M : ℝ} {a b c d : V2 Float} (ha : Bounded2 M a) (hb : Bounded2 M b) (hc : Bounded2 M c)
    (hd : Bounded2 M d) :
    orientErr (toReal2 b - toReal2 a) (toReal2 d - toReal2 c) + val (Env.tol : Float) ≤ clearance M := by
  have hM : 0 ≤ M := (abs_nonneg _).trans ha.1.2
  have p : ∀ {u v w z : ℝ}, |u| ≤ M → |v| ≤ M → |w| ≤ M → |z| ≤ M → |(u - v) * (w - z)| ≤ 4 * M ^ 2 := by
    intro u v w z h1 h2 h3 h4
    rw [abs_mul]
    have := mul_le_mul (abs_sub_le_two h1 h2) (abs_sub_le_two h3 h4) (abs_nonneg _) (by linarith)
    linarith
  have h1 := p hb.1.2 ha.1.2 hd.2.2 hc.2.2
  have h2 := p hb.2.2 ha.2.2 hd.1.2 hc.1.2
  have ht := eta_tiny
  have e : orientErr (toReal2 b - toReal2 a) (toReal2 d - toReal2 c) =
      5 * eps * (|(val b.x - val a.x) * (val d.y - val c.y)| + |(val b.y - val a.y) * (val d.x - val c.x)|) + 3 * eta := rfl
  rw [e, eps_eq, clearance]
  have : (0 : ℝ) ≤ M ^ 2 := sq_nonneg _
  generalize |(val b.x - val a.x) * (val d.y - val c.y)| = u at *
  generalize |(val b.y - val a.y) * (val d.x - val c.x)| = v at *
  norm_num at ht ⊢
  linarith

theorem Bounded2.mono {M N : ℝ} (h : M ≤ N) {p : V2 Float} (hp : Bounded2 M p) : Bounded2 N p :=
  ⟨⟨hp.1.1, hp.1.2.trans h⟩, ⟨hp.2.1, hp.2.2.trans h⟩⟩

/-- The sign of a rounded determinant. -/
theorem sign_clear {M : ℝ} (hM : M ≤ 2 ^ (509 : Int)) {p a b : V2 Float} (hp : Bounded2 M p) (ha : Bounded2 M a)
    (hb : Bounded2 M b) (h : clearance M < |triArea2 (toReal2 p) (toReal2 a) (toReal2 b)|) :
    0 ≤ val ((a - p).perpDot (b - p)) ↔ 0 ≤ triArea2 (toReal2 p) (toReal2 a) (toReal2 b) := by
  have e := abs_le.1 (C113_perp (hp.mono hM) (ha.mono hM) (hp.mono hM) (hb.mono hM)).2
  have hc := orientErr_clear hp ha hp hb
  have ht := tol_pos
  rw [perp_spoke] at e
  rcases lt_abs.1 h with h | h
  · constructor <;> intro <;> linarith
  · constructor <;> intro <;> linarith

/-- With that clearance all tests of the ear clipping are exact. -/
theorem decides_float {M : ℝ} (hM : M ≤ 2 ^ (509 : Int)) {points : List (V2 Float)} (hb : ∀ p ∈ points, Bounded2 M p)
    (hg : ClearOfLines M (points.map toReal2)) : Winding.Decides points (Winding.pt (points.map toReal2)) := by
  have hbd : ∀ {i}, i < points.length → Bounded2 M (Winding.pt points i) := by
    intro i hi
    unfold Winding.pt
    rw [getD_of_lt _ hi]
    exact hb _ (List.getElem_mem hi)
  have hpt : ∀ {i}, i < points.length → Winding.pt (points.map toReal2) i = toReal2 (Winding.pt points i) := by
    intro i hi
    unfold Winding.pt
    rw [getD_of_lt _ hi, getD_of_lt _ (by simpa using hi), List.getElem_map]
  have hcl : ∀ {i j k}, i < points.length → j < points.length → k < points.length → i ≠ j → i ≠ k → j ≠ k →
      clearance M < |triArea2 (toReal2 (Winding.pt points i)) (toReal2 (Winding.pt points j)) (toReal2 (Winding.pt points k))| := by
    intro i j k hi hj hk h1 h2 h3
    rw [← hpt hi, ← hpt hj, ← hpt hk]
    exact hg i j k (by simpa using hi) (by simpa using hj) (by simpa using hk) h1 h2 h3
  have hc0 : 0 < clearance M := by unfold clearance; positivity
  refine ⟨fun i j k hi hj hk h1 h2 h3 h0 => ?_, fun i j k hi hj hk h1 h2 h3 => ?_,
    fun i j k l hi hj hk hl h1 h2 h3 l1 l2 l3 => ?_⟩
  · have := hcl hi hj hk h1 h2 h3
    rw [← hpt hi, ← hpt hj, ← hpt hk, h0, abs_zero] at this
    linarith
  · rw [hpt hi, hpt hj, hpt hk]
    have h := hcl hi hj hk h1 h2 h3
    have hE := orientErr_clear (hbd hi) (hbd hj) (hbd hj) (hbd hk)
    obtain ⟨d1, d2, _⟩ := C113_convexity_decides ((hbd hi).mono hM) ((hbd hj).mono hM) ((hbd hk).mono hM)
    split
    · rename_i h0
      rw [abs_of_pos h0] at h
      exact d1 (by linarith)
    · rename_i h0
      rw [abs_of_nonpos (not_lt.1 h0)] at h
      exact d2 (by linarith)
  · rw [hpt hi, hpt hj, hpt hk, hpt hl,
      isInsideTriangle_float ((hbd hi).mono hM) ((hbd hj).mono hM) ((hbd hk).mono hM) ((hbd hl).mono hM),
      sign_clear hM (hbd hl) (hbd hi) (hbd hj) (hcl hl hi hj l1 l2 h1),
      sign_clear hM (hbd hl) (hbd hj) (hbd hk) (hcl hl hj hk l2 l3 h3),
      sign_clear hM (hbd hl) (hbd hk) (hbd hi) (hcl hl hk hi l3 l1 h2.symm),
      ← Winding.isInside_iff, isInsideTriangle_iff]

/-- **C120** Let the vertices of a simple polygon in counter-clockwise order be binary64 numbers of absolute value at most
`M ≤ 2 ^ 509`, every three of them spanning a triangle of twice the area more than `2 ^ -23 + M ^ 2 / 2 ^ 47`.  Then the
code, rounding as it does, returns a complete triangulation, as in C119. -/
theorem C120_complete {bs : List Nat → Nat → Option Nat} (hbs : BinarySearch bs) {M : ℝ} (hM : M ≤ 2 ^ (509 : Int))
    {points : List (V2 Float)} (hn : 3 ≤ points.length) (hb : ∀ p ∈ points, Bounded2 M p)
    (hs : Spec.Simple (points.map toReal2)) (hg : ClearOfLines M (points.map toReal2)) (ha : 0 < area2 (points.map toReal2)) :
    ∃ V C T, computeVertexConvexity points = .ok (V, C) ∧
      triangulatePolygon bs (points.length + 1) points V C = .ok T ∧ T.length = 3 * (points.length - 2) ∧
      (∀ t ∈ triples T, 0 < triArea2 ((points.map toReal2).getD t.1 0) ((points.map toReal2).getD t.2.1 0)
        ((points.map toReal2).getD t.2.2 0)) ∧
      trianglesArea2 (points.map toReal2) T = area2 (points.map toReal2) ∧
      ∀ x, OffLines (points.map toReal2) x →
        (winding (points.map toReal2) x = 0 ∨ winding (points.map toReal2) x = 1) ∧
        (covering (points.map toReal2) (triples T) x : ℤ) = winding (points.map toReal2) x :=
  complete_of_decides hbs (by simp) (decides_float hM hb hg) hn hs ha (Nat.lt_succ_self _)

/-! ### Integer coordinates -/

/-- Twice the signed area of a triangle with integer corners. -/
def Spec.gridTri (a b c : ℤ × ℤ) : ℤ := (b.1 - a.1) * (c.2 - a.2) - (c.1 - a.1) * (b.2 - a.2)

/-- Twice the signed area of a polygon with integer vertices. -/
def Spec.gridArea2 (Z : List (ℤ × ℤ)) : ℤ := ((loopEdges Z).map fun e => e.1.1 * e.2.2 - e.2.1 * e.1.2).sum

/-- No three vertices are on a line. -/
def Spec.GridGeneral (Z : List (ℤ × ℤ)) : Prop :=
  ∀ i < Z.length, ∀ j < Z.length, ∀ k < Z.length, i ≠ j → i ≠ k → j ≠ k →
    gridTri (Z.getD i 0) (Z.getD j 0) (Z.getD k 0) ≠ 0

/-- No edge separates the ends of an edge that is not its neighbour, and conversely. -/
def Spec.GridSimple (Z : List (ℤ × ℤ)) : Prop :=
  ∀ i < Z.length, ∀ j < Z.length, i ≠ j → (i + 1) % Z.length ≠ j → (j + 1) % Z.length ≠ i →
    ¬ (gridTri (Z.getD i 0) (Z.getD ((i + 1) % Z.length) 0) (Z.getD j 0)
        * gridTri (Z.getD i 0) (Z.getD ((i + 1) % Z.length) 0) (Z.getD ((j + 1) % Z.length) 0) < 0 ∧
      gridTri (Z.getD j 0) (Z.getD ((j + 1) % Z.length) 0) (Z.getD i 0)
        * gridTri (Z.getD j 0) (Z.getD ((j + 1) % Z.length) 0) (Z.getD ((i + 1) % Z.length) 0) < 0)

set_option synthInstance.maxSize 1000 in
set_option synthInstance.maxHeartbeats 400000 in
instance (Z : List (ℤ × ℤ)) : Decidable (GridGeneral Z) := by unfold GridGeneral; infer_instance

set_option synthInstance.maxSize 1000 in
set_option synthInstance.maxHeartbeats 400000 in
instance (Z : List (ℤ × ℤ)) : Decidable (GridSimple Z) := by unfold GridSimple; infer_instance

/-- The point of the plane. -/
noncomputable def Spec.gridPt (z : ℤ × ℤ) : V2 ℝ := ⟨z.1, z.2⟩

theorem gridTri_cast (a b c : ℤ × ℤ) : triArea2 (gridPt a) (gridPt b) (gridPt c) = (gridTri a b c : ℝ) := by
  unfold triArea2 gridPt gridTri
  push_cast; ring

theorem gridArea2_cast (Z : List (ℤ × ℤ)) : area2 (Z.map gridPt) = (gridArea2 Z : ℝ) := by
  unfold area2 gridArea2
  rw [loopEdges_map, List.map_map]
  generalize loopEdges Z = l
  induction l with
  | nil => simp
  | cons e l ih =>
    simp only [List.map_cons, List.sum_cons, ih, Int.cast_add]
    simp [cross2, gridPt]

theorem gridPt_getD (Z : List (ℤ × ℤ)) {i : Nat} (hi : i < Z.length) : (Z.map gridPt).getD i 0 = gridPt (Z.getD i 0) := by
  rw [getD_of_lt _ hi, getD_of_lt _ (by simpa using hi), List.getElem_map]

/-- Segments with a common point separate each other's ends, unless three ends are on a line. -/
theorem common_cross {K : Type} [Field K] [LinearOrder K] [IsStrictOrderedRing K] {a b c d p : V2 K}
    (h1 : triArea2 a b c ≠ 0) (h2 : triArea2 a b d ≠ 0) (hab : OnSegment a b p) (hcd : OnSegment c d p) :
    triArea2 a b c * triArea2 a b d < 0 := by
  obtain ⟨s, _, _, hx, hy⟩ := hab
  obtain ⟨t, t0, t1, kx, ky⟩ := hcd
  have e : (1 - t) * triArea2 a b c + t * triArea2 a b d = 0 := by
    have : (1 - t) * triArea2 a b c + t * triArea2 a b d = triArea2 a b p := by
      unfold triArea2; rw [kx, ky]; ring
    rw [this]
    unfold triArea2; rw [hx, hy]; ring
  by_contra h
  rw [not_lt] at h
  have hp := lt_of_le_of_ne h (mul_ne_zero h1 h2).symm
  have m1 := mul_nonneg t0 (sq_nonneg (triArea2 a b d))
  have m2 := mul_nonneg (sub_nonneg.2 t1) hp.le
  have e' : (1 - t) * (triArea2 a b c * triArea2 a b d) + t * triArea2 a b d ^ 2 = 0 := by
    calc _ = ((1 - t) * triArea2 a b c + t * triArea2 a b d) * triArea2 a b d := by ring
      _ = 0 := by rw [e, zero_mul]
  have z1 : (1 - t) * (triArea2 a b c * triArea2 a b d) = 0 := by linarith
  have z2 : t * triArea2 a b d ^ 2 = 0 := by linarith
  have t1' : 1 - t = 0 := (mul_eq_zero.1 z1).resolve_right hp.ne'
  have t0' : t = 0 := (mul_eq_zero.1 z2).resolve_right (pow_ne_zero 2 h2)
  linarith

theorem gridSimple_cast {Z : List (ℤ × ℤ)} (hg : GridGeneral Z) (hs : GridSimple Z) : Spec.Simple (Z.map gridPt) := by
  intro i j hi hj h1 h2 h3 hp
  rw [List.length_map] at hi hj h2 h3 hp
  have hpos : 0 < Z.length := by omega
  have hi' := Nat.mod_lt (i + 1) hpos
  have hj' := Nat.mod_lt (j + 1) hpos
  rw [gridPt_getD Z hi, gridPt_getD Z hj, gridPt_getD Z hi', gridPt_getD Z hj'] at hp
  obtain ⟨p, hp1, hp2⟩ := hp
  have succ : ∀ k, k < Z.length → (k + 1) % Z.length = if k + 1 = Z.length then 0 else k + 1 := by
    intro k hk
    split
    · rename_i h; rw [h, Nat.mod_self]
    · exact Nat.mod_eq_of_lt (by omega)
  have si := succ i hi
  have sj := succ j hj
  have n1 : i ≠ (i + 1) % Z.length := by rw [si] at h2 ⊢; rw [sj] at h3; split at h2 <;> split at h3 <;> simp_all <;> omega
  have n2 : j ≠ (j + 1) % Z.length := by rw [sj] at h3 ⊢; rw [si] at h2; split at h2 <;> split at h3 <;> simp_all <;> omega
  have n3 : (i + 1) % Z.length ≠ (j + 1) % Z.length := by rw [si, sj]; split <;> split <;> omega
  have c : ∀ {x y z}, x < Z.length → y < Z.length → z < Z.length → x ≠ y → x ≠ z → y ≠ z →
      triArea2 (gridPt (Z.getD x 0)) (gridPt (Z.getD y 0)) (gridPt (Z.getD z 0)) ≠ 0 := by
    intro x y z hx hy hz a1 a2 a3
    rw [gridTri_cast]
    exact_mod_cast hg x hx y hy z hz a1 a2 a3
  have r1 := common_cross (c hi hi' hj n1 h1 h2) (c hi hi' hj' n1 h3.symm n3) hp1 hp2
  have r2 := common_cross (c hj hj' hi n2 h1.symm h3) (c hj hj' hi' n2 h2.symm n3.symm) hp2 hp1
  rw [gridTri_cast, gridTri_cast] at r1 r2
  exact hs i hi j hj h1 h2 h3 ⟨by exact_mod_cast r1, by exact_mod_cast r2⟩

/-- **C120** Integer coordinates up to `2 ^ 23`: no three vertices on a line is enough, and all hypotheses are about
integers. -/
theorem C120_grid {bs : List Nat → Nat → Option Nat} (hbs : BinarySearch bs) {Z : List (ℤ × ℤ)} {points : List (V2 Float)}
    (hp : points.map toReal2 = Z.map gridPt) (hf : ∀ p ∈ points, IsFin p.x ∧ IsFin p.y) (hn : 3 ≤ Z.length)
    (hb : ∀ z ∈ Z, |z.1| ≤ 2 ^ 23 ∧ |z.2| ≤ 2 ^ 23) (hs : GridSimple Z) (hg : GridGeneral Z) (ha : 0 < gridArea2 Z) :
    ∃ V C T, computeVertexConvexity points = .ok (V, C) ∧
      triangulatePolygon bs (points.length + 1) points V C = .ok T ∧ T.length = 3 * (Z.length - 2) ∧
      (∀ t ∈ triples T, 0 < triArea2 ((Z.map gridPt).getD t.1 0) ((Z.map gridPt).getD t.2.1 0) ((Z.map gridPt).getD t.2.2 0)) ∧
      trianglesArea2 (Z.map gridPt) T = area2 (Z.map gridPt) ∧
      ∀ x, OffLines (Z.map gridPt) x → (winding (Z.map gridPt) x = 0 ∨ winding (Z.map gridPt) x = 1) ∧
        (covering (Z.map gridPt) (triples T) x : ℤ) = winding (Z.map gridPt) x := by
  have hl : points.length = Z.length := by simpa using congrArg List.length hp
  rw [← hl, ← hp]
  refine C120_complete hbs (M := 2 ^ 23) ?_ (by omega) (fun p hpm => ?_) ?_ ?_ ?_
  · have : (2 : ℝ) ^ (23 : Int) ≤ 2 ^ (509 : Int) := two_zpow_le (by norm_num)
    exact_mod_cast this
  · have : toReal2 p ∈ Z.map gridPt := hp ▸ List.mem_map_of_mem hpm
    obtain ⟨z, hz, e⟩ := List.mem_map.1 this
    have ex : val p.x = z.1 := (congrArg V2.x e).symm
    have ey : val p.y = z.2 := (congrArg V2.y e).symm
    obtain ⟨b1, b2⟩ := hb z hz
    refine ⟨⟨(hf p hpm).1, ?_⟩, ⟨(hf p hpm).2, ?_⟩⟩
    · rw [ex]; exact_mod_cast b1
    · rw [ey]; exact_mod_cast b2
  · rw [hp]; exact gridSimple_cast hg hs
  · rw [hp]
    intro i j k hi hj hk h1 h2 h3
    rw [List.length_map] at hi hj hk
    rw [gridPt_getD Z hi, gridPt_getD Z hj, gridPt_getD Z hk, gridTri_cast]
    have : 1 ≤ |gridTri (Z.getD i 0) (Z.getD j 0) (Z.getD k 0)| := Int.one_le_abs (hg i hi j hj k hk h1 h2 h3)
    have : (1 : ℝ) ≤ |(gridTri (Z.getD i 0) (Z.getD j 0) (Z.getD k 0) : ℝ)| := by exact_mod_cast this
    refine lt_of_lt_of_le ?_ this
    unfold clearance
    norm_num
  · rw [hp, gridArea2_cast]; exact_mod_cast ha

/-- Non-vacuity of C120: the polygon of C119, moved to natural coordinates. -/
def zigzagNat : List (Nat × Nat) := [(1, 2), (6, 3), (10, 0), (8, 8), (6, 4), (4, 10), (3, 5), (0, 8)]

example : ∃ T, triangulatePolygon linSearch 9 (zigzagNat.map fun z => natPt z.1 z.2) [0, 1, 2, 3, 4, 5, 6, 7] [1, 4, 6] = .ok T ∧
    T.length = 18 := by
  obtain ⟨V, C, T, h1, h2, h3, _⟩ := C120_grid linSearch_ok (Z := zigzagNat.map fun z => ((z.1 : ℤ), (z.2 : ℤ)))
    (points := zigzagNat.map fun z => natPt z.1 z.2)
    (by
      simp only [zigzagNat, List.map_cons, List.map_nil]
      repeat rw [natPt_real (by norm_num) (by norm_num)]
      norm_num [gridPt])
    (fun p hp => by
      obtain ⟨z, hz, rfl⟩ := List.mem_map.1 hp
      have : z.1 < 2 ^ 53 ∧ z.2 < 2 ^ 53 := by revert z; decide
      exact ⟨(ofNat_val this.1).1, (ofNat_val this.2).1⟩)
    (by decide) (by decide +kernel) (by decide +kernel) (by decide +kernel) (by decide +kernel)
  have e : computeVertexConvexity (zigzagNat.map fun z => natPt z.1 z.2) = .ok ([0, 1, 2, 3, 4, 5, 6, 7], [1, 4, 6]) := by
    decide +kernel
  rw [e] at h1
  cases h1
  exact ⟨T, h2, h3⟩

/-- **C120** The bound of the coordinates cannot be dropped: the triangle `(0, 0)`, `(2 ^ 28 + 1, 2 ^ 28 - 1)`,
`(2 ^ 27 + 1, 2 ^ 27)` is counter-clockwise with area `1 / 2`, but all its corners are taken for straight, and
`trianglate_polygon` overflows at `n - 2` with no vertex left. -/
theorem C120_large : triArea2 (toReal2 (natPt 0 0)) (toReal2 (natPt 268435457 268435455)) (toReal2 (natPt 134217729 134217728)) = 1 ∧
    computeVertexConvexity [natPt 0 0, natPt 268435457 268435455, natPt 134217729 134217728] = .ok ([], []) ∧
    ∀ bs fuel, triangulatePolygon bs fuel [natPt 0 0, natPt 268435457 268435455, natPt 134217729 134217728] [] [] =
      .error .overflow := by
  refine ⟨?_, by decide +kernel, fun _ _ => rfl⟩
  rw [natPt_real (by norm_num) (by norm_num), natPt_real (by norm_num) (by norm_num), natPt_real (by norm_num) (by norm_num)]
  norm_num [triArea2]

end Geom3d
