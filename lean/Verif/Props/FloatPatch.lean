import Verif.Props.PatchDeviation
import Verif.Props.FloatSurface
import Verif.Props.FloatDivide

/-! # C151: how far the mesh of a Bézier patch computed in binary64 is from the patch -/

set_option linter.unusedSectionVars false

namespace Geom3d
open Spec F64 Deviation

/-- Every point of the triangles is within `ε` of the surface, and every point of the surface over `U × V` is within `ε` of a
triangle. -/
structure Spec.WithinMesh (S : ℝ → ℝ → V3 ℝ) (U V : ℝ × ℝ) (ts : List (Tri ℝ)) (ε : ℝ) : Prop where
  triangles : ∀ T ∈ ts, ∀ r s t, Shares r s t → ∃ u v, (U.1 ≤ u ∧ u ≤ U.2) ∧ (V.1 ≤ v ∧ v ≤ V.2) ∧
    (S u v).distance (mix T r s t) ≤ ε
  surface : ∀ u v, U.1 ≤ u → u ≤ U.2 → V.1 ≤ v → v ≤ V.2 → ∃ T ∈ ts, ∃ r s t, Shares r s t ∧
    (S u v).distance (mix T r s t) ≤ ε

/-- The exact values of the corners. -/
noncomputable def Spec.triReal (T : Tri Float) : Tri ℝ := (toReal T.1, toReal T.2.1, toReal T.2.2)

namespace Deviation

theorem patchError_mono {m n : Nat} {A B C g h g' h' : ℝ} (hA : 0 ≤ A) (hB : 0 ≤ B) (hC : 0 ≤ C) (hg0 : 0 ≤ g) (hh0 : 0 ≤ h)
    (hg : g ≤ g') (hh : h ≤ h') : patchError m n A B C g h ≤ patchError m n A B C g' h' := by
  unfold patchError
  rw [← cast_pred m, ← cast_pred n]
  have h1 : g ^ 2 ≤ g' ^ 2 := pow_le_pow_left₀ hg0 hg 2
  have h2 : h ^ 2 ≤ h' ^ 2 := pow_le_pow_left₀ hh0 hh 2
  have h3 : g * h ≤ g' * h' := mul_le_mul hg hh hh0 (hg0.trans hg)
  have k1 := mul_le_mul_of_nonneg_left h1 (show 0 ≤ (m : ℝ) * ((m - 1 : ℕ) : ℝ) * A by positivity)
  have k2 := mul_le_mul_of_nonneg_left h2 (show 0 ≤ (n : ℝ) * ((n - 1 : ℕ) : ℝ) * C by positivity)
  have k3 := mul_le_mul_of_nonneg_left h3 (show 0 ≤ 2 * ((m : ℝ) * n * B) by positivity)
  linarith

/-- Every point of a range lies between two neighbours of an ascending division. -/
theorem find_between {f : Nat → ℝ} {u : ℝ} {k : Nat} (hk : 1 ≤ k) (h0 : f 0 ≤ u) (h1 : u ≤ f k) :
    ∃ i, i < k ∧ f i ≤ u ∧ u ≤ f (i + 1) := by
  induction k with
  | zero => omega
  | succ k ih =>
    rcases le_total u (f k) with hu | hu
    · rcases Nat.eq_zero_or_pos k with rfl | hp
      · exact ⟨0, by omega, h0, h1⟩
      · obtain ⟨i, hi, k1, k2⟩ := ih hp hu
        exact ⟨i, by omega, k1, k2⟩
    · exact ⟨k, by omega, hu, h1⟩

/-- An ascending division of a part of the unit interval with steps of at most `g`. -/
structure Steps (f : Nat → ℝ) (a : Nat) (g : ℝ) : Prop where
  low : ∀ i, i ≤ a → 0 ≤ f i
  high : ∀ i, i ≤ a → f i ≤ 1
  up : ∀ i, i < a → f i < f (i + 1)
  small : ∀ i, i < a → f (i + 1) ≤ f i + g

theorem Steps.mono {f : Nat → ℝ} {a : Nat} {g : ℝ} (h : Steps f a g) : ∀ i j, i ≤ j → j ≤ a → f i ≤ f j := by
  intro i j hij
  induction j, hij using Nat.le_induction with
  | base => intro _; exact le_refl _
  | succ j hj ih => intro hja; exact (ih (by omega)).trans (h.up j (by omega)).le

theorem length_le_of_within {x : V3 ℝ} {δ : ℝ} (h1 : |x.x| ≤ δ) (h2 : |x.y| ≤ δ) (h3 : |x.z| ≤ δ) : x.length ≤ 2 * δ := by
  have h0 : 0 ≤ δ := (abs_nonneg _).trans h1
  rw [V3.length_eq]
  refine Real.sqrt_le_iff.2 ⟨by linarith, ?_⟩
  simp only [V3.dot]
  have q : ∀ y : ℝ, |y| ≤ δ → y * y ≤ δ ^ 2 := by
    intro y hy
    rw [← abs_mul_abs_self, sq]
    exact mul_le_mul hy hy (abs_nonneg _) h0
  have := q _ h1
  have := q _ h2
  have := q _ h3
  nlinarith

theorem mix_near {T T' : Tri ℝ} {δ : ℝ} (h1 : ∀ π : V3 ℝ → ℝ, π = V3.x ∨ π = V3.y ∨ π = V3.z →
    |π T.1 - π T'.1| ≤ δ ∧ |π T.2.1 - π T'.2.1| ≤ δ ∧ |π T.2.2 - π T'.2.2| ≤ δ) {r s t : ℝ} (hw : Shares r s t) :
    (mix T r s t).distance (mix T' r s t) ≤ 2 * δ := by
  have key : ∀ a b c a' b' c' : ℝ, |a - a'| ≤ δ → |b - b'| ≤ δ → |c - c'| ≤ δ →
      |r * a + s * b + t * c - (r * a' + s * b' + t * c')| ≤ δ := by
    intro a b c a' b' c' ha hb hc
    have e : r * a + s * b + t * c - (r * a' + s * b' + t * c') = r * (a - a') + s * (b - b') + t * (c - c') := by ring
    rw [e]
    refine (abs_add_three _ _ _).trans ?_
    rw [abs_mul, abs_mul, abs_mul, abs_of_nonneg hw.first, abs_of_nonneg hw.second, abs_of_nonneg hw.third]
    have := mul_le_mul_of_nonneg_left ha hw.first
    have := mul_le_mul_of_nonneg_left hb hw.second
    have := mul_le_mul_of_nonneg_left hc hw.third
    have : r * δ + s * δ + t * δ = δ := by rw [← add_mul, ← add_mul, hw.sum, one_mul]
    linarith
  unfold V3.distance
  obtain ⟨x1, x2, x3⟩ := h1 V3.x (Or.inl rfl)
  obtain ⟨y1, y2, y3⟩ := h1 V3.y (Or.inr (Or.inl rfl))
  obtain ⟨z1, z2, z3⟩ := h1 V3.z (Or.inr (Or.inr rfl))
  apply length_le_of_within
  · simpa [mix] using key _ _ _ _ _ _ x1 x2 x3
  · simpa [mix] using key _ _ _ _ _ _ y1 y2 y3
  · simpa [mix] using key _ _ _ _ _ _ z1 z2 z3

/-- Coordinates within `δ`. -/
def Off (δ : ℝ) (p q : V3 ℝ) : Prop := |p.x - q.x| ≤ δ ∧ |p.y - q.y| ≤ δ ∧ |p.z - q.z| ≤ δ

theorem mix_off {T T' : Tri ℝ} {δ : ℝ} (h1 : Off δ T.1 T'.1) (h2 : Off δ T.2.1 T'.2.1) (h3 : Off δ T.2.2 T'.2.2) {r s t : ℝ}
    (hw : Shares r s t) : (mix T r s t).distance (mix T' r s t) ≤ 2 * δ := by
  apply mix_near _ hw
  rintro π (rfl | rfl | rfl)
  · exact ⟨h1.1, h2.1, h3.1⟩
  · exact ⟨h1.2.1, h2.2.1, h3.2.1⟩
  · exact ⟨h1.2.2, h2.2.2, h3.2.2⟩

theorem within_grid {m n : Nat} {P : Nat → Nat → V3 ℝ} {A B C : ℝ} (hN : NetBends m n P A B C) {f k : Nat → ℝ} {a b : Nat}
    {g h : ℝ} (hf : Steps f a g) (hk : Steps k b h) (ha : 1 ≤ a) (hb : 1 ≤ b) {q : Nat → Nat → V3 ℝ} {δ : ℝ}
    (hq : ∀ i j, i ≤ a → j ≤ b → Off δ (patchPoint m n P (f i) (k j)) (q i j)) :
    WithinMesh (patchPoint m n P) (f 0, f a) (k 0, k b) (gridTriangles q a b) (patchError m n A B C g h + 2 * δ) := by
  obtain ⟨nA, nB, nC⟩ := hN.nonneg
  have one : ∀ i j, i < a → j < b → ∀ r s t, Shares r s t →
      (patchPoint m n P (r * f i + s * f (i + 1) + t * f i) (r * k j + s * k j + t * k (j + 1))).distance
        (mix (q i j, q (i + 1) j, q i (j + 1)) r s t) ≤ patchError m n A B C g h + 2 * δ ∧
      (patchPoint m n P (r * f i + s * f (i + 1) + t * f (i + 1)) (r * k (j + 1) + s * k j + t * k (j + 1))).distance
        (mix (q i (j + 1), q (i + 1) j, q (i + 1) (j + 1)) r s t) ≤ patchError m n A B C g h + 2 * δ := by
    intro i j hi hj r s t hw
    have g0 : 0 < f (i + 1) - f i := by have := hf.up i hi; linarith
    have h0 : 0 < k (j + 1) - k j := by have := hk.up j hj; linarith
    have g1 : f (i + 1) - f i ≤ g := by have := hf.small i hi; linarith
    have h1 : k (j + 1) - k j ≤ h := by have := hk.small j hj; linarith
    have eg : f i + (f (i + 1) - f i) = f (i + 1) := by ring
    have eh : k j + (k (j + 1) - k j) = k (j + 1) := by ring
    have le := patchError_mono (m := m) (n := n) nA nB nC g0.le h0.le g1 h1
    have l1 : f i + (f (i + 1) - f i) ≤ 1 := by rw [eg]; exact hf.high _ (by omega)
    have l2 : k j + (k (j + 1) - k j) ≤ 1 := by rw [eh]; exact hk.high _ (by omega)
    have d : ∀ x y z : ℝ × ℝ, Corner (f i) (k j) (f (i + 1) - f i) (k (j + 1) - k j) x →
        Corner (f i) (k j) (f (i + 1) - f i) (k (j + 1) - k j) y →
        Corner (f i) (k j) (f (i + 1) - f i) (k (j + 1) - k j) z → _ :=
      fun x y z hx hy hz => patch_dist hN g0 h0 (hf.low i (by omega)) l1 (hk.low j (by omega)) l2 hx hy hz hw
    constructor
    · have d1 := d (f i, k j) (f (i + 1), k j) (f i, k (j + 1)) ⟨Or.inl rfl, Or.inl rfl⟩ ⟨Or.inr eg.symm, Or.inl rfl⟩
        ⟨Or.inl rfl, Or.inr eh.symm⟩
      have d2 := mix_off (T := (patchPoint m n P (f i) (k j), patchPoint m n P (f (i + 1)) (k j),
        patchPoint m n P (f i) (k (j + 1)))) (T' := (q i j, q (i + 1) j, q i (j + 1))) (hq i j (by omega) (by omega))
        (hq (i + 1) j (by omega) (by omega)) (hq i (j + 1) (by omega) (by omega)) hw
      exact (V3.distance_triangle _ _ _).trans (add_le_add (d1.trans le) d2)
    · have d1 := d (f i, k (j + 1)) (f (i + 1), k j) (f (i + 1), k (j + 1)) ⟨Or.inl rfl, Or.inr eh.symm⟩
        ⟨Or.inr eg.symm, Or.inl rfl⟩ ⟨Or.inr eg.symm, Or.inr eh.symm⟩
      have d2 := mix_off (T := (patchPoint m n P (f i) (k (j + 1)), patchPoint m n P (f (i + 1)) (k j),
        patchPoint m n P (f (i + 1)) (k (j + 1)))) (T' := (q i (j + 1), q (i + 1) j, q (i + 1) (j + 1)))
        (hq i (j + 1) (by omega) (by omega)) (hq (i + 1) j (by omega) (by omega))
        (hq (i + 1) (j + 1) (by omega) (by omega)) hw
      exact (V3.distance_triangle _ _ _).trans (add_le_add (d1.trans le) d2)
  have between : ∀ {x y z lo hi : ℝ} {r s t : ℝ}, Shares r s t → lo ≤ x → x ≤ hi → lo ≤ y → y ≤ hi → lo ≤ z → z ≤ hi →
      lo ≤ r * x + s * y + t * z ∧ r * x + s * y + t * z ≤ hi := by
    intro x y z lo hi r s t hw a1 a2 b1 b2 c1 c2
    have e1 : lo = r * lo + s * lo + t * lo := by rw [← add_mul, ← add_mul, hw.sum, one_mul]
    have e2 : hi = r * hi + s * hi + t * hi := by rw [← add_mul, ← add_mul, hw.sum, one_mul]
    have k1 := mul_le_mul_of_nonneg_left a1 hw.first
    have k2 := mul_le_mul_of_nonneg_left a2 hw.first
    have k3 := mul_le_mul_of_nonneg_left b1 hw.second
    have k4 := mul_le_mul_of_nonneg_left b2 hw.second
    have k5 := mul_le_mul_of_nonneg_left c1 hw.third
    have k6 := mul_le_mul_of_nonneg_left c2 hw.third
    constructor <;> linarith
  constructor
  · intro T hT r s t hw
    rw [mem_gridTriangles] at hT
    obtain ⟨i, j, hi, hj, hT⟩ := hT
    obtain ⟨o1, o2⟩ := one i j hi hj r s t hw
    have a1 := hf.mono 0 i (by omega) (by omega)
    have a2 := hf.mono i a (by omega) (by omega)
    have a3 := hf.mono 0 (i + 1) (by omega) (by omega)
    have a4 := hf.mono (i + 1) a (by omega) (by omega)
    have b1 := hk.mono 0 j (by omega) (by omega)
    have b2 := hk.mono j b (by omega) (by omega)
    have b3 := hk.mono 0 (j + 1) (by omega) (by omega)
    have b4 := hk.mono (j + 1) b (by omega) (by omega)
    rcases hT with rfl | rfl
    · exact ⟨_, _, between hw a1 a2 a3 a4 a1 a2, between hw b1 b2 b1 b2 b3 b4, o1⟩
    · exact ⟨_, _, between hw a1 a2 a3 a4 a3 a4, between hw b3 b4 b1 b2 b3 b4, o2⟩
  · intro u v u0 u1 v0 v1
    obtain ⟨i, hi, i1, i2⟩ := find_between ha u0 u1
    obtain ⟨j, hj, j1, j2⟩ := find_between hb v0 v1
    have g0 : 0 < f (i + 1) - f i := by have := hf.up i hi; linarith
    have h0 : 0 < k (j + 1) - k j := by have := hk.up j hj; linarith
    have eg : f i + (f (i + 1) - f i) = f (i + 1) := by ring
    have eh : k j + (k (j + 1) - k j) = k (j + 1) := by ring
    rcases cell_weights g0 h0 i1 (by rw [eg]; exact i2) j1 (by rw [eh]; exact j2) with ⟨r, s, t, hw, eu, ev⟩ | ⟨r, s, t, hw, eu, ev⟩
    · rw [eg] at eu
      rw [eh] at ev
      refine ⟨_, mem_gridTriangles.2 ⟨i, j, hi, hj, Or.inl rfl⟩, r, s, t, hw, ?_⟩
      rw [eu, ev]
      exact (one i j hi hj r s t hw).1
    · rw [eg] at eu
      rw [eh] at ev
      refine ⟨_, mem_gridTriangles.2 ⟨i, j, hi, hj, Or.inr rfl⟩, r, s, t, hw, ?_⟩
      rw [eu, ev]
      exact (one i j hi hj r s t hw).2

/-- The divisions of the unit interval computed in binary64 are ascending with steps near the exact ones. -/
theorem unit_steps {d : Nat} (hd1 : 1 ≤ d) (hd : d ≤ 2 ^ 20) :
    ∃ l : List Float, uniformDivide ((0 : Float), 1) d = .ok l ∧ l.length = d + 1 ∧
      (∀ i, i ≤ d → IsFin (l.getD i 0) ∧ l[i]? = some (l.getD i 0)) ∧ val (l.getD 0 0) = 0 ∧ val (l.getD d 0) = 1 ∧
      Steps (fun i => val (l.getD i 0)) d (1 / d + d * 2 ^ (-48 : Int)) := by
  obtain ⟨l, h1, h2, h3, h4, h5⟩ := C95_uniform (lo := 0) (hi := 1) (M := 1) zero_val.1 one_val.1
    (by rw [zero_val.2]; norm_num) (by rw [one_val.2]; norm_num) (one_le_zpow₀ (by norm_num) (by norm_num)) hd1 (by omega)
  rw [zero_val.2, one_val.2] at h5
  have hd0 : (0 : ℝ) < d := by exact_mod_cast hd1
  have hd20 : (d : ℝ) ≤ 2 ^ 20 := by exact_mod_cast hd
  have h1d : (1 : ℝ) / 2 ^ 20 ≤ 1 / d := one_div_le_one_div_of_le hd0 hd20
  have e49 : (2 : ℝ) ^ (-50 : Int) * 1 + 2 ^ (-1074 : Int) ≤ 2 ^ (-49 : Int) := by
    have : (2 : ℝ) ^ (-1074 : Int) ≤ 2 ^ (-50 : Int) := two_zpow_le (by norm_num)
    have e : (2 : ℝ) ^ (-49 : Int) = 2 * 2 ^ (-50 : Int) := by rw [two_mul_zpow]; norm_num
    linarith
  have val49 : (2 : ℝ) ^ (-49 : Int) = 1 / 2 ^ 49 := by norm_num
  have val48 : (2 : ℝ) ^ (-48 : Int) = 1 / 2 ^ 48 := by norm_num
  have at_ : ∀ i, i ≤ d → IsFin (l.getD i 0) ∧ l[i]? = some (l.getD i 0) ∧
      |val (l.getD i 0) - i * (1 / d)| ≤ i * (1 / 2 ^ 49) := by
    intro i hi
    obtain ⟨x, k1, k2, k3⟩ := h5 i hi
    have e : l.getD i 0 = x := by rw [List.getD, k1]; rfl
    rw [e]
    refine ⟨k2, k1, ?_⟩
    rw [sub_zero, zero_add] at k3
    refine k3.trans (mul_le_mul_of_nonneg_left (e49.trans (le_of_eq val49)) (Nat.cast_nonneg i))
  have v0 : val (l.getD 0 0) = 0 := by
    have : l.getD 0 0 = 0 := by rw [List.getD, h3]; rfl
    rw [this, zero_val.2]
  have v1 : val (l.getD d 0) = 1 := by
    have : l.getD d 0 = 1 := by rw [List.getD, h4]; rfl
    rw [this, one_val.2]
  have hdd : (d : ℝ) * (1 / d) = 1 := by field_simp
  refine ⟨l, h1, h2, fun i hi => ⟨(at_ i hi).1, (at_ i hi).2.1⟩, v0, v1, ?_, ?_, ?_, ?_⟩
  · intro i hi
    have k := (abs_le.1 (at_ i hi).2.2).1
    have i0 : (0 : ℝ) ≤ i := Nat.cast_nonneg i
    nlinarith
  · intro i hi
    rcases Nat.lt_or_ge i d with h | h
    · have k := (abs_le.1 (at_ i hi).2.2).2
      have i0 : (0 : ℝ) ≤ i := Nat.cast_nonneg i
      have i1 : (i : ℝ) + 1 ≤ d := by exact_mod_cast h
      have i2 : (i : ℝ) * (1 / d) ≤ 1 - 1 / d := by nlinarith
      nlinarith
    · have : i = d := by omega
      rw [this, v1]
  · intro i hi
    have k := (abs_le.1 (at_ i hi.le).2.2).2
    have k' := (abs_le.1 (at_ (i + 1) hi).2.2).1
    have i1 : (i : ℝ) + 1 ≤ d := by exact_mod_cast hi
    push_cast at k'
    nlinarith
  · intro i hi
    have k := (abs_le.1 (at_ i hi.le).2.2).1
    have k' := (abs_le.1 (at_ (i + 1) hi).2.2).2
    have i1 : (i : ℝ) + 1 ≤ d := by exact_mod_cast hi
    push_cast at k'
    rw [val48]
    nlinarith

end Deviation

/-- **C151** The mesh of a Bézier patch over the unit square, all in binary64: its triangles have finite corners, each of
their points is within the bound of C150 and a rounding term of the exact patch, and so is each point of the patch from a
triangle. -/
theorem C151_mesh {s : BezierSurface (V3 Float)} (hg : NetOk s.controlPoints) (hr : 1 ≤ s.controlPoints.rows)
    (hc : 1 ≤ s.controlPoints.cols) (hrc : s.controlPoints.rows * s.controlPoints.cols ≤ 2 ^ 40) {M : ℝ}
    (hM : M ≤ 2 ^ (1022 : Int)) (hb : ∀ p ∈ s.controlPoints.data, Bounded M p) {A B C : ℝ}
    (hN : NetBends (s.controlPoints.rows - 1) (s.controlPoints.cols - 1) (fun i j => toReal (entry s.controlPoints i j)) A B C)
    {a b : Nat} (ha : 1 ≤ a) (hb1 : 1 ≤ b) (ha2 : a ≤ 2 ^ 20) (hb2 : b ≤ 2 ^ 20) (hsz : (a + 1) * (b + 1) ≤ 2 ^ 32) :
    ∃ S mesh ts, (∀ u v : ℝ, (BezierSurface.mk (mapNet toReal s.controlPoints)).getPoint u v = .ok (S u v)) ∧
      (SurfacePatch.mk s.surface ((0, 1), (0, 1)) (a, b)).getTriangleMesh = .ok mesh ∧ corners mesh = some ts ∧
      ts.length = 2 * (a * b) ∧
      (∀ T ∈ ts, ∀ p ∈ [T.1, T.2.1, T.2.2], IsFin p.x ∧ IsFin p.y ∧ IsFin p.z) ∧
      WithinMesh S (0, 1) (0, 1) (ts.map triReal)
        (patchError (s.controlPoints.rows - 1) (s.controlPoints.cols - 1) A B C (1 / a + a * 2 ^ (-48 : Int))
          (1 / b + b * 2 ^ (-48 : Int)) +
        (s.controlPoints.rows * s.controlPoints.cols : Nat) * (2 ^ (-48 : Int) * M + 2 ^ (-1072 : Int))) := by
  have hg' := mapNet_ok toReal hg
  set P : Nat → Nat → V3 ℝ := fun i j => toReal (entry s.controlPoints i j) with hP
  set S := patchPoint (s.controlPoints.rows - 1) (s.controlPoints.cols - 1) P with hS
  have hSp : ∀ u v : ℝ, (BezierSurface.mk (mapNet toReal s.controlPoints)).getPoint u v = .ok (S u v) := by
    intro u v
    rw [bezierSurface_getPoint (s := ⟨mapNet toReal s.controlPoints⟩) hg' hr hc]
    congr 1
    rw [hS]
    unfold patchPoint
    rw [Nat.sub_add_cancel hr, Nat.sub_add_cancel hc]
    apply Finset.sum_congr rfl
    intro i hi
    apply Finset.sum_congr rfl
    intro j hj
    rw [show entry (mapNet toReal s.controlPoints) i j = P i j by
      have hi' := Finset.mem_range.1 hi
      have hj' := Finset.mem_range.1 hj
      obtain ⟨h, -⟩ := grid_at hg hi' hj'
      simp [entry, mapNet, List.getD, h, hP]]
    rfl
  obtain ⟨us, e1, l1, f1, z1, o1, s1⟩ := unit_steps ha ha2
  obtain ⟨vs, e2, l2, f2, z2, o2, s2⟩ := unit_steps hb1 hb2
  set δ : ℝ := (s.controlPoints.rows * s.controlPoints.cols : Nat) * 2 ^ (-49 : Int) * M
        + (s.controlPoints.rows * s.controlPoints.cols : Nat) * 2 ^ (-1073 : Int) with hδ
  have pt : ∀ i j, ∃ x, i ≤ a → j ≤ b → s.getPoint (us.getD i 0) (vs.getD j 0) = .ok x ∧
      Near δ x (S (val (us.getD i 0)) (val (vs.getD j 0))) := by
    intro i j
    by_cases hij : i ≤ a ∧ j ≤ b
    · obtain ⟨fu, -⟩ := f1 i hij.1
      obtain ⟨fv, -⟩ := f2 j hij.2
      obtain ⟨x, q, h1, h2, h3⟩ := C106_bezier s hg hr hc hrc (us.getD i 0) (vs.getD j 0)
        ((le_iff zero_val.1 fu).2 (by rw [zero_val.2]; exact s1.low i hij.1))
        ((le_iff fu one_val.1).2 (by rw [one_val.2]; exact s1.high i hij.1))
        ((le_iff zero_val.1 fv).2 (by rw [zero_val.2]; exact s2.low j hij.2))
        ((le_iff fv one_val.1).2 (by rw [one_val.2]; exact s2.high j hij.2)) M hM hb
      rw [hSp] at h2
      cases h2
      exact ⟨x, fun _ _ => ⟨h1, h3⟩⟩
    · exact ⟨0, fun h1 h2 => absurd ⟨h1, h2⟩ hij⟩
  choose q hq using pt
  obtain ⟨mesh, h1, -, -, h2, -⟩ := patch_mesh (p := SurfacePatch.mk s.surface ((0, 1), (0, 1)) (a, b)) rfl ha hb1 hsz
    (q := q) (by
      refine ⟨?_, fun us vs _ _ => ⟨[], rfl, Or.inl rfl⟩⟩
      intro us' vs' k1 k2 i j u v hu hv
      simp only [] at k1 k2
      rw [e1] at k1; cases k1
      rw [e2] at k2; cases k2
      have hi : i ≤ a := by have := (List.getElem?_eq_some_iff.1 hu).1; omega
      have hj : j ≤ b := by have := (List.getElem?_eq_some_iff.1 hv).1; omega
      have w1 := (f1 i hi).2
      have w2 := (f2 j hj).2
      rw [hu, Option.some.injEq] at w1
      rw [hv, Option.some.injEq] at w2
      rw [w1, w2]
      exact (hq i j hi hj).1)
  refine ⟨S, mesh, _, hSp, h1, h2, ?_, ?_, ?_⟩
  · simp [gridTriangles, List.length_flatMap]
    ring
  · intro T hT p hp
    have fin : ∀ i j, i ≤ a → j ≤ b → IsFin (q i j).x ∧ IsFin (q i j).y ∧ IsFin (q i j).z := fun i j hi hj =>
      ⟨(hq i j hi hj).2.1.1, (hq i j hi hj).2.2.1.1, (hq i j hi hj).2.2.2.1⟩
    rw [mem_gridTriangles] at hT
    obtain ⟨i, j, hi, hj, hT⟩ := hT
    simp only [List.mem_cons, List.not_mem_nil, or_false] at hp
    rcases hT with rfl | rfl <;> rcases hp with rfl | rfl | rfl <;> exact fin _ _ (by omega) (by omega)
  · have hw := within_grid hN s1 s2 ha hb1 (q := fun i j => toReal (q i j)) (δ := δ) (by
      intro i j hi hj
      obtain ⟨⟨-, x1⟩, ⟨-, x2⟩, -, x3⟩ := (hq i j hi hj).2
      exact ⟨by rw [abs_sub_comm]; exact x1, by rw [abs_sub_comm]; exact x2, by rw [abs_sub_comm]; exact x3⟩)
    simp only [z1, z2, o1, o2] at hw
    have et : (gridTriangles q a b).map triReal = gridTriangles (fun i j => toReal (q i j)) a b := by
      simp [gridTriangles, List.map_flatMap, triReal]
    have ed : 2 * δ = (s.controlPoints.rows * s.controlPoints.cols : Nat) * (2 ^ (-48 : Int) * M + 2 ^ (-1072 : Int)) := by
      have e48 : (2 : ℝ) ^ (-48 : Int) = 2 * 2 ^ (-49 : Int) := by rw [two_mul_zpow]; norm_num
      have e72 : (2 : ℝ) ^ (-1072 : Int) = 2 * 2 ^ (-1073 : Int) := by rw [two_mul_zpow]; norm_num
      rw [hδ, e48, e72]; ring
    rw [et, ← ed]
    exact hw

/-! ### An example -/

/-- The parabolic trough `(2 u, v, u²)` in binary64. -/
def troughF : Grid (V3 Float) := ⟨[⟨0, 0, 0⟩, ⟨0, 1, 0⟩, ⟨1, 0, 0⟩, ⟨1, 1, 0⟩, ⟨2, 0, 1⟩, ⟨2, 1, 1⟩], 3, 2⟩

/-- **C151**, an example: the mesh of the trough with 1000 by 10 divisions, computed in binary64, is within one part in three
million of the trough. -/
theorem C151_example : ∃ S mesh ts, (∀ u v : ℝ, (BezierSurface.mk (mapNet toReal troughF)).getPoint u v = .ok (S u v)) ∧
    (SurfacePatch.mk (BezierSurface.mk troughF).surface ((0, 1), (0, 1)) (1000, 10)).getTriangleMesh = .ok mesh ∧
    corners mesh = some ts ∧ ts.length = 20000 ∧ ∃ ε, ε ≤ 1 / 3000000 ∧ WithinMesh S (0, 1) (0, 1) (ts.map triReal) ε := by
  have v1 := one_val
  have v0 := zero_val
  have v2 : IsFin (2 : Float) ∧ val (2 : Float) = 2 := by
    obtain ⟨a, b⟩ := ofNat_val (n := 2) (by norm_num)
    exact ⟨a, b.trans (by norm_num)⟩
  have hb : ∀ p ∈ troughF.data, Bounded 2 p := by
    intro p hp
    simp only [troughF, List.mem_cons, List.not_mem_nil, or_false] at hp
    rcases hp with rfl | rfl | rfl | rfl | rfl | rfl <;>
      refine ⟨⟨?_, ?_⟩, ⟨?_, ?_⟩, ?_, ?_⟩ <;> first | exact v0.1 | exact v1.1 | exact v2.1 | norm_num [v0.2, v1.2, v2.2]
  have hN : NetBends 2 1 (fun i j => toReal (entry troughF i j)) 1 0 0 := by
    refine ⟨?_, ?_, fun i j _ hj => by omega, by norm_num, le_refl _, le_refl _⟩
    · intro i j hi hj
      have : i = 0 := by omega
      subst this
      have e : toReal (entry troughF 2 j) - (2 : ℝ) • toReal (entry troughF 1 j) + toReal (entry troughF 0 j) = ⟨0, 0, 1⟩ := by
        interval_cases j <;> ext <;> norm_num [entry, troughF, toReal, v0.2, v1.2, v2.2]
      rw [Nat.zero_add]
      simp only [e, V3.length_eq]
      simp [V3.dot]
    · intro i j hi hj
      have : j = 0 := by omega
      subst this
      have e : toReal (entry troughF (i + 1) (0 + 1)) - toReal (entry troughF (i + 1) 0) - toReal (entry troughF i (0 + 1)) +
          toReal (entry troughF i 0) = 0 := by
        have : i ≤ 1 := by omega
        interval_cases i <;> ext <;> norm_num [entry, troughF, toReal, v0.2, v1.2, v2.2]
      simp only [e, V3.length_zero, le_refl]
  obtain ⟨S, mesh, ts, h1, h2, h3, h4, -, h6⟩ := C151_mesh (s := ⟨troughF⟩) rfl (by simp [troughF]) (by simp [troughF])
    (by simp [troughF]) (M := 2) (le_of_eq_of_le (show (2 : ℝ) = 2 ^ (1 : Int) by norm_num) (two_zpow_le (by norm_num))) hb hN
    (a := 1000) (b := 10) (by norm_num) (by norm_num) (by norm_num) (by norm_num) (by norm_num)
  refine ⟨S, mesh, ts, h1, h2, h3, by rw [h4], _, ?_, h6⟩
  have e72 : (2 : ℝ) ^ (-1072 : Int) ≤ 2 ^ (-48 : Int) := two_zpow_le (by norm_num)
  have e48 : (2 : ℝ) ^ (-48 : Int) = 1 / 281474976710656 := by norm_num
  rw [e48] at e72 ⊢
  have e6 : ((troughF.rows * troughF.cols : Nat) : ℝ) = 6 := by norm_num [troughF]
  have ep : patchError (troughF.rows - 1) (troughF.cols - 1) 1 0 0 (1 / ((1000 : ℕ) : ℝ) + ((1000 : ℕ) : ℝ) * (1 / 281474976710656))
      (1 / ((10 : ℕ) : ℝ) + ((10 : ℕ) : ℝ) * (1 / 281474976710656)) ≤ 1 / 3900000 := by
    simp only [patchError, troughF]
    norm_num
  simp only [] at ep e6 ⊢
  rw [e6]
  linarith

end Geom3d
