import Verif.Lemmas.Winding

/-!
# Corners of polygons: what an edge that avoids the two sides can do
-/

namespace Geom3d.Winding
open Spec

variable {K : Type} [Field K] [LinearOrder K] [IsStrictOrderedRing K]

set_option linter.unusedSectionVars false

theorem tri_self₁ (a b : V2 K) : triArea2 a a b = 0 := by unfold triArea2; ring
theorem tri_self₂ (a b : V2 K) : triArea2 a b a = 0 := by unfold triArea2; ring
theorem tri_self₃ (a b : V2 K) : triArea2 a b b = 0 := by unfold triArea2; ring

/-- Barycentric coordinates with respect to the triangle `a v c`. -/
theorem bary (a v c p r z : V2 K) : triArea2 c a z * triArea2 p r v + triArea2 v c z * triArea2 p r a +
    triArea2 v z a * triArea2 p r c = triArea2 v c a * triArea2 p r z := by
  unfold triArea2; ring

theorem bary_sum (a v c z : V2 K) : triArea2 c a z = triArea2 v c a - triArea2 v c z - triArea2 v z a := by
  unfold triArea2; ring

/-- `z` lies in the closed triangle with apex `v` between `c` and `a`. -/
def Inside (a v c z : V2 K) : Prop :=
  0 ≤ triArea2 v c z ∧ 0 ≤ triArea2 v z a ∧ triArea2 v c z + triArea2 v z a ≤ triArea2 v c a

/-- Distance from the apex, parallel to the base. -/
def depth (a v c z : V2 K) : K := triArea2 v c z + triArea2 v z a

theorem block_point {U S T fv fa fc s D : K} (e : U * fv + S * fa + T * fc = 0) (eU : U = D - S - T) (hfv : fv < 0)
    (hpos : 0 < fa ∨ 0 < fc) (hT : 0 < fa → 0 ≤ T) (hS : 0 < fc → 0 ≤ S) (hs : s ≤ D)
    (h : 0 ≤ S → 0 ≤ T → s ≤ S + T) : s ≤ S + T := by
  rcases le_or_gt 0 S with h1 | h1
  · rcases le_or_gt 0 T with h2 | h2
    · exact h h1 h2
    · have ha : fa ≤ 0 := by by_contra hn; linarith [hT (not_le.1 hn)]
      have hc : 0 < fc := hpos.resolve_left (not_lt.2 ha)
      have k1 : T * fc < 0 := mul_neg_of_neg_of_pos h2 hc
      have k2 : S * fa ≤ 0 := mul_nonpos_of_nonneg_of_nonpos h1 ha
      have k3 : 0 < U * fv := by linarith
      have : U < 0 := by by_contra hn; linarith [mul_nonpos_of_nonneg_of_nonpos (not_lt.1 hn) hfv.le]
      linarith
  · have hc : fc ≤ 0 := by by_contra hn; linarith [hS (not_le.1 hn)]
    have ha : 0 < fa := hpos.resolve_right (not_lt.2 hc)
    have k1 : S * fa < 0 := mul_neg_of_neg_of_pos h1 ha
    have k2 : T * fc ≤ 0 := mul_nonpos_of_nonneg_of_nonpos (hT ha) hc
    have k3 : 0 < U * fv := by linarith
    have : U < 0 := by by_contra hn; linarith [mul_nonpos_of_nonneg_of_nonpos (not_lt.1 hn) hfv.le]
    linarith

theorem both_nonneg {A M x y : K} (hA : 0 < A) (hM : 0 < M) (h : 0 < A * x + M * y) (hxy : 0 ≤ x * y) : 0 ≤ x ∧ 0 ≤ y := by
  constructor
  · by_contra hn
    rw [not_le] at hn
    have : y ≤ 0 := by by_contra hy; linarith [mul_neg_of_neg_of_pos hn (not_le.1 hy)]
    linarith [mul_neg_of_pos_of_neg hA hn, mul_nonpos_of_nonneg_of_nonpos hM.le this]
  · by_contra hn
    rw [not_le] at hn
    have : x ≤ 0 := by by_contra hx; linarith [mul_neg_of_pos_of_neg (not_le.1 hx) hn]
    linarith [mul_neg_of_pos_of_neg hM hn, mul_nonpos_of_nonneg_of_nonpos hA.le this]

theorem no_block_aux {a v c q p r : V2 K} (hS : 0 < triArea2 v c q) (hT : 0 < triArea2 v q a)
    (hD : depth a v c q ≤ triArea2 v c a) (ha : ¬ Cross v a p r) (hc : ¬ Cross v c p r)
    (hp : 0 ≤ triArea2 v c p → 0 ≤ triArea2 v p a → depth a v c q ≤ depth a v c p)
    (hr : 0 ≤ triArea2 v c r → 0 ≤ triArea2 v r a → depth a v c q ≤ depth a v c r)
    (hx : Cross v q p r) (hfv : triArea2 p r v < 0) : False := by
  have hfq : 0 < triArea2 p r q := by
    by_contra hn
    linarith [hx.2, mul_nonneg_of_nonpos_of_nonpos hfv.le (not_lt.1 hn)]
  have eAM : triArea2 v q p - triArea2 v q r = triArea2 p r q - triArea2 p r v := by unfold triArea2; ring
  have hP : 0 < triArea2 v q p := by
    by_contra hn
    rw [not_lt] at hn
    have : 0 < triArea2 v q r := by
      by_contra h; linarith [hx.1, mul_nonneg_of_nonpos_of_nonpos hn (not_lt.1 h)]
    linarith
  have hR : triArea2 v q r < 0 := by
    by_contra hn
    linarith [hx.1, mul_nonneg hP.le (not_lt.1 hn)]
  have eS : - triArea2 v q r * triArea2 v c p + triArea2 v q p * triArea2 v c r = - triArea2 p r v * triArea2 v c q := by
    unfold triArea2; ring
  have eT : - triArea2 v q r * triArea2 v p a + triArea2 v q p * triArea2 v r a = - triArea2 p r v * triArea2 v q a := by
    unfold triArea2; ring
  have bp := bary a v c p r p
  have br := bary a v c p r r
  have bq := bary a v c p r q
  rw [tri_self₂, mul_zero] at bp
  rw [tri_self₃, mul_zero] at br
  have up := bary_sum a v c p
  have ur := bary_sum a v c r
  have uq := bary_sum a v c q
  have e1 : triArea2 v a p = - triArea2 v p a := tri_swap' v p a
  have e2 : triArea2 v a r = - triArea2 v r a := tri_swap' v r a
  have hTT : 0 < triArea2 p r a → 0 ≤ triArea2 v p a ∧ 0 ≤ triArea2 v r a := by
    intro h
    refine both_nonneg (neg_pos.2 hR) hP ?_ ?_
    · rw [eT]; exact mul_pos (neg_pos.2 hfv) hT
    · by_contra hn
      exact ha ⟨by rw [e1, e2, neg_mul_neg]; exact not_le.1 hn, mul_neg_of_neg_of_pos hfv h⟩
  have hSS : 0 < triArea2 p r c → 0 ≤ triArea2 v c p ∧ 0 ≤ triArea2 v c r := by
    intro h
    refine both_nonneg (neg_pos.2 hR) hP ?_ ?_
    · rw [eS]; exact mul_pos (neg_pos.2 hfv) hS
    · by_contra hn
      exact hc ⟨not_le.1 hn, mul_neg_of_neg_of_pos hfv h⟩
  unfold depth at *
  have hDpos : 0 < triArea2 v c a := by linarith
  have hpos : 0 < triArea2 p r a ∨ 0 < triArea2 p r c := by
    by_contra hn
    rw [not_or, not_lt, not_lt] at hn
    have k1 := mul_nonpos_of_nonneg_of_nonpos hS.le hn.1
    have k2 := mul_nonpos_of_nonneg_of_nonpos hT.le hn.2
    have k3 := mul_pos hDpos hfq
    have k4 : triArea2 c a q * triArea2 p r v ≤ 0 := mul_nonpos_of_nonneg_of_nonpos (by linarith) hfv.le
    linarith
  have sp := block_point bp up hfv hpos (fun h => (hTT h).1) (fun h => (hSS h).1) hD hp
  have sr := block_point br ur hfv hpos (fun h => (hTT h).2) (fun h => (hSS h).2) hD hr
  have m1 := mul_le_mul_of_nonneg_left sp (neg_pos.2 hR).le
  have m2 := mul_le_mul_of_nonneg_left sr hP.le
  have m3 : (triArea2 v q p - triArea2 v q r) * (triArea2 v c q + triArea2 v q a) ≤
      - triArea2 p r v * (triArea2 v c q + triArea2 v q a) := by linarith
  rw [eAM] at m3
  have m4 : 0 < triArea2 p r q * (triArea2 v c q + triArea2 v q a) := mul_pos hfq (by linarith)
  linarith

/-- **Visible.** An edge that crosses neither side of a corner and has no end nearer to the apex than `q` does not come
between the apex and `q`. -/
theorem no_block {a v c q p r : V2 K} (hS : 0 < triArea2 v c q) (hT : 0 < triArea2 v q a)
    (hD : depth a v c q ≤ triArea2 v c a) (ha : ¬ Cross v a p r) (hc : ¬ Cross v c p r)
    (hp : 0 ≤ triArea2 v c p → 0 ≤ triArea2 v p a → depth a v c q ≤ depth a v c p)
    (hr : 0 ≤ triArea2 v c r → 0 ≤ triArea2 v r a → depth a v c q ≤ depth a v c r) : ¬ Cross v q p r := by
  intro hx
  have hne : triArea2 p r v ≠ 0 := by
    intro h0; have := hx.2; rw [h0, zero_mul] at this; exact lt_irrefl _ this
  rcases lt_or_gt_of_ne hne with h | h
  · exact no_block_aux hS hT hD ha hc hp hr hx h
  · exact no_block_aux hS hT hD (fun k => ha k.swap') (fun k => hc k.swap') hr hp hx.swap'
      (by rw [tri_swap p r v]; exact neg_neg_of_pos h)

theorem both_pos {X Y f g : K} (h : X * f + Y * g = 0) (hs : 0 < X + Y) (hfg : f * g < 0) : 0 < X ∧ 0 < Y := by
  have f2 : 0 < f * f := mul_self_pos.2 (by rintro rfl; rw [zero_mul] at hfg; exact lt_irrefl _ hfg)
  have e : X * (f * f) + Y * (f * g) = 0 := by linear_combination f * h
  constructor
  · by_contra hn
    rw [not_lt] at hn
    linarith [mul_nonpos_of_nonpos_of_nonneg hn f2.le, mul_neg_of_pos_of_neg (show 0 < Y by linarith) hfg]
  · by_contra hn
    rw [not_lt] at hn
    linarith [mul_nonneg_of_nonpos_of_nonpos hn hfg.le, mul_pos (show 0 < X by linarith) f2]

theorem pasch_aux {a v c p r : V2 K} (hD : 0 < triArea2 v c a) (ha : ¬ Cross v a p r) (hc : ¬ Cross v c p r)
    (hp : ¬ Inside a v c p) (hv : triArea2 p r v ≠ 0) (hx : Cross a c p r) (hU : 0 < triArea2 c a p) : False := by
  have e1 : triArea2 a c p = - triArea2 c a p := tri_swap c a p
  have e2 : triArea2 a c r = - triArea2 c a r := tri_swap c a r
  have hU' : triArea2 c a r < 0 := by
    by_contra hn
    have h := hx.1
    rw [e1, e2, neg_mul_neg] at h
    linarith [mul_nonneg hU.le (not_lt.1 hn)]
  have e3 : triArea2 v a p = - triArea2 v p a := tri_swap' v p a
  have e4 : triArea2 v a r = - triArea2 v r a := tri_swap' v r a
  have bp := bary a v c p r p
  have br := bary a v c p r r
  rw [tri_self₂, mul_zero] at bp
  rw [tri_self₃, mul_zero] at br
  have up := bary_sum a v c p
  have ur := bary_sum a v c r
  set A := - triArea2 c a r with hA
  set M := triArea2 c a p with hM
  have A0 : 0 < A := by linarith
  have z1 : (A * triArea2 v c p + M * triArea2 v c r) * triArea2 p r a +
      (A * triArea2 v p a + M * triArea2 v r a) * triArea2 p r c = 0 := by
    linear_combination A * bp + M * br + (M * triArea2 p r v) * hA
  have z2 : (A * triArea2 v c p + M * triArea2 v c r) + (A * triArea2 v p a + M * triArea2 v r a) =
      (A + M) * triArea2 v c a := by
    linear_combination A * up + M * ur - M * hA
  have z3 : 0 < (A + M) * triArea2 v c a := mul_pos (by linarith) hD
  rw [← z2] at z3
  have hS := (both_pos z1 z3 hx.2).1
  have hT := (both_pos z1 z3 hx.2).2
  have hTT : triArea2 p r v * triArea2 p r a < 0 → 0 ≤ triArea2 v p a := by
    intro h
    refine (both_nonneg A0 hU hT ?_).1
    by_contra hn
    exact ha ⟨by rw [e3, e4, neg_mul_neg]; exact not_le.1 hn, h⟩
  have hSS : triArea2 p r v * triArea2 p r c < 0 → 0 ≤ triArea2 v c p := by
    intro h
    refine (both_nonneg A0 hU hS ?_).1
    by_contra hn
    exact hc ⟨not_le.1 hn, h⟩
  have hac := hx.2
  have hst : 0 ≤ triArea2 v c p → 0 ≤ triArea2 v p a → False := fun h1 h2 => hp ⟨h1, h2, by linarith⟩
  generalize triArea2 p r v = fv at *
  generalize triArea2 p r a = fa at *
  generalize triArea2 p r c = fc at *
  generalize triArea2 v c p = S at *
  generalize triArea2 v p a = T at *
  clear_value A M
  clear hA e1 e2 e3 e4 br up ur z1 z2 z3 hS hT ha hc hp hx hM
  rcases lt_or_gt_of_ne hv with h | h
  · rcases le_or_gt fa 0 with k | k
    · have kc : 0 < fc := by by_contra hn; linarith [mul_nonneg_of_nonpos_of_nonpos k (not_lt.1 hn)]
      have s0 := hSS (mul_neg_of_neg_of_pos h kc)
      have t0 : T < 0 := by by_contra hn; exact hst s0 (not_lt.1 hn)
      linarith [mul_neg_of_pos_of_neg hU h, mul_nonpos_of_nonneg_of_nonpos s0 k, mul_neg_of_neg_of_pos t0 kc]
    · have kc : fc < 0 := by by_contra hn; linarith [mul_nonneg k.le (not_lt.1 hn)]
      have t0 := hTT (mul_neg_of_neg_of_pos h k)
      have s0 : S < 0 := by by_contra hn; exact hst (not_lt.1 hn) t0
      linarith [mul_neg_of_pos_of_neg hU h, mul_nonpos_of_nonneg_of_nonpos t0 kc.le, mul_neg_of_neg_of_pos s0 k]
  · rcases le_or_gt 0 fa with k | k
    · have kc : fc < 0 := by by_contra hn; linarith [mul_nonneg k (not_lt.1 hn)]
      have s0 := hSS (mul_neg_of_pos_of_neg h kc)
      have t0 : T < 0 := by by_contra hn; exact hst s0 (not_lt.1 hn)
      linarith [mul_pos hU h, mul_nonneg s0 k, mul_pos_of_neg_of_neg t0 kc]
    · have kc : 0 < fc := by by_contra hn; linarith [mul_nonneg_of_nonpos_of_nonpos k.le (not_lt.1 hn)]
      have t0 := hTT (mul_neg_of_pos_of_neg h k)
      have s0 : S < 0 := by by_contra hn; exact hst (not_lt.1 hn) t0
      linarith [mul_pos hU h, mul_nonneg t0 kc.le, mul_pos_of_neg_of_neg s0 k]

/-- **Base.** An edge that crosses neither side of a corner and has no end in its triangle does not cross the base. -/
theorem pasch {a v c p r : V2 K} (hD : 0 < triArea2 v c a) (ha : ¬ Cross v a p r) (hc : ¬ Cross v c p r)
    (hp : ¬ Inside a v c p) (hr : ¬ Inside a v c r) (hv : triArea2 p r v ≠ 0) : ¬ Cross a c p r := by
  intro hx
  have e1 : triArea2 a c p = - triArea2 c a p := tri_swap c a p
  rcases le_or_gt (triArea2 c a p) 0 with h | h
  · refine pasch_aux hD (fun k => ha k.swap') (fun k => hc k.swap') hr ?_ hx.swap' ?_
    · rw [tri_swap p r v]; exact neg_ne_zero.2 hv
    · have h1 := hx.1
      have e2 : triArea2 a c r = - triArea2 c a r := tri_swap c a r
      rw [e1, e2, neg_mul_neg] at h1
      by_contra hn
      linarith [mul_nonneg_of_nonpos_of_nonpos h (not_lt.1 hn)]
  · exact pasch_aux hD ha hc hp hv hx h

/-- **No way out.** An edge from a point of a corner towards its apex stays in the corner, if it does not cross the sides. -/
theorem no_exit {a v c q r : V2 K} (hS : 0 < triArea2 v c q) (hT : 0 < triArea2 v q a)
    (hD : depth a v c q ≤ triArea2 v c a) (ha : ¬ Cross v a q r) (hc : ¬ Cross v c q r) (hv : triArea2 q r v ≠ 0)
    (hr : depth a v c r < depth a v c q) : 0 ≤ triArea2 v c r ∧ 0 ≤ triArea2 v r a := by
  have e3 : triArea2 v a q = - triArea2 v q a := tri_swap' v q a
  have e4 : triArea2 v a r = - triArea2 v r a := tri_swap' v r a
  have bq := bary a v c q r q
  have br := bary a v c q r r
  rw [tri_self₂, mul_zero] at bq
  rw [tri_self₃, mul_zero] at br
  have uq := bary_sum a v c q
  have ur := bary_sum a v c r
  unfold depth at *
  have Uq : 0 ≤ triArea2 c a q := by linarith
  have Ur : 0 < triArea2 c a r := by linarith
  have hTT : triArea2 v r a < 0 → 0 ≤ triArea2 q r v * triArea2 q r a := by
    intro h
    by_contra hn
    exact ha ⟨by rw [e3, e4, neg_mul_neg]; exact mul_neg_of_pos_of_neg hT h, not_le.1 hn⟩
  have hSS : triArea2 v c r < 0 → 0 ≤ triArea2 q r v * triArea2 q r c := by
    intro h
    by_contra hn
    exact hc ⟨mul_neg_of_pos_of_neg hS h, not_le.1 hn⟩
  generalize triArea2 q r v = fv at *
  generalize triArea2 q r a = fa at *
  generalize triArea2 q r c = fc at *
  generalize triArea2 v c r = S at *
  generalize triArea2 v r a = T at *
  generalize triArea2 v c q = S' at *
  generalize triArea2 v q a = T' at *
  generalize triArea2 c a q = U' at *
  generalize triArea2 c a r = U at *
  have v2 : 0 < fv * fv := mul_self_pos.2 hv
  have b1 : U' * (fv * fv) + S' * (fv * fa) + T' * (fv * fc) = 0 := by linear_combination fv * bq
  have b2 : U * (fv * fv) + S * (fv * fa) + T * (fv * fc) = 0 := by linear_combination fv * br
  generalize fv * fv = w at *
  generalize fv * fa = x at *
  generalize fv * fc = y at *
  have k0 := mul_nonneg Uq v2.le
  have k1 := mul_pos Ur v2
  constructor
  · by_contra hn
    rw [not_le] at hn
    have y0 := hSS hn
    rcases le_or_gt 0 T with t | t
    · have x0 : x ≤ 0 := by
        by_contra hx; linarith [mul_pos hS (not_le.1 hx), mul_nonneg hT.le y0]
      linarith [mul_nonneg_of_nonpos_of_nonpos hn.le x0, mul_nonneg t y0]
    · have x0 := hTT t
      have x1 : x = 0 := by
        by_contra hx; linarith [mul_pos hS (lt_of_le_of_ne x0 (Ne.symm hx)), mul_nonneg hT.le y0]
      have y1 : y = 0 := by
        by_contra hy; linarith [mul_pos hT (lt_of_le_of_ne y0 (Ne.symm hy)), mul_nonneg hS.le x0]
      rw [x1, y1] at b2
      linarith
  · by_contra hn
    rw [not_le] at hn
    have x0 := hTT hn
    rcases le_or_gt 0 S with t | t
    · have y0 : y ≤ 0 := by
        by_contra hx; linarith [mul_pos hT (not_le.1 hx), mul_nonneg hS.le x0]
      linarith [mul_nonneg_of_nonpos_of_nonpos hn.le y0, mul_nonneg t x0]
    · have y0 := hSS t
      have x1 : x = 0 := by
        by_contra hx; linarith [mul_pos hS (lt_of_le_of_ne x0 (Ne.symm hx)), mul_nonneg hT.le y0]
      have y1 : y = 0 := by
        by_contra hy; linarith [mul_pos hT (lt_of_le_of_ne y0 (Ne.symm hy)), mul_nonneg hS.le x0]
      rw [x1, y1] at b2
      linarith

end Geom3d.Winding
