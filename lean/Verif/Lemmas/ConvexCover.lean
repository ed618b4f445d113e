import Verif.Lemmas.EarEdge
import Verif.Lemmas.ConvexLoop
import Mathlib.Data.List.GetD
import Verif.Spec.Covering
import Mathlib.Algebra.Polynomial.Roots
import Mathlib.Data.Real.Basic
import Mathlib.Order.Interval.Set.Infinite

/-!
# Triangles that cover a convex polygon need all its sides
-/

namespace Geom3d
open Spec Winding List

set_option linter.unusedSectionVars false

/-- Every three corners, taken in order, turn left, by more than `tol`. -/
def Spec.ConvexLoop (tol : ℝ) (Q : List (V2 ℝ)) : Prop :=
  ∀ i j k, i < j → j < k → k < Q.length → tol < triArea2 (Q.getD i 0) (Q.getD j 0) (Q.getD k 0)

/-- `x` is strictly on the left of all sides. -/
def Spec.InLoop (Q : List (V2 ℝ)) (x : V2 ℝ) : Prop := ∀ e ∈ loopEdges Q, 0 < triArea2 e.1 e.2 x

/-- The triangles `T`, by vertex numbers, are counter-clockwise and cover the convex polygon `Q`; exempted are points on lines
through two vertices. -/
structure Spec.Fills (Q P : List (V2 ℝ)) (T : List Nat) : Prop where
  pos : ∀ t ∈ triples T, 0 < triArea2 (P.getD t.1 0) (P.getD t.2.1 0) (P.getD t.2.2 0)
  cover : ∀ x, InLoop Q x → OffChords P x → ∃ t ∈ triples T, InTriangle (P.getD t.1 0) (P.getD t.2.1 0) (P.getD t.2.2 0) x

namespace ConvexCover

theorem tri_cyc (a b c : V2 ℝ) : triArea2 b c a = triArea2 a b c := by simp only [triArea2]; ring
theorem tri_swap (a b c : V2 ℝ) : triArea2 b a c = -triArea2 a b c := by simp only [triArea2]; ring
theorem tri_aa (a c : V2 ℝ) : triArea2 a a c = 0 := by simp only [triArea2]; ring
theorem tri_aba (a b : V2 ℝ) : triArea2 a b a = 0 := by simp only [triArea2]; ring
theorem tri_abb (a b : V2 ℝ) : triArea2 a b b = 0 := by simp only [triArea2]; ring

theorem convex_one {tol : ℝ} {a : V2 ℝ} {t : List (V2 ℝ)} (h : ConvexLoop tol (a :: t)) : ConvexLoop tol (t ++ [a]) := by
  intro i j k hij hjk hk
  rw [List.length_append, List.length_singleton] at hk
  have left : ∀ {n}, n < t.length → (t ++ [a]).getD n 0 = (a :: t).getD (n + 1) 0 := by
    intro n hn
    rw [List.getD_append _ _ _ _ hn, List.getD_cons_succ]
  rcases Nat.lt_or_ge k t.length with h' | h'
  · rw [left (by omega), left (by omega), left h']
    exact h _ _ _ (by omega) (by omega) (by simp; omega)
  · have e : (t ++ [a]).getD k 0 = (a :: t).getD 0 0 := by
      rw [List.getD_append_right _ _ _ _ h', show k - t.length = 0 by omega]; rfl
    rw [left (by omega), left (by omega), e, tri_cyc]
    exact h _ _ _ (by omega) (by omega) (by simp; omega)

theorem convex_rot {tol : ℝ} {Q Q' : List (V2 ℝ)} (h : ConvexLoop tol Q) (hr : Q ~r Q') : ConvexLoop tol Q' := by
  have key : ∀ (l m : List (V2 ℝ)), ConvexLoop tol (l ++ m) → ConvexLoop tol (m ++ l) := by
    intro l
    induction l with
    | nil => intro m h; simpa using h
    | cons a l ih =>
      intro m h
      have h1 := convex_one (a := a) (t := l ++ m) h
      rw [List.append_assoc] at h1
      have := ih (m ++ [a]) h1
      simpa using this
  obtain ⟨n, rfl⟩ := hr
  rw [List.rotate_eq_drop_append_take_mod]
  rw [← List.take_append_drop (n % Q.length) Q] at h
  exact key _ _ h

theorem convex_nodup {tol : ℝ} (ht : 0 ≤ tol) {Q : List (V2 ℝ)} (h : ConvexLoop tol Q) (hn : 3 ≤ Q.length) : Q.Nodup := by
  rw [List.nodup_iff_injective_get]
  have key : ∀ i j, i < j → j < Q.length → Q.getD i 0 ≠ Q.getD j 0 := by
    intro i j hij hj e
    have bad : ∀ {x}, tol < x → x ≠ 0 := fun h' h0 => by rw [h0] at h'; exact absurd h' (not_lt.2 ht)
    rcases Nat.lt_or_ge (j + 1) Q.length with h1 | h1
    · exact bad (h i j (j + 1) hij (by omega) h1) (by rw [e, tri_aa])
    rcases Nat.lt_or_ge (i + 1) j with h2 | h2
    · exact bad (h i (i + 1) j (by omega) h2 hj) (by rw [e, tri_aba])
    · exact bad (h 0 i j (by omega) hij hj) (by rw [e, tri_abb])
  intro ⟨i, hi⟩ ⟨j, hj⟩ e
  simp only [List.get_eq_getElem] at e
  by_contra hne
  have hne : i ≠ j := fun h => hne (by subst h; rfl)
  rcases Nat.lt_or_gt_of_ne hne with h1 | h1
  · exact key i j h1 hj (by rw [getD_of_lt 0 hi, getD_of_lt 0 hj, e])
  · exact key j i h1 hi (by rw [getD_of_lt 0 hi, getD_of_lt 0 hj, e])

theorem convex_from {tol : ℝ} {a b : V2 ℝ} {t : List (V2 ℝ)} (h : ConvexLoop tol (a :: b :: t)) {x : V2 ℝ} (hx : x ∈ t) :
    tol < triArea2 a b x := by
  obtain ⟨k, hk, rfl⟩ := List.getElem_of_mem hx
  have := h 0 1 (k + 2) (by omega) (by omega) (by simp; omega)
  rw [List.getD_cons_zero, List.getD_cons_succ, List.getD_cons_zero, List.getD_cons_succ, List.getD_cons_succ, getD_of_lt 0 hk] at this
  exact this

theorem convex_skip {tol : ℝ} {a b c : V2 ℝ} {t : List (V2 ℝ)} (h : ConvexLoop tol (a :: b :: c :: t)) {x : V2 ℝ} (hx : x ∈ t) :
    tol < triArea2 a c x := by
  obtain ⟨k, hk, rfl⟩ := List.getElem_of_mem hx
  have := h 0 2 (k + 3) (by omega) (by omega) (by simp; omega)
  simp only [List.getD_cons_zero, List.getD_cons_succ] at this
  rw [getD_of_lt 0 hk] at this
  exact this

/-- All other corners are on the left of a side. -/
theorem convex_side {tol : ℝ} (ht : 0 ≤ tol) {Q : List (V2 ℝ)} (h : ConvexLoop tol Q) (hn : 3 ≤ Q.length) {b c x : V2 ℝ}
    (he : (b, c) ∈ loopEdges Q) (hx : x ∈ Q) (hb : x ≠ b) (hc : x ≠ c) : tol < triArea2 b c x := by
  have hnd := convex_nodup ht h hn
  obtain ⟨⟨a, ha⟩, -⟩ := exists_edge_from hn (mem_of_loopEdges he).2
  obtain ⟨⟨z, hz⟩, y, hy⟩ := exists_edge_from hn (mem_of_loopEdges he).1
  obtain ⟨m, hm⟩ := corner_form hnd hn hy he
  have h1 := convex_rot h hm
  have hx' := hm.perm.mem_iff.1 hx
  rw [List.mem_cons, List.mem_cons] at hx'
  exact convex_from h1 ((hx'.resolve_left hb).resolve_left hc)

/-- A point on a parabola that touches the middle of the side from `B` to `C`. -/
noncomputable def spot (A B C : V2 ℝ) (s : ℝ) : V2 ℝ :=
  ⟨(1 / 2 - s - s ^ 2) * B.x + (1 / 2 + s) * C.x + s ^ 2 * A.x, (1 / 2 - s - s ^ 2) * B.y + (1 / 2 + s) * C.y + s ^ 2 * A.y⟩

theorem tri_spot (p q A B C : V2 ℝ) (s : ℝ) : triArea2 p q (spot A B C s)
    = (1 / 2 - s - s ^ 2) * triArea2 p q B + (1 / 2 + s) * triArea2 p q C + s ^ 2 * triArea2 p q A := by
  simp only [triArea2, spot]; ring

theorem line_zero {p q A B C : V2 ℝ} (hS : triArea2 A B C ≠ 0) (hA : triArea2 p q A = 0) (hB : triArea2 p q B = 0)
    (hC : triArea2 p q C = 0) : p = q := by
  simp only [triArea2] at *
  have h1 : (q.x - p.x) * ((B.x - A.x) * (C.y - A.y) - (C.x - A.x) * (B.y - A.y)) = 0 := by
    linear_combination (B.x - A.x) * (hC - hA) - (C.x - A.x) * (hB - hA)
  have h2 : (q.y - p.y) * ((B.x - A.x) * (C.y - A.y) - (C.x - A.x) * (B.y - A.y)) = 0 := by
    linear_combination (B.y - A.y) * (hC - hA) - (C.y - A.y) * (hB - hA)
  rcases p with ⟨px, py⟩
  rcases q with ⟨qx, qy⟩
  have e1 := (mul_eq_zero.1 h1).resolve_right hS
  have e2 := (mul_eq_zero.1 h2).resolve_right hS
  simp only at e1 e2
  rw [V2.mk.injEq]
  constructor <;> linarith

theorem quad_finite {c0 c1 c2 : ℝ} (h : ¬ (c0 = 0 ∧ c1 = 0 ∧ c2 = 0)) : {s : ℝ | c0 + c1 * s + c2 * s ^ 2 = 0}.Finite := by
  have hp : (Polynomial.C c0 + Polynomial.C c1 * Polynomial.X + Polynomial.C c2 * Polynomial.X ^ 2 : Polynomial ℝ) ≠ 0 := by
    intro h0
    apply h
    have k0 := congrArg (fun P : Polynomial ℝ => P.coeff 0) h0
    have k1 := congrArg (fun P : Polynomial ℝ => P.coeff 1) h0
    have k2 := congrArg (fun P : Polynomial ℝ => P.coeff 2) h0
    simp [Polynomial.coeff_X, Polynomial.coeff_C, Polynomial.coeff_X_pow] at k0 k1 k2
    exact ⟨k0, k1, k2⟩
  refine (Polynomial.finite_setOfPred_isRoot hp).subset fun s hs => ?_
  simp only [Set.mem_ofPred_eq, Polynomial.IsRoot, Polynomial.eval_add, Polynomial.eval_mul, Polynomial.eval_C, Polynomial.eval_X,
    Polynomial.eval_pow] at hs ⊢
  exact hs

theorem spot_off {P : List (V2 ℝ)} {A B C : V2 ℝ} (hS : triArea2 A B C ≠ 0) {ε : ℝ} (hε : 0 < ε) :
    ∃ s, 0 < s ∧ s < ε ∧ OffChords P (spot A B C s) := by
  have hfin : (⋃ a ∈ {a | a ∈ P}, ⋃ b ∈ {b | b ∈ P ∧ a ≠ b}, {s : ℝ | triArea2 a b (spot A B C s) = 0}).Finite := by
    refine P.finite_toSet.biUnion fun a _ => (P.finite_toSet.subset fun b hb => hb.1).biUnion fun b hb => ?_
    have hab : a ≠ b := hb.2
    refine (quad_finite (c0 := (triArea2 a b B + triArea2 a b C) / 2) (c1 := triArea2 a b C - triArea2 a b B)
      (c2 := triArea2 a b A - triArea2 a b B) ?_).subset fun s hs => ?_
    · rintro ⟨h0, h1, h2⟩
      exact hab (line_zero hS (by linarith) (by linarith) (by linarith))
    · simp only [Set.mem_ofPred_eq] at hs ⊢
      rw [tri_spot] at hs
      linear_combination hs
  obtain ⟨s, hs, hn⟩ := (Set.Ioo_infinite hε).exists_notMem_finite hfin
  refine ⟨s, hs.1, hs.2, fun a ha b hb hab h0 => hn ?_⟩
  simp only [Set.mem_iUnion, Set.mem_ofPred_eq]
  exact ⟨a, ha, b, ⟨hb, hab⟩, h0⟩

theorem tri_combine {a b c x p q : V2 ℝ} (h : InTriangle a b c x) (ha : 0 ≤ triArea2 p q a) (hb : 0 ≤ triArea2 p q b)
    (hc : 0 ≤ triArea2 p q c) : 0 ≤ triArea2 p q x := by
  obtain ⟨u, v, w, hu, hv, hw, h1, hx, hy⟩ := h
  have e : triArea2 p q x = u * triArea2 p q a + v * triArea2 p q b + w * triArea2 p q c := by
    obtain rfl : u = 1 - v - w := by linarith
    simp only [triArea2]
    rw [hx, hy]
    ring
  rw [e]
  positivity

/-- A covering by counter-clockwise triangles between corners has a triangle on every side. -/
theorem side_needed {tol : ℝ} (ht : 0 ≤ tol) {Q P : List (V2 ℝ)} {T : List Nat} (h : ConvexLoop tol Q) (hn : 3 ≤ Q.length)
    (hf : Fills Q P T) (hT : ∀ t ∈ triples T, P.getD t.1 0 ∈ Q ∧ P.getD t.2.1 0 ∈ Q ∧ P.getD t.2.2 0 ∈ Q) {B C : V2 ℝ}
    (he : (B, C) ∈ loopEdges Q) : ∃ t ∈ triples T, EarEdge.HasSide (fun i => P.getD i 0) B C t := by
  have hnd := convex_nodup ht h hn
  obtain ⟨-, A, hA⟩ := exists_edge_from hn (mem_of_loopEdges he).1
  obtain ⟨m, hm⟩ := corner_form hnd hn hA he
  have h1 := convex_rot h hm
  have h2 : ConvexLoop tol (A :: B :: C :: m) := convex_rot h1 (by
    have : B :: C :: (m ++ [A]) = (B :: C :: m) ++ [A] := by simp
    rw [this]
    exact isRotated_append)
  have hnd1 := hm.perm.nodup_iff.1 hnd
  obtain ⟨D, m', hD⟩ : ∃ D m', m ++ [A] = D :: m' := by
    cases m with
    | nil => exact ⟨A, [], rfl⟩
    | cons d m => exact ⟨d, m ++ [A], rfl⟩
  have hS : 0 < triArea2 A B C := lt_of_le_of_lt ht (convex_from h2 (by simp))
  have memQ : ∀ {y}, y ∈ Q ↔ y = B ∨ y = C ∨ y ∈ m ∨ y = A := by
    intro y
    rw [hm.perm.mem_iff]
    simp
  have fA : ∀ y ∈ Q, y ≠ B → 0 ≤ triArea2 A C y := by
    intro y hy hyB
    rcases memQ.1 hy with rfl | rfl | hy | rfl
    · exact absurd rfl hyB
    · rw [tri_abb]
    · exact ht.trans (convex_skip h2 hy).le
    · rw [tri_aba]
  rw [hD] at h1 hnd1
  have hk : 0 < triArea2 B C D := lt_of_le_of_lt ht (convex_from h1 (by simp))
  have memQ' : ∀ {y}, y ∈ Q ↔ y = B ∨ y = C ∨ y = D ∨ y ∈ m' := by
    intro y
    rw [hm.perm.mem_iff, hD]
    simp
  have fB : ∀ y ∈ Q, y ≠ C → 0 ≤ triArea2 B D y := by
    intro y hy hyC
    rcases memQ'.1 hy with rfl | rfl | rfl | hy
    · rw [tri_aba]
    · exact absurd rfl hyC
    · rw [tri_abb]
    · exact ht.trans (convex_skip h1 hy).le
  have mA : A ∈ Q := memQ.2 (by simp)
  have mB : B ∈ Q := memQ.2 (by simp)
  have mC : C ∈ Q := memQ.2 (by simp)
  have nAB : A ≠ B := fun e => by rw [e, tri_aa] at hS; exact lt_irrefl _ hS
  have nAC : A ≠ C := fun e => by rw [e, tri_aba] at hS; exact lt_irrefl _ hS
  have nBC : B ≠ C := fun e => by rw [e, tri_abb] at hS; exact lt_irrefl _ hS
  have fA' := fB A mA nAC
  -- the point
  obtain ⟨s, s0, s1, hoff⟩ := spot_off (P := P) hS.ne' (ε := min (1 / 4) (triArea2 B C D / (2 * (triArea2 B D A + 1)))) (by positivity)
  have s2 : s < 1 / 4 := lt_of_lt_of_le s1 (min_le_left _ _)
  have s3 : s * (2 * (triArea2 B D A + 1)) < triArea2 B C D := by
    rw [← lt_div_iff₀ (by positivity)]
    exact lt_of_lt_of_le s1 (min_le_right _ _)
  have w1 : 0 < 1 / 2 - s - s ^ 2 := by nlinarith
  have w2 : 0 < 1 / 2 + s := by linarith
  have w3 : 0 < s ^ 2 := by positivity
  have hin : InLoop Q (spot A B C s) := by
    rintro ⟨p, q⟩ hpq
    rw [tri_spot]
    have side : ∀ y ∈ Q, 0 ≤ triArea2 p q y ∧ (y ≠ p → y ≠ q → 0 < triArea2 p q y) := by
      intro y hy
      have pos : y ≠ p → y ≠ q → 0 < triArea2 p q y := fun h3 h4 => lt_of_le_of_lt ht (convex_side ht h hn hpq hy h3 h4)
      refine ⟨?_, pos⟩
      by_cases e1 : y = p
      · rw [e1, tri_aba]
      by_cases e2 : y = q
      · rw [e2, tri_abb]
      exact (pos e1 e2).le
    obtain ⟨gA, gA'⟩ := side A mA
    obtain ⟨gB, gB'⟩ := side B mB
    obtain ⟨gC, gC'⟩ := side C mC
    have : 0 < triArea2 p q A ∨ 0 < triArea2 p q B ∨ 0 < triArea2 p q C := by
      by_cases e1 : A = p
      · by_cases e2 : B = q
        · exact .inr (.inr (gC' (fun e => nAC (e1.trans e.symm)) fun e => nBC (e2.trans e.symm)))
        · exact .inr (.inl (gB' (fun e => nAB (e1.trans e.symm)) e2))
      · by_cases e2 : A = q
        · by_cases e3 : B = p
          · exact .inr (.inr (gC' (fun e => nBC (e3.trans e.symm)) fun e => nAC (e2.trans e.symm)))
          · exact .inr (.inl (gB' e3 fun e => nAB (e2.trans e.symm)))
        · exact .inl (gA' e1 e2)
    rcases this with g | g | g
    · have := mul_pos w3 g
      have := mul_nonneg w1.le gB
      have := mul_nonneg w2.le gC
      linarith
    · have := mul_nonneg w3.le gA
      have := mul_pos w1 g
      have := mul_nonneg w2.le gC
      linarith
    · have := mul_nonneg w3.le gA
      have := mul_nonneg w1.le gB
      have := mul_pos w2 g
      linarith
  obtain ⟨t, htT, htx⟩ := hf.cover _ hin hoff
  have hpos := hf.pos t htT
  obtain ⟨q1, q2, q3⟩ := hT t htT
  have neg1 : triArea2 A C (spot A B C s) < 0 := by
    rw [tri_spot, tri_abb, tri_aba, ← tri_cyc A C B, ← tri_cyc, tri_swap]
    have : triArea2 B A C = - triArea2 A B C := tri_swap _ _ _
    have e : triArea2 A C B = -triArea2 A B C := by simp only [triArea2]; ring
    nlinarith
  have neg2 : triArea2 B D (spot A B C s) < 0 := by
    rw [tri_spot, tri_aba]
    have e : triArea2 B D C = -triArea2 B C D := by simp only [triArea2]; ring
    rw [e]
    nlinarith
  have hasB : P.getD t.1 0 = B ∨ P.getD t.2.1 0 = B ∨ P.getD t.2.2 0 = B := by
    by_contra hno
    push Not at hno
    exact absurd (tri_combine htx (fA _ q1 hno.1) (fA _ q2 hno.2.1) (fA _ q3 hno.2.2)) (not_le.2 neg1)
  have hasC : P.getD t.1 0 = C ∨ P.getD t.2.1 0 = C ∨ P.getD t.2.2 0 = C := by
    by_contra hno
    push Not at hno
    exact absurd (tri_combine htx (fB _ q1 hno.1) (fB _ q2 hno.2.1) (fB _ q3 hno.2.2)) (not_le.2 neg2)
  have sideBC : ∀ y ∈ Q, 0 ≤ triArea2 B C y := by
    intro y hy
    by_cases e1 : y = B
    · rw [e1, tri_aba]
    by_cases e2 : y = C
    · rw [e2, tri_abb]
    exact ht.trans (convex_side ht h hn he hy e1 e2).le
  refine ⟨t, htT, ?_⟩
  unfold EarEdge.HasSide
  beta_reduce
  generalize P.getD t.1 0 = a at *
  generalize P.getD t.2.1 0 = b at *
  generalize P.getD t.2.2 0 = c at *
  refine ⟨fun e => ?_, fun e => ?_, fun e => ?_, ?_⟩
  · rw [e, tri_aa] at hpos; exact lt_irrefl _ hpos
  · rw [e, tri_abb] at hpos; exact lt_irrefl _ hpos
  · rw [e, tri_aba] at hpos; exact lt_irrefl _ hpos
  rcases hasB with rfl | rfl | rfl
  · rcases hasC with h3 | rfl | rfl
    · exact absurd h3 nBC
    · exact .inl ⟨rfl, rfl⟩
    · have := sideBC b q2
      have e : triArea2 a b c = - triArea2 a c b := by simp only [triArea2]; ring
      linarith
  · rcases hasC with rfl | h3 | rfl
    · have := sideBC c q3
      rw [tri_swap] at this
      linarith
    · exact absurd h3 nBC
    · exact .inr (.inl ⟨rfl, rfl⟩)
  · rcases hasC with rfl | rfl | h3
    · exact .inr (.inr ⟨rfl, rfl⟩)
    · have := sideBC a q1
      have e : triArea2 a b c = - triArea2 c b a := by simp only [triArea2]; ring
      linarith
    · exact absurd h3 nBC

/-- The centroid fan covers: the signs of the areas change along the loop. -/
theorem sign_change {L : List (V2 ℝ)} {f : V2 ℝ → ℝ} (hp : ∃ v ∈ L, 0 < f v) (hm : ∃ v ∈ L, f v < 0) (h0 : ∀ v ∈ L, f v ≠ 0) :
    ∃ e ∈ loopEdges L, 0 < f e.1 ∧ f e.2 < 0 := by
  obtain ⟨v, hv, h1⟩ := hp
  obtain ⟨t, ht⟩ := rot_of_mem hv
  obtain ⟨w, hw, h2⟩ := hm
  have hw' := ht.perm.mem_iff.1 hw
  have h0' : ∀ x ∈ v :: t, f x ≠ 0 := fun x hx => h0 x (ht.perm.mem_iff.2 hx)
  have key : ∀ (t : List (V2 ℝ)) (v : V2 ℝ), 0 < f v → (∃ w ∈ t, f w < 0) → (∀ x ∈ t, f x ≠ 0) → ∃ e ∈ pathEdges (v :: t), 0 < f e.1 ∧ f e.2 < 0 := by
    intro t
    induction t with
    | nil => rintro v _ ⟨w, hw, _⟩; cases hw
    | cons x t ih =>
      rintro v hv ⟨w, hw, h2⟩ h0
      rcases lt_or_gt_of_ne (h0 x (by simp)) with hx | hx
      · exact ⟨(v, x), by simp, hv, hx⟩
      · have hw := (List.mem_cons.1 hw).resolve_left fun e => by rw [e] at h2; exact absurd h2 (not_lt.2 hx.le)
        obtain ⟨e, he, h3⟩ := ih x hx ⟨w, hw, h2⟩ fun y hy => h0 y (by simp [hy])
        exact ⟨e, by rw [pathEdges_cons_cons]; simp [he], h3⟩
  have hw'' := (List.mem_cons.1 hw').resolve_left fun e => by rw [e] at h2; exact absurd h2 (not_lt.2 h1.le)
  obtain ⟨e, he, h3⟩ := key (t ++ [v]) v h1 ⟨w, by simp [hw''], h2⟩ (fun x hx => by
    rw [List.mem_append, List.mem_singleton] at hx
    rcases hx with hx | rfl
    · exact h0' x (by simp [hx])
    · exact h1.ne')
  exact ⟨e, (loopEdges_rot ht).mem_iff.2 he, h3⟩

end ConvexCover

end Geom3d
