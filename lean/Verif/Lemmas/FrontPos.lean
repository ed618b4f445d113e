import Verif.Props.MeshgenDistinct
import Verif.Props.MeshgenNew
import Verif.Lemmas.Winding

/-!
# The triangles of the advancing front are counter-clockwise

One step of `generate_triangular_mesh` (`src/utils/meshgen.rs:24-56`) in exact arithmetic: every node offered by
`find_intersection_with_front` is strictly to the left of the edge.
-/

namespace Geom3d

set_option linter.unusedSectionVars false

/-! ### Any arithmetic -/

section
variable {F : Type} [Add F] [Sub F] [Mul F] [Div F] [Neg F] [Zero F] [One F] [NatCast F] [LT F] [DecidableLT F]
  [LE F] [DecidableLE F] [Env F]

/-- The edges of the loops are the initial front. -/
theorem initialFront_eq {polygons : List Nat} {front : List (Nat × Nat)} (hf : initialFront polygons = .ok front)
    (hpoly : ∀ p ∈ pairs polygons, p.1 < p.2) :
    front = (pairs polygons).flatMap fun p => Spec.loopEdges (Spec.loopRange p) := by
  have hl : ∀ (L : List (Nat × Nat)) (acc r : List (Nat × Nat)), (∀ p ∈ L, p.1 < p.2) →
      L.foldlM (fun front (x : Nat × Nat) => (do
        let last ← usub x.2 1
        pure (front ++ (List.range' x.1 (last - x.1)).map (fun i => (i, i + 1)) ++ [(last, x.1)]) : Res _)) acc = .ok r →
      r = acc ++ L.flatMap fun p => Spec.loopEdges (Spec.loopRange p) := by
    intro L
    induction L with
    | nil => intro acc r _ hr; cases hr; simp
    | cons p L ih =>
      intro acc r hL hr
      have hp := hL p (List.mem_cons_self ..)
      rw [List.foldlM_cons, usub_ok (by omega), ok_bind] at hr
      have := ih _ _ (fun q hq => hL q (List.mem_cons_of_mem _ hq)) hr
      rw [this, List.flatMap_cons, List.append_assoc acc, List.append_assoc acc]
      congr 2
      unfold Spec.loopRange
      obtain ⟨a, b⟩ := p
      simp only at hp ⊢
      obtain ⟨k, rfl⟩ : ∃ k, b = a + k + 1 := ⟨b - a - 1, by omega⟩
      have e1 : a + k + 1 - 1 - a = k := by omega
      have e2 : a + k + 1 - a = k + 1 := by omega
      have e3 : a + k + 1 - 1 = a + k := by omega
      rw [e1, e2, e3, List.range'_succ, Spec.loopEdges_cons, ← List.cons_append, ← List.range'_succ, List.range'_concat,
        List.append_assoc]
      simp only [Nat.one_mul, List.singleton_append]
      rw [Spec.pathEdges_append]
      congr 1
      rw [show List.range' a k ++ [a + k] = List.range' a (k + 1) by rw [List.range'_concat]; simp]
      apply List.ext_getElem?
      intro i
      by_cases hi : i < k
      · rw [Spec.getElem?_pathEdges _ i (a + i) (a + i + 1)]
        · simp [hi]
        · rw [List.getElem?_range' (by omega), Nat.one_mul]
        · rw [List.getElem?_range' (by omega), Nat.one_mul]; rfl
      · rw [List.getElem?_eq_none (by simp; omega),
          List.getElem?_eq_none (by rw [Spec.length_pathEdges]; simp; omega)]
  have := hl (pairs polygons) [] front hpoly hf
  simpa using this

/-- The node found was offered by a front edge. -/
theorem findIntersection_candidate {pick : List (Nat × F) → Option Nat} (hp : PickOk pick) {start stop : Nat}
    {selected : Option Nat} {front : List (Nat × Nat)} {vertices : List (V2 F)} {n : Nat}
    (h : findIntersectionWithFront pick start stop selected front vertices = .ok (some n)) :
    ∃ a b q, idx vertices start = .ok a ∧ idx vertices stop = .ok b ∧
      (match selected with
        | some node => idx vertices node
        | none => pure (pointOnNormalBisector a b 1) : Res (V2 F)) = .ok q ∧
      ∃ e ∈ front, ∃ f, frontCandidate start stop selected vertices a b q e = .ok (some (n, f)) := by
  unfold findIntersectionWithFront at h
  simp only [bind_eq_ok] at h
  obtain ⟨a, ha, b, hb, q, hq, nearby, hn, h⟩ := h
  refine ⟨a, b, q, ha, hb, hq, ?_⟩
  simp only [pure_eq_ok, Except.ok.injEq] at h
  obtain ⟨f, hf⟩ := hp.mem _ _ h
  rw [List.mem_filterMap] at hf
  obtain ⟨o, ho, hof⟩ := hf
  have h2 := of_mapM_ok hn
  simp only [id_eq] at hof
  subst hof
  clear hn h
  induction h2 with
  | nil => simp at ho
  | cons hc _ ih =>
    rcases List.mem_cons.1 ho with rfl | ho
    · exact ⟨_, List.mem_cons_self .., f, hc⟩
    · obtain ⟨e, i2, i3⟩ := ih ho
      exact ⟨e, List.mem_cons_of_mem _ i2, i3⟩

/-- Vertices and triangles are only added. -/
theorem frontStep_prefix {pick : List (Nat × F) → Option Nat} {fuel : Nat} {s s' : FrontState F} {e : Nat × Nat}
    (h : frontStep pick fuel s e = .ok s') : s.vertices <+: s'.vertices ∧ s.triangles <+: s'.triangles := by
  unfold frontStep at h
  simp only [bind_eq_ok] at h
  obtain ⟨a, -, b, -, o, -, h⟩ := h
  cases o <;> cases h
  · exact ⟨List.prefix_append _ _, List.prefix_append _ _⟩
  · exact ⟨List.prefix_refl _, List.prefix_append _ _⟩

theorem frontLoop_prefix {pick : List (Nat × F) → Option Nat} {innerFuel : Nat} (fuel : Nat) {s s' : FrontState F}
    (h : frontLoop pick innerFuel fuel s = .ok s') : s.vertices <+: s'.vertices ∧ s.triangles <+: s'.triangles := by
  induction fuel generalizing s with
  | zero => cases h
  | succ fuel ih =>
    unfold frontLoop at h
    split at h
    · cases h; exact ⟨List.prefix_refl _, List.prefix_refl _⟩
    · rw [bind_eq_ok] at h
      obtain ⟨s1, h1, h2⟩ := h
      have := frontStep_prefix h1
      have := ih h2
      exact ⟨.trans ‹_ ∧ _›.1 this.1, by
        have h3 := (frontStep_prefix h1).2
        exact h3.trans this.2⟩

theorem mem_frontAdd {f : List (Nat × Nat)} {u v : Nat} {e : Nat × Nat} (h : e ∈ frontAdd f u v) : e ∈ f ∨ e = (u, v) := by
  unfold frontAdd at h
  split at h
  · rename_i i hi
    rw [List.findIdx?_eq_some_iff_getElem] at hi
    obtain ⟨hlt, -, -⟩ := hi
    exact .inl ((swapRemoveFront_perm (List.getElem?_eq_getElem hlt)).subset (List.mem_cons_of_mem _ h))
  · rcases List.mem_cons.1 h with h | h
    · exact .inr h
    · exact .inl h

end

/-! ### Exact arithmetic -/

section
variable {K : Type} [Field K] [LinearOrder K] [IsStrictOrderedRing K] [Env K]

theorem tri_on_segment {a b c d p : V2 K} {t : K} (h1 : p.x = c.x + t * (d.x - c.x)) (h2 : p.y = c.y + t * (d.y - c.y)) :
    Spec.triArea2 a b p = (1 - t) * Spec.triArea2 a b c + t * Spec.triArea2 a b d := by
  unfold Spec.triArea2; rw [h1, h2]; ring

/-- A node offered for the triangle over `a → b` is strictly to the left of it, if the trial point is, the nodes found in
the trial triangle are, and no other front edge passes through an end of the edge. -/
theorem candidate_pos {start stop : Nat} {selected : Option Nat} {vertices : List (V2 K)} {a b q : V2 K}
    (ha : idx vertices start = .ok a) (hb : idx vertices stop = .ok b)
    (hq : 0 < Spec.triArea2 a b q) {e : Nat × Nat}
    (hin : ∀ v, e.1 ≠ start → e.1 ≠ stop → idx vertices e.1 = .ok v → isInsideTriangleTol v a b q = true →
      0 < Spec.triArea2 a b v)
    (h1 : e.1 ≠ start → e.2 ≠ start → ∀ c d, idx vertices e.1 = .ok c → idx vertices e.2 = .ok d → ¬ Spec.OnSegment c d a)
    (h2 : e.1 ≠ stop → e.2 ≠ stop → ∀ c d, idx vertices e.1 = .ok c → idx vertices e.2 = .ok d → ¬ Spec.OnSegment c d b)
    {n : Nat} {f : K} (h : frontCandidate start stop selected vertices a b q e = .ok (some (n, f))) :
    ∃ v, idx vertices n = .ok v ∧ 0 < Spec.triArea2 a b v := by
  have hab : a ≠ b := by
    rintro rfl
    simp [Spec.triArea2] at hq
  have haa : Spec.triArea2 a b a = 0 := by unfold Spec.triArea2; ring
  have hbb : Spec.triArea2 a b b = 0 := by unfold Spec.triArea2; ring
  have sgn : ∀ c, 0 < Spec.triArea2 a b c ↔ 0 < shapeFactor a b c := fun c => (shapeFactor_sign hab).1.symm
  -- the better of two ends
  have best : ∀ {c d p : V2 K} {t : K}, 0 ≤ t → t ≤ 1 → p.x = c.x + t * (d.x - c.x) → p.y = c.y + t * (d.y - c.y) →
      0 < Spec.triArea2 a b p → (shapeFactor a b d < shapeFactor a b c → 0 < Spec.triArea2 a b c) ∧
        (¬ shapeFactor a b d < shapeFactor a b c → 0 < Spec.triArea2 a b d) := by
    intro c d p t t0 t1 tx ty hp
    rw [tri_on_segment tx ty] at hp
    have hor : 0 < Spec.triArea2 a b c ∨ 0 < Spec.triArea2 a b d := by
      by_contra hn
      rw [not_or, not_lt, not_lt] at hn
      have e1 := mul_nonpos_of_nonneg_of_nonpos (sub_nonneg.2 t1) hn.1
      have e2 := mul_nonpos_of_nonneg_of_nonpos t0 hn.2
      linarith
    rw [sgn, sgn] at hor
    rw [sgn, sgn]
    refine ⟨fun h => ?_, fun h => ?_⟩
    · rcases hor with k | k
      · exact k
      · exact k.trans h
    · rw [not_lt] at h
      rcases hor with k | k
      · exact k.trans_le h
      · exact k
  unfold frontCandidate at h
  split at h
  swap
  · simp at h
  rw [bind_eq_ok] at h
  obtain ⟨inner, hi, h⟩ := h
  split at h
  · rename_i hin'
    rw [bind_eq_ok] at h
    obtain ⟨v, hv, h⟩ := h
    simp only [pure_eq_ok, Except.ok.injEq, Option.some.injEq, Prod.mk.injEq] at h
    split at hi
    · rename_i hne
      rw [hv, ok_bind] at hi
      simp only [pure_eq_ok, Except.ok.injEq] at hi
      rw [← h.1]
      exact ⟨v, hv, hin v hne.1 hne.2 hv (hi.trans hin')⟩
    · simp only [pure_eq_ok, Except.ok.injEq] at hi
      rw [← hi] at hin'
      simp at hin'
  split at h
  swap
  · simp at h
  simp only [bind_eq_ok] at h
  obtain ⟨c, hc, d, hd, h⟩ := h
  split at h
  · rename_i hcond
    obtain ⟨n1, n2, hx⟩ := hcond
    obtain ⟨p, ⟨s, s0, s1, sx, sy⟩, ⟨t, t0, t1, tx, ty⟩⟩ := (C34_exact _ _ _ _).1 hx
    have hs : 0 < s := by
      rcases s0.lt_or_eq with h | h
      · exact h
      · refine absurd ⟨t, t0, t1, ?_, ?_⟩ (h1 n1 n2 c d hc hd)
        · rw [← tx, sx, ← h]; ring
        · rw [← ty, sy, ← h]; ring
    have hp : 0 < Spec.triArea2 a b p := by
      rw [tri_on_segment sx sy, haa]
      have := mul_pos hs hq
      linarith
    have hB := best t0 t1 tx ty hp
    split at h
    · rename_i hst
      simp only [pure_eq_ok, Except.ok.injEq, Option.some.injEq, Prod.mk.injEq] at h
      rw [← h.1]
      refine ⟨d, hd, ?_⟩
      obtain rfl : c = b := by rw [hst, hb] at hc; exact (Except.ok.inj hc).symm
      rw [tri_on_segment tx ty, hbb, mul_zero, zero_add] at hp
      exact pos_of_mul_pos_right hp t0
    · split at h
      · rename_i hlt
        simp only [pure_eq_ok, Except.ok.injEq, Option.some.injEq, Prod.mk.injEq] at h
        rw [← h.1]
        exact ⟨c, hc, hB.1 hlt⟩
      · rename_i hlt
        simp only [pure_eq_ok, Except.ok.injEq, Option.some.injEq, Prod.mk.injEq] at h
        rw [← h.1]
        exact ⟨d, hd, hB.2 hlt⟩
  · split at h
    swap
    · simp at h
    rename_i hcond
    obtain ⟨n1, n2, hx⟩ := hcond
    obtain ⟨p, ⟨s, s0, s1, sx, sy⟩, ⟨t, t0, t1, tx, ty⟩⟩ := (C34_exact _ _ _ _).1 hx
    have hs : 0 < s := by
      rcases s0.lt_or_eq with h | h
      · exact h
      · refine absurd ⟨t, t0, t1, ?_, ?_⟩ (h2 n1 n2 c d hc hd)
        · rw [← tx, sx, ← h]; ring
        · rw [← ty, sy, ← h]; ring
    have hp : 0 < Spec.triArea2 a b p := by
      rw [tri_on_segment sx sy, hbb]
      have := mul_pos hs hq
      linarith
    have hB := best t0 t1 tx ty hp
    split at h
    · rename_i hst
      simp only [pure_eq_ok, Except.ok.injEq, Option.some.injEq, Prod.mk.injEq] at h
      rw [← h.1]
      refine ⟨c, hc, ?_⟩
      obtain rfl : d = a := by rw [hst, ha] at hd; exact (Except.ok.inj hd).symm
      rw [tri_on_segment tx ty, haa, mul_zero, add_zero] at hp
      exact pos_of_mul_pos_right hp (by linarith)
    · split at h
      · rename_i hlt
        simp only [pure_eq_ok, Except.ok.injEq, Option.some.injEq, Prod.mk.injEq] at h
        rw [← h.1]
        exact ⟨c, hc, hB.1 hlt⟩
      · rename_i hlt
        simp only [pure_eq_ok, Except.ok.injEq, Option.some.injEq, Prod.mk.injEq] at h
        rw [← h.1]
        exact ⟨d, hd, hB.2 hlt⟩

/-- What is needed of the constants and of the square root: `MIN_GRID_SIZE` is at most the height over short edges, and
square roots of positive numbers are positive. -/
structure FrontEnv (K : Type) [Field K] [LinearOrder K] [IsStrictOrderedRing K] [Env K] : Prop where
  tol : (0 : K) ≤ Env.tol
  grid : (Env.minGrid : K) ≤ Env.hundredth
  half : (0 : K) < Env.halfSqrt3
  sqrt : ∀ x : K, 0 < x → 0 < Env.sqrt x

/-- Over `a → b` the trial point is to the left, at a height of at least `ratio` times the length. -/
theorem bisector_height (hE : FrontEnv K) {a b : V2 K} (hab : a ≠ b) (ratio : K) :
    ∃ r : K, 1 ≤ r ∧ (pointOnNormalBisector a b ratio).x = (a.x + b.x) / 2 - (b.y - a.y) * (r * ratio) ∧
      (pointOnNormalBisector a b ratio).y = (a.y + b.y) / 2 + (b.x - a.x) * (r * ratio) := by
  have h0 : 0 < (b.x - a.x) * (b.x - a.x) + (b.y - a.y) * (b.y - a.y) := by
    by_contra hn
    have h1 := mul_self_nonneg (b.x - a.x)
    have h2 := mul_self_nonneg (b.y - a.y)
    have e1 : (b.x - a.x) * (b.x - a.x) = 0 := by linarith
    have e2 : (b.y - a.y) * (b.y - a.y) = 0 := by linarith
    apply hab
    ext
    · exact (sub_eq_zero.1 (mul_self_eq_zero.1 e1)).symm
    · exact (sub_eq_zero.1 (mul_self_eq_zero.1 e2)).symm
  have hL : 0 < (b - a).perp.length := by
    apply hE.sqrt
    show 0 < -(b.y - a.y) * -(b.y - a.y) + (b.x - a.x) * (b.x - a.x)
    linarith
  unfold pointOnNormalBisector
  simp only [V2.normalize]
  generalize (b - a).perp.length = L at *
  have hdiv : ∀ (p : V2 K), (p / ((2 : Nat) : K)).x = p.x / 2 ∧ (p / ((2 : Nat) : K)).y = p.y / 2 := by
    intro p; exact ⟨by show p.x / _ = _; norm_num, by show p.y / _ = _; norm_num⟩
  have hmul : ∀ (p : V2 K) (s : K), (p * s).x = p.x * s ∧ (p * s).y = p.y * s := fun p s => ⟨rfl, rfl⟩
  have hpp : (b - a).perp.x = -(b.y - a.y) ∧ (b - a).perp.y = b.x - a.x := ⟨rfl, rfl⟩
  by_cases hlt : L < Env.minGrid
  · refine ⟨1 / L * Env.hundredth, ?_, ?_, ?_⟩
    · rw [one_div, ← div_eq_inv_mul, le_div_iff₀ hL, one_mul]
      exact hlt.le.trans hE.grid
    · rw [if_pos hlt]
      simp only [V2.add_x, hdiv, hmul, hpp]; ring
    · rw [if_pos hlt]
      simp only [V2.add_y, hdiv, hmul, hpp]; ring
  · refine ⟨1, le_refl _, ?_, ?_⟩
    · rw [if_neg hlt]
      simp only [V2.add_x, hdiv, hmul, hpp]; ring
    · rw [if_neg hlt]
      simp only [V2.add_y, hdiv, hmul, hpp]; ring

theorem distSq_pos {a b : V2 K} (hab : a ≠ b) : 0 < (b.x - a.x) ^ 2 + (b.y - a.y) ^ 2 := by
  by_contra hn
  have h1 := sq_nonneg (b.x - a.x)
  have h2 := sq_nonneg (b.y - a.y)
  have e1 : (b.x - a.x) ^ 2 = 0 := by linarith
  have e2 : (b.y - a.y) ^ 2 = 0 := by linarith
  apply hab
  ext
  · exact (sub_eq_zero.1 (pow_eq_zero_iff (by norm_num) |>.1 e1)).symm
  · exact (sub_eq_zero.1 (pow_eq_zero_iff (by norm_num) |>.1 e2)).symm

theorem bisector_area (hE : FrontEnv K) {a b : V2 K} (hab : a ≠ b) (ratio : K) :
    ∃ r : K, 1 ≤ r ∧ Spec.triArea2 a b (pointOnNormalBisector a b ratio)
      = r * ratio * ((b.x - a.x) ^ 2 + (b.y - a.y) ^ 2) := by
  obtain ⟨r, h1, h2, h3⟩ := bisector_height hE hab ratio
  refine ⟨r, h1, ?_⟩
  unfold Spec.triArea2
  rw [h2, h3]; ring

/-- `v` on the line through `a` and `b` is `a + l (b - a)`. -/
theorem on_line {a b v : V2 K} (hab : a ≠ b) (h : Spec.triArea2 a b v = 0) :
    ∃ l : K, v.x = a.x + l * (b.x - a.x) ∧ v.y = a.y + l * (b.y - a.y) := by
  have h0 := distSq_pos hab
  have e : (b.x - a.x) * (v.y - a.y) - (v.x - a.x) * (b.y - a.y) = 0 := h
  refine ⟨((v.x - a.x) * (b.x - a.x) + (v.y - a.y) * (b.y - a.y)) / ((b.x - a.x) ^ 2 + (b.y - a.y) ^ 2), ?_, ?_⟩
  · field_simp
    linear_combination -(b.y - a.y) * e
  · field_simp
    linear_combination (b.x - a.x) * e

/-- A node in the trial triangle is strictly to the left of the edge: nodes within tolerance of the line through the
edge are on it, off the edge, and far enough from its ends. -/
theorem inner_pos (htol : (0 : K) ≤ Env.tol) {a b q v : V2 K} (hab : a ≠ b) (hq : 0 < Spec.triArea2 a b q)
    (hclear : Spec.triArea2 a b v = 0 ∨ Env.tol < |Spec.triArea2 a b v|) (hoff : ¬ Spec.OnSegment a b v)
    (hb : Spec.triArea2 a b v = 0 → Spec.triArea2 v b q < 0 → Spec.triArea2 v b q < -Env.tol)
    (ha : Spec.triArea2 a b v = 0 → Spec.triArea2 v q a < 0 → Spec.triArea2 v q a < -Env.tol)
    (h : isInsideTriangleTol v a b q = true) : 0 < Spec.triArea2 a b v := by
  rw [C33_tolerant_iff htol] at h
  obtain ⟨g1, g2, g3⟩ := h
  have e : Spec.triArea2 v a b = Spec.triArea2 a b v := (Winding.tri_rot v a b).symm
  rw [e] at g1
  rcases hclear with h0 | h0
  · exfalso
    obtain ⟨l, lx, ly⟩ := on_line hab h0
    rcases lt_or_ge l 0 with hl | hl
    · have : Spec.triArea2 v q a = l * Spec.triArea2 a b q := by
        unfold Spec.triArea2; rw [lx, ly]; ring
      have hneg : Spec.triArea2 v q a < 0 := by rw [this]; exact mul_neg_of_neg_of_pos hl hq
      linarith [ha h0 hneg]
    · rcases le_or_gt l 1 with hl1 | hl1
      · exact hoff ⟨l, hl, hl1, lx, ly⟩
      · have : Spec.triArea2 v b q = (1 - l) * Spec.triArea2 a b q := by
          unfold Spec.triArea2; rw [lx, ly]; ring
        have hneg : Spec.triArea2 v b q < 0 := by rw [this]; exact mul_neg_of_neg_of_pos (by linarith) hq
        linarith [hb h0 hneg]
  · rcases lt_abs.1 h0 with k | k
    · linarith
    · linarith

/-- The trial point is good enough in this respect if different vertices are at least the square root of the tolerance
apart. -/
theorem trial_far (hE : FrontEnv K) {a b v : V2 K} (hab : a ≠ b)
    (h1 : Env.tol < (b.x - a.x) ^ 2 + (b.y - a.y) ^ 2) (h2 : Env.tol < (v.x - a.x) ^ 2 + (v.y - a.y) ^ 2)
    (h3 : Env.tol < (v.x - b.x) ^ 2 + (v.y - b.y) ^ 2) (h0 : Spec.triArea2 a b v = 0) :
    (Spec.triArea2 v b (pointOnNormalBisector a b 1) < 0 → Spec.triArea2 v b (pointOnNormalBisector a b 1) < -Env.tol) ∧
    (Spec.triArea2 v (pointOnNormalBisector a b 1) a < 0 → Spec.triArea2 v (pointOnNormalBisector a b 1) a < -Env.tol) := by
  obtain ⟨r, hr, hx, hy⟩ := bisector_height hE hab 1
  obtain ⟨l, lx, ly⟩ := on_line hab h0
  set D := (b.x - a.x) ^ 2 + (b.y - a.y) ^ 2 with hD
  have hD0 : 0 < D := distSq_pos hab
  -- `m` is the distance in units of the edge
  have key : ∀ m : K, 0 < m → Env.tol < m ^ 2 * D → -(m * (r * D)) < -Env.tol := by
    intro m hm h
    have hmD : 0 < m * D := mul_pos hm hD0
    have : Env.tol < m * D := by
      by_contra hn
      rw [not_lt] at hn
      have e1 : (m * D) * (m * D) ≤ Env.tol * Env.tol := mul_le_mul hn hn hmD.le hE.tol
      have e2 : Env.tol * Env.tol < (m ^ 2 * D) * D := by
        rcases hE.tol.lt_or_eq with ht | ht
        · exact mul_lt_mul h h1.le ht (by positivity)
        · rw [← ht, zero_mul]; positivity
      nlinarith
    have : m * D ≤ m * (r * D) := by
      have : 1 * D ≤ r * D := mul_le_mul_of_nonneg_right hr hD0.le
      rw [one_mul] at this
      exact mul_le_mul_of_nonneg_left this hm.le
    linarith
  constructor
  · have e : Spec.triArea2 v b (pointOnNormalBisector a b 1) = -((l - 1) * (r * D)) := by
      unfold Spec.triArea2; rw [hx, hy, lx, ly, hD]; ring
    rw [e]
    intro hneg
    have hl : 0 < l - 1 := by
      have : 0 < (l - 1) * (r * D) := by linarith
      exact (mul_pos_iff_of_pos_right (by positivity)).1 this
    refine key _ hl ?_
    have : (l - 1) ^ 2 * D = (v.x - b.x) ^ 2 + (v.y - b.y) ^ 2 := by rw [lx, ly, hD]; ring
    rw [this]; exact h3
  · have e : Spec.triArea2 v (pointOnNormalBisector a b 1) a = -((-l) * (r * D)) := by
      unfold Spec.triArea2; rw [hx, hy, lx, ly, hD]; ring
    rw [e]
    intro hneg
    have hl : 0 < -l := by
      have : 0 < (-l) * (r * D) := by linarith
      exact (mul_pos_iff_of_pos_right (by positivity)).1 this
    refine key _ hl ?_
    have : (-l) ^ 2 * D = (v.x - a.x) ^ 2 + (v.y - a.y) ^ 2 := by rw [lx, ly, hD]; ring
    rw [this]; exact h2

end

end Geom3d
