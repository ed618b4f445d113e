import Verif.Lemmas.CornerCutting
import Mathlib.LinearAlgebra.Matrix.Determinant.Basic
import Mathlib.Data.List.GetD
import Mathlib.Order.WellFounded

/-!
# Total positivity of the B-spline weights, and the shape of curves (C144)

The weights that `bspline_basis` returns at increasing parameters form a matrix without negative minors. Hence a curve turns
and winds as its control polygon does: if all triples of control points, taken in order, turn left in some plane, so do all
triples of points of the curve; if all quadruples are right-handed, so are those of the curve.
-/

set_option linter.unusedSectionVars false

namespace Geom3d
open Spec Finset

section
variable {K V : Type} [Field K] [LinearOrder K] [IsStrictOrderedRing K] [Env K] [AddCommGroup V] [Module K V]

/-- Knots of a curve with `N` control points and degree `p`. -/
structure Spec.KnotsFor (knots : List K) (N p : Nat) : Prop where
  len : knots.length = N + p + 1
  sorted : Sorted knots
  resolved : Resolved knots
  nonconst : knot knots 0 < knot knots (N + p)
  pts : 0 < N

theorem Spec.KnotsFor.mono {knots : List K} {N p : Nat} (h : KnotsFor knots N p) :
    ∀ i j, i ≤ j → j ≤ N + p → knot knots i ≤ knot knots j :=
  fun _ _ hij hj => h.sorted.knot_le hij (by rw [h.len]; omega)

theorem weights_of_contains {knots : List K} {N p : Nat} (h : KnotsFor knots N p) {u : K} {s : Nat}
    (hc : Contains (knot knots) (N + p) s u) {w : List K} (hw : KnotVector.bsplineBasis knots p u = .ok w) :
    w = tab N fun i => piece (knot knots) s p i u := by
  have h0 : knot knots 0 ≤ u := (h.mono 0 s (by omega) (by have := hc.lt; omega)).trans hc.left
  obtain ⟨s', h1, h2, h3⟩ := exists_contains h.len h.sorted h.resolved h.nonconst h0
  rw [bsplineBasis_of_span h2 (by have := h.pts; omega) h1, Nat.add_sub_cancel] at hw
  injection hw with hw
  rw [← hw, Contains.unique h.mono hc h3]

theorem weights_sum {N : Nat} {f : Nat → K} (a : Nat → V) : ∑ j ∈ range N, (tab N f).getD j 0 • a j = ∑ j ∈ range N, f j • a j := by
  refine Finset.sum_congr rfl fun j hj => ?_
  have h : j < (tab N f).length := by rw [tab_length]; exact Finset.mem_range.1 hj
  rw [List.getD_eq_getElem _ _ h, tab_getElem]

/-- At the clamped end all weight is on the last coefficient. -/
theorem weights_end {knots : List K} {N p : Nat} (h : KnotsFor knots N p) (h1 : knot knots N = knot knots (N + p))
    (h2 : knot knots (N - 1) < knot knots N) {w : List K} (hw : KnotVector.bsplineBasis knots p (knot knots N) = .ok w) (a : Nat → V) :
    ∑ j ∈ range N, w.getD j 0 • a j = a (N - 1) := by
  have hN := h.pts
  obtain ⟨s, rfl⟩ : ∃ s, N = s + 1 := ⟨N - 1, by omega⟩
  rw [Nat.add_sub_cancel] at h2 ⊢
  rw [weights_of_contains h (s := s) ⟨by omega, h2, h2.le, Or.inr ⟨h1.ge, h1⟩⟩ hw, weights_sum]
  have e : ∀ i, piece (knot knots) s p i (knot knots (s + 1)) = if i = s then 1 else 0 := by
    intro i
    apply piece_at_end h2
    intro j h3 h4
    exact le_antisymm (h1 ▸ h.mono j (s + 1 + p) (by omega) (by omega)) (h.mono (s + 1) j (by omega) (by omega))
  rw [Finset.sum_eq_single s]
  · rw [e, if_pos rfl, one_smul]
  · intro i _ hi
    rw [e, if_neg hi, zero_smul]
  · intro h; simp at h

/-- The values at increasing parameters of the domain are, in order, coefficients after cutting corners. -/
theorem basis_refined {knots : List K} {N p m : Nat} (h : KnotsFor knots N p) {u : Nat → K} {w : Nat → List K}
    (hu : ∀ i, i + 1 < m → u i < u (i + 1)) (hd : ∀ i, i < m → InDomain knots N p (u i))
    (hw : ∀ i, i < m → KnotVector.bsplineBasis knots p (u i) = .ok (w i)) {Φ : Nat → (Nat → V) → Prop} (hΦ : Survives Φ K)
    {a : Nat → V} (ha : ∀ i, N ≤ i → a i = 0) (h0 : Φ N a) :
    ∃ (N' : Nat) (a' : Nat → V) (k : Nat → Nat), Φ N' a' ∧ (∀ i, i + 1 < m → k i ≤ k (i + 1)) ∧
      ∀ i, i < m → k i < N' ∧ a' (k i) = ∑ j ∈ range N, (w i).getD j 0 • a j := by
  have hmono : ∀ j, j < m → ∀ i, i < j → u i < u j := by
    intro j
    induction j with
    | zero => intro _ i hi; omega
    | succ j ih =>
      intro hj i hi
      rcases Nat.lt_or_eq_of_le (Nat.lt_succ_iff.1 hi) with h1 | rfl
      · exact (ih (by omega) i h1).trans (hu j hj)
      · exact hu i hj
  -- the parameters below the end
  obtain ⟨e, he, hbelow, hend⟩ : ∃ e, e ≤ m ∧ (∀ i, i < e → u i < knot knots N) ∧
      (e < m → e + 1 = m ∧ u e = knot knots N ∧ knot knots N = knot knots (N + p) ∧ knot knots (N - 1) < knot knots N) := by
    by_cases hall : ∀ i, i < m → u i < knot knots N
    · exact ⟨m, le_refl _, hall, fun h => absurd h (lt_irrefl _)⟩
    · push Not at hall
      obtain ⟨e, he, hge⟩ := hall
      obtain ⟨-, hlt | ⟨h1, h2, h3⟩⟩ := hd e he
      · exact absurd hlt (not_lt.2 hge)
      refine ⟨e, he.le, fun i hi => by rw [← h1]; exact hmono e he i hi, fun _ => ⟨?_, h1, h2, h3⟩⟩
      by_contra hc
      have h4 := hu e (by omega)
      rcases (hd (e + 1) (by omega)).2 with h5 | h5
      · linarith
      · linarith [h5.1]
  have hspan : ∀ i, i < e → ∃ r, Has (knot knots) N p 0 (u i) r := by
    intro i hi
    have hd' := hd i (by omega)
    have hpN : p ≤ N := by
      by_contra hc
      have := h.mono N p (by omega) (by omega)
      linarith [hd'.1, hbelow i hi]
    obtain ⟨s, a1, a2, a3, a4⟩ := exists_span_step hpN hd'.1 (hbelow i hi)
    exact ⟨s, a1, a2, a3, a4, fun j h1 h2 => by omega⟩
  choose! r hr using hspan
  have hval : ∀ i, i < e → ∑ j ∈ range N, (w i).getD j 0 • a j = ∑ j ∈ range N, piece (knot knots) (r i) p j (u i) • a j := by
    intro i hi
    have g := hr i hi
    rw [weights_of_contains h (s := r i) ⟨by have := g.hi; omega, lt_of_le_of_lt g.left g.right, g.left, Or.inl g.right⟩ (hw i (by omega)),
      weights_sum]
  obtain ⟨N', a', k, k1, k2, k3⟩ := spline_refined (m := e) (u := u) (p := p) (fun i hi => hu i (by omega))
    (Φ := fun M b => Φ M b ∧ 0 < M ∧ b (M - 1) = a (N - 1)) (by
      intro M b β hβ h1 h2 ⟨h3, h4, h5⟩
      refine ⟨hΦ M b β hβ h1 h2 h3, by omega, ?_⟩
      rw [Nat.add_sub_cancel, cutBy, h1, zero_smul, zero_add, sub_zero, one_smul, h5]) _
    (t := knot knots) (N := N) (a := a) (q := fun _ => 0) (r := r) h.mono ha hr rfl ⟨h0, h.pts, rfl⟩
  refine ⟨N', a', fun i => if i < e then k i else N' - 1, k1.1, fun i hi => ?_, fun i hi => ?_⟩
  · dsimp only
    rw [if_pos (by omega)]
    split
    · exact (k2 i (by assumption)).le
    · have := (k3 i (by omega)).1
      omega
  · dsimp only
    split
    · rename_i h'
      exact ⟨(k3 i h').1, by rw [(k3 i h').2, hval i h']⟩
    · obtain rfl : i = e := by omega
      obtain ⟨-, e1, e2, e3⟩ := hend hi
      have := hw i hi
      rw [e1] at this
      exact ⟨by have := k1.2.1; omega, by rw [k1.2.2, weights_end h e2 e3 this]⟩

/-- An alternating form of coefficients in order is non-negative: so is that of values at increasing parameters. -/
theorem form_nonneg {knots : List K} {N p d : Nat} (h : KnotsFor knots N p) {u : Fin d → K} {w : Fin d → List K}
    (hu : StrictMono u) (hd : ∀ i, InDomain knots N p (u i)) (hw : ∀ i, KnotVector.bsplineBasis knots p (u i) = .ok (w i))
    (f : V [⋀^Fin d]→ₗ[K] K) {a : Nat → V} (ha : ∀ k : Fin d → Nat, StrictMono k → (∀ i, k i < N) → 0 ≤ f fun i => a (k i)) :
    0 ≤ f fun i => ∑ j ∈ range N, (w i).getD j 0 • a j := by
  let b : Nat → V := fun j => if j < N then a j else 0
  have hb : Ordered f b := by
    intro k hk
    by_cases hlt : ∀ i, k i < N
    · have e : (fun i => b (k i)) = fun i => a (k i) := funext fun i => if_pos (hlt i)
      rw [e]
      exact ha k hk hlt
    · push Not at hlt
      obtain ⟨i, hi⟩ := hlt
      exact le_of_eq (f.map_coord_zero i (if_neg (not_lt.2 hi))).symm
  obtain ⟨N', a', k, h1, h2, h3⟩ := basis_refined h (m := d) (u := fun i => if hi : i < d then u ⟨i, hi⟩ else 0)
    (w := fun i => if hi : i < d then w ⟨i, hi⟩ else []) (fun i hi => by
      rw [dif_pos (show i < d by omega), dif_pos hi]
      exact hu (by simp)) (fun i hi => by rw [dif_pos hi]; exact hd _) (fun i hi => by
      rw [dif_pos hi, dif_pos hi]; exact hw _) (Φ := fun _ c => Ordered f c)
    (fun M c β hβ _ _ hc => hc.cut hβ) (a := b) (fun i hi => if_neg (by omega)) hb
  have hk : Monotone fun i : Fin d => k i := by
    have key : ∀ j, j < d → ∀ i, i ≤ j → k i ≤ k j := by
      intro j
      induction j with
      | zero => intro _ i hi; obtain rfl : i = 0 := by omega
                exact le_refl _
      | succ j ih =>
        intro hj i hi
        rcases Nat.lt_or_eq_of_le hi with h' | rfl
        · exact (ih (by omega) i (by omega)).trans (h2 j hj)
        · exact le_refl _
    exact fun i j hij => key j j.2 i hij
  have := Ordered.mono h1 hk
  refine this.trans_eq (congrArg f (funext fun i => ?_))
  rw [(h3 i i.2).2, dif_pos i.2]
  refine Finset.sum_congr rfl fun j hj => ?_
  show _ • (if j < N then a j else 0) = _
  rw [if_pos (Finset.mem_range.1 hj)]

/-- **C144** No minor of the matrix of the weights at increasing parameters is negative. -/
theorem C144_minors {knots : List K} {N p d : Nat} (h : KnotsFor knots N p) {u : Fin d → K} {w : Fin d → List K}
    (hu : StrictMono u) (hd : ∀ i, InDomain knots N p (u i)) (hw : ∀ i, KnotVector.bsplineBasis knots p (u i) = .ok (w i))
    {k : Fin d → Nat} (hk : StrictMono k) (hkN : ∀ i, k i < N) :
    0 ≤ Matrix.det (Matrix.of fun i j => (w i).getD (k j) 0) := by
  have e : (Matrix.of fun i j => (w i).getD (k j) 0) = fun i => ∑ j ∈ range N, (w i).getD j 0 • fun l => if j = k l then (1 : K) else 0 := by
    funext i l
    rw [Finset.sum_apply]
    simp only [Pi.smul_apply, smul_eq_mul, mul_ite, mul_one, mul_zero, Matrix.of_apply]
    rw [Finset.sum_ite_eq' (range N) (k l), if_pos (Finset.mem_range.2 (hkN l))]
  rw [e]
  refine form_nonneg h hu hd hw (Matrix.detRowAlternating (n := Fin d) (R := K)) (a := fun j l => if j = k l then (1 : K) else 0)
    fun q hq _ => ?_
  show 0 ≤ Matrix.det fun i l => if q i = k l then (1 : K) else 0
  by_cases hs : ∀ i, ∃ l, k l = q i
  · have hqk : q = k := by
      refine (StrictMono.range_inj hq hk).1 ?_
      have hsub : (Finset.univ.image q) ⊆ Finset.univ.image k := by
        intro x hx
        obtain ⟨i, -, rfl⟩ := Finset.mem_image.1 hx
        obtain ⟨l, hl⟩ := hs i
        exact Finset.mem_image.2 ⟨l, Finset.mem_univ _, hl⟩
      have heq := Finset.eq_of_subset_of_card_le hsub (by
        rw [Finset.card_image_of_injective _ hq.injective, Finset.card_image_of_injective _ hk.injective])
      have := congrArg (fun s : Finset Nat => (s : Set Nat)) heq
      simpa using this
    have e1 : (fun i l => if q i = k l then (1 : K) else 0) = (1 : Matrix (Fin d) (Fin d) K) := by
      funext i l
      rw [hqk, Matrix.one_apply]
      simp only [hk.injective.eq_iff]
    rw [e1, Matrix.det_one]
    exact zero_le_one
  · push Not at hs
    obtain ⟨i, hi⟩ := hs
    refine le_of_eq (Matrix.det_eq_zero_of_row_eq_zero i fun l => ?_).symm
    exact if_neg fun hc => hi l hc.symm

end

section
variable {K P : Type} [Field K] [LinearOrder K] [IsStrictOrderedRing K] [Env K]
  [AddCommGroup P] [Module K P] [HMul K P P] [HMul P K P] [LawfulPoint K P]

theorem BSplineCurve.Valid.knotsFor {c : BSplineCurve K P} (hv : c.Valid) : KnotsFor c.knots c.controlPoints.length c.degree :=
  ⟨hv.len, hv.sorted, hv.resolved, hv.nonconst, hv.pts⟩

/-- The weights at a parameter of the domain have sum one. -/
theorem weights_total {knots : List K} {N p : Nat} (h : KnotsFor knots N p) {u : K} (hd : InDomain knots N p u) {w : List K}
    (hw : KnotVector.bsplineBasis knots p u = .ok w) : ∑ j ∈ range N, w.getD j 0 = 1 := by
  obtain ⟨h1, h2 | ⟨h2, h3, h4⟩⟩ := hd
  · have hpN : p ≤ N := by
      by_contra hc
      have := h.mono N p (by omega) (by omega)
      linarith
    obtain ⟨s, a1, a2, a3, a4⟩ := exists_span_step hpN h1 h2
    have hc : Contains (knot knots) (N + p) s u := ⟨by omega, lt_of_le_of_lt a3 a4, a3, Or.inl a4⟩
    have e := weights_sum (V := K) (N := N) (f := fun i => piece (knot knots) s p i u) (fun _ => 1)
    simp only [smul_eq_mul, mul_one] at e
    rw [weights_of_contains h hc hw, e]
    exact piece_sum (n := N + p) ⟨h.mono, by omega, hc.nonempty⟩ u p N a1 a2 (by omega)
  · subst h2
    have := weights_end (V := K) h h3 h4 hw (fun _ => 1)
    simpa using this

/-- The basis weights of a point of the curve. -/
theorem curve_weights {c : BSplineCurve K P} (hv : c.Valid) {u : K} (hd : InDomain c.knots c.controlPoints.length c.degree u)
    {x : P} (hx : c.getPoint u = .ok x) : ∃ w, KnotVector.bsplineBasis c.knots c.degree u = .ok w ∧
      x = ∑ j ∈ range c.controlPoints.length, w.getD j 0 • cp c.controlPoints j := by
  unfold BSplineCurve.getPoint at hx
  obtain ⟨w, h1, h2⟩ := bind_eq_ok.1 hx
  refine ⟨w, h1, ?_⟩
  injection h2 with h2
  have hk := hv.knotsFor
  have h0 : knot c.knots 0 ≤ u := by
    by_contra hc
    have hpN := hd.1
    rcases Nat.lt_or_ge (c.controlPoints.length + c.degree) c.degree with h | h
    · omega
    · linarith [hk.mono 0 c.degree (by omega) h]
  obtain ⟨s, h3, h4, h5⟩ := exists_contains hk.len hk.sorted hk.resolved hk.nonconst h0
  have hs := weights_of_contains hk h5 h1
  rw [← h2, hs, weights_sum, linComb_tab]

/-- Forms of the points of the control polygon, in order, and of points of the curve. -/
theorem curve_form {V : Type} [AddCommGroup V] [Module K V] {c : BSplineCurve K P} (hv : c.Valid) {d : Nat} (f : V [⋀^Fin d]→ₗ[K] K)
    (o : V) (g : P →ₗ[K] V) (ha : ∀ q : Fin d → P, (List.ofFn q).Sublist c.controlPoints → 0 ≤ f fun i => o + g (q i))
    {u : Fin d → K} (hu : StrictMono u) (hd : ∀ i, InDomain c.knots c.controlPoints.length c.degree (u i))
    {x : Fin d → P} (hx : ∀ i, c.getPoint (u i) = .ok (x i)) : 0 ≤ f fun i => o + g (x i) := by
  choose w hw hxw using fun i => curve_weights hv (hd i) (hx i)
  have key := form_nonneg hv.knotsFor hu hd hw f (a := fun j => o + g (cp c.controlPoints j)) (fun k hk hkN => by
    apply ha (fun i => cp c.controlPoints (k i))
    rw [List.sublist_iff_exists_fin_orderEmbedding_get_eq]
    refine ⟨OrderEmbedding.ofStrictMono (fun i => ⟨k (i.cast (List.length_ofFn)), hkN _⟩) fun i j hij => hk (by simpa using hij), fun i => ?_⟩
    rw [List.get_ofFn]
    show cp c.controlPoints (k _) = c.controlPoints[k _]'(hkN _)
    rw [cp_getElem])
  refine key.trans_eq (congrArg f (funext fun i => ?_))
  simp only [smul_add]
  rw [Finset.sum_add_distrib, ← Finset.sum_smul, weights_total hv.knotsFor (hd i) (hw i), one_smul, hxw i, map_sum]
  congr 1
  exact Finset.sum_congr rfl fun j _ => (g.map_smul _ _).symm

/-- The orientation of `d + 1` points under `d` linear coordinates: the determinant with a column of ones. -/
def Spec.orient {d : Nat} (L : Fin d → P →ₗ[K] K) (x : Fin (d + 1) → P) : K :=
  Matrix.det (Matrix.of fun i => (Fin.cons 1 fun l => L l (x i) : Fin (d + 1) → K))

/-- **C144** If all tuples of control points, taken in order, have non-negative orientation, so have the points of the curve at
increasing parameters. -/
theorem C144_bspline {c : BSplineCurve K P} (hv : c.Valid) {d : Nat} (L : Fin d → P →ₗ[K] K)
    (ha : ∀ q : Fin (d + 1) → P, (List.ofFn q).Sublist c.controlPoints → 0 ≤ orient L q)
    {u : Fin (d + 1) → K} (hu : StrictMono u) (hd : ∀ i, InDomain c.knots c.controlPoints.length c.degree (u i))
    {x : Fin (d + 1) → P} (hx : ∀ i, c.getPoint (u i) = .ok (x i)) : 0 ≤ orient L x := by
  let g : P →ₗ[K] (Fin (d + 1) → K) := LinearMap.pi (Fin.cons 0 L)
  have e : ∀ y : Fin (d + 1) → P, orient L y =
      (Matrix.detRowAlternating (n := Fin (d + 1)) (R := K)) fun i => (Fin.cons 1 0 : Fin (d + 1) → K) + g (y i) := by
    intro y
    show Matrix.det _ = Matrix.det _
    congr 1
    funext i j
    refine Fin.cases ?_ (fun l => ?_) j <;> simp [g]
  rw [e]
  exact curve_form hv _ _ g (fun q hq => by rw [← e]; exact ha q hq) hu hd hx

/-- Twice the area of the triangle `p q r` in the coordinates `L₁ L₂`, positive if it turns left. -/
def Spec.turnIn (L₁ L₂ : P →ₗ[K] K) (p q r : P) : K :=
  (L₁ q - L₁ p) * (L₂ r - L₂ p) - (L₁ r - L₁ p) * (L₂ q - L₂ p)

theorem orient_two (L₁ L₂ : P →ₗ[K] K) (x : Fin 3 → P) : orient ![L₁, L₂] x = turnIn L₁ L₂ (x 0) (x 1) (x 2) := by
  unfold orient turnIn
  rw [Matrix.det_fin_three]
  have e1 : ∀ f : Fin 2 → K, (Fin.cons 1 f : Fin 3 → K) 1 = f 0 := fun f => rfl
  have e2 : ∀ f : Fin 2 → K, (Fin.cons 1 f : Fin 3 → K) 2 = f 1 := fun f => rfl
  simp only [Matrix.of_apply, Fin.cons_zero, e1, e2, Matrix.cons_val_zero, Matrix.cons_val_one]
  ring

/-- **C144** A curve whose control polygon turns left in the plane turns left. -/
theorem C144_convex {c : BSplineCurve K P} (hv : c.Valid) (L₁ L₂ : P →ₗ[K] K)
    (ha : ∀ p q r, [p, q, r].Sublist c.controlPoints → 0 ≤ turnIn L₁ L₂ p q r) {u v w : K} (huv : u < v) (hvw : v < w)
    (hu : InDomain c.knots c.controlPoints.length c.degree u) (hv' : InDomain c.knots c.controlPoints.length c.degree v)
    (hw : InDomain c.knots c.controlPoints.length c.degree w) {x y z : P} (hx : c.getPoint u = .ok x)
    (hy : c.getPoint v = .ok y) (hz : c.getPoint w = .ok z) : 0 ≤ turnIn L₁ L₂ x y z := by
  have := C144_bspline hv ![L₁, L₂] (fun q hq => by
    rw [orient_two]
    exact ha _ _ _ (by simpa [List.ofFn_succ] using hq)) (u := ![u, v, w]) (x := ![x, y, z]) (by
      refine Fin.strictMono_iff_lt_succ.2 fun i => ?_
      fin_cases i
      · exact huv
      · exact hvw) (fun i => by fin_cases i <;> assumption) (fun i => by fin_cases i <;> assumption)
  rw [orient_two] at this
  exact this

/-- **C144** Bézier curves. -/
theorem C144_bezier (c : BezierCurve P) {d : Nat} (L : Fin d → P →ₗ[K] K)
    (ha : ∀ q : Fin (d + 1) → P, (List.ofFn q).Sublist c.controlPoints → 0 ≤ orient L q)
    {u : Fin (d + 1) → K} (hu : StrictMono u) (hd : ∀ i, 0 ≤ u i ∧ u i ≤ 1)
    {x : Fin (d + 1) → P} (hx : ∀ i, c.getPoint (u i) = .ok (x i)) : 0 ≤ orient L x := by
  rcases Nat.eq_zero_or_pos c.controlPoints.length with h0 | h0
  · have h := hx 0
    unfold BezierCurve.getPoint at h
    rw [h0] at h
    cases h
  let : Env K := exactCompare
  obtain ⟨p, hp⟩ : ∃ p, c.controlPoints.length = p + 1 := ⟨c.controlPoints.length - 1, by omega⟩
  have hres : Resolved (KnotVector.bezierKnot p : List K) :=
    ⟨fun a _ b _ => decide_eq_true_iff, fun a _ b _ => decide_eq_true_iff.trans sub_eq_zero⟩
  have hk : ∀ i, i ≤ 2 * p + 1 → knot (KnotVector.bezierKnot p : List K) i = if i ≤ p then 0 else 1 := knot_bezier p
  have hv : (BSplineCurve.mk c.controlPoints (KnotVector.bezierKnot p : List K) p).Valid :=
    ⟨by rw [bezierKnot_length]; show 2 * p + 2 = c.controlPoints.length + p + 1; omega, bezierKnot_sorted p, hres, by
      show knot _ 0 < knot _ (c.controlPoints.length + p)
      rw [hk _ (by omega), hk _ (by omega), if_pos (by omega), if_neg (by omega)]; exact zero_lt_one, h0⟩
  refine C144_bspline hv L ha hu (fun i => ?_) fun i => ?_
  · obtain ⟨h1, h2⟩ := hd i
    show knot _ p ≤ u i ∧ (u i < knot _ c.controlPoints.length ∨ u i = knot _ c.controlPoints.length ∧
      knot _ c.controlPoints.length = knot _ (c.controlPoints.length + p) ∧
        knot _ (c.controlPoints.length - 1) < knot _ c.controlPoints.length)
    rw [hk _ (by omega), hk _ (by omega), hk _ (by omega), hk _ (by omega), if_pos (by omega), if_neg (by omega),
      if_neg (by omega), if_pos (by omega)]
    refine ⟨h1, ?_⟩
    rcases lt_or_eq_of_le h2 with h | h
    · exact Or.inl h
    · exact Or.inr ⟨h, rfl, zero_lt_one⟩
  · rw [← hx i]
    unfold BSplineCurve.getPoint BezierCurve.getPoint
    show (KnotVector.bsplineBasis (KnotVector.bezierKnot p) p (u i) >>= _) = _
    rw [C06_bezierKnot_bernstein p hres (hd i).1, hp]

/-- **C144** A Bézier curve whose control polygon turns left in the plane turns left. -/
theorem C144_bezier_convex (c : BezierCurve P) (L₁ L₂ : P →ₗ[K] K)
    (ha : ∀ p q r, [p, q, r].Sublist c.controlPoints → 0 ≤ turnIn L₁ L₂ p q r) {u v w : K} (hu : 0 ≤ u) (huv : u < v) (hvw : v < w)
    (hw : w ≤ 1) {x y z : P} (hx : c.getPoint u = .ok x) (hy : c.getPoint v = .ok y) (hz : c.getPoint w = .ok z) :
    0 ≤ turnIn L₁ L₂ x y z := by
  have := C144_bezier c ![L₁, L₂] (fun q hq => by
    rw [orient_two]
    exact ha _ _ _ (by simpa [List.ofFn_succ] using hq)) (u := ![u, v, w]) (x := ![x, y, z]) (by
      refine Fin.strictMono_iff_lt_succ.2 fun i => ?_
      fin_cases i
      · exact huv
      · exact hvw) (fun i => by fin_cases i <;> constructor <;> simp <;> linarith) (fun i => by fin_cases i <;> assumption)
  rw [orient_two] at this
  exact this

end

section
variable {K : Type} [Field K] [LinearOrder K] [IsStrictOrderedRing K] [Env K]

/-- The coordinates of space. -/
def Spec.coords : Fin 3 → V3 K →ₗ[K] K :=
  ![{ toFun := fun p => p.x, map_add' := fun _ _ => rfl, map_smul' := fun _ _ => rfl },
    { toFun := fun p => p.y, map_add' := fun _ _ => rfl, map_smul' := fun _ _ => rfl },
    { toFun := fun p => p.z, map_add' := fun _ _ => rfl, map_smul' := fun _ _ => rfl }]

/-- Six times the volume of the tetrahedron `a b c d`, positive if it winds to the right. -/
def Spec.torsionOf (a b c d : V3 K) : K :=
  (b.x - a.x) * ((c.y - a.y) * (d.z - a.z) - (c.z - a.z) * (d.y - a.y)) -
    (b.y - a.y) * ((c.x - a.x) * (d.z - a.z) - (c.z - a.z) * (d.x - a.x)) +
    (b.z - a.z) * ((c.x - a.x) * (d.y - a.y) - (c.y - a.y) * (d.x - a.x))

theorem orient_three (x : Fin 4 → V3 K) : orient coords x = torsionOf (x 0) (x 1) (x 2) (x 3) := by
  unfold orient torsionOf
  rw [Matrix.det_succ_row_zero, Fin.sum_univ_four]
  simp only [Matrix.det_fin_three, Matrix.submatrix_apply, Matrix.of_apply]
  have e1 : ∀ f : Fin 3 → K, (Fin.cons 1 f : Fin 4 → K) 0 = 1 := fun f => rfl
  have e2 : ∀ f : Fin 3 → K, (Fin.cons 1 f : Fin 4 → K) 1 = f 0 := fun f => rfl
  have e3 : ∀ f : Fin 3 → K, (Fin.cons 1 f : Fin 4 → K) 2 = f 1 := fun f => rfl
  have e4 : ∀ f : Fin 3 → K, (Fin.cons 1 f : Fin 4 → K) 3 = f 2 := fun f => rfl
  have s0 : ∀ i : Fin 3, Fin.succAbove (0 : Fin 4) i = ![1, 2, 3] i := by decide
  have s1 : ∀ i : Fin 3, Fin.succAbove (1 : Fin 4) i = ![0, 2, 3] i := by decide
  have s2 : ∀ i : Fin 3, Fin.succAbove (2 : Fin 4) i = ![0, 1, 3] i := by decide
  have s3 : ∀ i : Fin 3, Fin.succAbove (3 : Fin 4) i = ![0, 1, 2] i := by decide
  have t0 : Fin.succ (0 : Fin 3) = 1 := rfl
  have t1 : Fin.succ (1 : Fin 3) = 2 := rfl
  have t2 : Fin.succ (2 : Fin 3) = 3 := rfl
  have c0 : ∀ p : V3 K, coords 0 p = p.x := fun _ => rfl
  have c1 : ∀ p : V3 K, coords 1 p = p.y := fun _ => rfl
  have c2 : ∀ p : V3 K, coords 2 p = p.z := fun _ => rfl
  simp only [s0, s1, s2, s3, t0, t1, t2, Matrix.cons_val_zero, Matrix.cons_val_one, Matrix.cons_val, e1, e2, e3, e4, c0, c1, c2]
  have v0 : ((0 : Fin 4) : Nat) = 0 := rfl
  have v1 : ((1 : Fin 4) : Nat) = 1 := rfl
  have v2 : ((2 : Fin 4) : Nat) = 2 := rfl
  have v3 : ((3 : Fin 4) : Nat) = 3 := rfl
  rw [v0, v1, v2, v3]
  ring

/-- **C144** A space curve whose control polygon winds to the right winds to the right. -/
theorem C144_winding {c : BSplineCurve K (V3 K)} (hv : c.Valid)
    (ha : ∀ p q r s, [p, q, r, s].Sublist c.controlPoints → 0 ≤ torsionOf p q r s) {us : Fin 4 → K} (hu : StrictMono us)
    (hd : ∀ i, InDomain c.knots c.controlPoints.length c.degree (us i)) {x y z t : V3 K} (hx : c.getPoint (us 0) = .ok x)
    (hy : c.getPoint (us 1) = .ok y) (hz : c.getPoint (us 2) = .ok z) (ht : c.getPoint (us 3) = .ok t) : 0 ≤ torsionOf x y z t := by
  have := C144_bspline hv coords (fun q hq => by
    rw [orient_three]
    exact ha _ _ _ _ (by simpa [List.ofFn_succ] using hq)) (u := us) (x := ![x, y, z, t]) hu hd
    (fun i => by fin_cases i <;> assumption)
  rw [orient_three] at this
  exact this

/-- The orientation of the projected points, times the weights. -/
def homog {d : Nat} (L : Fin d → V3 K →ₗ[K] K) : V4 K →ₗ[K] (Fin (d + 1) → K) where
  toFun h := Fin.cons h.w fun l => L l h.truncate
  map_add' a b := by
    funext j
    refine Fin.cases ?_ (fun l => ?_) j
    · rfl
    · show L l (a + b).truncate = L l a.truncate + L l b.truncate
      rw [show (a + b).truncate = a.truncate + b.truncate from rfl, map_add]
  map_smul' a b := by
    funext j
    refine Fin.cases ?_ (fun l => ?_) j
    · rfl
    · show L l (a • b).truncate = a * L l b.truncate
      rw [show (a • b).truncate = a • b.truncate from rfl, map_smul, smul_eq_mul]

theorem det_homog {d : Nat} (L : Fin d → V3 K →ₗ[K] K) (h : Fin (d + 1) → V4 K) (hw : ∀ i, (h i).w ≠ 0) :
    Matrix.det (fun i => homog L (h i)) = (∏ i, (h i).w) * orient L fun i => euclid (h i) := by
  unfold orient
  rw [← Matrix.det_mul_column]
  congr 1
  funext i j
  refine Fin.cases ?_ (fun l => ?_) j
  · show (h i).w = (h i).w * 1
    rw [mul_one]
  · show L l (h i).truncate = (h i).w * L l (euclid (h i))
    rw [euclid_eq, (L l).map_smul, smul_eq_mul, ← mul_assoc, mul_one_div_cancel (hw i), one_mul]
    rfl

/-- A point of a rational curve is the projection of a point with positive weight. -/
theorem rational_lift {c : BSplineCurve K (V4 K)} (hv : c.Valid) (hw : ∀ p ∈ c.controlPoints, 0 < p.w) {u : K}
    (hd : InDomain c.knots c.controlPoints.length c.degree u) {x : V3 K} (hux : c.getPointRational u = .ok x) :
    ∃ h, c.getPoint u = .ok h ∧ 0 < h.w ∧ x = euclid h := by
  have rat : ∀ h, c.getPoint u = .ok h → x = euclid h := by
    intro h hh
    unfold BSplineCurve.getPointRational at hux
    rw [hh] at hux
    injection hux with hux
    rw [← hux, rational_eq]
  obtain ⟨h1, h2 | ⟨h2, h3, h4⟩⟩ := hd
  · have hpN : c.degree ≤ c.controlPoints.length := by
      by_contra hc
      have := hv.mono c.controlPoints.length c.degree (by omega) (by omega)
      linarith
    obtain ⟨s, a1, a2, a3, a4⟩ := exists_span_step hpN h1 h2
    obtain ⟨h, h1, h2, -⟩ := C19_bspline hv hw ⟨a1, a2, lt_of_le_of_lt a3 a4, a3, Or.inl a4⟩
    exact ⟨h, h1, h2, rat h h1⟩
  · obtain ⟨q, rest, q1, q2⟩ := C13_end hv h3 h4
    rw [← h3, ← h2] at q2
    exact ⟨q, q2, hw q (by rw [q1]; simp), rat q q2⟩

/-- **C144** Rational curves with positive weights. -/
theorem C144_rational {c : BSplineCurve K (V4 K)} (hv : c.Valid) (hw : ∀ p ∈ c.controlPoints, 0 < p.w) {d : Nat}
    (L : Fin d → V3 K →ₗ[K] K)
    (ha : ∀ q : Fin (d + 1) → V4 K, (List.ofFn q).Sublist c.controlPoints → 0 ≤ orient L fun i => euclid (q i))
    {u : Fin (d + 1) → K} (hu : StrictMono u) (hd : ∀ i, InDomain c.knots c.controlPoints.length c.degree (u i))
    {x : Fin (d + 1) → V3 K} (hx : ∀ i, c.getPointRational (u i) = .ok (x i)) : 0 ≤ orient L x := by
  choose h h1 h2 h3 using fun i => rational_lift hv hw (hd i) (hx i)
  have key := curve_form hv (Matrix.detRowAlternating (n := Fin (d + 1)) (R := K)) 0 (homog L) (fun q hq => by
    simp only [zero_add]
    show 0 ≤ Matrix.det _
    have hq' : ∀ i, 0 < (q i).w := fun i => hw _ (hq.subset (List.mem_ofFn.2 ⟨i, rfl⟩))
    rw [det_homog L q fun i => (hq' i).ne']
    exact mul_nonneg (Finset.prod_nonneg fun i _ => (hq' i).le) (ha q hq)) hu hd h1
  simp only [zero_add] at key
  change 0 ≤ Matrix.det _ at key
  rw [det_homog L h fun i => (h2 i).ne'] at key
  rw [show x = fun i => euclid (h i) from funext h3]
  exact nonneg_of_mul_nonneg_right key (Finset.prod_pos fun i _ => h2 i)

end

/-- **C144** A cubic that bends from the x axis to the y direction never turns right. -/
theorem C144_example {u v w : ℚ} (hu : 0 ≤ u) (huv : u < v) (hvw : v < w) (hw : w ≤ 1) {x y z : V3 ℚ}
    (hx : (BezierCurve.mk [⟨0, 0, 0⟩, ⟨1, 0, 0⟩, ⟨2, 1, 0⟩, (⟨2, 2, 0⟩ : V3 ℚ)]).getPoint u = .ok x)
    (hy : (BezierCurve.mk [⟨0, 0, 0⟩, ⟨1, 0, 0⟩, ⟨2, 1, 0⟩, (⟨2, 2, 0⟩ : V3 ℚ)]).getPoint v = .ok y)
    (hz : (BezierCurve.mk [⟨0, 0, 0⟩, ⟨1, 0, 0⟩, ⟨2, 1, 0⟩, (⟨2, 2, 0⟩ : V3 ℚ)]).getPoint w = .ok z) :
    0 ≤ (y.x - x.x) * (z.y - x.y) - (z.x - x.x) * (y.y - x.y) := by
  refine C144_bezier_convex _ (coords 0) (coords 1) (fun p q r h => ?_) hu huv hvw hw hx hy hz
  rw [← List.mem_sublists'] at h
  simp [List.sublists'] at h
  rcases h with h | h | h | h <;> obtain ⟨rfl, rfl, rfl⟩ := h <;> norm_num [turnIn, coords]

end Geom3d
