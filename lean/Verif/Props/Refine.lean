import Verif.Props.CurveLength

/-!
# Knot insertion, splitting and conversion to Bézier curves cut corners (C146)

The new control points arise from the old ones by cutting corners. Hence the control polygons of the pieces are together no
longer than that of the curve, and turn as it does.
-/

set_option linter.unusedSectionVars false

namespace Geom3d
open Spec Finset

section
variable {K P : Type} [Field K] [LinearOrder K] [IsStrictOrderedRing K] [AddCommGroup P] [Module K P]

/-- What survives the cutting of corners is shared by all refinements. -/
theorem Spec.Refines.survives {Φ : Nat → (Nat → P) → Prop} (hΦ : Survives Φ K) {l l' : List P} (h : Refines K l l')
    (h0 : Φ l.length fun i => l.getD i 0) : Φ l'.length fun i => l'.getD i 0 := by
  induction h with
  | refl => exact h0
  | step _ h2 ih =>
    rename_i l₁ l₂ _
    obtain ⟨β, b1, b2, b3, b4⟩ := h2
    have e0 : ∀ i, l₁.length ≤ i → l₁.getD i 0 = 0 := fun i hi => cp_of_le hi
    have := hΦ l₁.length (fun i => l₁.getD i 0) (fun i => if i ≤ l₁.length then β i else 0) (fun j => by
      split
      · exact b1 j
      · exact ⟨le_refl _, zero_le_one⟩) (by rw [if_pos (le_refl _), b2]) e0 ih
    rw [b3]
    have e : (fun i => l₂.getD i 0) = cutBy (fun i => if i ≤ l₁.length then β i else 0) fun i => l₁.getD i 0 := by
      funext i
      unfold cutBy
      dsimp only
      split
      · rename_i hi
        exact b4 i hi
      · rename_i hi
        rw [show l₂.getD i 0 = 0 from cp_of_le (by omega), e0 i (by omega), e0 (i - 1) (by omega), smul_zero, smul_zero, add_zero]
    rw [e]
    exact this

/-- A refinement is no longer. -/
theorem Spec.Refines.length_le {ν : P → K} (hν : Measures ν) {l l' : List P} (hl : l ≠ []) (h : Refines K l l') :
    pathLength ν l' ≤ pathLength ν l := by
  have := Refines.survives (survives_length hν (pathSum ν (fun i => l.getD i 0) (l.length - 1))) h
    ⟨List.length_pos_iff.2 hl, le_refl _⟩
  rw [pathLength_eq, pathLength_eq]
  exact this.2

/-- A polyline is at least as long as its parts together. -/
theorem pathLength_append {ν : P → K} (hν : Measures ν) : ∀ l l' : List P, pathLength ν l + pathLength ν l' ≤ pathLength ν (l ++ l')
  | [], l' => by rw [List.nil_append, show pathLength ν ([] : List P) = 0 from rfl, zero_add]
  | [a], [] => by rw [List.append_nil, show pathLength ν ([] : List P) = 0 from rfl, add_zero]
  | [a], b :: l' => by
    show 0 + _ ≤ ν (b - a) + pathLength ν (b :: l')
    linarith [hν.nonneg (b - a)]
  | a :: b :: l, l' => by
    have := pathLength_append hν (b :: l) l'
    show ν (b - a) + pathLength ν (b :: l) + _ ≤ ν (b - a) + pathLength ν (b :: (l ++ l'))
    rw [List.cons_append] at this
    linarith

theorem pathLength_pieces {ν : P → K} (hν : Measures ν) (ls : List (List P)) :
    (ls.map (pathLength ν)).sum ≤ pathLength ν ls.flatten := by
  induction ls with
  | nil => exact le_refl _
  | cons l ls ih =>
    rw [List.map_cons, List.sum_cons, List.flatten_cons]
    exact (add_le_add (le_refl _) ih).trans (pathLength_append hν _ _)

/-- The coefficients of a polygon in an affine space, zero beyond its end. -/
def affineCoeffs {V : Type} [AddCommGroup V] [Module K V] (o : V) (g : P →ₗ[K] V) (N : Nat) (a : Nat → P) (i : Nat) : V :=
  if i < N then o + g (a i) else 0

theorem ordered_iff {V : Type} [AddCommGroup V] [Module K V] {d : Nat} (f : V [⋀^Fin d]→ₗ[K] K) (o : V) (g : P →ₗ[K] V) (l : List P) :
    Ordered f (affineCoeffs o g l.length fun i => l.getD i 0) ↔
      ∀ q : Fin d → P, (List.ofFn q).Sublist l → 0 ≤ f fun i => o + g (q i) := by
  constructor
  · intro h q hq
    obtain ⟨e, he⟩ := List.sublist_iff_exists_fin_orderEmbedding_get_eq.1 hq
    have hk : StrictMono fun i : Fin d => (e (i.cast List.length_ofFn.symm) : Nat) := fun i j hij => e.strictMono (by simpa using hij)
    refine (h _ hk).trans_eq (congrArg f (funext fun i => ?_))
    unfold affineCoeffs
    rw [if_pos (e _).2]
    dsimp only
    rw [List.getD_eq_getElem _ _ (e _).2]
    have := he (i.cast List.length_ofFn.symm)
    rw [List.get_ofFn] at this
    rw [show q i = _ from this]
    rfl
  · intro h k hk
    by_cases hlt : ∀ i, k i < l.length
    · have e : (fun i => affineCoeffs o g l.length (fun i => l.getD i 0) (k i)) = fun i => o + g (l.getD (k i) 0) :=
        funext fun i => if_pos (hlt i)
      rw [e]
      refine h (fun i => l.getD (k i) 0) ?_
      rw [List.sublist_iff_exists_fin_orderEmbedding_get_eq]
      refine ⟨OrderEmbedding.ofStrictMono (fun i => ⟨k (i.cast (List.length_ofFn)), hlt _⟩) fun i j hij => hk (by simpa using hij), fun i => ?_⟩
      rw [List.get_ofFn]
      show l.getD (k _) 0 = l[k _]'(hlt _)
      rw [List.getD_eq_getElem]
    · push Not at hlt
      obtain ⟨i, hi⟩ := hlt
      exact le_of_eq (f.map_coord_zero i (if_neg (not_lt.2 hi))).symm

theorem survives_ordered {V : Type} [AddCommGroup V] [Module K V] {d : Nat} (f : V [⋀^Fin d]→ₗ[K] K) (o : V) (g : P →ₗ[K] V) :
    Survives (fun N (a : Nat → P) => 0 < N ∧ Ordered f (affineCoeffs o g N a)) K := by
  intro N a β hβ h0 _ ⟨hN, h1⟩
  refine ⟨by omega, ?_⟩
  have e : affineCoeffs o g (N + 1) (cutBy β a) = cutBy (fun i => if i ≤ N then β i else 0) (affineCoeffs o g N a) := by
    funext i
    unfold cutBy affineCoeffs
    dsimp only
    rcases Nat.lt_trichotomy i N with h | h | h
    · rw [if_pos (by omega), if_pos (by omega), if_pos h, if_pos (by omega), map_add, map_smul, map_smul]
      module
    · subst h
      rw [if_pos (by omega), if_pos (by omega), if_neg (by omega), if_pos (by omega), h0]
      simp
    · rw [if_neg (by omega), if_neg (by omega), if_neg (by omega), if_neg (by omega)]
      simp
  rw [e]
  refine h1.cut fun j => ?_
  split
  · exact hβ j
  · exact ⟨le_refl _, zero_le_one⟩

theorem orient_form {d : Nat} (L : Fin d → P →ₗ[K] K) (y : Fin (d + 1) → P) : orient L y =
    (Matrix.detRowAlternating (n := Fin (d + 1)) (R := K)) fun i =>
      (Fin.cons 1 0 : Fin (d + 1) → K) + (LinearMap.pi (Fin.cons 0 L) : P →ₗ[K] (Fin (d + 1) → K)) (y i) := by
  show Matrix.det _ = Matrix.det _
  congr 1
  funext i j
  refine Fin.cases ?_ (fun l => ?_) j <;> simp

/-- The tuples of points, taken in order, of a refinement are oriented as those of the polygon. -/
theorem Spec.Refines.orient_nonneg {d : Nat} (L : Fin d → P →ₗ[K] K) {l l' : List P} (hl : l ≠ []) (h : Refines K l l')
    (ha : ∀ q : Fin (d + 1) → P, (List.ofFn q).Sublist l → 0 ≤ orient L q) (q : Fin (d + 1) → P) (hq : (List.ofFn q).Sublist l') :
    0 ≤ orient L q := by
  simp only [orient_form] at ha ⊢
  rw [← ordered_iff] at ha
  have := Refines.survives (survives_ordered _ _ _) h ⟨List.length_pos_iff.2 hl, ha⟩
  exact (ordered_iff _ _ _ _).1 this.2 q hq

end

section
variable {K P : Type} [Field K] [LinearOrder K] [IsStrictOrderedRing K] [Env K]
  [AddCommGroup P] [Module K P] [HMul K P P] [HMul P K P] [LawfulPoint K P]

/-- **C146** `add_knot` inside the domain cuts corners. -/
theorem C146_addKnot {c c' : BSplineCurve K P} (hv : c.Valid) {x : K} (hx : knot c.knots c.degree ≤ x)
    (hx' : x < knot c.knots c.controlPoints.length) (hres : Resolved (x :: c.knots)) (h : c.addKnot x = .ok c') :
    CutCorners K c.controlPoints c'.controlPoints :=
  (addKnot_cuts hv hx hx' hres h).1

/-- **C146** `split` inside the domain cuts corners: the control polygons of the pieces are together no longer than that of the
curve, and they turn as it does. -/
theorem C146_split {c : BSplineCurve K P} (hv : c.Valid) {t : K} (ht : knot c.knots c.degree ≤ t)
    (ht' : t < knot c.knots c.controlPoints.length) (hres : Resolved (t :: c.knots)) {L R : BSplineCurve K P}
    (h : c.split t = .ok (L, R)) :
    Refines K c.controlPoints (L.controlPoints ++ R.controlPoints) ∧
    (∀ ν : P → K, Measures ν → pathLength ν L.controlPoints + pathLength ν R.controlPoints ≤ pathLength ν c.controlPoints) ∧
    ∀ (d : Nat) (l : Fin d → P →ₗ[K] K),
      (∀ q : Fin (d + 1) → P, (List.ofFn q).Sublist c.controlPoints → 0 ≤ orient l q) →
      ∀ q : Fin (d + 1) → P, (List.ofFn q).Sublist L.controlPoints ∨ (List.ofFn q).Sublist R.controlPoints → 0 ≤ orient l q := by
  have key := split_cuts hv ht ht' hres h
  have hne : c.controlPoints ≠ [] := List.ne_nil_of_length_pos hv.pts
  refine ⟨key, fun ν hν => (pathLength_append hν _ _).trans (key.length_le hν hne), fun d l ha q hq => ?_⟩
  refine key.orient_nonneg l hne ha q ?_
  rcases hq with hq | hq
  · exact hq.trans (List.sublist_append_left _ _)
  · exact hq.trans (List.sublist_append_right _ _)

/-- **C146** `to_piecewise_bezier` cuts corners. -/
theorem C146_piecewise {c : BSplineCurve K P} (hv : c.Valid) (htol : (0 : K) ≤ Env.tol)
    (hsep : ∀ a ∈ c.knots, ∀ b ∈ c.knots, a < b → Env.tol < b - a) (hmult : ∀ x ∈ c.knots, c.knots.count x ≤ c.degree + 1)
    (h0 : c.knots.count (knot c.knots 0) = c.degree + 1)
    (h1 : c.knots.count (knot c.knots (c.controlPoints.length + c.degree)) = c.degree + 1) :
    ∃ bs, c.toPiecewiseBezier = .ok bs ∧ Refines K c.controlPoints (bs.flatMap fun b => b.controlPoints) ∧
    (∀ ν : P → K, Measures ν → (bs.map fun b => pathLength ν b.controlPoints).sum ≤ pathLength ν c.controlPoints) ∧
    ∀ (d : Nat) (l : Fin d → P →ₗ[K] K),
      (∀ q : Fin (d + 1) → P, (List.ofFn q).Sublist c.controlPoints → 0 ≤ orient l q) →
      ∀ b ∈ bs, ∀ q : Fin (d + 1) → P, (List.ofFn q).Sublist b.controlPoints → 0 ≤ orient l q := by
  have hlen := hv.len
  have hdd := dedup_spec hsep htol hv.sorted
  generalize hds : dedupBy (fun a b => near a b) c.knots = ds at hdd
  obtain ⟨hds1, hmem⟩ := hdd
  have hk0m : knot c.knots 0 ∈ ds := (hmem _).2 (knot_mem (by omega))
  have hkNm : knot c.knots (c.controlPoints.length + c.degree) ∈ ds := (hmem _).2 (knot_mem (by omega))
  have hpos : 0 < ds.length := List.length_pos_of_mem hk0m
  have hd0 : knot ds 0 = knot c.knots 0 := by
    apply le_antisymm
    · obtain ⟨i, hi, ei⟩ := List.getElem_of_mem hk0m
      rw [← ei, knot_getElem hi]
      rcases Nat.eq_zero_or_pos i with h | h
      · rw [h]
      · exact le_of_lt (strict_lt hds1 h hi)
    · obtain ⟨j, hj, ej⟩ := List.getElem_of_mem ((hmem _).1 (knot_mem hpos))
      rw [← ej, knot_getElem hj]; exact hv.mono _ _ (by omega) (by omega)
  have hdN : knot ds (ds.length - 1) = knot c.knots (c.controlPoints.length + c.degree) := by
    apply le_antisymm
    · obtain ⟨j, hj, ej⟩ := List.getElem_of_mem ((hmem _).1 (knot_mem (show ds.length - 1 < ds.length by omega)))
      rw [← ej, knot_getElem hj]; exact hv.mono _ _ (by omega) (by omega)
    · obtain ⟨i, hi, ei⟩ := List.getElem_of_mem hkNm
      rw [← ei, knot_getElem hi]
      rcases Nat.lt_or_ge i (ds.length - 1) with h | h
      · exact le_of_lt (strict_lt hds1 h (by omega))
      · rw [show i = ds.length - 1 by omega]
  obtain ⟨bs, b1, -, -, b4⟩ := toPiecewiseBezier_spec hv htol hsep hds1 hmem hmult (by rw [hd0, h0]) (by rw [hdN, h1])
  have hne : c.controlPoints ≠ [] := List.ne_nil_of_length_pos hv.pts
  refine ⟨bs, b1, b4, fun ν hν => ?_, fun d l ha b hb q hq => b4.orient_nonneg l hne ha q (hq.trans ?_)⟩
  · have := pathLength_pieces hν (bs.map fun b => b.controlPoints)
    rw [List.map_map, ← List.flatMap_def] at this
    exact this.trans (b4.length_le hν hne)
  · rw [List.flatMap_def]
    exact List.sublist_flatten_of_mem (List.mem_map_of_mem hb)

end

/-- **C146** A quadratic cut in the middle. -/
theorem C146_example :
    (⟨[⟨0, 0, 0⟩, ⟨1, 2, 0⟩, ⟨3, 3, 3⟩], [0, 0, 0, 2, 2, 2], 2⟩ : BSplineCurve ℚ (V3 ℚ)).split 1
      = .ok (⟨[⟨0, 0, 0⟩, ⟨1 / 2, 1, 0⟩, ⟨5 / 4, 7 / 4, 3 / 4⟩], [0, 0, 0, 1, 1, 1], 2⟩,
        ⟨[⟨5 / 4, 7 / 4, 3 / 4⟩, ⟨2, 5 / 2, 3 / 2⟩, ⟨3, 3, 3⟩], [1, 1, 1, 2, 2, 2], 2⟩) ∧
    Refines ℚ [⟨0, 0, 0⟩, ⟨1, 2, 0⟩, (⟨3, 3, 3⟩ : V3 ℚ)]
      [⟨0, 0, 0⟩, ⟨1 / 2, 1, 0⟩, ⟨5 / 4, 7 / 4, 3 / 4⟩, ⟨5 / 4, 7 / 4, 3 / 4⟩, ⟨2, 5 / 2, 3 / 2⟩, ⟨3, 3, 3⟩] := by
  have e : (⟨[⟨0, 0, 0⟩, ⟨1, 2, 0⟩, ⟨3, 3, 3⟩], [0, 0, 0, 2, 2, 2], 2⟩ : BSplineCurve ℚ (V3 ℚ)).split 1
      = .ok (⟨[⟨0, 0, 0⟩, ⟨1 / 2, 1, 0⟩, ⟨5 / 4, 7 / 4, 3 / 4⟩], [0, 0, 0, 1, 1, 1], 2⟩,
        ⟨[⟨5 / 4, 7 / 4, 3 / 4⟩, ⟨2, 5 / 2, 3 / 2⟩, ⟨3, 3, 3⟩], [1, 1, 1, 2, 2, 2], 2⟩) := by decide +kernel
  refine ⟨e, (C146_split ⟨rfl, by unfold Sorted; decide +kernel, ?_, by decide +kernel, by decide⟩ (by decide +kernel) (by decide +kernel) ?_ e).1⟩
  · exact ⟨fun a _ b _ => decide_eq_true_iff, fun a _ b _ => decide_eq_true_iff.trans sub_eq_zero⟩
  · exact ⟨fun a _ b _ => decide_eq_true_iff, fun a _ b _ => decide_eq_true_iff.trans sub_eq_zero⟩

end Geom3d
