import Verif.Model.Surface
import Verif.Model.Instances
import Verif.Lemmas.MapM
import Verif.Spec.Polygon
import Verif.Spec.ExactEnv

/-! # C62: edge loops as polygons (any arithmetic) -/

set_option linter.unusedSectionVars false

namespace Geom3d

/-- `D` is `l` with some elements left out: the first is kept, neighbours in `D` are not `same`, and every element of
`l` was kept or is `same` as a kept one. -/
structure Spec.Thinned {α : Type} (same : α → α → Bool) (l D : List α) : Prop where
  sub : D.Sublist l
  head : D.head? = l.head?
  apart : ∀ e ∈ Spec.pathEdges D, same e.2 e.1 = false
  cover : ∀ x ∈ l, x ∈ D ∨ ∃ y ∈ D, same x y = true

section
variable {α : Type} (same : α → α → Bool)

theorem dedupAux_thinned (a : α) (l : List α) :
    (dedupAux same a l).Sublist l ∧ (∀ e ∈ Spec.pathEdges (a :: dedupAux same a l), same e.2 e.1 = false) ∧
    ∀ x ∈ l, x ∈ dedupAux same a l ∨ ∃ y ∈ a :: dedupAux same a l, same x y = true := by
  induction l generalizing a with
  | nil => simp [dedupAux, Spec.pathEdges]
  | cons b l ih =>
    unfold dedupAux
    cases h : same b a
    · obtain ⟨h1, h2, h3⟩ := ih b
      refine ⟨?_, ?_, ?_⟩
      · simpa using h1
      · intro e he
        simp only [Bool.false_eq_true, if_false, Spec.pathEdges, List.tail_cons, List.zip_cons_cons, List.mem_cons] at he
        rcases he with rfl | he
        · exact h
        · exact h2 e (by simpa [Spec.pathEdges] using he)
      · intro x hx
        simp only [Bool.false_eq_true, if_false]
        rcases List.mem_cons.1 hx with rfl | hx
        · exact .inl (List.mem_cons_self ..)
        · rcases h3 x hx with h' | ⟨y, hy, hxy⟩
          · exact .inl (List.mem_cons_of_mem _ h')
          · exact .inr ⟨y, List.mem_cons_of_mem _ hy, hxy⟩
    · obtain ⟨h1, h2, h3⟩ := ih a
      simp only [if_true]
      refine ⟨h1.cons _, h2, ?_⟩
      intro x hx
      rcases List.mem_cons.1 hx with rfl | hx
      · exact .inr ⟨a, List.mem_cons_self .., h⟩
      · exact h3 x hx

theorem dedupBy_thinned (l : List α) : Spec.Thinned same l (dedupBy same l) := by
  cases l with
  | nil => exact ⟨.slnil, rfl, by simp [dedupBy, Spec.pathEdges], by simp⟩
  | cons a l =>
    obtain ⟨h1, h2, h3⟩ := dedupAux_thinned same a l
    refine ⟨by simpa [dedupBy] using h1, rfl, h2, ?_⟩
    intro x hx
    rcases List.mem_cons.1 hx with rfl | hx
    · exact .inl (List.mem_cons_self ..)
    · rcases h3 x hx with h' | h'
      · exact .inl (List.mem_cons_of_mem _ h')
      · exact .inr h'

end

section
variable {F : Type} [Add F] [Sub F] [Mul F] [Div F] [Neg F] [Zero F] [One F] [NatCast F] [LT F] [DecidableLT F]
  [LE F] [DecidableLE F] [Env F]

/-- The two points coincide within tolerance (`a.distance_squared(b).near(0.0)`). -/
def Spec.samePoint (a b : V3 F) : Bool := near (a.distanceSq b) 0

/-- **C62** The polygon of a non-empty list of sampled points: consecutive duplicates are dropped (`D`), and the last
point of `D` is dropped exactly when it coincides with the first. -/
theorem C62_polygon {l : List (V3 F)} (hl : l ≠ []) :
    ∃ D f z P, Spec.Thinned Spec.samePoint l D ∧ D.head? = some f ∧ D.getLast? = some z ∧
      closePolygon l = .ok P ∧
      (Spec.samePoint f z = true → D = P ++ [z]) ∧ (Spec.samePoint f z = false → P = D) := by
  have hD := dedupBy_thinned Spec.samePoint l
  cases hd : dedupBy (Spec.samePoint (F := F)) l with
  | nil =>
    have := hD.head
    rw [hd] at this
    cases l with
    | nil => exact absurd rfl hl
    | cons a l => simp at this
  | cons f t =>
    rw [hd] at hD
    have hlast : (f :: t).getLast? = some ((f :: t).getLast (by simp)) := List.getLast?_eq_some_getLast (by simp)
    refine ⟨f :: t, f, (f :: t).getLast (by simp),
      if Spec.samePoint f ((f :: t).getLast (by simp)) then (f :: t).dropLast else f :: t, hD, rfl, hlast, ?_, ?_, ?_⟩
    · unfold closePolygon
      have hd' : dedupBy (fun a b : V3 F => near (a.distanceSq b) 0) l = f :: t := hd
      simp only [hd']
      have hz : idx (f :: t) t.length = .ok ((f :: t).getLast (by simp)) := by
        apply idx_of_getElem?
        rw [← hlast, List.getLast?_eq_getElem?]; rfl
      have h0 : idx (f :: t) 0 = .ok f := rfl
      have h1 : usub (f :: t).length 1 = .ok t.length := by simp [usub]
      rw [h0, ok_bind, h1, ok_bind, hz, ok_bind]
      rfl
    · intro h
      rw [h]
      exact (List.dropLast_concat_getLast (by simp)).symm
    · intro h
      rw [h]
      rfl

/-- **C62** Consequences for the polygon itself. -/
theorem C62_order {l P : List (V3 F)} (h : closePolygon l = .ok P) :
    P.Sublist l ∧ (∀ e ∈ Spec.pathEdges P, Spec.samePoint e.2 e.1 = false) ∧ (P = [] ∨ P.head? = l.head?) := by
  by_cases hl : l = []
  · subst hl; cases h
  obtain ⟨D, f, z, P', hD, hf, hz, hP, h1, h2⟩ := C62_polygon hl
  rw [h] at hP; cases hP
  cases hs : Spec.samePoint f z
  · have := h2 hs; subst this
    exact ⟨hD.sub, hD.apart, .inr hD.head⟩
  · have := h1 hs; subst this
    refine ⟨(List.sublist_append_left ..).trans hD.sub, ?_, ?_⟩
    · intro e he
      apply hD.apart
      cases P with
      | nil => simp [Spec.pathEdges] at he
      | cons a t =>
        simp only [Spec.pathEdges, List.tail_cons, List.cons_append] at he ⊢
        have : (a :: t ++ [z]).zip (t ++ [z]) = (a :: t).zip t ++ [((a :: t).getLast (by simp), z)] := by
          clear * -
          induction t generalizing a with
          | nil => rfl
          | cons b t ih =>
            simp only [List.cons_append, List.zip_cons_cons, List.cons.injEq, true_and] at ih ⊢
            rw [ih b]
            simp
        have h3 := List.mem_append_left [((a :: t).getLast (by simp), z)] he
        rw [← this] at h3
        exact h3
    · cases P with
      | nil => exact .inl rfl
      | cons a t => exact .inr (by rw [← hD.head]; rfl)

/-- **C62** A loop without sampled points panics; so does `to_polygon` of a loop without edges. -/
theorem C62_empty_panics (fuel : Nat) (rnd : Nat → List Bool → F) :
    closePolygon ([] : List (V3 F)) = .error .index ∧ (⟨[]⟩ : EdgeLoop F).toPolygon fuel rnd = .error .index := by
  constructor <;> rfl

/-- **C62** for edge loops: the polygon comes from the concatenated samples of the edges, each sample list being the
points of the edge's curve at increasing positions of `parameter_division`. -/
theorem C62_loop {fuel : Nat} {rnd : Nat → List Bool → F} {e : EdgeLoop F} {P : List (V3 F)}
    (h : e.toPolygon fuel rnd = .ok P) :
    ∃ samples : List (List (V3 F)), closePolygon samples.flatten = .ok P ∧ samples.length = e.edges.length ∧
      ∀ (i : Nat) (edge : CurveSegment F), e.edges[i]? = some edge →
        ∃ ps, samples[i]? = some ps ∧ edge.getPoints fuel (rnd i) = .ok ps := by
  unfold EdgeLoop.toPolygon at h
  rw [bind_eq_ok] at h
  obtain ⟨samples, h1, h2⟩ := h
  have h3 := of_mapM_ok h1
  refine ⟨samples, h2, by rw [← h3.length_eq]; simp, ?_⟩
  intro i edge hi
  have hz : e.edges.zipIdx[i]? = some (edge, i) := by simp [hi]
  obtain ⟨ps, h4, h5⟩ := forall₂_getElem? h3 hz
  exact ⟨ps, h4, h5⟩

end

/-- Non-vacuity of **C62**: a square sampled edge by edge, its corners repeated. -/
theorem C62_example :
    closePolygon ([⟨0, 0, 0⟩, ⟨1, 0, 0⟩, ⟨1, 0, 0⟩, ⟨1, 1, 0⟩, ⟨1, 1, 0⟩, ⟨0, 0, 0⟩] : List (V3 ℚ))
      = .ok [⟨0, 0, 0⟩, ⟨1, 0, 0⟩, ⟨1, 1, 0⟩] := by decide +kernel

/-- **Finding** Only one point is dropped at the seam: the closed polygon can still end in a point that coincides
with its first one. -/
theorem C62_seam_duplicate :
    ∃ (l P : List (V3 ℚ)) (f z : V3 ℚ), closePolygon l = .ok P ∧ 3 ≤ P.length ∧ P.head? = some f ∧
      P.getLast? = some z ∧ Spec.samePoint f z = true :=
  ⟨[⟨0, 0, 0⟩, ⟨1, 0, 0⟩, ⟨1, 1, 0⟩, ⟨1 / 5000, 0, 0⟩, ⟨-1 / 5000, 0, 0⟩],
   [⟨0, 0, 0⟩, ⟨1, 0, 0⟩, ⟨1, 1, 0⟩, ⟨1 / 5000, 0, 0⟩], ⟨0, 0, 0⟩, ⟨1 / 5000, 0, 0⟩,
   by decide +kernel, by decide, rfl, rfl, by decide +kernel⟩

end Geom3d
