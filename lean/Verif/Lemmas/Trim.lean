import Verif.Model.Surface
import Verif.Lemmas.MapM
import Verif.Spec.Offsets

/-! # The boundary polygons collected by `trim` (any arithmetic) -/

set_option linter.unusedSectionVars false

namespace Geom3d

section
variable {F : Type} [Add F] [Sub F] [Mul F] [Div F] [Neg F] [Zero F] [One F] [NatCast F] [LT F] [DecidableLT F]
  [LE F] [DecidableLE F] [Env F]

theorem length_offsets {α : Type} (a : Nat) (l : List (List α)) : (Spec.offsets a l).length = l.length + 1 := by
  induction l generalizing a with
  | nil => rfl
  | cons x l ih => simp [Spec.offsets, ih]

theorem nonEmpty_flatten {α : Type} (l : List (List α)) : (Spec.nonEmpty l).flatten = l.flatten := by
  induction l with
  | nil => rfl
  | cons x l ih =>
    unfold Spec.nonEmpty at ih ⊢
    cases x with
    | nil => simp [ih]
    | cons a x => simp [ih]

/-- Consecutive offsets: a block of the given length inside the flattened list. -/
theorem pairs_offsets {α : Type} (l : List (List α)) (pre : List α) {p : Nat × Nat}
    (hp : p ∈ pairs (Spec.offsets pre.length l)) :
    ∃ b ∈ l, p.2 = p.1 + b.length ∧ p.2 ≤ (pre ++ l.flatten).length ∧
      ((pre ++ l.flatten).drop p.1).take b.length = b := by
  induction l generalizing pre with
  | nil => simp [Spec.offsets, pairs] at hp
  | cons x l ih =>
    have hcons : pairs (Spec.offsets pre.length (x :: l)) =
        (pre.length, pre.length + x.length) :: pairs (Spec.offsets (pre.length + x.length) l) := by
      cases l <;> simp [Spec.offsets, pairs]
    rw [hcons, List.mem_cons] at hp
    rcases hp with rfl | hp
    · refine ⟨x, List.mem_cons_self .., rfl, ?_, ?_⟩
      · simp only [List.flatten_cons, List.length_append]; omega
      · simp
    · have := ih (pre ++ x) (by rw [List.length_append]; exact hp)
      obtain ⟨b, hb, h1, h2, h3⟩ := this
      exact ⟨b, List.mem_cons_of_mem _ hb, h1, by simpa using h2, by simpa using h3⟩

theorem collect_loop (o : TrimOracle F) (L : List (EdgeLoop F × Nat)) {V : List (V3 F)} {Q : List Nat} {e : Nat}
    {st : List (V3 F) × List Nat × Nat}
    (h : L.foldlM (fun (st : List (V3 F) × List Nat × Nat) (b : EdgeLoop F × Nat) => do
      let polygon ← b.1.toPolygon o.divFuel (o.rnd b.2)
      if 0 < polygon.length then
        pure (st.1 ++ polygon, st.2.1 ++ [st.2.2 + polygon.length], st.2.2 + polygon.length)
      else pure (st.1 ++ polygon, st.2.1, st.2.2)) (V, Q ++ [e], e) = .ok st) :
    ∃ loops, List.Forall₂ (fun b P => EdgeLoop.toPolygon o.divFuel (o.rnd b.2) b.1 = .ok P) L loops ∧
      st.1 = V ++ loops.flatten ∧ st.2.1 = Q ++ Spec.offsets e (Spec.nonEmpty loops) := by
  induction L generalizing V Q e with
  | nil => cases h; exact ⟨[], .nil, by simp, rfl⟩
  | cons b L ih =>
    rw [List.foldlM_cons, bind_eq_ok] at h
    obtain ⟨s1, h1, h2⟩ := h
    rw [bind_eq_ok] at h1
    obtain ⟨P, hP, h1⟩ := h1
    simp only [] at h1
    split at h1
    · rename_i hpos
      cases h1
      obtain ⟨loops, i1, i2, i3⟩ := ih h2
      refine ⟨P :: loops, .cons hP i1, by simp [i2], ?_⟩
      have : Spec.nonEmpty (P :: loops) = P :: Spec.nonEmpty loops := by
        cases P with
        | nil => simp at hpos
        | cons a P => rfl
      rw [i3, this, Spec.offsets]
      simp
    · rename_i hpos
      cases h1
      obtain ⟨loops, i1, i2, i3⟩ := ih h2
      have hP0 : P = [] := List.length_eq_zero_iff.1 (by omega)
      subst hP0
      exact ⟨[] :: loops, .cons hP i1, by simp [i2], by rw [i3]; rfl⟩

/-- The vertices are those of all loop polygons in order; the offsets delimit the non-empty ones. -/
theorem collectLoops_spec {o : TrimOracle F} {bounds : List (EdgeLoop F)} {vs : List (V3 F)} {polygons : List Nat}
    (h : collectLoops o bounds = .ok (vs, polygons)) :
    ∃ loops, List.Forall₂ (fun b P => EdgeLoop.toPolygon o.divFuel (o.rnd b.2) b.1 = .ok P) bounds.zipIdx loops ∧
      vs = loops.flatten ∧ polygons = Spec.offsets 0 (Spec.nonEmpty loops) := by
  unfold collectLoops at h
  rw [bind_eq_ok] at h
  obtain ⟨st, h1, h2⟩ := h
  cases h2
  obtain ⟨loops, i1, i2, i3⟩ := collect_loop o bounds.zipIdx (V := []) (Q := []) (e := 0) h1
  exact ⟨loops, i1, by simpa using i2, by simpa using i3⟩

/-- Every pair of consecutive offsets is a non-empty range inside the vertices. -/
theorem collectLoops_pairs {o : TrimOracle F} {bounds : List (EdgeLoop F)} {vs : List (V3 F)} {polygons : List Nat}
    (h : collectLoops o bounds = .ok (vs, polygons)) : ∀ p ∈ pairs polygons, p.1 < p.2 ∧ p.2 ≤ vs.length := by
  obtain ⟨loops, -, rfl, rfl⟩ := collectLoops_spec h
  intro p hp
  obtain ⟨b, hb, h1, h2, -⟩ := pairs_offsets (Spec.nonEmpty loops) [] hp
  rw [List.nil_append, nonEmpty_flatten] at h2
  have : b ≠ [] := by
    rintro rfl
    simp [Spec.nonEmpty] at hb
  have : 0 < b.length := List.length_pos_iff.2 this
  exact ⟨by omega, h2⟩

/-- With exactly two offsets there is exactly one non-empty loop, and it holds all vertices. -/
theorem collectLoops_two {o : TrimOracle F} {bounds : List (EdgeLoop F)} {vs : List (V3 F)} {polygons : List Nat}
    (h : collectLoops o bounds = .ok (vs, polygons)) (h2 : polygons.length = 2) :
    polygons = [0, vs.length] ∧ 0 < vs.length := by
  obtain ⟨loops, -, rfl, rfl⟩ := collectLoops_spec h
  rw [length_offsets] at h2
  obtain ⟨b, hb⟩ : ∃ b, Spec.nonEmpty loops = [b] := List.length_eq_one_iff.1 (by omega)
  have hf := nonEmpty_flatten loops
  rw [hb] at hf
  simp only [List.flatten_cons, List.flatten_nil, List.append_nil] at hf
  have hne : b ≠ [] := by
    rintro rfl
    have : ([] : List (V3 F)) ∈ Spec.nonEmpty loops := by rw [hb]; exact List.mem_cons_self ..
    simp [Spec.nonEmpty] at this
  rw [← hf, hb]
  exact ⟨by simp [Spec.offsets], List.length_pos_iff.2 hne⟩

end

end Geom3d
