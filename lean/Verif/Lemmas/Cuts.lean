import Verif.Lemmas.SimplePolygon

/-!
# Cutting simple polygons along diagonals; existence of ears
-/

namespace Geom3d.Winding
open Spec List

variable {K : Type} [Field K] [LinearOrder K] [IsStrictOrderedRing K]

set_option linter.unusedSectionVars false

theorem cross_irrefl (a b : V2 K) : ¬ Cross a b a b := by
  intro h
  have := h.1
  rw [tri_self₂, zero_mul] at this
  exact lt_irrefl _ this

theorem loopEdges_join {α : Type} (s t : α) (X Y : List α) :
    loopEdges (s :: (X ++ t :: Y)) = pathEdges (s :: (X ++ [t])) ++ pathEdges (t :: (Y ++ [s])) := by
  have : s :: (X ++ t :: Y) ++ [s] = (s :: X) ++ t :: (Y ++ [s]) := by simp
  rw [loopEdges_cons, this, pathEdges_append]
  rfl

theorem loopEdges_close {α : Type} (s t : α) (X : List α) :
    loopEdges (s :: (X ++ [t])) = pathEdges (s :: (X ++ [t])) ++ [(t, s)] := by
  rw [loopEdges_join]; rfl

/-- A diagonal from `s` to `t` that cuts a simple polygon into two polygons of level one. -/
structure Cut (s t : V2 K) (X Y : List (V2 K)) : Prop where
  simple : Simple (s :: (X ++ t :: Y))
  nX : X ≠ []
  nY : Y ≠ []
  clear : ∀ e ∈ loopEdges (s :: (X ++ t :: Y)), ¬ Cross s t e.1 e.2
  lA : level (s :: (X ++ [t])) = 1
  lB : level (t :: (Y ++ [s])) = 1

theorem rot_cut {α : Type} (s t : α) (X Y : List α) : (s :: (X ++ t :: Y)) ~r (t :: (Y ++ s :: X)) :=
  isRotated_append (l := s :: X) (l' := t :: Y)

theorem Cut.symm {s t : V2 K} {X Y : List (V2 K)} (h : Cut s t X Y) : Cut t s Y X where
  simple := h.simple.rot (rot_cut s t X Y)
  nX := h.nY
  nY := h.nX
  clear e he hx := h.clear e ((loopEdges_rot (rot_cut s t X Y)).mem_iff.2 he) hx.swap
  lA := h.lB
  lB := h.lA

theorem simple_part {s t : V2 K} {X Y : List (V2 K)} (h : Simple (s :: (X ++ t :: Y)))
    (hc : ∀ e ∈ loopEdges (s :: (X ++ t :: Y)), ¬ Cross s t e.1 e.2) : Simple (s :: (X ++ [t])) where
  nodup := h.nodup.sublist (by
    refine List.Sublist.cons_cons _ (List.Sublist.append (List.Sublist.refl _) ?_)
    exact List.Sublist.cons_cons _ (List.nil_sublist _))
  gp := by
    have sub : ∀ z ∈ s :: (X ++ [t]), z ∈ s :: (X ++ t :: Y) := by
      intro z hz
      simp only [List.mem_cons, List.mem_append, List.mem_nil_iff, or_false] at hz ⊢
      tauto
    exact fun a ha b hb c hc => h.gp a (sub a ha) b (sub b hb) c (sub c hc)
  nocross := by
    have cases : ∀ e ∈ loopEdges (s :: (X ++ [t])), e ∈ loopEdges (s :: (X ++ t :: Y)) ∨ e = (t, s) := by
      intro e he
      rw [loopEdges_close, List.mem_append, List.mem_singleton] at he
      rw [loopEdges_join, List.mem_append]
      exact he.imp .inl id
    intro e he f hf
    rcases cases e he with he | rfl <;> rcases cases f hf with hf | rfl
    · exact h.nocross e he f hf
    · exact fun k => hc e he k.symm.swap
    · exact fun k => hc f hf k.swap
    · exact cross_irrefl _ _

theorem Cut.simpleA {s t : V2 K} {X Y : List (V2 K)} (h : Cut s t X Y) : Simple (s :: (X ++ [t])) :=
  simple_part h.simple h.clear

theorem Cut.cyc {s t y p : V2 K} {X Y : List (V2 K)} (h : Cut s t X Y) (hy : Y.head? = some y) (hp : X.getLast? = some p) :
    cyc3 t y s p = 2 ∧ triArea2 t y s ≠ 0 ∧ triArea2 t s p ≠ 0 ∧ triArea2 t p y ≠ 0 := by
  have hs := h.symm.simple
  have my : y ∈ Y := List.mem_of_mem_head? hy
  have mp : p ∈ X := List.mem_of_mem_getLast? hp
  have hn := hs.nodup
  simp only [List.nodup_cons, List.nodup_append, List.mem_append, List.mem_cons, not_or] at hn
  have m : ∀ z, z = t ∨ z ∈ Y ∨ z = s ∨ z ∈ X → z ∈ t :: (Y ++ s :: X) := by
    intro z; simp only [List.mem_cons, List.mem_append]; exact id
  have n1 : t ≠ y := by rintro rfl; exact hn.1.1 my
  have n2 : t ≠ s := hn.1.2.1
  have n3 : t ≠ p := by rintro rfl; exact hn.1.2.2 mp
  have n4 : y ≠ s := hn.2.2.2 y my s (.inl rfl)
  have n5 : y ≠ p := hn.2.2.2 y my p (.inr mp)
  have n6 : s ≠ p := by rintro rfl; exact hn.2.2.1.1 mp
  have t1 := hs.gp t (m t (by tauto)) y (m y (by tauto)) s (m s (by tauto)) n1 n2 n4
  have t2 := hs.gp t (m t (by tauto)) s (m s (by tauto)) p (m p (by tauto)) n2 n3 n6
  have t3 := hs.gp t (m t (by tauto)) p (m p (by tauto)) y (m y (by tauto)) n3 n1 n5.symm
  refine ⟨?_, t1, t2, t3⟩
  have e := level_cut (v := t) (c := y) (q := s) (a := p) (l₁ := Y) (l₂ := X) (by rw [List.head?_append, hy]; rfl)
    (by rw [List.getLast?_cons_of_ne_nil h.nX]; exact hp) t3
  have lx : 1 ≤ X.length := List.length_pos_iff.2 h.nX
  have e1 : level (t :: s :: X) = 1 := by
    rw [← h.lA]
    exact ((h.simpleA.level_rot (by simp; omega) (isRotated_append (l := s :: X) (l' := [t])))).symm
  have e2 := hs.level_cases (by simp; omega)
  rw [h.lB, e1] at e
  have := cyc3_cases t1 t2 t3
  omega

/-! ### One part of a cut polygon lies outside the other -/

theorem const_path {α : Type} {β : Type} (f : α → β) {l : List α} {y : α} (hy : l.head? = some y)
    (h : ∀ e ∈ pathEdges l, f e.1 = f e.2) : ∀ z ∈ l, f z = f y := by
  induction l generalizing y with
  | nil => intro z hz; cases hz
  | cons a l ih =>
    cases hy
    intro z hz
    rcases List.mem_cons.1 hz with rfl | hz
    · rfl
    · cases l with
      | nil => cases hz
      | cons b l =>
        rw [ih (y := b) rfl (fun e he => h e (by rw [pathEdges_cons]; exact List.mem_cons_of_mem _ he)) z hz]
        exact (h (a, b) (by rw [pathEdges_cons]; exact List.mem_cons_self ..)).symm

theorem Cut.outside {s t : V2 K} {X Y : List (V2 K)} (h : Cut s t X Y) : ∀ y ∈ Y, wind (s :: (X ++ [t])) y = 0 := by
  obtain ⟨y, Y', rfl⟩ := List.exists_cons_of_ne_nil h.nY
  obtain ⟨X', p, hX⟩ : ∃ X' p, X = X' ++ [p] := by
    rcases List.eq_nil_or_concat X with h0 | ⟨m, a, h0⟩
    · exact absurd h0 h.nX
    · exact ⟨m, a, by rw [h0, List.concat_eq_append]⟩
  have hp : X.getLast? = some p := by rw [hX]; simp
  obtain ⟨hcyc, t1, t2, t3⟩ := h.cyc rfl hp
  have hs := h.simple
  have hn := hs.nodup
  have hA := h.simpleA
  have rA : (s :: (X ++ [t])) ~r (t :: s :: X) := isRotated_append (l := s :: X) (l' := [t])
  have hlen : 1 ≤ X.length := List.length_pos_iff.2 h.nX
  -- edges of the polygon do not cross those of the part
  have mA : ∀ z ∈ s :: (X ++ [t]), z ∈ s :: (X ++ t :: y :: Y') := by
    intro z hz
    simp only [List.mem_cons, List.mem_append, List.mem_nil_iff, or_false] at hz ⊢
    tauto
  have nY : ∀ z ∈ y :: Y', z ∉ s :: (X ++ [t]) := by
    intro z hz hz'
    simp only [List.nodup_cons, List.nodup_append, List.mem_append, List.mem_cons, not_or] at hn
    simp only [List.mem_cons, List.mem_append, List.mem_nil_iff, or_false] at hz hz'
    rcases hz' with rfl | hz' | rfl
    · rcases hz with rfl | hz
      · exact hn.1.2.2.1 rfl
      · exact hn.1.2.2.2 hz
    · exact hn.2.2.2 z hz' z (.inr hz) rfl
    · rcases hz with rfl | hz
      · exact hn.2.2.1.1.1 rfl
      · exact hn.2.2.1.1.2 hz
  have eP : ∀ e ∈ pathEdges (t :: ((y :: Y') ++ [s])), e ∈ loopEdges (s :: (X ++ t :: y :: Y')) := by
    intro e he
    rw [loopEdges_join]; exact List.mem_append_right _ he
  have eA : ∀ e ∈ loopEdges (s :: (X ++ [t])), e ∈ loopEdges (s :: (X ++ t :: y :: Y')) ∨ e = (t, s) := by
    intro e he
    rw [loopEdges_close, List.mem_append, List.mem_singleton] at he
    rw [loopEdges_join, List.mem_append]
    exact he.imp .inl id
  have neA : ∀ e ∈ loopEdges (s :: (X ++ [t])), e.1 ≠ e.2 := by
    intro e he
    rw [loopEdges_close, List.mem_append, List.mem_singleton] at he
    rcases he with he | rfl
    · exact ne_of_pathEdges hA.nodup he
    · intro h0
      have := hA.nodup
      rw [List.nodup_cons] at this
      exact this.1 (by rw [show s = t from h0.symm]; simp)
  have mY : ∀ z ∈ y :: Y', z ∈ s :: (X ++ t :: y :: Y') := by
    intro z hz
    exact List.mem_cons_of_mem _ (List.mem_append_right _ (List.mem_cons_of_mem _ hz))
  have noX : ∀ e ∈ pathEdges (t :: ((y :: Y') ++ [s])), ∀ f ∈ loopEdges (s :: (X ++ [t])), ¬ Cross e.1 e.2 f.1 f.2 := by
    intro e he f hf
    rcases eA f hf with hf | rfl
    · exact hs.nocross e (eP e he) f hf
    · exact fun k => h.clear e (eP e he) k.symm.swap
  have base : wind (s :: (X ++ [t])) y = 0 := by
    rw [wind_perm (loopEdges_rot rA)]
    have my : y ∈ y :: Y' := List.mem_cons_self ..
    have mt : t ∈ s :: (X ++ [t]) := by simp
    have ytA : y ≠ t := fun h0 => nY y my (h0 ▸ mt)
    rw [wind_corner (c := s) (a := p) rfl (by rw [List.getLast?_cons_of_ne_nil h.nX]; exact hp) (fun e he => ?_)
      (by rw [tri_swap]; exact neg_ne_zero.2 t1) (by rw [tri_rot' t p y]; exact t3)
      (by rw [tri_swap']; exact neg_ne_zero.2 t2)]
    · rw [← hA.level_rot (by simp; omega) rA, h.lA]
      have r1 := cyc3_rev t1 t2 t3
      have r2 := cyc3_rot t p s y
      omega
    · have heA : e ∈ loopEdges (s :: (X ++ [t])) := by
        rw [loopEdges_close, hX]
        apply List.mem_append_left
        have : s :: (X' ++ [p] ++ [t]) = (s :: X') ++ [p, t] := by simp
        rw [this, pathEdges_concat]
        apply List.mem_append_left
        rw [hX] at he; exact he
      have m12 := mem_of_loopEdges heA
      have m12' := mem_of_pathEdges he
      have ntX : t ∉ s :: X := by
        have := (hA.rot rA).nodup
        rw [List.nodup_cons] at this
        exact this.1
      refine hs.clear (mY y my) (mA t mt) (mA _ m12.1) (mA _ m12.2) ytA (neA e heA)
        (fun h0 => nY y my (h0 ▸ m12.1)) (fun h0 => nY y my (h0 ▸ m12.2)) (fun h0 => ntX (h0 ▸ m12'.1))
        (fun h0 => ntX (h0 ▸ m12'.2)) ?_
      intro k
      exact noX (t, y) (by rw [List.cons_append, pathEdges_cons]; exact List.mem_cons_self ..) e heA k.swap
  intro z hz
  rw [← base]
  refine const_path (fun z => wind (s :: (X ++ [t])) z) rfl (fun e he => ?_) z hz
  have h12 := mem_of_pathEdges he
  have hnY : (y :: Y').Nodup := hn.sublist (by
    refine List.Sublist.cons _ ((List.Sublist.cons _ (List.Sublist.refl _)).trans (List.sublist_append_right _ _)))
  refine wind_step fun f hf => ?_
  have f12 := mem_of_loopEdges hf
  refine hs.clear (mY _ h12.1) (mY _ h12.2) (mA _ f12.1) (mA _ f12.2) (ne_of_pathEdges hnY he) (neA f hf)
    (fun h0 => nY _ h12.1 (h0 ▸ f12.1)) (fun h0 => nY _ h12.1 (h0 ▸ f12.2)) (fun h0 => nY _ h12.2 (h0 ▸ f12.1))
    (fun h0 => nY _ h12.2 (h0 ▸ f12.2)) ?_
  refine noX e ?_ f hf
  rw [List.cons_append, pathEdges_cons]
  apply List.mem_cons_of_mem
  rcases List.eq_nil_or_concat Y' with h0 | ⟨m, a, h0⟩
  · subst h0; cases he
  · subst h0
    have : y :: (m ++ [a] ++ [s]) = (y :: m) ++ [a, s] := by simp
    rw [List.concat_eq_append] at *
    rw [this, pathEdges_concat]
    exact List.mem_append_left _ he

end Geom3d.Winding
