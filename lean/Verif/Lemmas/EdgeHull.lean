import Verif.Lemmas.Picks
import Verif.Props.Polyline
import Verif.Props.Conics
import Mathlib.Data.List.Sort
import Mathlib.Tactic.IntervalCases

/-!
# Polygons whose corners are cut by lines, polylines and arcs
-/

set_option linter.unusedSectionVars false

namespace Geom3d
open Spec

section
variable {K P : Type} [Field K] [LinearOrder K] [IsStrictOrderedRing K] [AddCommGroup P] [Module K P]

/-- A point is put on a side. -/
theorem cut_side (a b : P) {s : K} (h0 : 0 ≤ s) (h1 : s ≤ 1) : CutCorners K [a, b] [a, a + s • (b - a), b] := by
  refine ⟨fun i => if i = 1 then s else 0, fun j => ?_, rfl, rfl, fun i hi => ?_⟩
  · dsimp only
    split
    · exact ⟨h0, h1⟩
    · exact ⟨le_refl _, zero_le_one⟩
  · simp only [List.length_cons, List.length_nil] at hi
    interval_cases i <;> simp
    module

/-- The two sides at the middle corner are shortened, and a point is put between their new ends. -/
theorem cut_corner {a t b x y u : P} {s s' r : K} (hs : 0 ≤ s ∧ s ≤ 1) (hs' : 0 ≤ s' ∧ s' ≤ 1) (hr : 0 ≤ r ∧ r ≤ 1)
    (hx : x = s • t + (1 - s) • a) (hy : y = s' • b + (1 - s') • t) (hu : u = r • y + (1 - r) • x) :
    Refines K [a, t, b] [a, x, u, y, b] := by
  refine (Refines.refl.step (l'' := [a, x, y, b]) ?_).step ?_
  · refine ⟨fun i => if i = 1 then s else if i = 2 then s' else 0, fun j => ?_, rfl, rfl, fun i hi => ?_⟩
    · dsimp only
      split
      · exact hs
      · split
        · exact hs'
        · exact ⟨le_refl _, zero_le_one⟩
    · simp only [List.length_cons, List.length_nil] at hi
      interval_cases i <;> simp
      · exact hx
      · exact hy
  · refine ⟨fun i => if i = 1 then 1 else if i = 2 then r else 0, fun j => ?_, rfl, rfl, fun i hi => ?_⟩
    · dsimp only
      split
      · exact ⟨zero_le_one, le_refl _⟩
      · split
        · exact hr
        · exact ⟨le_refl _, zero_le_one⟩
    · simp only [List.length_cons, List.length_nil] at hi
      interval_cases i <;> simp
      exact hu

/-- A corner is doubled. -/
theorem cut_double (a b : P) (l : List P) : Refines K (a :: b :: l) (a :: b :: b :: l) := by
  have h : CutCorners K [a, b] [a, a + (1 : K) • (b - a), b] := cut_side a b zero_le_one (le_refl _)
  rw [one_smul, add_sub_cancel] at h
  exact (Refines.refl.step h).append (by simp) l

/-- Points of a side, in order. -/
theorem side_traces (b : P) : ∀ (a : P) {ss : List K}, (∀ s ∈ ss, 0 ≤ s ∧ s ≤ 1) → ss.Pairwise (· ≤ ·) →
    Traces K [a, b] (ss.map fun s => a + s • (b - a))
  | a, [], _, _ => ⟨by simp, _, .refl, .nil _⟩
  | a, s :: ss, h, hs => by
    have h0 := h s (by simp)
    set x := a + s • (b - a) with hx
    rcases eq_or_lt_of_le h0.2 with h1 | h1
    · have hxb : x = b := by rw [hx, h1, one_smul, add_sub_cancel]
      have : (s :: ss).map (fun s => a + s • (b - a)) = List.replicate (ss.length + 1) b := by
        refine List.eq_replicate_iff.2 ⟨by simp, fun y hy => ?_⟩
        obtain ⟨s', hs', rfl⟩ := List.mem_map.1 hy
        have e : s' = 1 := by
          rcases List.mem_cons.1 hs' with rfl | hs'
          · exact h1
          · exact le_antisymm (h s' (by simp [hs'])).2 (h1 ▸ (List.pairwise_cons.1 hs).1 s' hs')
        rw [e, one_smul, add_sub_cancel]
      rw [this]
      have key : ∀ n, Picks (List.replicate n b) [b] := by
        intro n
        induction n with
        | zero => exact .nil _
        | succ n ih => exact .take b ih
      exact ⟨by simp, _, .refl, .skip a (key _)⟩
    · have hpos : 0 < 1 - s := by linarith
      obtain ⟨-, l, i1, i2⟩ := side_traces b x (ss := ss.map fun s' => (s' - s) / (1 - s)) (by
        intro r hr
        obtain ⟨s', hs', rfl⟩ := List.mem_map.1 hr
        have e1 := (List.pairwise_cons.1 hs).1 s' hs'
        have e2 := (h s' (by simp [hs'])).2
        exact ⟨div_nonneg (by linarith) hpos.le, (div_le_one hpos).2 (by linarith)⟩) (by
        rw [List.pairwise_map]
        refine (List.pairwise_cons.1 hs).2.imp fun {p q} hpq => ?_
        exact div_le_div_of_nonneg_right (by linarith) hpos.le)
      have e : (ss.map fun s' => (s' - s) / (1 - s)).map (fun r => x + r • (b - x)) = ss.map fun s => a + s • (b - a) := by
        rw [List.map_map]
        refine List.map_congr_left fun s' _ => ?_
        show x + ((s' - s) / (1 - s)) • (b - x) = _
        have e1 : b - x = (1 - s) • (b - a) := by rw [hx]; module
        rw [e1, smul_smul, div_mul_cancel₀ _ hpos.ne', hx]
        module
      rw [e] at i2
      have c1 : Refines K [a, b] [a, x, x, b] := by
        have h2 : CutCorners K [a, x] [a, a + (1 : K) • (x - a), x] := cut_side a x zero_le_one (le_refl _)
        rw [one_smul, add_sub_cancel] at h2
        exact (Refines.refl.step (cut_side a b h0.1 h0.2)).step (h2.append (by simp) [b])
      exact ⟨by simp, [a, x] ++ l, c1.trans (i1.prepend (by simp) [a, x]), .skip a (.take x (.skip x i2))⟩
termination_by _ ss => ss.length

end

/-- Points of a polyline at increasing arc lengths. -/
theorem polyline_traces : ∀ (vs : List (V3 ℝ)), 2 ≤ vs.length → ∀ {ss : List ℝ} {xs : List (V3 ℝ)}, ss.Pairwise (· ≤ ·) →
    List.Forall₂ (fun s x => AtArc vs s x) ss xs → Traces ℝ vs xs := by
  intro vs
  induction vs with
  | nil => intro h; simp at h
  | cons a vs ih =>
    rcases vs with _ | ⟨b, l⟩
    · intro h; simp at h
    intro _ ss xs hs hx
    have first : ∀ {s x}, AtArc (a :: b :: l) s x → s ≤ dist3 a b →
        (0 ≤ s / dist3 a b ∧ s / dist3 a b ≤ 1) ∧ x = a + (s / dist3 a b) • (b - a) := by
      intro s x h hle
      have h0 := h.nonneg
      have hd : (0 : ℝ) ≤ dist3 a b := dist3_nonneg a b
      have hl : 0 ≤ s / dist3 a b ∧ s / dist3 a b ≤ 1 := ⟨div_nonneg h0 hd, div_le_one_of_le₀ hle hd⟩
      refine ⟨hl, ?_⟩
      have := AtArc.here a b l (s / dist3 a b) hl.1 hl.2
      have e : s / dist3 a b * dist3 a b = s := by
        rcases eq_or_lt_of_le hd with h' | h'
        · rw [← h', mul_zero]
          rw [← h'] at hle
          exact le_antisymm h0 hle
        · exact div_mul_cancel₀ _ h'.ne'
      rw [e] at this
      rw [atArc_unique h this, segPoint3_eq]
    have hsplit : ∃ (ss₁ ss₂ : List ℝ) (xs₂ : List (V3 ℝ)), xs = (ss₁.map fun s => a + s • (b - a)) ++ xs₂ ∧ (∀ s ∈ ss₁, 0 ≤ s ∧ s ≤ 1) ∧ ss₁.Pairwise (· ≤ ·) ∧
        ss₂.Pairwise (· ≤ ·) ∧ List.Forall₂ (fun s x => AtArc (b :: l) s x) ss₂ xs₂ ∧ ∀ r ∈ ss₁, ∃ s ∈ ss, r = s / dist3 a b := by
      induction hx with
      | nil => exact ⟨[], [], [], rfl, by simp, .nil, .nil, .nil, by simp⟩
      | @cons s x ss xs h1 h2 ih' =>
        obtain ⟨hs1, hs2⟩ := List.pairwise_cons.1 hs
        rcases le_or_gt s (dist3 a b) with hle | hgt
        · obtain ⟨ss₁, ss₂, xs₂, rfl, i1, i2, i3, i4, i5⟩ := ih' hs2
          obtain ⟨f1, f2⟩ := first h1 hle
          refine ⟨s / dist3 a b :: ss₁, ss₂, xs₂, by rw [f2]; rfl, ?_, List.pairwise_cons.2 ⟨fun r hr => ?_, i2⟩, i3, i4, ?_⟩
          · intro r hr
            rcases List.mem_cons.1 hr with rfl | hr
            · exact f1
            · exact i1 r hr
          · obtain ⟨s', h3, rfl⟩ := i5 r hr
            exact div_le_div_of_nonneg_right (hs1 s' h3) (dist3_nonneg a b)
          · intro r hr
            rcases List.mem_cons.1 hr with rfl | hr
            · exact ⟨s, by simp, rfl⟩
            · obtain ⟨s', h3, rfl⟩ := i5 r hr
              exact ⟨s', by simp [h3], rfl⟩
        · have rest : ∀ {s x}, AtArc (a :: b :: l) s x → dist3 a b < s → AtArc (b :: l) (s - dist3 a b) x := by
            intro s x h hlt
            cases h with
            | here _ _ _ lam h0 h1 =>
              have := mul_le_mul_of_nonneg_right h1 (dist3_nonneg a b)
              rw [one_mul] at this
              exact absurd hlt (not_lt.2 this)
            | there _ _ _ r _ h => rwa [add_sub_cancel_left]
          refine ⟨[], (s :: ss).map (· - dist3 a b), x :: xs, rfl, by simp, .nil, ?_, ?_, by simp⟩
          · rw [List.pairwise_map]
            exact hs.imp fun h => by linarith
          · rw [List.forall₂_map_left_iff]
            refine .cons (rest h1 hgt) ?_
            clear ih'
            induction h2 with
            | nil => exact .nil
            | cons h3 _ ih'' =>
              refine .cons (rest h3 (hgt.trans_le (hs1 _ (by simp)))) (ih'' ?_ (fun r hr => hs1 r (by simp [hr])) (List.pairwise_cons.1 hs2).2)
              exact List.pairwise_cons.2 ⟨fun r hr => hs1 r (by simp [hr]), (List.pairwise_cons.1 hs2).2⟩
    obtain ⟨ss₁, ss₂, xs₂, rfl, i1, i2, i3, i4, -⟩ := hsplit
    have t1 := side_traces b a i1 i2
    rcases l with _ | ⟨c, l⟩
    · rcases i4 with _ | ⟨h, -⟩
      · simpa using t1
      · cases h
    · have t2 := t1.append (ih (by simp) i3 i4)
      obtain ⟨-, m, m1, m2⟩ := t2
      exact ⟨by simp, m, (cut_double a b (c :: l)).trans m1, m2⟩

/-! ### Arcs -/

/-- Where the tangents of the circle at the angles `a` and `b` meet. -/
noncomputable def Spec.tangentMeet (c : Circle ℝ) (a b : ℝ) : V3 ℝ :=
  c.center + (c.radius / Real.cos ((b - a) / 2)) •
    (Real.cos ((a + b) / 2) • c.refDir + Real.sin ((a + b) / 2) • c.axis.cross c.refDir)

/-- The polygon around an arc: its points at the given angles and the meets of their tangents. -/
noncomputable def Spec.arcHull (c : Circle ℝ) : List ℝ → List (V3 ℝ)
  | [] => []
  | [a] => [c.getPoint a]
  | a :: b :: l => c.getPoint a :: tangentMeet c a b :: Spec.arcHull c (b :: l)

/-- Angles that increase by less than half a turn at a time. -/
def Spec.ArcAngles (ms : List ℝ) : Prop := ms.IsChain fun a b => a < b ∧ b < a + Real.pi

section
variable {c : Circle ℝ} (h : Framed c)
include h

theorem meet_from (a b : ℝ) (hc : Real.cos ((b - a) / 2) ≠ 0) : tangentMeet c a b = c.getPoint a + (c.radius * Real.tan ((b - a) / 2)) •
    (-Real.sin a • c.refDir + Real.cos a • c.axis.cross c.refDir) := by
  have e : (a + b) / 2 = a + (b - a) / 2 := by ring
  rw [circle_getPoint h, tangentMeet, e, Real.cos_add, Real.sin_add, Real.tan_eq_sin_div_cos]
  have e1 : c.radius / Real.cos ((b - a) / 2) * (Real.cos a * Real.cos ((b - a) / 2) - Real.sin a * Real.sin ((b - a) / 2))
      = c.radius * Real.cos a - c.radius * (Real.sin ((b - a) / 2) / Real.cos ((b - a) / 2)) * Real.sin a := by
    field_simp
  have e2 : c.radius / Real.cos ((b - a) / 2) * (Real.sin a * Real.cos ((b - a) / 2) + Real.cos a * Real.sin ((b - a) / 2))
      = c.radius * Real.sin a + c.radius * (Real.sin ((b - a) / 2) / Real.cos ((b - a) / 2)) * Real.cos a := by
    field_simp
  rw [smul_add, smul_smul, smul_smul, e1, e2]
  module

theorem meet_to (a b : ℝ) (hc : Real.cos ((b - a) / 2) ≠ 0) : tangentMeet c a b = c.getPoint b - (c.radius * Real.tan ((b - a) / 2)) •
    (-Real.sin b • c.refDir + Real.cos b • c.axis.cross c.refDir) := by
  have e1 : tangentMeet c a b = tangentMeet c b a := by
    unfold tangentMeet
    rw [add_comm a b, ← Real.cos_neg, show -((b - a) / 2) = (a - b) / 2 by ring]
  have e2 : Real.cos ((a - b) / 2) = Real.cos ((b - a) / 2) := by rw [← Real.cos_neg]; congr 1; ring
  rw [e1, meet_from h b a (by rw [e2]; exact hc), show (a - b) / 2 = -((b - a) / 2) by ring, Real.tan_neg]
  module

/-- One more angle. -/
theorem arc_cut {a u b : ℝ} (h1 : a < u) (h2 : u < b) (h3 : b < a + Real.pi) :
    Refines ℝ [c.getPoint a, tangentMeet c a b, c.getPoint b]
      [c.getPoint a, tangentMeet c a u, c.getPoint u, tangentMeet c u b, c.getPoint b] := by
  have cpos : ∀ x, 0 < x → x < Real.pi / 2 → 0 < Real.cos x := fun x a1 a2 => Real.cos_pos_of_mem_Ioo ⟨by linarith, a2⟩
  have p1 := cpos ((b - a) / 2) (by linarith) (by linarith)
  have p2 := cpos ((u - a) / 2) (by linarith) (by linarith)
  have p3 := cpos ((b - u) / 2) (by linarith) (by linarith)
  have t2 := Real.tan_pos_of_pos_of_lt_pi_div_two (x := (u - a) / 2) (by linarith) (by linarith)
  have t3 := Real.tan_pos_of_pos_of_lt_pi_div_two (x := (b - u) / 2) (by linarith) (by linarith)
  have m2 := Real.tan_lt_tan_of_nonneg_of_lt_pi_div_two (x := (u - a) / 2) (y := (b - a) / 2) (by linarith) (by linarith) (by linarith)
  have m3 := Real.tan_lt_tan_of_nonneg_of_lt_pi_div_two (x := (b - u) / 2) (y := (b - a) / 2) (by linarith) (by linarith) (by linarith)
  have f1 := meet_from h a b p1.ne'
  have f2 := meet_from h a u p2.ne'
  have g1 := meet_to h a b p1.ne'
  have g3 := meet_to h u b p3.ne'
  have g2 := meet_to h a u p2.ne'
  have f3 := meet_from h u b p3.ne'
  generalize Real.tan ((b - a) / 2) = t at *
  generalize Real.tan ((u - a) / 2) = t' at *
  generalize Real.tan ((b - u) / 2) = t'' at *
  generalize -Real.sin a • c.refDir + Real.cos a • c.axis.cross c.refDir = da at *
  generalize -Real.sin b • c.refDir + Real.cos b • c.axis.cross c.refDir = db at *
  generalize -Real.sin u • c.refDir + Real.cos u • c.axis.cross c.refDir = du at *
  have tp : 0 < t := t2.trans m2
  refine cut_corner (s := t' / t) (s' := 1 - t'' / t) (r := t' / (t' + t'')) ⟨by positivity, (div_le_one tp).2 m2.le⟩
    ⟨by rw [sub_nonneg]; exact (div_le_one tp).2 m3.le, by rw [sub_le_self_iff]; positivity⟩
    ⟨by positivity, (div_le_one (by linarith)).2 (by linarith)⟩ ?_ ?_ ?_
  · rw [f1, f2, smul_add, smul_smul, show t' / t * (c.radius * t) = c.radius * t' by field_simp]
    module
  · rw [g1, g3, smul_sub, smul_smul, sub_sub_cancel, show t'' / t * (c.radius * t) = c.radius * t'' by field_simp]
    module
  · have e : 1 - t' / (t' + t'') = t'' / (t' + t'') := by field_simp; ring
    rw [f3, g2, e, smul_add, smul_sub, smul_smul, smul_smul,
      show t' / (t' + t'') * (c.radius * t'') = t'' / (t' + t'') * (c.radius * t') by ring]
    have e2 : t' / (t' + t'') + t'' / (t' + t'') = 1 := by field_simp
    rw [add_add_sub_cancel, ← add_smul, e2, one_smul]

/-- One more angle among others. -/
theorem arc_insert {u : ℝ} : ∀ {ms : List ℝ}, ArcAngles ms → (∃ a ∈ ms.head?, a ≤ u) → (∃ b ∈ ms.getLast?, u ≤ b) →
    ∃ ms', ArcAngles ms' ∧ ms.Sublist ms' ∧ u ∈ ms' ∧ ms'.head? = ms.head? ∧ ms'.getLast? = ms.getLast? ∧
      Refines ℝ (arcHull c ms) (arcHull c ms')
  | [], _, ⟨a, ha, _⟩, _ => by simp at ha
  | [a], h1, ⟨a', ha, hau⟩, ⟨b, hb, hub⟩ => by
    simp at ha hb
    subst ha; subst hb
    exact ⟨[a], h1, .refl _, by simp [le_antisymm hub hau], rfl, rfl, .refl⟩
  | a :: b :: l, h1, ⟨a', ha, hau⟩, ⟨z, hz, huz⟩ => by
    simp at ha
    subst ha
    have h1' := h1
    unfold ArcAngles at h1
    rw [List.isChain_cons_cons] at h1
    obtain ⟨⟨e1, e2⟩, h2⟩ := h1
    rcases eq_or_lt_of_le hau with rfl | hau
    · exact ⟨_, h1', .refl _, by simp, rfl, rfl, .refl⟩
    rcases lt_or_ge u b with hub | hub
    · refine ⟨a :: u :: b :: l, ?_, .cons_cons a (.cons u (.refl _)), by simp, rfl, by simp, ?_⟩
      · unfold ArcAngles
        rw [List.isChain_cons_cons, List.isChain_cons_cons]
        exact ⟨⟨hau, by linarith⟩, ⟨hub, by linarith⟩, h2⟩
      · obtain ⟨r, hr⟩ : ∃ r, arcHull c (b :: l) = c.getPoint b :: r := by
          rcases l with _ | ⟨d, l⟩
          · exact ⟨[], rfl⟩
          · exact ⟨_, rfl⟩
        show Refines ℝ (c.getPoint a :: tangentMeet c a b :: arcHull c (b :: l))
          (c.getPoint a :: tangentMeet c a u :: c.getPoint u :: tangentMeet c u b :: arcHull c (b :: l))
        rw [hr]
        exact (arc_cut h hau hub e2).append (by simp) r
    · obtain ⟨ms', i1, i2, i3, i4, i5, i6⟩ := arc_insert (ms := b :: l) h2 ⟨b, by simp, hub⟩ ⟨z, by simpa using hz, huz⟩
      obtain ⟨r, rfl⟩ : ∃ r, ms' = b :: r := by
        rcases ms' with _ | ⟨x, r⟩
        · simp at i4
        · simp at i4
          exact ⟨r, by rw [i4]⟩
      refine ⟨a :: b :: r, ?_, .cons_cons a i2, List.mem_cons_of_mem _ i3, rfl, ?_, ?_⟩
      · unfold ArcAngles
        rw [List.isChain_cons_cons]
        exact ⟨⟨e1, e2⟩, i1⟩
      · rw [List.getLast?_cons_cons, i5, List.getLast?_cons_cons]
      · refine i6.prepend (s := arcHull c (b :: l)) ?_ [c.getPoint a, tangentMeet c a b]
        rcases l with _ | ⟨d, l⟩ <;> simp [arcHull]

theorem arc_inserts : ∀ {us : List ℝ} {ms : List ℝ}, ArcAngles ms → (∀ u ∈ us, ∃ a ∈ ms.head?, a ≤ u) →
    (∀ u ∈ us, ∃ b ∈ ms.getLast?, u ≤ b) →
    ∃ ms', ArcAngles ms' ∧ ms.Sublist ms' ∧ (∀ u ∈ us, u ∈ ms') ∧ Refines ℝ (arcHull c ms) (arcHull c ms')
  | [], ms, h1, _, _ => ⟨ms, h1, .refl _, by simp, .refl⟩
  | u :: us, ms, h1, h2, h3 => by
    obtain ⟨ms', i1, i2, i3, i4, i5, i6⟩ := arc_insert h h1 (h2 u (by simp)) (h3 u (by simp))
    obtain ⟨ms'', j1, j2, j3, j4⟩ := arc_inserts (us := us) i1 (fun v hv => by rw [i4]; exact h2 v (by simp [hv]))
      (fun v hv => by rw [i5]; exact h3 v (by simp [hv]))
    refine ⟨ms'', j1, i2.trans j2, fun v hv => ?_, i6.trans j4⟩
    rcases List.mem_cons.1 hv with rfl | hv
    · exact j2.subset i3
    · exact j3 v hv

end

theorem arcHull_points (c : Circle ℝ) : ∀ ms : List ℝ, (ms.map c.getPoint).Sublist (arcHull c ms)
  | [] => .slnil
  | [_] => .refl _
  | _ :: b :: l => .cons_cons _ (.cons _ (arcHull_points c (b :: l)))

theorem Spec.ArcAngles.sorted {ms : List ℝ} (h : ArcAngles ms) : ms.Pairwise (· < ·) :=
  List.isChain_iff_pairwise.1 (h.imp fun _ _ h => h.1)

theorem sublist_sorted : ∀ {us ms : List ℝ}, us.Pairwise (· < ·) → ms.Pairwise (· < ·) → (∀ u ∈ us, u ∈ ms) → us.Sublist ms
  | us, ms, h1, h2, h3 => by
    refine List.sublist_of_subperm_of_pairwise (r := (· < ·)) ?_ h1 h2
    exact List.subperm_of_subset (h1.imp fun h => h.ne) h3

/-- Points of a circle at increasing angles. -/
theorem arc_traces {c : Circle ℝ} (h : Framed c) {us ms : List ℝ} (hms : ArcAngles ms) (hus : us.Pairwise (· < ·))
    (h1 : ∀ u ∈ us, ∃ a ∈ ms.head?, a ≤ u) (h2 : ∀ u ∈ us, ∃ b ∈ ms.getLast?, u ≤ b) (hne : ms ≠ []) :
    Traces ℝ (arcHull c ms) (us.map c.getPoint) := by
  obtain ⟨ms', i1, -, i3, i4⟩ := arc_inserts h hms h1 h2
  refine ⟨?_, _, i4, Picks.of_sublist ?_⟩
  · rcases ms with _ | ⟨a, _ | ⟨b, l⟩⟩
    · exact absurd rfl hne
    · simp [arcHull]
    · simp [arcHull]
  · exact ((sublist_sorted hus i1.sorted i3).map _).trans (arcHull_points c ms')

end Geom3d
