import Verif.Props.MeshgenDistinct
import Verif.Lemmas.Real3

/-! # C97: the vertices the advancing front adds -/

set_option linter.unusedSectionVars false

namespace Geom3d

section
variable {F : Type} [Add F] [Sub F] [Mul F] [Div F] [Neg F] [Zero F] [One F] [NatCast F] [LT F] [DecidableLT F]
  [LE F] [DecidableLE F] [Env F]

/-- The added vertices so far: vertex `i` is the apex of the triangle `(u, v, i)`. -/
def ApexInv (n : Nat) (s : FrontState F) : Prop :=
  n ≤ s.vertices.length ∧ (∃ k, s.triangles.length = 3 * k) ∧ ∀ i, n ≤ i → i < s.vertices.length →
    ∃ k u v a b, s.triangles[3 * k]? = some u ∧ s.triangles[3 * k + 1]? = some v ∧ s.triangles[3 * k + 2]? = some i ∧
      u < i ∧ v < i ∧ s.vertices[u]? = some a ∧ s.vertices[v]? = some b ∧
      s.vertices[i]? = some (pointOnNormalBisector a b Env.halfSqrt3)

theorem idx_getElem? {α : Type} {l : List α} {i : Nat} {a : α} (h : idx l i = .ok a) : l[i]? = some a := by
  unfold idx at h
  split at h
  · rename_i x hx
    cases h; exact hx
  · cases h

theorem frontStep_apex {pick : List (Nat × F) → Option Nat} {fuel n : Nat} {s s' : FrontState F}
    {e : Nat × Nat} (hI : ApexInv n s) (h : frontStep pick fuel s e = .ok s') : ApexInv n s' := by
  obtain ⟨hn, ⟨m, hm⟩, hI⟩ := hI
  unfold frontStep at h
  simp only [bind_eq_ok] at h
  obtain ⟨a, ha, b, hb, o, ho, h⟩ := h
  have grow : ∀ (w : List (V2 F)) (t : List Nat) i, n ≤ i → i < s.vertices.length →
      ∃ k u v a b, (s.triangles ++ t)[3 * k]? = some u ∧ (s.triangles ++ t)[3 * k + 1]? = some v ∧
      (s.triangles ++ t)[3 * k + 2]? = some i ∧
      u < i ∧ v < i ∧ (s.vertices ++ w)[u]? = some a ∧ (s.vertices ++ w)[v]? = some b ∧
      (s.vertices ++ w)[i]? = some (pointOnNormalBisector a b Env.halfSqrt3) := by
    intro w t i h1 h2
    obtain ⟨k, u, v, a, b, g1, g2, g3, g4, g5, g6, g7, g8⟩ := hI i h1 h2
    have app : ∀ {α : Type} {l r : List α} {j : Nat} {x : α}, l[j]? = some x → (l ++ r)[j]? = some x := by
      intro α l r j x hx
      rw [List.getElem?_append_left (List.getElem?_eq_some_iff.1 hx).1]; exact hx
    exact ⟨k, u, v, a, b, app g1, app g2, app g3, g4, g5, app g6, app g7, app g8⟩
  cases o with
  | some node =>
    cases h
    refine ⟨hn, ⟨m + 1, by simp [hm]; ring⟩, ?_⟩
    intro i h1 h2
    simpa using grow [] [e.1, e.2, node] i h1 h2
  | none =>
    cases h
    refine ⟨by simp only [List.length_append]; omega, ⟨m + 1, by simp [hm]; ring⟩, ?_⟩
    intro i h1 h2
    simp only [List.length_append, List.length_singleton] at h2
    by_cases hi : i < s.vertices.length
    · exact grow _ _ i h1 hi
    · have hi' : i = s.vertices.length := by omega
      subst hi'
      have ga := idx_getElem? ha
      have gb := idx_getElem? hb
      have la := (List.getElem?_eq_some_iff.1 ga).1
      have lb := (List.getElem?_eq_some_iff.1 gb).1
      refine ⟨m, e.1, e.2, a, b, ?_, ?_, ?_, la, lb, ?_, ?_, ?_⟩
      · rw [List.getElem?_append_right (by omega)]; simp [hm]
      · rw [List.getElem?_append_right (by omega)]; simp [hm]
      · rw [List.getElem?_append_right (by omega)]; simp [hm]
      · simp only; rw [List.getElem?_append_left la]; exact ga
      · simp only; rw [List.getElem?_append_left lb]; exact gb
      · simp

theorem frontLoop_apex {pick : List (Nat × F) → Option Nat} {innerFuel n : Nat} (fuel : Nat) {s s' : FrontState F}
    (hI : ApexInv n s) (h : frontLoop pick innerFuel fuel s = .ok s') : ApexInv n s' := by
  induction fuel generalizing s with
  | zero => cases h
  | succ fuel ih =>
    unfold frontLoop at h
    split at h
    · cases h; exact hI
    · rw [bind_eq_ok] at h
      obtain ⟨s1, h1, h2⟩ := h
      exact ih (frontStep_apex (s := { s with front := s.front.dropLast }) hI h1) h2

/-- **C97**, any arithmetic: every added vertex is the point the code puts over an edge of earlier vertices, and together
with that edge it is a triangle of the mesh. -/
theorem C97_apex {pick : List (Nat × F) → Option Nat} {innerFuel fuel : Nat}
    {points : List (V2 F)} {polygons : List Nat} {V : List (V2 F)} {T : List Nat}
    (h : generateTriangularMesh pick innerFuel fuel points polygons = .ok (V, T)) {i : Nat}
    (h1 : points.length ≤ i) (h2 : i < V.length) :
    ∃ k u v a b, T[3 * k]? = some u ∧ T[3 * k + 1]? = some v ∧ T[3 * k + 2]? = some i ∧ u < i ∧ v < i ∧
      V[u]? = some a ∧ V[v]? = some b ∧ V[i]? = some (pointOnNormalBisector a b Env.halfSqrt3) := by
  unfold generateTriangularMesh at h
  simp only [bind_eq_ok] at h
  obtain ⟨front, -, s, hs, h⟩ := h
  cases h
  exact (frontLoop_apex fuel ⟨le_refl _, ⟨0, rfl⟩, fun i h1 h2 => absurd h2 (by simp only at *; omega)⟩ hs).2.2 i h1 h2

end

section
open Spec

theorem V2.length_sq' (a : V2 ℝ) : a.length ^ 2 = a.x * a.x + a.y * a.y :=
  Real.sq_sqrt (by
    show 0 ≤ a.x * a.x + a.y * a.y
    nlinarith [mul_self_nonneg a.x, mul_self_nonneg a.y])

/-- Over the reals: over an edge of length at least `0.001` the point is on the left at height `ratio` times the length;
over shorter edges the height is `ratio / 100`. -/
theorem bisector_point (a b : V2 ℝ) (r : ℝ) (hab : a ≠ b) :
    ∃ L H : ℝ, 0 < L ∧ L ^ 2 = (b.x - a.x) ^ 2 + (b.y - a.y) ^ 2 ∧ H = (if L < 1 / 1000 then 1 / 100 else L) ∧
      triArea2 a b (pointOnNormalBisector a b r) = r * H * L ∧
      ((pointOnNormalBisector a b r).x - a.x) ^ 2 + ((pointOnNormalBisector a b r).y - a.y) ^ 2 = L ^ 2 / 4 + (r * H) ^ 2 ∧
      ((pointOnNormalBisector a b r).x - b.x) ^ 2 + ((pointOnNormalBisector a b r).y - b.y) ^ 2
        = L ^ 2 / 4 + (r * H) ^ 2 := by
  have hsq : (b - a).perp.length ^ 2 = (b.x - a.x) ^ 2 + (b.y - a.y) ^ 2 := by
    rw [V2.length_sq']
    simp only [V2.perp, V2.sub_x, V2.sub_y]; ring
  have hpos : 0 < (b.x - a.x) ^ 2 + (b.y - a.y) ^ 2 := by
    by_contra hn
    have h1 := sq_nonneg (b.x - a.x)
    have h2 := sq_nonneg (b.y - a.y)
    have e1 : (b.x - a.x) ^ 2 = 0 := by linarith
    have e2 : (b.y - a.y) ^ 2 = 0 := by linarith
    apply hab
    ext
    · exact (sub_eq_zero.1 (pow_eq_zero_iff (by norm_num) |>.1 e1)).symm
    · exact (sub_eq_zero.1 (pow_eq_zero_iff (by norm_num) |>.1 e2)).symm
  have hL : 0 < (b - a).perp.length := by
    have h0 : 0 ≤ (b - a).perp.length := Real.sqrt_nonneg _
    rcases h0.lt_or_eq with h | h
    · exact h
    · rw [← h] at hsq; norm_num at hsq; linarith
  have hmin : (Env.minGrid : ℝ) = 1 / 1000 := rfl
  have hhun : (Env.hundredth : ℝ) = 1 / 100 := by norm_num [Env.hundredth]
  unfold pointOnNormalBisector
  simp only [V2.normalize, hmin, hhun]
  generalize hLL : (b - a).perp.length = L at *
  have hdiv : ∀ (p : V2 ℝ), (p / ((2 : Nat) : ℝ)).x = p.x / 2 ∧ (p / ((2 : Nat) : ℝ)).y = p.y / 2 := by
    intro p; exact ⟨by show p.x / _ = _; norm_num, by show p.y / _ = _; norm_num⟩
  have hmul : ∀ (p : V2 ℝ) (s : ℝ), (p * s).x = p.x * s ∧ (p * s).y = p.y * s := fun p s => ⟨rfl, rfl⟩
  have hpp : (b - a).perp.x = -(b.y - a.y) ∧ (b - a).perp.y = b.x - a.x := ⟨rfl, rfl⟩
  by_cases hlt : L < 1 / 1000
  · refine ⟨L, 1 / 100, hL, hsq, by rw [if_pos hlt], ?_, ?_, ?_⟩
    · rw [if_pos hlt]
      simp only [triArea2, V2.add_x, V2.add_y, hdiv, hmul, hpp]
      field_simp
      linear_combination (-(2 : ℝ) * r) * hsq
    · rw [if_pos hlt]
      simp only [V2.add_x, V2.add_y, hdiv, hmul, hpp]
      field_simp
      linear_combination (-(40000 * L ^ 2 + 16 * r ^ 2)) * hsq
    · rw [if_pos hlt]
      simp only [V2.add_x, V2.add_y, hdiv, hmul, hpp]
      field_simp
      linear_combination (-(40000 * L ^ 2 + 16 * r ^ 2)) * hsq
  · refine ⟨L, L, hL, hsq, by rw [if_neg hlt], ?_, ?_, ?_⟩
    · rw [if_neg hlt]
      simp only [triArea2, V2.add_x, V2.add_y, hdiv, hmul, hpp]
      linear_combination (-r) * hsq
    · rw [if_neg hlt]
      simp only [V2.add_x, V2.add_y, hdiv, hmul, hpp]
      linear_combination (-(1 / 4 + r ^ 2)) * hsq
    · rw [if_neg hlt]
      simp only [V2.add_x, V2.add_y, hdiv, hmul, hpp]
      linear_combination (-(1 / 4 + r ^ 2)) * hsq

/-- **C97**, over the reals: an added vertex is, together with the edge it was put over, a triangle of the mesh; it lies
strictly to the left of that edge at equal distances from its ends.  Over an edge of length `L ≥ 0.001` the triangle is
equilateral up to a relative error `10⁻¹³` of the squared sides; over a shorter edge its height is `0.00866…` instead. -/
theorem C97_new_vertices {pick : List (Nat × ℝ) → Option Nat} {innerFuel fuel : Nat}
    {points : List (V2 ℝ)} {polygons : List Nat} {V : List (V2 ℝ)} {T : List Nat}
    (h : generateTriangularMesh pick innerFuel fuel points polygons = .ok (V, T)) {i : Nat}
    (h1 : points.length ≤ i) (h2 : i < V.length) :
    ∃ k u v a b q, T[3 * k]? = some u ∧ T[3 * k + 1]? = some v ∧ T[3 * k + 2]? = some i ∧ u < i ∧ v < i ∧
      V[u]? = some a ∧ V[v]? = some b ∧ V[i]? = some q ∧ (a ≠ b →
        0 < triArea2 a b q ∧
        (q.x - a.x) ^ 2 + (q.y - a.y) ^ 2 = (q.x - b.x) ^ 2 + (q.y - b.y) ^ 2 ∧
        ((1 / 1000) ^ 2 ≤ (b.x - a.x) ^ 2 + (b.y - a.y) ^ 2 →
          |(q.x - a.x) ^ 2 + (q.y - a.y) ^ 2 - ((b.x - a.x) ^ 2 + (b.y - a.y) ^ 2)|
            ≤ 1 / 10 ^ 13 * ((b.x - a.x) ^ 2 + (b.y - a.y) ^ 2)) ∧
        ((b.x - a.x) ^ 2 + (b.y - a.y) ^ 2 < (1 / 1000) ^ 2 →
          |(q.x - a.x) ^ 2 + (q.y - a.y) ^ 2 - ((b.x - a.x) ^ 2 + (b.y - a.y) ^ 2) / 4 - 3 / 4 / 100 ^ 2| ≤ 1 / 10 ^ 17)) := by
  obtain ⟨k, u, v, a, b, g1, g2, g3, g4, g5, g6, g7, g8⟩ := C97_apex h h1 h2
  refine ⟨k, u, v, a, b, _, g1, g2, g3, g4, g5, g6, g7, g8, fun hab => ?_⟩
  obtain ⟨L, H, hL, hsq, hH, e1, e2, e3⟩ := bisector_point a b Env.halfSqrt3 hab
  have hr : (Env.halfSqrt3 : ℝ) = 17320508075689 / 20000000000000 := rfl
  have hH0 : 0 < H := by rw [hH]; split <;> [norm_num; exact hL]
  rw [e1, e2, e3, ← hsq, hr]
  refine ⟨by positivity, rfl, ?_, ?_⟩
  · intro hl
    have hl' : 1 / 1000 ≤ L := by
      by_contra hn
      have hn := not_le.1 hn
      nlinarith
    rw [hH, if_neg (not_lt.2 hl')]
    have hL2 : 0 < L ^ 2 := by positivity
    rw [abs_le]
    constructor <;> nlinarith
  · intro hl
    have hl' : L < 1 / 1000 := by
      by_contra hn
      have hn := not_lt.1 hn
      nlinarith
    rw [hH, if_pos hl', abs_le]
    constructor <;> norm_num

end

/-- Non-vacuity in binary64: meshing a rectangle adds vertex `6` over the edge `5 → 0`. -/
example : (generateTriangularMesh (fun l => (pickMax l).map Prod.fst) 20 50
    ([⟨0, 0⟩, ⟨1, 0⟩, ⟨2, 0⟩, ⟨2, 1⟩, ⟨1, 1⟩, ⟨0, 1⟩] : List (V2 Float)) [0, 6]).map
      (fun r => (r.1.length, r.2.take 3, r.1[6]?.map fun p => (p.x.toBits, p.y.toBits)))
      = .ok (7, [5, 0, 6], some (0x3febb67ae8584d11, 0x3fe0000000000000)) := by decide +kernel

end Geom3d
