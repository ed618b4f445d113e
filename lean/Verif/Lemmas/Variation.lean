import Verif.Props.Curves

/-!
# Knot insertion as corner cutting

The number of sign changes of the coefficients of a spline does not grow when a knot is inserted, and after inserting
each parameter of interest `degree + 1` times the values of the spline there are among its coefficients.
-/

namespace Geom3d
open Spec Finset

variable {K : Type} [Field K] [LinearOrder K] [IsStrictOrderedRing K]

/-- The parameter `v` lies in span `r` of the domain and the last `q` knots up to `r` are `v`. -/
structure Has (t : Nat → K) (N p q : Nat) (v : K) (r : Nat) : Prop where
  lo : p ≤ r
  hi : r < N
  left : t r ≤ v
  right : v < t (r + 1)
  run : ∀ j, r < j + q → j ≤ r → t j = v

/-- The coefficients after inserting `x` at position `r + 1`. -/
def cut (t : Nat → K) (p r : Nat) (x : K) (a : Nat → K) (j : Nat) : K :=
  boehm t r p x j * a j + (1 - boehm t r p x j) * a (j - 1)

theorem Has.insert {t : Nat → K} {N p q r rv : Nat} {v x : K} (hm : ∀ i j, i ≤ j → j ≤ N + p → t i ≤ t j)
    (h1 : t r ≤ x) (h2 : x < t (r + 1)) (hr : r < N) (h : Has t N p q v rv) :
    ∃ r', Has (insertFn t r x) (N + 1) p (if v = x then q + 1 else q) v r' ∧ oldSpan r r' = rv := by
  have hlo := h.lo; have hhi := h.hi; have hl := h.left; have hrt := h.right
  rcases lt_or_ge v x with hv | hv
  · have hle : rv ≤ r := by
      by_contra hc
      have := hm (r + 1) rv (by omega) (by omega)
      linarith
    refine ⟨rv, ⟨hlo, by omega, ?_, ?_, ?_⟩, by unfold oldSpan; rw [if_pos hle]⟩
    · rw [insertFn_le hle]; exact hl
    · rcases Nat.lt_or_eq_of_le hle with h' | h'
      · rw [insertFn_le (by omega)]; exact hrt
      · rw [h', insertFn_eq]; exact hv
    · rw [if_neg (ne_of_lt hv)]
      intro j hj hj'
      rw [insertFn_le (by omega)]; exact h.run j hj hj'
  · have hge : r ≤ rv := by
      by_contra hc
      have := hm (rv + 1) r (by omega) (by omega)
      linarith
    refine ⟨rv + 1, ⟨by omega, by omega, ?_, ?_, ?_⟩, by unfold oldSpan; rw [if_neg (by omega)]; rfl⟩
    · rcases Nat.lt_or_eq_of_le hge with h' | h'
      · rw [insertFn_gt h']; exact hl
      · rw [← h', insertFn_eq]; exact hv
    · rw [insertFn_gt (by omega)]; exact hrt
    · intro j hj hj'
      rcases Nat.lt_trichotomy j (r + 1) with hc | hc | hc
      · rw [insertFn_le (by omega)]
        split at hj
        · rename_i e
          by_cases h0 : rv < j + q
          · exact h.run j h0 (by omega)
          · -- `j` is just below the old run
            have hrr : rv = r := by
              by_contra hne
              have e3 := hm (r + 1) rv (by omega) (by omega)
              linarith
            omega
        · exact absurd (h.run j (by omega) (by omega)) (by
            have e1 := hm j r (by omega) (by omega)
            intro e2
            rename_i hne
            exact hne (le_antisymm (by linarith) hv))
      · subst hc
        rw [insertFn_eq]
        split at hj
        · rename_i e; exact e.symm
        · rename_i hne
          by_cases h0 : rv < r + q
          · have e3 := h.run r (by omega) hge
            exact absurd (le_antisymm (by linarith) hv) hne
          · have e3 : r < rv := by omega
            omega
      · obtain ⟨j, rfl⟩ : ∃ m, j = m + 1 := ⟨j - 1, by omega⟩
        rw [insertFn_gt (by omega)]
        split at hj
        · rename_i e
          have e3 := hm (r + 1) rv (by omega) (by omega)
          linarith
        · exact h.run j (by omega) (by omega)

/-- The value of the spline does not change. -/
theorem cut_sum {t : Nat → K} {N p q r rv r' : Nat} {v x : K} (hm : ∀ i j, i ≤ j → j ≤ N + p → t i ≤ t j)
    (h1 : t r ≤ x) (h2 : x < t (r + 1)) (hr : r < N) (hp : p ≤ r) (h' : Has (insertFn t r x) (N + 1) p q v r')
    (ho : oldSpan r r' = rv) {a : Nat → K} (ha : ∀ i, N ≤ i → a i = 0) :
    ∑ i ∈ range (N + 1), piece (insertFn t r x) r' p i v * cut t p r x a i = ∑ i ∈ range N, piece t rv p i v * a i := by
  have hm' := insertFn_mono (n := N + p) (x := x) hm (by omega) h1 (fun _ => h2.le)
  have hsp : SpanAt (insertFn t r x) (N + p + 1) r' :=
    ⟨hm', by have := h'.hi; omega, lt_of_le_of_lt h'.left h'.right⟩
  have e : ∀ i ∈ range N, piece t rv p i v * a i
      = boehm t r p x i * piece (insertFn t r x) r' p i v * a i
        + (1 - boehm t r p x (i + 1)) * piece (insertFn t r x) r' p (i + 1) v * a i := by
    intro i hi
    rw [Finset.mem_range] at hi
    rw [← ho, boehm_piece hsp v p i (by omega)]; ring
  rw [Finset.sum_congr rfl e, Finset.sum_add_distrib]
  have e' : ∀ i, piece (insertFn t r x) r' p i v * cut t p r x a i
      = boehm t r p x i * piece (insertFn t r x) r' p i v * a i
        + (1 - boehm t r p x i) * piece (insertFn t r x) r' p i v * a (i - 1) := by
    intro i; unfold cut; ring
  simp only [e']
  rw [Finset.sum_add_distrib, Finset.sum_range_succ, ha N (le_refl _), mul_zero, add_zero]
  congr 1
  rw [Finset.sum_range_succ']
  have e0 : boehm t r p x 0 = 1 := by unfold boehm; rw [if_pos (by omega)]
  rw [e0]
  simp

/-- Corner cutting: indices of coefficients with given alternating signs can be pulled back. -/
theorem cut_signs {t : Nat → K} {N p r : Nat} {x : K} (hm : ∀ i j, i ≤ j → j ≤ N + p → t i ≤ t j) (h1 : t r ≤ x)
    (h2 : x < t (r + 1)) (hr : r < N) (hp : p ≤ r) {a : Nat → K} {m : Nat} {y : Nat → K} {k : Nat → Nat}
    (hy : ∀ i, i + 1 < m → y i * y (i + 1) < 0) (hk : ∀ i, i + 1 < m → k i < k (i + 1))
    (hs : ∀ i, i < m → 0 < y i * cut t p r x a (k i)) :
    ∃ k' : Nat → Nat, (∀ i, i + 1 < m → k' i < k' (i + 1)) ∧ ∀ i, i < m → 0 < y i * a (k' i) := by
  have key : ∀ i, i < m → ∃ l, (l = k i ∨ l = k i - 1) ∧ 0 < y i * a l := by
    intro i hi
    obtain ⟨b0, b1⟩ := boehm_mem (p := p) hm (by omega) h1 h2 (k i)
    by_contra hc
    push Not at hc
    have c1 := hc (k i) (Or.inl rfl)
    have c2 := hc (k i - 1) (Or.inr rfl)
    have := hs i hi
    unfold cut at this
    nlinarith [mul_nonneg b0 (neg_nonneg.2 c1), mul_nonneg (sub_nonneg.2 b1) (neg_nonneg.2 c2)]
  choose! k' hk' using key
  refine ⟨k', fun i hi => ?_, fun i hi => (hk' i hi).2⟩
  obtain ⟨a1, a2⟩ := hk' i (by omega)
  obtain ⟨b1, b2⟩ := hk' (i + 1) hi
  have hlt := hk i hi
  have hne : k' i ≠ k' (i + 1) := by
    intro e
    rw [← e] at b2
    have h3 := hy i hi
    have h4 := mul_pos a2 b2
    have e4 : y i * a (k' i) * (y (i + 1) * a (k' i)) = y i * y (i + 1) * (a (k' i) * a (k' i)) := by ring
    rw [e4] at h4
    have h5 := mul_self_nonneg (a (k' i))
    nlinarith
  rcases a1 with a1 | a1 <;> rcases b1 with b1 | b1 <;> omega

/-- Values at increasing parameters with alternating signs: there are coefficients, in order, with these signs. -/
theorem spline_signs [Env K] {p m : Nat} {u y : Nat → K} (hu : ∀ i, i + 1 < m → u i < u (i + 1))
    (hy : ∀ i, i + 1 < m → y i * y (i + 1) < 0) (total : Nat) :
    ∀ {t : Nat → K} {N : Nat} {a : Nat → K} {q r : Nat → Nat}, (∀ i j, i ≤ j → j ≤ N + p → t i ≤ t j) →
      (∀ i, N ≤ i → a i = 0) → (∀ i, i < m → Has t N p (q i) (u i) (r i)) → ∑ i ∈ range m, (p + 1 - q i) = total →
      (∀ i, i < m → 0 < y i * ∑ j ∈ range N, piece t (r i) p j (u i) * a j) →
      ∃ k : Nat → Nat, (∀ i, i + 1 < m → k i < k (i + 1)) ∧ ∀ i, i < m → 0 < y i * a (k i) := by
  induction total using Nat.strong_induction_on with
  | _ total ih =>
    intro t N a q r hm ha hh ht hs
    by_cases hall : ∀ i, i < m → p + 1 ≤ q i
    · refine ⟨fun i => r i - p, fun i hi => ?_, fun i hi => ?_⟩
      · have g1 := hh i (by omega)
        have g2 := hh (i + 1) hi
        have : r i < r (i + 1) := by
          by_contra hc
          have e1 := g1.left
          have e2 := hm (r (i + 1)) (r i) (by omega) (by have := g1.hi; omega)
          have e3 := g1.run (r (i + 1))
          have e5 := hm (r (i + 1) + 1) (r i)
          have e6 := g2.right
          have e7 := hu i hi
          rcases Nat.lt_or_eq_of_le (not_lt.1 hc) with h' | h'
          · have := e5 (by omega) (by have := g1.hi; omega)
            linarith
          · have e8 := g2.run (r (i + 1)) (by have := hall (i + 1) hi; omega) (le_refl _)
            have e9 := g1.run (r i) (by have := hall i (by omega); omega) (le_refl _)
            rw [h'] at e8
            linarith
        have := g1.lo
        have := g2.lo
        show r i - p < r (i + 1) - p
        omega
      · have g := hh i hi
        have hv : u i = t (r i) := (g.run (r i) (by have := hall i hi; omega) (le_refl _)).symm
        have := hs i hi
        have e : ∀ j ∈ range N, piece t (r i) p j (u i) * a j = if j = r i - p then a j else 0 := by
          intro j _
          rw [hv, piece_at_start (lt_of_le_of_lt g.left g.right) p j g.lo fun j' h1 h2 => by
            rw [g.run j' (by have := hall i hi; omega) h2, hv]]
          have := g.lo
          by_cases hj : j = r i - p
          · rw [if_pos (by omega), if_pos hj, one_mul]
          · rw [if_neg (by omega), if_neg hj, zero_mul]
        rw [Finset.sum_congr rfl e, Finset.sum_ite_eq' (range N) (r i - p), if_pos (by
          have := g.hi; rw [Finset.mem_range]; omega)] at this
        exact this
    · push Not at hall
      obtain ⟨i0, hi0, hq⟩ := hall
      have g := hh i0 hi0
      have key : ∀ i, i < m → ∃ r', Has (insertFn t (r i0) (u i0)) (N + 1) p (if u i = u i0 then q i + 1 else q i) (u i) r' ∧
          oldSpan (r i0) r' = r i := fun i hi => (hh i hi).insert hm g.left g.right g.hi
      choose! r' hr' using key
      have hm' := insertFn_mono (n := N + p) (x := u i0) hm (by have := g.hi; omega) g.left (fun _ => g.right.le)
      obtain ⟨k, k1, k2⟩ := ih (∑ i ∈ range m, (p + 1 - (if u i = u i0 then q i + 1 else q i))) (by
          rw [← ht]
          refine Finset.sum_lt_sum (fun i _ => ?_) ⟨i0, Finset.mem_range.2 hi0, ?_⟩
          · split <;> omega
          · rw [if_pos rfl]; omega)
        (t := insertFn t (r i0) (u i0)) (N := N + 1) (a := cut t p (r i0) (u i0) a)
        (fun i j hij hj => hm' i j hij (by omega)) (by
          intro i hi
          unfold cut
          rw [ha i (by omega)]
          have : boehm t (r i0) p (u i0) i = 0 ∧ a (i - 1) = 0 ∨ a (i - 1) = 0 := by
            right; exact ha _ (by omega)
          rcases this with ⟨_, h⟩ | h <;> rw [h] <;> ring)
        (fun i hi => (hr' i hi).1) rfl (fun i hi => by
          rw [cut_sum hm g.left g.right g.hi g.lo (hr' i hi).1 (hr' i hi).2 ha]
          exact hs i hi)
      exact cut_signs hm g.left g.right g.hi g.lo hy k1 k2

end Geom3d
