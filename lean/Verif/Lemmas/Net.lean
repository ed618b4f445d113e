import Verif.Lemmas.Deriv
import Verif.Lemmas.MapM
import Verif.Model.Surface
import Verif.Spec.Net
import Verif.Spec.Convex
import Mathlib.Algebra.BigOperators.Ring.Finset
import Mathlib.Algebra.Order.BigOperators.Ring.Finset

/-! Control nets: indexing, the double accumulation loop, tensor product sums. -/

set_option linter.unusedSectionVars false

namespace Geom3d
open Spec

section law
variable {α : Type}

theorem grid_at {g : Grid α} (hg : NetOk g) {i j : Nat} (hi : i < g.rows) (hj : j < g.cols) :
    ∃ h : i * g.cols + j < g.data.length, g.at i j = .ok g.data[i * g.cols + j] := by
  have h1 : i * g.cols + g.cols ≤ g.data.length := by
    rw [hg]
    calc i * g.cols + g.cols = (i + 1) * g.cols := by ring
      _ ≤ g.rows * g.cols := Nat.mul_le_mul_right _ hi
  refine ⟨by omega, ?_⟩
  unfold Grid.at slice
  rw [if_pos hi, if_pos ⟨by omega, h1⟩]
  simp only [ok_bind]
  apply idx_of_getElem?
  rw [List.getElem?_drop, List.getElem?_take, if_pos (by omega), List.getElem?_eq_getElem]

end law

section
variable {K P : Type} [Field K] [AddCommGroup P] [Module K P] [HMul K P P] [HMul P K P] [LawfulPoint K P]

theorem grid_at_entry {g : Grid P} (hg : NetOk g) {i j : Nat} (hi : i < g.rows) (hj : j < g.cols) :
    g.at i j = .ok (entry g i j) := by
  obtain ⟨h, e⟩ := grid_at hg hi hj
  rw [e]
  simp [entry, List.getD, h]

/-- The double loop is the tensor product sum. -/
theorem netSum_eq {g : Grid P} (hg : NetOk g) {m n : Nat} (hm : g.rows ≤ m) (hn : g.cols ≤ n) (a b : Nat → K) :
    netSum g (tab m a) (tab n b)
      = .ok (∑ i ∈ Finset.range g.rows, ∑ j ∈ Finset.range g.cols, (a i * b j) • entry g i j) := by
  unfold netSum
  obtain ⟨x, h1, h2⟩ := forRange_inv (a := 0) (b := g.rows) (s := (0 : P))
    (body := fun point i => forRange 0 g.cols point fun point j => do
      let p ← g.at i j
      let a ← idx (tab m a) i
      let b ← idx (tab n b) j
      pure (point + (a * b) * p))
    (fun i x => x = ∑ i ∈ Finset.range i, ∑ j ∈ Finset.range g.cols, (a i * b j) • entry g i j) (Nat.zero_le _)
    (by simp)
    (by
      intro i x _ hi hx
      obtain ⟨y, h1, h2⟩ := forRange_inv (a := 0) (b := g.cols) (s := x)
        (body := fun point j => do
          let p ← g.at i j
          let a ← idx (tab m a) i
          let b ← idx (tab n b) j
          pure (point + (a * b) * p))
        (fun j y => y = x + ∑ j ∈ Finset.range j, (a i * b j) • entry g i j) (Nat.zero_le _) (by simp)
        (by
          intro j y _ hj hy
          refine ⟨_, ?_, rfl⟩
          rw [grid_at_entry hg hi hj, idx_tab (by omega), idx_tab (by omega)]
          simp only [ok_bind, pure_eq_ok]
          rw [Finset.sum_range_succ, hy, LawfulPoint.left, add_assoc])
      exact ⟨y, h1, by rw [h2, Finset.sum_range_succ, hx]⟩)
  rw [h1, h2]

theorem column_length (g : Grid P) (j : Nat) : (column g j).length = g.rows := by simp [column]
theorem row_length (g : Grid P) (i : Nat) : (row g i).length = g.cols := by simp [row]
theorem columns_length (g : Grid P) : (columns g).length = g.cols := by simp [columns]
theorem rows_length (g : Grid P) : (netRows g).length = g.rows := by simp [netRows]

theorem cp_column {g : Grid P} {i j : Nat} (hi : i < g.rows) : cp (column g j) i = entry g i j := by
  rw [← cp_getElem (by rw [column_length]; exact hi)]
  simp [column]

theorem cp_row {g : Grid P} {i j : Nat} (hj : j < g.cols) : cp (row g i) j = entry g i j := by
  rw [← cp_getElem (by rw [row_length]; exact hj)]
  simp [row]

theorem mapM_range {β : Type} {n : Nat} {f : List P → Res β} {c : Nat → List P} {q : Nat → β}
    (h : ∀ j, j < n → f (c j) = .ok (q j)) : (((List.range n).map c).mapM f : Res (List β)) = .ok (tab n q) := by
  induction n with
  | zero => rfl
  | succ n ih =>
    have e : tab (n + 1) q = tab n q ++ [q n] := by simp [tab, List.range_succ]
    rw [List.range_succ, List.map_append, List.mapM_append, ih (fun j hj => h j (by omega)), e]
    simp only [ok_bind, List.map_cons, List.map_nil, List.mapM_cons, List.mapM_nil]
    rw [h n (by omega)]
    rfl

end

section convex
variable {K P : Type} [Field K] [LinearOrder K] [IsStrictOrderedRing K] [AddCommGroup P] [Module K P]

/-- A weighted sum over any finite family of points of the list is a convex combination of the list. -/
theorem convexComb_of_family {ι : Type} (S : Finset ι) (w : ι → K) (p : ι → P) {pts : List P}
    (h0 : ∀ i ∈ S, 0 ≤ w i) (h1 : ∑ i ∈ S, w i = 1) (hp : ∀ i ∈ S, p i ∈ pts) :
    ConvexComb (K := K) pts (∑ i ∈ S, w i • p i) := by
  classical
  have hk : ∀ i, ∃ k, i ∈ S → k < pts.length ∧ pts.getD k 0 = p i := by
    intro i
    by_cases hi : i ∈ S
    · obtain ⟨k, hk, e⟩ := List.getElem_of_mem (hp i hi)
      exact ⟨k, fun _ => ⟨hk, by simp [List.getD, hk, e]⟩⟩
    · exact ⟨0, fun h => absurd h hi⟩
  choose k hk using hk
  have hmaps : ∀ i ∈ S, k i ∈ Finset.range pts.length := fun i hi => Finset.mem_range.2 (hk i hi).1
  refine ⟨fun n => ∑ i ∈ S with k i = n, w i, ?_, ?_, ?_⟩
  · intro n _
    apply Finset.sum_nonneg
    intro i hi
    exact h0 i (Finset.mem_filter.1 hi).1
  · rw [Finset.sum_fiberwise_of_maps_to hmaps, h1]
  · rw [← Finset.sum_fiberwise_of_maps_to hmaps]
    apply Finset.sum_congr rfl
    intro n _
    rw [Finset.sum_smul]
    apply Finset.sum_congr rfl
    intro i hi
    obtain ⟨hi', rfl⟩ := Finset.mem_filter.1 hi
    rw [(hk i hi').2]

theorem Spec.ConvexComb.const {pts : List P} {x c : P} (h : ConvexComb (K := K) pts x) (hc : ∀ p ∈ pts, p = c) : x = c := by
  obtain ⟨w, _, h1, rfl⟩ := h
  rw [Finset.sum_congr rfl (g := fun i => w i • c), ← Finset.sum_smul, h1, one_smul]
  intro i hi
  rw [Finset.mem_range] at hi
  rw [hc (pts.getD i 0) (by simp [List.getD, hi])]

/-- Tensor products of convex weights are convex weights. -/
theorem convexComb_tensor (S T : Finset Nat) (a b : Nat → K) (p : Nat → Nat → P) {pts : List P}
    (ha : ∀ i ∈ S, 0 ≤ a i) (hb : ∀ j ∈ T, 0 ≤ b j) (ha1 : ∑ i ∈ S, a i = 1) (hb1 : ∑ j ∈ T, b j = 1)
    (hp : ∀ i ∈ S, ∀ j ∈ T, p i j ∈ pts) :
    ConvexComb (K := K) pts (∑ i ∈ S, ∑ j ∈ T, (a i * b j) • p i j) := by
  rw [← Finset.sum_product' S T (fun i j => (a i * b j) • p i j)]
  apply convexComb_of_family (S ×ˢ T) (fun q => a q.1 * b q.2) (fun q => p q.1 q.2)
  · rintro ⟨i, j⟩ h
    obtain ⟨hi, hj⟩ := Finset.mem_product.1 h
    exact mul_nonneg (ha i hi) (hb j hj)
  · rw [Finset.sum_product' S T (fun i j => a i * b j), ← Finset.sum_mul_sum, ha1, hb1, one_mul]
  · rintro ⟨i, j⟩ h
    obtain ⟨hi, hj⟩ := Finset.mem_product.1 h
    exact hp i hi j hj

end convex

/-! ### Tabulated nets -/

section tabulated
variable {α : Type}

/-- All values `f i j`, row by row. -/
def netTab (R C : Nat) (f : Nat → Nat → α) : List α := (List.range R).flatMap fun i => (List.range C).map (f i)

theorem netTab_length (R C : Nat) (f : Nat → Nat → α) : (netTab R C f).length = R * C := by
  induction R with
  | zero => simp [netTab]
  | succ R ih =>
    have e : netTab (R + 1) C f = netTab R C f ++ (List.range C).map (f R) := by
      simp [netTab, List.range_succ]
    rw [e, List.length_append, ih]
    simp; ring

theorem netTab_getElem? (R C : Nat) (f : Nat → Nat → α) {i j : Nat} (hi : i < R) (hj : j < C) :
    (netTab R C f)[i * C + j]? = some (f i j) := by
  induction R with
  | zero => omega
  | succ R ih =>
    have e : netTab (R + 1) C f = netTab R C f ++ (List.range C).map (f R) := by
      simp [netTab, List.range_succ]
    rw [e]
    rcases Nat.lt_or_ge i R with h | h
    · have : i * C + j < (netTab R C f).length := by
        rw [netTab_length]
        calc i * C + j < i * C + C := by omega
          _ = (i + 1) * C := by ring
          _ ≤ R * C := Nat.mul_le_mul_right _ h
      rw [List.getElem?_append_left this, ih h]
    · obtain rfl : i = R := by omega
      rw [List.getElem?_append_right (by rw [netTab_length]; omega), netTab_length]
      simp [hj]

theorem netTab_loop {R C : Nat} {f : Nat → Nat → α} {body : List α → Nat → Nat → Res (List α)}
    (h : ∀ pts i j, i < R → j < C → body pts i j = .ok (pts ++ [f i j])) :
    forRange 0 R ([] : List α) (fun points i => forRange 0 C points fun points j => body points i j)
      = .ok (netTab R C f) := by
  obtain ⟨x, h1, h2⟩ := forRange_inv (a := 0) (b := R) (s := ([] : List α))
    (body := fun points i => forRange 0 C points fun points j => body points i j)
    (fun i pts => pts = netTab i C f) (Nat.zero_le _) (by simp [netTab])
    (by
      intro i x _ hi hx
      obtain ⟨y, h1, h2⟩ := forRange_inv (a := 0) (b := C) (s := x)
        (body := fun points j => body points i j) (fun j y => y = x ++ (List.range j).map (f i)) (Nat.zero_le _) (by simp)
        (by
          intro j y _ hj hy
          rw [h y i j hi hj]
          exact ⟨_, rfl, by rw [hy, List.range_succ]; simp⟩)
      refine ⟨y, h1, ?_⟩
      rw [h2, hx]
      simp [netTab, List.range_succ])
  rw [h1, h2]

theorem fromVec_netTab {R C : Nat} (hR : 0 < R) (hC : 0 < C) (f : Nat → Nat → α) :
    Grid.fromVec (netTab R C f) C = .ok ⟨netTab R C f, R, C⟩ := by
  unfold Grid.fromVec
  rw [netTab_length, if_neg (by positivity), if_neg (by omega), if_neg (by simp), Nat.mul_div_cancel _ hC]

theorem netTab_ok (R C : Nat) (f : Nat → Nat → α) : NetOk (⟨netTab R C f, R, C⟩ : Grid α) := netTab_length R C f

theorem entry_netTab {P : Type} [Zero P] {R C : Nat} (f : Nat → Nat → P) {i j : Nat} (hi : i < R) (hj : j < C) :
    entry (⟨netTab R C f, R, C⟩ : Grid P) i j = f i j := by
  unfold entry
  rw [List.getD_eq_getElem?_getD]
  simp only []
  rw [netTab_getElem? R C f hi hj]
  rfl

end tabulated

/-! ### Length of the basis -/

section basis
variable {F : Type} [Add F] [Sub F] [Mul F] [Div F] [Neg F] [Zero F] [One F] [NatCast F] [LT F] [DecidableLT F]
  [LE F] [DecidableLE F] [Env F]

/-- Whenever it returns, `bspline_basis` returns `knots.len() - 1 - degree` weights (any number type). -/
theorem bsplineBasis_length {knots : List F} {p : Nat} {u : F} {w : List F}
    (h : KnotVector.bsplineBasis knots p u = .ok w) : w.length = knots.length - 1 - p := by
  unfold KnotVector.bsplineBasis at h
  rw [bind_eq_ok] at h
  obtain ⟨n, hn, h⟩ := h
  rw [usub_eq_ok] at hn
  obtain ⟨hn1, rfl⟩ := hn
  rw [bind_eq_ok] at h
  obtain ⟨index, -, h⟩ := h
  simp only [] at h
  rw [bind_eq_ok] at h
  obtain ⟨v0, hv0, h⟩ := h
  rw [bind_eq_ok] at h
  obtain ⟨v1, hv1, h⟩ := h
  rw [bind_eq_ok] at h
  obtain ⟨m, hm, h⟩ := h
  rw [usub_eq_ok] at hm
  obtain ⟨hm1, rfl⟩ := hm
  rw [pure_eq_ok, Except.ok.injEq] at h
  have l0 : v0.length = knots.length - 1 := by
    obtain ⟨_, rfl⟩ := upd_eq_ok.1 hv0
    simp
  have l1 : v1.length = knots.length - 1 := by
    refine forRange_partial (fun _ v => v.length = knots.length - 1) (by omega) l0 ?_ hv1
    intro k s s' _ _ hs hb
    unfold basisOuter at hb
    simp only [] at hb
    rw [bind_eq_ok] at hb
    obtain ⟨tk, -, hb⟩ := hb
    rw [bind_eq_ok] at hb
    obtain ⟨tb, -, hb⟩ := hb
    have hb : ∃ mx, forRange (if index < k then 0 else index - k) (mx + 1) (s, invOrZero (tk - tb) * (u - tb))
        (basisInner knots u k) >>= (fun st => pure st.1) = .ok s' := by
      split at hb
      · exact ⟨_, hb⟩
      · rw [bind_eq_ok] at hb
        obtain ⟨_, -, hb⟩ := hb
        rw [bind_eq_ok] at hb
        obtain ⟨_, -, hb⟩ := hb
        exact ⟨_, hb⟩
    obtain ⟨mx, hb⟩ := hb
    rw [bind_eq_ok] at hb
    obtain ⟨st, hst, hb⟩ := hb
    rw [pure_eq_ok, Except.ok.injEq] at hb
    subst hb
    by_cases hle : (if index < k then 0 else index - k) ≤ mx + 1
    · refine forRange_partial (fun _ (st : List F × F) => st.1.length = knots.length - 1) hle hs ?_ hst
      rintro i ⟨l, a⟩ st' _ _ hl hb
      unfold basisInner at hb
      simp only [] at hb hl
      rw [bind_eq_ok] at hb
      obtain ⟨_, -, hb⟩ := hb
      rw [bind_eq_ok] at hb
      obtain ⟨_, -, hb⟩ := hb
      rw [bind_eq_ok] at hb
      obtain ⟨_, -, hb⟩ := hb
      rw [bind_eq_ok] at hb
      obtain ⟨_, -, hb⟩ := hb
      rw [bind_eq_ok] at hb
      obtain ⟨l', hl', hb⟩ := hb
      rw [pure_eq_ok, Except.ok.injEq] at hb
      subst hb
      obtain ⟨_, rfl⟩ := upd_eq_ok.1 hl'
      simpa using hl
    · rw [forRange_nil (by omega), Except.ok.injEq] at hst
      rw [← hst]; exact hs
  rw [← h, List.length_take, l1]
  omega

/-- `bspline_basis` returns whenever the span index is within the vector (any number type). -/
theorem bsplineBasis_total {knots : List F} {n p s : Nat} {u : F} (hlen : knots.length = n + 1) (hp : p < n)
    (hs : KnotVector.spanIndex knots u = .ok s) (hsn : s < n) : ∃ w, KnotVector.bsplineBasis knots p u = .ok w := by
  unfold KnotVector.bsplineBasis
  rw [usub_ok (by omega), hs]
  simp only [ok_bind]
  rw [upd_ok (by simp; omega)]
  simp only [ok_bind]
  obtain ⟨w, h1, h2⟩ := forRange_inv (a := 1) (b := p + 1) (s := (List.replicate (knots.length - 1) (0 : F)).set s 1)
    (body := basisOuter knots u (knots.length - 1) s) (fun _ v => v.length = n) (by omega) (by simp; omega)
    (by
      intro k v hk1 hk2 hv
      unfold basisOuter
      simp only []
      have hb : (if s < k then 0 else s - k) + k ≤ n := by split <;> omega
      rw [idx_ok (by omega), idx_ok (by omega)]
      simp only [ok_bind]
      have inner : ∀ mx a, mx + k + 1 ≤ n → (if s < k then 0 else s - k) ≤ mx + 1 →
          ∃ st, forRange (if s < k then 0 else s - k) (mx + 1) (v, a) (basisInner knots u k) = .ok st ∧
            st.1.length = n := by
        intro mx a hmx hle
        refine forRange_inv (fun _ (st : List F × F) => st.1.length = n) hle hv ?_
        rintro i ⟨l, a⟩ _ hi hl
        simp only [] at hl
        unfold basisInner
        simp only []
        rw [idx_ok (by omega), idx_ok (by omega), idx_ok (by omega), idx_ok (by omega)]
        simp only [ok_bind]
        rw [upd_ok (by omega)]
        exact ⟨_, rfl, by simpa using hl⟩
      split
      · rename_i h
        obtain ⟨st, e1, e2⟩ := inner s _ (by omega) (by split <;> omega)
        rw [pure_eq_ok]
        simp only [ok_bind]
        rw [e1]
        exact ⟨_, rfl, e2⟩
      · rename_i h
        rw [usub_ok (by omega)]
        simp only [ok_bind]
        rw [usub_ok (by omega)]
        simp only [ok_bind]
        obtain ⟨st, e1, e2⟩ := inner (knots.length - 1 - k - 1) _ (by omega) (by split <;> omega)
        rw [e1]
        exact ⟨_, rfl, e2⟩)
  rw [h1]
  simp only [ok_bind]
  rw [usub_ok (by omega)]
  exact ⟨_, rfl⟩

end basis

end Geom3d
