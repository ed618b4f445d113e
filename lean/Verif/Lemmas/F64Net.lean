import Verif.Lemmas.F64Sum
import Verif.Lemmas.Net
import Mathlib.Data.Finset.Prod

/-! The double loop of the surface evaluations in binary64. -/

namespace Geom3d
open Spec

section
variable {F P : Type} [Mul F] [Add P] [Zero P] [HMul F P P]

/-- The weight of the control point at position `k` of the data. -/
def flatWeight (c : Nat) (a b : Nat → F) (k : Nat) : F := a (k / c) * b (k % c)

theorem zip_take_snoc {l : List P} {k : Nat} (h : k < l.length) (w : Nat → F) :
    (tab (k + 1) w).zip (l.take (k + 1)) = (tab k w).zip (l.take k) ++ [(w k, l[k])] := by
  have e : tab (k + 1) w = tab k w ++ [w k] := by simp [tab, List.range_succ]
  rw [e, List.take_add_one, List.getElem?_eq_getElem h]
  rw [List.zip_append (by simp; omega)]
  rfl

/-- The double loop runs over the data from the first to the last entry (any number type). -/
theorem netSum_flat {g : Grid P} (hg : NetOk g) {m n : Nat} (hm : g.rows ≤ m) (hn : g.cols ≤ n) (a b : Nat → F) :
    netSum g (tab m a) (tab n b) = .ok (linComb (tab g.data.length (flatWeight g.cols a b)) g.data) := by
  unfold netSum
  obtain ⟨x, h1, h2⟩ := forRange_inv (a := 0) (b := g.rows) (s := (0 : P))
    (body := fun point i => forRange 0 g.cols point fun point j => do
      let p ← g.at i j
      let a ← idx (tab m a) i
      let b ← idx (tab n b) j
      pure (point + (a * b) * p))
    (fun i x => x = linComb (tab (i * g.cols) (flatWeight g.cols a b)) (g.data.take (i * g.cols))) (Nat.zero_le _)
    (by simp [linComb, tab])
    (by
      intro i x _ hi hx
      obtain ⟨y, h1, h2⟩ := forRange_inv (a := 0) (b := g.cols) (s := x)
        (body := fun point j => do
          let p ← g.at i j
          let a ← idx (tab m a) i
          let b ← idx (tab n b) j
          pure (point + (a * b) * p))
        (fun j y => y = linComb (tab (i * g.cols + j) (flatWeight g.cols a b)) (g.data.take (i * g.cols + j)))
        (Nat.zero_le _) (by rw [hx]; rfl)
        (by
          intro j y _ hj hy
          refine ⟨_, ?_, rfl⟩
          obtain ⟨hlt, e⟩ := grid_at hg hi hj
          rw [e, idx_tab (by omega), idx_tab (by omega)]
          simp only [ok_bind, pure_eq_ok]
          rw [hy]
          unfold linComb
          rw [← add_assoc (i * g.cols), zip_take_snoc hlt, List.foldl_append]
          simp only [List.foldl_cons, List.foldl_nil]
          have hc : 0 < g.cols := by omega
          have q1 : (i * g.cols + j) / g.cols = i := by
            rw [add_comm, Nat.add_mul_div_right _ _ hc, Nat.div_eq_of_lt hj, zero_add]
          have q2 : (i * g.cols + j) % g.cols = j := by
            rw [add_comm, Nat.add_mul_mod_self_right, Nat.mod_eq_of_lt hj]
          rw [flatWeight, q1, q2])
      exact ⟨y, h1, by rw [h2, show (i + 1) * g.cols = i * g.cols + g.cols by ring]⟩)
  rw [h1, h2, ← hg, List.take_length]

end

theorem sum_flat {M : Type} [AddCommMonoid M] (r c : Nat) (f : Nat → Nat → M) :
    ∑ k ∈ Finset.range (r * c), f (k / c) (k % c) = ∑ i ∈ Finset.range r, ∑ j ∈ Finset.range c, f i j := by
  rcases Nat.eq_zero_or_pos c with rfl | hc
  · simp
  induction r with
  | zero => simp
  | succ r ih =>
    rw [show (r + 1) * c = r * c + c by ring, Finset.sum_range_add, ih, Finset.sum_range_succ]
    congr 1
    apply Finset.sum_congr rfl
    intro j hj
    rw [Finset.mem_range] at hj
    rw [add_comm, Nat.add_mul_div_right _ _ hc, Nat.div_eq_of_lt hj, zero_add, Nat.add_mul_mod_self_right,
      Nat.mod_eq_of_lt hj]

namespace F64

/-- The indices below `k` where `f` is not zero. -/
noncomputable def nonzeros (f : Nat → Float) (k : Nat) : Finset Nat := by
  classical exact (Finset.range k).filter fun i => val (f i) ≠ 0

theorem mem_nonzeros {f : Nat → Float} {k i : Nat} : i ∈ nonzeros f k ↔ i < k ∧ val (f i) ≠ 0 := by
  unfold nonzeros
  rw [Finset.mem_filter, Finset.mem_range]

theorem nonzeros_card_le (f : Nat → Float) (k : Nat) : (nonzeros f k).card ≤ k := by
  unfold nonzeros
  exact (Finset.card_filter_le _ _).trans (by rw [Finset.card_range])

/-- The accumulation loop, with the number of weights different from zero. -/
theorem accum_apx_nonzeros {n κ : Nat} {b p : Nat → Float} {M : ℝ} (hM0 : 0 ≤ M) (hM : M ≤ 2 ^ (1022 : Int))
    (hκ : (nonzeros b n).card ≤ κ) (hn : κ ≤ 2 ^ 41)
    (hb : ∀ i, i < n → IsFin (b i) ∧ 0 ≤ val (b i)) (hp : ∀ i, i < n → IsFin (p i) ∧ |val (p i)| ≤ M)
    (hS : ∑ i ∈ Finset.range n, val (b i) ≤ 9 / 8) :
    IsFin (accum b p n) ∧
      |val (accum b p n) - ∑ i ∈ Finset.range n, val (b i) * val (p i)| ≤ κ * (3 * eps * M + 3 * eta) := by
  classical
  obtain ⟨f, e⟩ := accum_apx_count (κ := fun i => (nonzeros b i).card) hM0 hM (hκ.trans hn)
    (by
      intro i _
      have hsub : nonzeros b i ⊆ nonzeros b (i + 1) := by
        intro k hk
        rw [mem_nonzeros] at hk ⊢
        exact ⟨by omega, hk.2⟩
      refine ⟨Finset.card_le_card hsub, ?_⟩
      by_cases hz : val (b i) = 0
      · exact Or.inl hz
      · right
        have h1 : i ∉ nonzeros b i := by rw [mem_nonzeros]; omega
        rw [← Finset.card_insert_of_notMem h1]
        apply Finset.card_le_card
        intro k hk
        rw [Finset.mem_insert] at hk
        rcases hk with rfl | hk
        · rw [mem_nonzeros]; exact ⟨by omega, hz⟩
        · exact hsub hk)
    hb hp hS
  refine ⟨f, e.trans ?_⟩
  have h1 := mul_nonneg eps_pos.le hM0
  have h2 := eta_pos
  exact mul_le_mul_of_nonneg_right (by exact_mod_cast hκ) (by linarith)

/-- A product of two weights. -/
theorem weight_mul {a b : Float} (ha : IsFin a ∧ 0 ≤ val a) (hb : IsFin b ∧ 0 ≤ val b) (ha1 : val a ≤ 2) (hb1 : val b ≤ 2) :
    IsFin (a * b) ∧ 0 ≤ val (a * b) ∧ |val (a * b) - val a * val b| ≤ eps * (val a * val b) + eta ∧
      (val a * val b = 0 → val (a * b) = 0) := by
  have h0 : 0 ≤ val a * val b := mul_nonneg ha.2 hb.2
  obtain ⟨f, r⟩ := mul_rounds ha.1 hb.1 (le_max_of_le_four (by rw [abs_of_nonneg h0]; nlinarith [ha.2, hb.2]))
  refine ⟨f, r.nonneg h0, by have := r.bound; rwa [abs_of_nonneg h0] at this, ?_⟩
  intro h
  rw [h] at r
  exact r.of_rep rep_zero

/-- Computed weights `a` for exact weights `A`: finite and not negative, with total error at most `α`, and at most `k`
of them different from zero. -/
structure Weights (n : Nat) (a : Nat → Float) (A : Nat → ℝ) (k : Nat) (α : ℝ) : Prop where
  fin : ∀ i, i < n → IsFin (a i) ∧ 0 ≤ val (a i)
  nonneg : ∀ i, i < n → 0 ≤ A i
  sum : ∑ i ∈ Finset.range n, A i = 1
  err : ∑ i ∈ Finset.range n, |val (a i) - A i| ≤ α
  count : (nonzeros a n).card ≤ k

theorem Weights.pos {n k : Nat} {a : Nat → Float} {A : Nat → ℝ} {α : ℝ} (h : Weights n a A k α) : 0 ≤ α :=
  le_trans (Finset.sum_nonneg fun i _ => abs_nonneg _) h.err

theorem Weights.total {n k : Nat} {a : Nat → Float} {A : Nat → ℝ} {α : ℝ} (h : Weights n a A k α) :
    ∑ i ∈ Finset.range n, val (a i) ≤ 1 + α := by
  have h2 : ∑ i ∈ Finset.range n, val (a i) = 1 + ∑ i ∈ Finset.range n, (val (a i) - A i) := by
    rw [Finset.sum_sub_distrib, h.sum]; ring
  have h1 := (le_abs_self _).trans (Finset.abs_sum_le_sum_abs (fun i => val (a i) - A i) (Finset.range n))
  have := h.err
  linarith

theorem Weights.mono {n k k' : Nat} {a : Nat → Float} {A : Nat → ℝ} {α α' : ℝ} (h : Weights n a A k α) (hk : k ≤ k')
    (hα : α ≤ α') : Weights n a A k' α' :=
  ⟨h.fin, h.nonneg, h.sum, h.err.trans hα, h.count.trans hk⟩

/-- The accumulation loop with such weights. -/
theorem Weights.accum {n k : Nat} {a : Nat → Float} {A : Nat → ℝ} {α : ℝ} (h : Weights n a A k α) (hα : α ≤ 1 / 10)
    (hk : k ≤ 2 ^ 41) {p : Nat → Float} {M : ℝ} (hM0 : 0 ≤ M) (hM : M ≤ 2 ^ (1022 : Int))
    (hp : ∀ i, i < n → IsFin (p i) ∧ |val (p i)| ≤ M) :
    IsFin (Geom3d.accum a p n) ∧
      |val (Geom3d.accum a p n) - ∑ i ∈ Finset.range n, A i * val (p i)| ≤ (3 * k * eps + α) * M + 3 * k * eta := by
  obtain ⟨ff, ef⟩ := accum_apx_nonzeros hM0 hM h.count hk h.fin hp (by have := h.total; linarith)
  refine ⟨ff, ?_⟩
  have hw : |∑ i ∈ Finset.range n, val (a i) * val (p i) - ∑ i ∈ Finset.range n, A i * val (p i)| ≤ α * M := by
    rw [← Finset.sum_sub_distrib]
    refine (Finset.abs_sum_le_sum_abs _ _).trans ?_
    calc _ ≤ ∑ i ∈ Finset.range n, |val (a i) - A i| * M := by
          refine Finset.sum_le_sum fun i hi => ?_
          rw [Finset.mem_range] at hi
          rw [← sub_mul, abs_mul]
          exact mul_le_mul_of_nonneg_left (hp i hi).2 (abs_nonneg _)
      _ ≤ α * M := by
          rw [← Finset.sum_mul]
          exact mul_le_mul_of_nonneg_right h.err hM0
  refine (abs_sub_le _ (∑ i ∈ Finset.range n, val (a i) * val (p i)) _).trans ?_
  refine (add_le_add ef hw).trans (le_of_eq ?_)
  ring

/-- Tensor products of weights. -/
theorem Weights.tensor {r c ka kb : Nat} {a b : Nat → Float} {A B : Nat → ℝ} {α β : ℝ}
    (hwa : Weights r a A ka α) (hwb : Weights c b B kb β) (hα1 : α ≤ 1 / 100) (hβ1 : β ≤ 1 / 100) (hk : ka * kb ≤ 2 ^ 41) :
    Weights (r * c) (flatWeight c a b) (fun k => A (k / c) * B (k % c)) (ka * kb)
      (2 * eps + (ka * kb : Nat) * eta + 101 / 100 * β + α) := by
  have ha := hwa.fin
  have hb := hwb.fin
  have hα := hwa.err
  have hβ := hwb.err
  have hB0 := hwb.nonneg
  have hka := hwa.count
  have hkb := hwb.count
  classical
  have hε := eps_pos
  have hη := eta_pos
  have hα0 := hwa.pos
  have hβ0 := hwb.pos
  have hSA := hwa.total
  have hSB := hwb.total
  have hSA0 : 0 ≤ ∑ i ∈ Finset.range r, val (a i) :=
    Finset.sum_nonneg fun i hi => (ha i (Finset.mem_range.1 hi)).2
  have hSB0 : 0 ≤ ∑ j ∈ Finset.range c, val (b j) :=
    Finset.sum_nonneg fun i hi => (hb i (Finset.mem_range.1 hi)).2
  have ha2 : ∀ i, i < r → val (a i) ≤ 2 := fun i hi => by
    have := Finset.single_le_sum (f := fun i => val (a i)) (fun i hi => (ha i (Finset.mem_range.1 hi)).2)
      (Finset.mem_range.2 hi)
    linarith
  have hb2 : ∀ i, i < c → val (b i) ≤ 2 := fun i hi => by
    have := Finset.single_le_sum (f := fun i => val (b i)) (fun i hi => (hb i (Finset.mem_range.1 hi)).2)
      (Finset.mem_range.2 hi)
    linarith
  have hidx : ∀ k, k < r * c → k / c < r ∧ k % c < c := by
    intro k hk
    have hc : 0 < c := by
      rcases Nat.eq_zero_or_pos c with rfl | h
      · simp at hk
      · exact h
    exact ⟨Nat.div_lt_of_lt_mul (by rwa [mul_comm] at hk), Nat.mod_lt _ hc⟩
  have hW : ∀ k, k < r * c → _ := fun k hk =>
    weight_mul (ha _ (hidx k hk).1) (hb _ (hidx k hk).2) (ha2 _ (hidx k hk).1) (hb2 _ (hidx k hk).2)
  -- the products different from zero
  set N := (Finset.range (r * c)).filter fun k => val (a (k / c)) * val (b (k % c)) ≠ 0 with hN
  have hNK : N.card ≤ ka * kb := by
    have h1 : N.card ≤ (nonzeros a r ×ˢ nonzeros b c).card := by
      refine Finset.card_le_card_of_injOn (fun k => (k / c, k % c)) ?_ ?_
      · intro k hk
        have hk := Finset.mem_filter.1 (Finset.mem_coe.1 hk)
        have hi := hidx k (Finset.mem_range.1 hk.1)
        simp only [Finset.coe_product, Set.mem_prod, Finset.mem_coe, mem_nonzeros]
        exact ⟨⟨hi.1, left_ne_zero_of_mul hk.2⟩, ⟨hi.2, right_ne_zero_of_mul hk.2⟩⟩
      · intro k _ l _ h
        simp only [Prod.mk.injEq] at h
        rw [← Nat.div_add_mod k c, ← Nat.div_add_mod l c, h.1, h.2]
    rw [Finset.card_product] at h1
    exact h1.trans (Nat.mul_le_mul hka hkb)
  have hnz : (nonzeros (flatWeight c a b) (r * c)).card ≤ ka * kb := by
    refine (Finset.card_le_card ?_).trans hNK
    intro k hk
    rw [mem_nonzeros] at hk
    rw [hN, Finset.mem_filter, Finset.mem_range]
    exact ⟨hk.1, fun h => hk.2 ((hW k hk.1).2.2.2 h)⟩
  obtain ⟨K, hK⟩ : ∃ K, ka * kb = K := ⟨_, rfl⟩
  rw [hK] at hk hNK hnz ⊢
  have hKR : (K : ℝ) ≤ 2 ^ 41 := by exact_mod_cast hk
  have hK0 : (0 : ℝ) ≤ K := Nat.cast_nonneg _
  have hprod : ∑ k ∈ Finset.range (r * c), val (a (k / c)) * val (b (k % c))
      = (∑ i ∈ Finset.range r, val (a i)) * ∑ j ∈ Finset.range c, val (b j) := by
    rw [sum_flat r c (fun i j => val (a i) * val (b j)), Finset.sum_mul_sum]
  have hprod2 : (∑ i ∈ Finset.range r, val (a i)) * ∑ j ∈ Finset.range c, val (b j) ≤ 103 / 100 := by
    calc _ ≤ (101 / 100 : ℝ) * (101 / 100) := mul_le_mul (by linarith) (by linarith) hSB0 (by norm_num)
      _ ≤ 103 / 100 := by norm_num
  have hKη : K * eta ≤ 1 / 1000 := by
    calc K * eta ≤ 2 ^ 41 * eps := mul_le_mul hKR (eta_le.trans (by rw [eps_eq]; norm_num)) hη.le (by norm_num)
      _ ≤ 1 / 1000 := by rw [eps_eq]; norm_num
  have hηε : eta ≤ eps := eta_le.trans (by rw [eps_eq]; norm_num)
  have hεs : eps ≤ 1 / 1000 := by rw [eps_eq]; norm_num
  have hE1 : ∑ k ∈ Finset.range (r * c), |val (flatWeight c a b k) - val (a (k / c)) * val (b (k % c))|
      ≤ 103 / 100 * eps + K * eta := by
    calc _ ≤ ∑ k ∈ Finset.range (r * c), (eps * (val (a (k / c)) * val (b (k % c)))
          + if val (a (k / c)) * val (b (k % c)) ≠ 0 then eta else 0) := by
          refine Finset.sum_le_sum fun k hk => ?_
          have h := hW k (Finset.mem_range.1 hk)
          by_cases hz : val (a (k / c)) * val (b (k % c)) = 0
          · rw [flatWeight, h.2.2.2 hz, hz]; simp
          · rw [if_pos hz]; exact h.2.2.1
      _ = eps * ((∑ i ∈ Finset.range r, val (a i)) * ∑ j ∈ Finset.range c, val (b j)) + N.card * eta := by
          rw [Finset.sum_add_distrib, ← Finset.mul_sum, hprod, ← Finset.sum_filter, Finset.sum_const, nsmul_eq_mul]
      _ ≤ eps * (103 / 100) + K * eta := by
          refine add_le_add (mul_le_mul_of_nonneg_left hprod2 hε.le) (mul_le_mul_of_nonneg_right ?_ hη.le)
          exact_mod_cast hNK
      _ = _ := by ring
  have hE2 : ∑ k ∈ Finset.range (r * c), |val (a (k / c)) * val (b (k % c)) - A (k / c) * B (k % c)|
      ≤ 101 / 100 * β + α := by
    rw [sum_flat r c (fun i j => |val (a i) * val (b j) - A i * B j|)]
    calc _ ≤ ∑ i ∈ Finset.range r, ∑ j ∈ Finset.range c, (val (a i) * |val (b j) - B j| + |val (a i) - A i| * B j) := by
          refine Finset.sum_le_sum fun i hi => Finset.sum_le_sum fun j hj => ?_
          rw [Finset.mem_range] at hi hj
          have e : val (a i) * val (b j) - A i * B j = val (a i) * (val (b j) - B j) + (val (a i) - A i) * B j := by ring
          rw [e]
          refine (abs_add_le _ _).trans ?_
          rw [abs_mul, abs_mul, abs_of_nonneg (ha i hi).2, abs_of_nonneg (hB0 j hj)]
      _ = (∑ i ∈ Finset.range r, val (a i)) * (∑ j ∈ Finset.range c, |val (b j) - B j|)
          + ∑ i ∈ Finset.range r, |val (a i) - A i| := by
          simp only [Finset.sum_add_distrib]
          rw [Finset.sum_mul_sum]
          congr 1
          rw [← Finset.sum_mul_sum, hwb.sum, mul_one]
      _ ≤ 101 / 100 * β + α := by
          refine add_le_add (mul_le_mul (by linarith) hβ (Finset.sum_nonneg fun i _ => abs_nonneg _) (by norm_num)) hα
  refine ⟨fun k hk => ⟨(hW k hk).1, (hW k hk).2.1⟩,
    fun k hk => mul_nonneg (hwa.nonneg _ (hidx k hk).1) (hwb.nonneg _ (hidx k hk).2), ?_, ?_, hnz⟩
  · rw [sum_flat r c (fun i j => A i * B j), ← Finset.sum_mul_sum, hwa.sum, hwb.sum, one_mul]
  · calc _ ≤ ∑ k ∈ Finset.range (r * c), (|val (flatWeight c a b k) - val (a (k / c)) * val (b (k % c))|
          + |val (a (k / c)) * val (b (k % c)) - A (k / c) * B (k % c)|) :=
          Finset.sum_le_sum fun k _ => abs_sub_le _ _ _
      _ ≤ (103 / 100 * eps + K * eta) + (101 / 100 * β + α) := by
          rw [Finset.sum_add_distrib]
          exact add_le_add hE1 hE2
      _ ≤ _ := by linarith

end F64
end Geom3d
