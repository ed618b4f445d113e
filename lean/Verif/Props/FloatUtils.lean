import Verif.Lemmas.F64Dist
import Verif.Props.Utils

/-!
# Range and search utilities in binary64 (C93)

All numbers are `Float`, i.e. IEEE binary64, with infinities and NaN unless excluded.
-/

namespace Geom3d
open Spec F64

/-! ### Clamping -/

/-- `r` is between `a` and `b`, in whichever order these are. -/
def F64.Between (a b r : Float) : Prop := (a ≤ r ∧ r ≤ b) ∨ (b ≤ r ∧ r ≤ a)

theorem clampF_float {v lo hi : Float} (h : lo ≤ hi) :
    ∃ r, clampF v lo hi = .ok r ∧ (IsNaN v → r = v) ∧ (¬ IsNaN v → lo ≤ r ∧ r ≤ hi) ∧
      (lo ≤ v → v ≤ hi → r = v) ∧ (v < lo → r = lo) ∧ (hi < v → r = hi) := by
  obtain ⟨nl, nh⟩ := nan_of_le h
  refine ⟨_, by unfold clampF assertR; rw [if_pos (decide_eq_true h)]; rfl, ?_, ?_, ?_, ?_, ?_⟩
  · intro hn
    rw [if_neg (show ¬ v < lo from fun c => (nan_of_lt c).1 hn), if_neg (show ¬ hi < v from fun c => (nan_of_lt c).2 hn)]
  · intro hn
    by_cases h1 : v < lo
    · rw [if_pos h1, if_neg ((not_lt_of nh nl).mpr h)]
      exact ⟨le_refl_of nl, h⟩
    · rw [if_neg h1]
      by_cases h2 : hi < v
      · rw [if_pos h2]; exact ⟨h, le_refl_of nh⟩
      · rw [if_neg h2]; exact ⟨(not_lt_of hn nl).mp h1, (not_lt_of nh hn).mp h2⟩
  · intro h1 h2
    obtain ⟨_, nv⟩ := nan_of_le h1
    rw [if_neg ((not_lt_of nv nl).mpr h1), if_neg ((not_lt_of nh nv).mpr h2)]
  · intro h1
    rw [if_pos h1, if_neg ((not_lt_of nh nl).mpr h)]
  · intro h1
    obtain ⟨_, nv⟩ := nan_of_lt h1
    rw [if_neg ((not_lt_of nv nl).mpr (le_of_lt_of (lt_of_le_of_lt_of h h1))), if_pos h1]

/-- **C93.** `clamp_in_range` panics exactly if an end of the range is NaN.  Otherwise it keeps NaN, keeps numbers in
the range, and moves every other number, infinities included, to the end on its side. -/
theorem C93_clamp (v lo hi : Float) :
    ((IsNaN lo ∨ IsNaN hi) → clampInRange v (lo, hi) = .error .assertion) ∧
    (¬ IsNaN lo → ¬ IsNaN hi → ∃ r, clampInRange v (lo, hi) = .ok r ∧ (IsNaN v → r = v) ∧
      (¬ IsNaN v → Between lo hi r) ∧ (Between lo hi v → r = v) ∧
      ((v < lo ∧ v < hi) ∨ (lo < v ∧ hi < v) → r = lo ∨ r = hi)) := by
  constructor
  · intro h
    unfold clampInRange
    have h1 : ¬ lo < hi := fun c => h.elim (nan_of_lt c).1 (nan_of_lt c).2
    have h2 : ¬ hi ≤ lo := fun c => h.elim (nan_of_le c).2 (nan_of_le c).1
    rw [if_neg h1]
    unfold clampF assertR
    rw [if_neg (by simpa using h2)]
    rfl
  · intro nl nh
    unfold clampInRange
    by_cases h1 : lo < hi
    · rw [if_pos h1]
      obtain ⟨r, e, h2, h3, h4, h5, h6⟩ := clampF_float (v := v) (le_of_lt_of h1)
      refine ⟨r, e, h2, fun n => .inl (h3 n), ?_, ?_⟩
      · rintro (⟨a, b⟩ | ⟨a, b⟩)
        · exact h4 a b
        · exact absurd (le_trans_of a b) (by rw [← not_lt_of nl nh]; exact fun c => c h1)
      · rintro (⟨a, _⟩ | ⟨_, b⟩)
        · exact .inl (h5 a)
        · exact .inr (h6 b)
    · rw [if_neg h1]
      have hle := (not_lt_of nl nh).mp h1
      obtain ⟨r, e, h2, h3, h4, h5, h6⟩ := clampF_float (v := v) hle
      refine ⟨r, e, h2, fun n => .inr (h3 n), ?_, ?_⟩
      · rintro (⟨a, b⟩ | ⟨a, b⟩)
        · exact h4 (le_trans_of hle a) (le_trans_of b hle)
        · exact h4 a b
      · rintro (⟨_, a⟩ | ⟨b, _⟩)
        · exact .inr (h5 a)
        · exact .inl (h6 b)

example : (clampInRange (F := Float) (1 / 0) (3, 2)).toOption.map Float.toBits = some (3 : Float).toBits := by decide +kernel

/-! ### Projection -/

/-- **C93.** Whatever the curve functions return, the Newton iteration ends at its start, in the parameter range, or
at NaN. -/
theorem C93_newton (c d1 d2 : Float → Res (V3 Float)) (p : V3 Float) (range : Float × Float) (trials : Nat) (u r : Float)
    (h : newtonLoop c d1 d2 p range trials u = .ok r) : r = u ∨ IsNaN r ∨ Between range.1 range.2 r := by
  induction trials generalizing u with
  | zero => left; simp only [newtonLoop, Except.ok.injEq] at h; exact h.symm
  | succ n ih =>
    unfold newtonLoop at h
    obtain ⟨pt, _, h⟩ := bind_eq_ok.mp h
    by_cases c1 : near (pt - p).lengthSq 0 = true
    · rw [if_pos c1] at h
      left; exact (Except.ok.inj h).symm
    rw [if_neg c1] at h
    obtain ⟨t, _, h⟩ := bind_eq_ok.mp h
    by_cases c2 : near (t.dot (pt - p)) 0 = true
    · rw [if_pos c2] at h
      left; exact (Except.ok.inj h).symm
    rw [if_neg c2] at h
    obtain ⟨s, _, h⟩ := bind_eq_ok.mp h
    obtain ⟨w, hw, h⟩ := bind_eq_ok.mp h
    rcases ih w h with rfl | h
    · by_cases hn : IsNaN range.1 ∨ IsNaN range.2
      · rw [show range = (range.1, range.2) from rfl, (C93_clamp _ _ _).1 hn] at hw
        cases hw
      · rw [not_or] at hn
        obtain ⟨r', e, h1, h2, _⟩ := (C93_clamp (u - t.dot (pt - p) / (s.dot (pt - p) + t.lengthSq)) range.1 range.2).2 hn.1 hn.2
        rw [show range = (range.1, range.2) from rfl, e] at hw
        obtain rfl := Except.ok.inj hw
        by_cases hv : IsNaN (u - t.dot (pt - p) / (s.dot (pt - p) + t.lengthSq))
        · right; left; rw [h1 hv]; exact hv
        · right; right; exact h2 hv
    · exact .inr h

/-- **C93.** The parameter found by `find_nearest_parameter` is in the range, or one of the sample parameters, or NaN. -/
theorem C93_project (c d1 d2 : Float → Res (V3 Float)) (p : V3 Float) (range : Float × Float) (division trials : Nat)
    (r : Float) (h : findNearestParameter c d1 d2 p range division trials = .ok r) :
    IsNaN r ∨ Between range.1 range.2 r ∨ ∃ l, uniformDivide range division = .ok l ∧ r ∈ l := by
  unfold findNearestParameter at h
  obtain ⟨l, hl, h⟩ := bind_eq_ok.mp h
  obtain ⟨pts, _, h⟩ := bind_eq_ok.mp h
  obtain ⟨u, hu, h⟩ := bind_eq_ok.mp h
  rcases C93_newton c d1 d2 p range trials u r h with rfl | h | h
  · right; right
    refine ⟨l, hl, ?_⟩
    unfold idx at hu
    split at hu
    · obtain rfl := Except.ok.inj hu
      exact List.mem_of_getElem? (by assumption)
    · cases hu
  · exact .inl h
  · exact .inr (.inl h)

/-! ### Nearest points -/

theorem nearestLoop_float (point : V3 Float) (vs : List (V3 Float)) (i : Nat) (st : Float × Nat) :
    let r := nearestLoop point vs i st
    (r = st ∧ ∀ (j : Nat) v, vs[j]? = some v → ¬ (point - v).lengthSq < st.1) ∨
    (∃ (j : Nat) (v : V3 Float), vs[j]? = some v ∧ r = ((point - v).lengthSq, i + j) ∧ (point - v).lengthSq < st.1 ∧
      (∀ (k : Nat) w, vs[k]? = some w → ¬ (point - w).lengthSq < (point - v).lengthSq) ∧
      (∀ (k : Nat) w, k < j → vs[k]? = some w → ¬ (point - w).lengthSq ≤ (point - v).lengthSq)) := by
  induction vs generalizing i st with
  | nil => left; exact ⟨rfl, by simp⟩
  | cons v vs ih =>
    simp only [nearestLoop]
    by_cases h : (point - v).lengthSq < st.1
    · rw [if_pos h]
      rcases ih (i + 1) ((point - v).lengthSq, i) with ⟨h1, h2⟩ | ⟨j, w, h1, h2, h3, h4, h5⟩
      · right
        refine ⟨0, v, rfl, by rw [h1]; rfl, h, ?_, by omega⟩
        intro k w hk
        cases k with
        | zero => simp only [List.getElem?_cons_zero, Option.some.injEq] at hk; rw [hk]; exact lt_irrefl_of _
        | succ k => exact h2 k w hk
      · right
        have h3' : (point - w).lengthSq < (point - v).lengthSq := h3
        refine ⟨j + 1, w, h1, by rw [h2]; congr 1; omega, lt_of_le_of_lt_of (le_of_lt_of h3') h, ?_, ?_⟩
        · intro k x hk
          cases k with
          | zero =>
            simp only [List.getElem?_cons_zero, Option.some.injEq] at hk
            rw [← hk]
            exact fun c => lt_irrefl_of _ (lt_of_le_of_lt_of (le_of_lt_of c) h3')
          | succ k => exact h4 k x hk
        · intro k x hk hx
          cases k with
          | zero =>
            simp only [List.getElem?_cons_zero, Option.some.injEq] at hx
            rw [← hx]
            exact fun c => lt_irrefl_of _ (lt_of_le_of_lt_of c h3')
          | succ k => exact h5 k x (by omega) hx
    · rw [if_neg h]
      rcases ih (i + 1) st with ⟨h1, h2⟩ | ⟨j, w, h1, h2, h3, h4, h5⟩
      · left
        refine ⟨h1, ?_⟩
        intro j w hj
        cases j with
        | zero => simp only [List.getElem?_cons_zero, Option.some.injEq] at hj; rw [← hj]; exact h
        | succ j => exact h2 j w hj
      · right
        refine ⟨j + 1, w, h1, by rw [h2]; congr 1; omega, h3, ?_, ?_⟩
        · intro k x hk
          cases k with
          | zero =>
            simp only [List.getElem?_cons_zero, Option.some.injEq] at hk; rw [← hk]
            exact fun c => h (lt_of_le_of_lt_of (le_of_lt_of c) h3)
          | succ k => exact h4 k x hk
        · intro k x hk hx
          cases k with
          | zero =>
            simp only [List.getElem?_cons_zero, Option.some.injEq] at hx; rw [← hx]
            exact fun c => h (lt_of_le_of_lt_of c h3)
          | succ k => exact h5 k x (by omega) hx

/-- **C93.** For all binary64 points, infinities and NaN included: if some computed squared distance is below
`Float::MAX`, `find_nearest_point` returns the first index whose computed squared distance no other one is below. -/
theorem C93_nearest_computed (points : List (V3 Float)) (point : V3 Float)
    (h : ∃ v ∈ points, (point - v).lengthSq < Env.maxV) :
    ∃ v, points[findNearestPoint points point]? = some v ∧ (point - v).lengthSq < Env.maxV ∧
      (∀ w ∈ points, ¬ (point - w).lengthSq < (point - v).lengthSq) ∧
      ∀ k w, k < findNearestPoint points point → points[k]? = some w → ¬ (point - w).lengthSq ≤ (point - v).lengthSq := by
  unfold findNearestPoint
  rcases nearestLoop_float point points 0 ((Env.maxV : Float), 0) with ⟨h1, h2⟩ | ⟨j, v, h1, h2, h3, h4, h5⟩
  · obtain ⟨v, hv, hlt⟩ := h
    obtain ⟨j, hj⟩ := List.mem_iff_getElem?.1 hv
    exact absurd hlt (h2 j v hj)
  · rw [h2]
    simp only [Nat.zero_add]
    refine ⟨v, h1, h3, ?_, h5⟩
    intro w hw
    obtain ⟨k, hk⟩ := List.mem_iff_getElem?.1 hw
    exact h4 k w hk

theorem near_of_apx {A B a b : ℝ} (hA : Apx (8 * eps) (8 * eta) A a) (hB : Apx (8 * eps) (8 * eta) B b) (hB0 : 0 ≤ B)
    (hab : a ≤ b) : A ≤ (1 + 2 ^ (-48 : Int)) * B + 2 ^ (-1070 : Int) := by
  have e1 : (2 : ℝ) ^ (-48 : Int) = 32 * eps := by rw [eps_eq]; norm_num
  have e2 : (2 : ℝ) ^ (-1070 : Int) = 32 * eta := by
    rw [eta, show (-1070 : Int) = 5 + -1075 by norm_num, zpow_add₀ (by norm_num)]; norm_num
  rw [e1, e2]
  have h1 := (abs_le.mp hA).1
  have h2 := (abs_le.mp hB).2
  have he := eps_pos
  have he' : eps ≤ 1 / 64 := by rw [eps_eq]; norm_num
  have hn := eta_pos
  have h3 : (1 - 8 * eps) * A ≤ (1 + 8 * eps) * B + 16 * eta := by linarith
  have h4 : (1 + 8 * eps) * B + 16 * eta ≤ (1 - 8 * eps) * ((1 + 32 * eps) * B + 32 * eta) := by
    nlinarith [mul_nonneg he.le hB0, mul_nonneg he.le (mul_nonneg he.le hB0), mul_pos he hn]
  exact le_of_mul_le_mul_left (h3.trans h4) (by linarith)

theorem lengthSq_lt_max {p q : V3 Float} (hp : Bounded (2 ^ (509 : Int)) p) (hq : Bounded (2 ^ (509 : Int)) q) :
    (p - q).lengthSq < (Env.maxV : Float) := by
  obtain ⟨h1, _, h3, _⟩ := lengthSq_apx hp hq
  rw [lt_iff h1 maxV_val.1, maxV_val.2]
  refine lt_of_le_of_lt h3 (lt_of_lt_of_le (zpow_lt_zpow_right₀ (by norm_num) (show (1022 : Int) < 1023 by norm_num)) ?_)
  have := small_le_max (X := 2 ^ (1023 : Int)) (abs_of_pos (two_zpow_pos _)).le
  rwa [abs_of_pos (two_zpow_pos _)] at this

theorem lengthSq_nonneg_real (v : V3 ℝ) : 0 ≤ v.lengthSq := by
  show 0 ≤ v.x * v.x + v.y * v.y + v.z * v.z
  linarith [mul_self_nonneg v.x, mul_self_nonneg v.y, mul_self_nonneg v.z]

/-- **C93.** For points with coordinates up to `2 ^ 509` the point found is nearest in exact arithmetic up to a factor
`1 + 2 ^ -48` of the squared distance (and underflow). -/
theorem C93_nearest (points : List (V3 Float)) (point : V3 Float) (hne : points ≠ [])
    (hp : Bounded (2 ^ (509 : Int)) point) (hb : ∀ v ∈ points, Bounded (2 ^ (509 : Int)) v) :
    ∃ v, points[findNearestPoint points point]? = some v ∧
      ∀ w ∈ points, (toReal point - toReal v).lengthSq
        ≤ (1 + 2 ^ (-48 : Int)) * (toReal point - toReal w).lengthSq + 2 ^ (-1070 : Int) := by
  obtain ⟨a, ha⟩ := List.exists_mem_of_ne_nil _ hne
  obtain ⟨v, h1, _, h3, _⟩ := C93_nearest_computed points point ⟨a, ha, lengthSq_lt_max hp (hb a ha)⟩
  refine ⟨v, h1, fun w hw => ?_⟩
  obtain ⟨fv, _, _, av⟩ := lengthSq_apx hp (hb v (List.mem_of_getElem? h1))
  obtain ⟨fw, _, _, aw⟩ := lengthSq_apx hp (hb w hw)
  have := h3 w hw
  rw [lt_iff fw fv, not_lt] at this
  exact near_of_apx av aw (lengthSq_nonneg_real _) this

example : findNearestPoint [⟨0 / 0, 0, 0⟩, ⟨1, 1, 0⟩, ⟨1 / 0, 1, 0⟩, (⟨1, 1.5, 0⟩ : V3 Float)] ⟨1, 2, 0⟩ = 3 := by
  decide +kernel

theorem nearestRowLoop_float (point : V3 Float) (i : Nat) (vs : List (V3 Float)) (j : Nat) (st : Float × (Nat × Nat)) :
    let r := nearestRowLoop point i vs j st
    (r = st ∧ ∀ (k : Nat) v, vs[k]? = some v → ¬ (point - v).lengthSq < st.1) ∨
    (∃ (k : Nat) (v : V3 Float), vs[k]? = some v ∧ r = ((point - v).lengthSq, (i, j + k)) ∧ (point - v).lengthSq < st.1 ∧
      (∀ (m : Nat) w, vs[m]? = some w → ¬ (point - w).lengthSq < (point - v).lengthSq) ∧
      (∀ (m : Nat) w, m < k → vs[m]? = some w → ¬ (point - w).lengthSq ≤ (point - v).lengthSq)) := by
  have key : ∀ (vs : List (V3 Float)) (j : Nat) (st : Float × (Nat × Nat)) (st' : Float × Nat), st.1 = st'.1 →
      (∀ (k : Nat) v, vs[k]? = some v → ¬ (point - v).lengthSq < st'.1) ∧ nearestRowLoop point i vs j st = st ∨
      nearestRowLoop point i vs j st = ((nearestLoop point vs j st').1, (i, (nearestLoop point vs j st').2)) := by
    intro vs
    induction vs with
    | nil => intro j st st' h; left; exact ⟨by simp, rfl⟩
    | cons v vs ih =>
      intro j st st' h
      simp only [nearestRowLoop, nearestLoop]
      rw [h]
      by_cases hc : (point - v).lengthSq < st'.1
      · rw [if_pos hc, if_pos hc]
        rcases ih (j + 1) ((point - v).lengthSq, (i, j)) ((point - v).lengthSq, j) rfl with ⟨a, b⟩ | a
        · right
          rw [b]
          rcases nearestLoop_float point vs (j + 1) ((point - v).lengthSq, j) with ⟨e, _⟩ | ⟨k, w, h1, _, h3, _⟩
          · rw [e]
          · exact absurd h3 (a k w h1)
        · right; exact a
      · rw [if_neg hc, if_neg hc]
        rcases ih (j + 1) st st' h with ⟨a, b⟩ | a
        · left
          refine ⟨?_, b⟩
          intro k w hk
          cases k with
          | zero => simp only [List.getElem?_cons_zero, Option.some.injEq] at hk; rw [← hk]; exact hc
          | succ k => exact a k w hk
        · right; exact a
  intro r
  rcases nearestLoop_float point vs j (st.1, 0) with ⟨h1, h2⟩ | ⟨k, v, h1, h2, h3, h4, h5⟩
  · left
    refine ⟨?_, h2⟩
    have hn : ∀ (vs : List (V3 Float)) (j : Nat), (∀ (k : Nat) v, vs[k]? = some v → ¬ (point - v).lengthSq < st.1) →
        nearestRowLoop point i vs j st = st := by
      intro vs
      induction vs with
      | nil => intro j _; rfl
      | cons v vs ih =>
        intro j h
        simp only [nearestRowLoop]
        rw [if_neg (h 0 v rfl)]
        exact ih (j + 1) (fun k w hk => h (k + 1) w hk)
    exact hn vs j h2
  · rcases key vs j st (st.1, 0) rfl with ⟨a, _⟩ | a
    · exact absurd h3 (a k v h1)
    · right
      refine ⟨k, v, h1, ?_, h3, h4, h5⟩
      show nearestRowLoop point i vs j st = _
      rw [a, h2]

theorem nearestGridLoop_float (point : V3 Float) (rows : List (List (V3 Float))) (i : Nat) (st : Float × (Nat × Nat)) :
    let r := nearestGridLoop point rows i st
    (r = st ∧ ∀ a b v, gridAt rows a b = some v → ¬ (point - v).lengthSq < st.1) ∨
    (∃ a b v, gridAt rows a b = some v ∧ r = ((point - v).lengthSq, (i + a, b)) ∧ (point - v).lengthSq < st.1 ∧
      (∀ c d w, gridAt rows c d = some w → ¬ (point - w).lengthSq < (point - v).lengthSq) ∧
      (∀ c d w, (c < a ∨ (c = a ∧ d < b)) → gridAt rows c d = some w →
        ¬ (point - w).lengthSq ≤ (point - v).lengthSq)) := by
  induction rows generalizing i st with
  | nil => left; exact ⟨rfl, by simp [gridAt]⟩
  | cons row rows ih =>
    simp only [nearestGridLoop]
    have g0 : ∀ b, gridAt (row :: rows) 0 b = row[b]? := fun b => rfl
    have gs : ∀ a b, gridAt (row :: rows) (a + 1) b = gridAt rows a b := fun a b => rfl
    rcases nearestRowLoop_float point i row 0 st with ⟨h1, h2⟩ | ⟨k, v, h1, h2, h3, h4, h5⟩
    · rw [h1]
      rcases ih (i + 1) st with ⟨e1, e2⟩ | ⟨a, b, v, e1, e2, e3, e4, e5⟩
      · left
        refine ⟨e1, ?_⟩
        intro a b v hv
        cases a with
        | zero => exact h2 b v hv
        | succ a => exact e2 a b v hv
      · right
        refine ⟨a + 1, b, v, e1, by rw [e2]; congr 2; omega, e3, ?_, ?_⟩
        · intro c d w hw
          cases c with
          | zero => exact fun q => h2 d w hw (lt_of_le_of_lt_of (le_of_lt_of q) e3)
          | succ c => exact e4 c d w hw
        · intro c d w hc hw
          cases c with
          | zero => exact fun q => h2 d w hw (lt_of_le_of_lt_of q e3)
          | succ c => exact e5 c d w (by omega) hw
    · rw [h2]
      rcases ih (i + 1) ((point - v).lengthSq, (i, 0 + k)) with ⟨e1, e2⟩ | ⟨a, b, v', e1, e2, e3, e4, e5⟩
      · right
        refine ⟨0, k, v, h1, by rw [e1]; simp, h3, ?_, ?_⟩
        · intro c d w hw
          cases c with
          | zero => exact h4 d w hw
          | succ c => exact e2 c d w hw
        · intro c d w hc hw
          cases c with
          | zero => exact h5 d w (by omega) hw
          | succ c => omega
      · right
        have e3' : (point - v').lengthSq < (point - v).lengthSq := e3
        refine ⟨a + 1, b, v', e1, by rw [e2]; congr 2; omega, lt_of_le_of_lt_of (le_of_lt_of e3') h3, ?_, ?_⟩
        · intro c d w hw
          cases c with
          | zero => exact fun q => h4 d w hw (lt_of_le_of_lt_of (le_of_lt_of q) e3')
          | succ c => exact e4 c d w hw
        · intro c d w hc hw
          cases c with
          | zero => exact fun q => h4 d w hw (lt_of_le_of_lt_of q e3')
          | succ c => exact e5 c d w (by omega) hw

/-- **C93**, grids: the first entry in row-major order whose computed squared distance no other one is below. -/
theorem C93_nearest_in_grid_computed (grid : List (List (V3 Float))) (point : V3 Float)
    (h : ∃ row ∈ grid, ∃ v ∈ row, (point - v).lengthSq < Env.maxV) :
    ∃ a b v, findNearestPointInGrid grid point = (a, b) ∧ gridAt grid a b = some v ∧
      (∀ c d w, gridAt grid c d = some w → ¬ (point - w).lengthSq < (point - v).lengthSq) ∧
      (∀ c d w, (c < a ∨ (c = a ∧ d < b)) → gridAt grid c d = some w →
        ¬ (point - w).lengthSq ≤ (point - v).lengthSq) := by
  unfold findNearestPointInGrid
  rcases nearestGridLoop_float point grid 0 ((Env.maxV : Float), (0, 0)) with ⟨h1, h2⟩ | ⟨a, b, v, h1, h2, h3, h4, h5⟩
  · obtain ⟨row, hr, v, hv, hlt⟩ := h
    obtain ⟨i, hi⟩ := List.mem_iff_getElem?.1 hr
    obtain ⟨j, hj⟩ := List.mem_iff_getElem?.1 hv
    exact absurd hlt (h2 i j v (by simp [gridAt, hi, hj]))
  · rw [h2]
    exact ⟨a, b, v, by simp, h1, h4, h5⟩

theorem gridAt_mem {grid : List (List (V3 Float))} {a b : Nat} {v : V3 Float} (h : gridAt grid a b = some v) :
    ∃ row ∈ grid, v ∈ row := by
  unfold gridAt at h
  rw [Option.bind_eq_some_iff] at h
  obtain ⟨row, hr, hv⟩ := h
  exact ⟨row, List.mem_of_getElem? hr, List.mem_of_getElem? hv⟩

/-- **C93**, grids: nearest in exact arithmetic up to a factor `1 + 2 ^ -48`. -/
theorem C93_nearest_in_grid (grid : List (List (V3 Float))) (point : V3 Float) (hne : ∃ row ∈ grid, row ≠ [])
    (hp : Bounded (2 ^ (509 : Int)) point) (hb : ∀ row ∈ grid, ∀ v ∈ row, Bounded (2 ^ (509 : Int)) v) :
    ∃ a b v, findNearestPointInGrid grid point = (a, b) ∧ gridAt grid a b = some v ∧
      ∀ row ∈ grid, ∀ w ∈ row, (toReal point - toReal v).lengthSq
        ≤ (1 + 2 ^ (-48 : Int)) * (toReal point - toReal w).lengthSq + 2 ^ (-1070 : Int) := by
  obtain ⟨row, hr, hne⟩ := hne
  obtain ⟨x, hx⟩ := List.exists_mem_of_ne_nil _ hne
  obtain ⟨a, b, v, h1, h2, h3, _⟩ := C93_nearest_in_grid_computed grid point ⟨row, hr, x, hx, lengthSq_lt_max hp (hb row hr x hx)⟩
  refine ⟨a, b, v, h1, h2, fun row' hr' w hw => ?_⟩
  obtain ⟨rv, hrv, hv⟩ := gridAt_mem h2
  obtain ⟨fv, _, _, av⟩ := lengthSq_apx hp (hb rv hrv v hv)
  obtain ⟨fw, _, _, aw⟩ := lengthSq_apx hp (hb row' hr' w hw)
  obtain ⟨i, hi⟩ := List.mem_iff_getElem?.1 hr'
  obtain ⟨j, hj⟩ := List.mem_iff_getElem?.1 hw
  have := h3 i j w (by simp [gridAt, hi, hj])
  rw [lt_iff fw fv, not_lt] at this
  exact near_of_apx av aw (lengthSq_nonneg_real _) this

example : findNearestPointInGrid [[⟨0 / 0, 0, 0⟩, ⟨1, 1, 0⟩], [⟨1 / 0, 1, 0⟩, (⟨1, 1.5, 0⟩ : V3 Float)]] ⟨1, 2, 0⟩ = (1, 1) := by
  decide +kernel

/-! ### Minimum and maximum -/

/-- **C93.** On finite numbers `get_min_max_by_key` gives the exact minimum and maximum. -/
theorem C93_min_max {α : Type} (items : List α) (key : α → Float) (hne : items ≠ []) (hf : ∀ a ∈ items, IsFin (key a)) :
    let r := getMinMaxByKey items key
    (IsFin r.1 ∧ (∃ a ∈ items, val r.1 = val (key a)) ∧ ∀ a ∈ items, val r.1 ≤ val (key a)) ∧
    (IsFin r.2 ∧ (∃ a ∈ items, val r.2 = val (key a)) ∧ ∀ a ∈ items, val (key a) ≤ val r.2) := by
  have step : ∀ (l : List α) (st : Float × Float), (∀ a ∈ l, IsFin (key a)) → IsFin st.1 → IsFin st.2 →
      let r := l.foldl (fun (st : Float × Float) item =>
        (if st.1 < key item then key item else st.1, if key item < st.2 then key item else st.2)) st
      (IsFin r.1 ∧ (val r.1 = val st.1 ∨ ∃ a ∈ l, val r.1 = val (key a)) ∧ val st.1 ≤ val r.1 ∧ ∀ a ∈ l, val (key a) ≤ val r.1) ∧
      (IsFin r.2 ∧ (val r.2 = val st.2 ∨ ∃ a ∈ l, val r.2 = val (key a)) ∧ val r.2 ≤ val st.2 ∧ ∀ a ∈ l, val r.2 ≤ val (key a)) := by
    intro l
    induction l with
    | nil => intro st _ h1 h2; exact ⟨⟨h1, .inl rfl, le_rfl, by simp⟩, h2, .inl rfl, le_rfl, by simp⟩
    | cons x l ih =>
      intro st hl h1 h2
      have hx := hl x (by simp)
      have f1 : IsFin (if st.1 < key x then key x else st.1) := by split <;> assumption
      have f2 : IsFin (if key x < st.2 then key x else st.2) := by split <;> assumption
      obtain ⟨⟨a1, a2, a3, a4⟩, b1, b2, b3, b4⟩ := ih (if st.1 < key x then key x else st.1, if key x < st.2 then key x else st.2)
        (fun a ha => hl a (by simp [ha])) f1 f2
      have m1 : val st.1 ≤ val (if st.1 < key x then key x else st.1) ∧ val (key x) ≤ val (if st.1 < key x then key x else st.1) ∧
          (val (if st.1 < key x then key x else st.1) = val st.1 ∨ val (if st.1 < key x then key x else st.1) = val (key x)) := by
        split
        · rename_i h; rw [lt_iff h1 hx] at h; exact ⟨h.le, le_rfl, .inr rfl⟩
        · rename_i h; rw [lt_iff h1 hx, not_lt] at h; exact ⟨le_rfl, h, .inl rfl⟩
      have m2 : val (if key x < st.2 then key x else st.2) ≤ val st.2 ∧ val (if key x < st.2 then key x else st.2) ≤ val (key x) ∧
          (val (if key x < st.2 then key x else st.2) = val st.2 ∨ val (if key x < st.2 then key x else st.2) = val (key x)) := by
        split
        · rename_i h; rw [lt_iff hx h2] at h; exact ⟨h.le, le_rfl, .inr rfl⟩
        · rename_i h; rw [lt_iff hx h2, not_lt] at h; exact ⟨le_rfl, h, .inl rfl⟩
      rw [List.foldl_cons]
      refine ⟨⟨a1, ?_, m1.1.trans a3, ?_⟩, b1, ?_, b3.trans m2.1, ?_⟩
      · rcases a2 with a2 | ⟨a, ha, e⟩
        · rcases m1.2.2 with m | m
          · exact .inl (a2.trans m)
          · exact .inr ⟨x, by simp, a2.trans m⟩
        · exact .inr ⟨a, by simp [ha], e⟩
      · intro a ha
        rcases List.mem_cons.mp ha with rfl | ha
        · exact m1.2.1.trans a3
        · exact a4 a ha
      · rcases b2 with b2 | ⟨a, ha, e⟩
        · rcases m2.2.2 with m | m
          · exact .inl (b2.trans m)
          · exact .inr ⟨x, by simp, b2.trans m⟩
        · exact .inr ⟨a, by simp [ha], e⟩
      · intro a ha
        rcases List.mem_cons.mp ha with rfl | ha
        · exact b3.trans m2.2.1
        · exact b4 a ha
  obtain ⟨⟨a1, a2, a3, a4⟩, b1, b2, b3, b4⟩ := step items (Env.minV, Env.maxV) hf minV_val.1 maxV_val.1
  obtain ⟨x, hx⟩ := List.exists_mem_of_ne_nil _ hne
  have hxb := abs_le.mp (val_abs_le (hf x hx))
  refine ⟨⟨b1, ?_, b4⟩, a1, ?_, a4⟩
  · rcases b2 with h | h
    · refine ⟨x, hx, le_antisymm (b4 x hx) ?_⟩
      rw [show val (getMinMaxByKey items key).1 = _ from h, maxV_val.2]
      exact hxb.2
    · exact h
  · rcases a2 with h | h
    · refine ⟨x, hx, le_antisymm ?_ (a4 x hx)⟩
      rw [show val (getMinMaxByKey items key).2 = _ from h, minV_val.2]
      exact hxb.1
    · exact h

example : let r := getMinMaxByKey [3, 0.5, (7 : Float)] id
    r.1.toBits = (0.5 : Float).toBits ∧ r.2.toBits = (7 : Float).toBits := by decide +kernel

end Geom3d
