import Verif.Props.FloatBSpline
import Verif.Props.FloatOrient
import Verif.Props.Knots
import Verif.Lemmas.Natural
import Verif.Lemmas.F64Exact

/-! # Runs in binary64 next to runs in exact arithmetic -/

namespace Geom3d
open Spec

/-! ### Related computations -/

/-- Both computations panic in the same way, or both return, with related results. -/
def Alike {α β : Type} (R : α → β → Prop) : Res α → Res β → Prop
  | .ok a, .ok b => R a b
  | .error e, .error e' => e = e'
  | _, _ => False

section
variable {α β α' β' σ τ : Type}

theorem Alike.bind {R : α → β → Prop} {S : α' → β' → Prop} {x : Res α} {y : Res β} {k : α → Res α'} {k' : β → Res β'}
    (h : Alike R x y) (hk : ∀ a b, R a b → Alike S (k a) (k' b)) : Alike S (x >>= k) (y >>= k') := by
  cases x with
  | error e => cases y with
    | error e' => exact h
    | ok b => exact h.elim
  | ok a => cases y with
    | error e' => exact h.elim
    | ok b => exact hk a b h

theorem Alike.mono {R S : α → β → Prop} {x : Res α} {y : Res β} (h : Alike R x y) (hRS : ∀ a b, R a b → S a b) :
    Alike S x y := by
  cases x with
  | error e => cases y with
    | error e' => exact h
    | ok b => exact h.elim
  | ok a => cases y with
    | error e' => exact h.elim
    | ok b => exact hRS a b h

theorem Alike.same (x : Res α) : Alike Eq x x := by
  cases x <;> rfl

theorem Alike.of_eq {x y : Res α} (h : x = y) : Alike Eq x y := h ▸ Alike.same x

theorem Alike.ok_right {R : α → β → Prop} {x : Res α} {y : Res β} (h : Alike R x y) {b : β} (hy : y = .ok b) :
    ∃ a, x = .ok a ∧ R a b := by
  subst hy
  cases x with
  | error e => exact h.elim
  | ok a => exact ⟨a, rfl, h⟩

theorem Alike.ok_left {R : α → β → Prop} {x : Res α} {y : Res β} (h : Alike R x y) {a : α} (hx : x = .ok a) :
    ∃ b, y = .ok b ∧ R a b := by
  subst hx
  cases y with
  | error e => exact h.elim
  | ok b => exact ⟨b, rfl, h⟩

/-- Two lists of one length, related place by place. -/
def Places (R : Nat → α → β → Prop) (l : List α) (l' : List β) : Prop :=
  l.length = l'.length ∧ ∀ j a b, l[j]? = some a → l'[j]? = some b → R j a b

theorem Places.mono {R S : Nat → α → β → Prop} {l : List α} {l' : List β} (h : Places R l l')
    (hRS : ∀ j a b, R j a b → S j a b) : Places S l l' :=
  ⟨h.1, fun j a b ha hb => hRS j a b (h.2 j a b ha hb)⟩

theorem Places.idx {R : Nat → α → β → Prop} {l : List α} {l' : List β} (h : Places R l l') (i : Nat) :
    Alike (fun a b => R i a b ∧ l[i]? = some a ∧ l'[i]? = some b) (Geom3d.idx l i) (Geom3d.idx l' i) := by
  unfold Geom3d.idx
  rcases Nat.lt_or_ge i l.length with hi | hi
  · rw [List.getElem?_eq_getElem hi, List.getElem?_eq_getElem (h.1 ▸ hi)]
    refine ⟨h.2 i _ _ (List.getElem?_eq_getElem hi) (List.getElem?_eq_getElem (h.1 ▸ hi)), rfl, rfl⟩
  · rw [List.getElem?_eq_none hi, List.getElem?_eq_none (h.1 ▸ hi)]
    exact rfl

theorem Places.upd {R S : Nat → α → β → Prop} {l : List α} {l' : List β} (h : Places R l l') {i : Nat} {a : α} {b : β}
    (hi : S i a b) (hRS : ∀ j a b, j ≠ i → R j a b → S j a b) : Alike (Places S) (Geom3d.upd l i a) (Geom3d.upd l' i b) := by
  unfold Geom3d.upd
  rw [← h.1]
  split
  · refine ⟨by simpa using h.1, fun j a' b' ha hb => ?_⟩
    rcases eq_or_ne j i with rfl | hj
    · rename_i hlt
      rw [List.getElem?_set_self hlt, Option.some.injEq] at ha
      rw [List.getElem?_set_self (h.1 ▸ hlt), Option.some.injEq] at hb
      exact ha ▸ hb ▸ hi
    · rw [List.getElem?_set_ne hj.symm] at ha hb
      exact hRS j a' b' hj (h.2 j a' b' ha hb)
  · exact rfl

theorem places_iff {R : α → β → Prop} {l : List α} {l' : List β} :
    Places (fun _ => R) l l' ↔ List.Forall₂ R l l' := by
  rw [List.forall₂_iff_get]
  constructor
  · rintro ⟨h1, h2⟩
    refine ⟨h1, fun i hi hi' => ?_⟩
    exact h2 i _ _ (List.getElem?_eq_getElem hi) (List.getElem?_eq_getElem hi')
  · rintro ⟨h1, h2⟩
    refine ⟨h1, fun j a b ha hb => ?_⟩
    obtain ⟨hj, rfl⟩ := List.getElem?_eq_some_iff.mp ha
    obtain ⟨hj', rfl⟩ := List.getElem?_eq_some_iff.mp hb
    exact h2 j hj hj'

theorem forall₂_insertIdx {R : α → β → Prop} {a : α} {b : β} (hab : R a b) :
    ∀ (i : Nat) {l : List α} {l' : List β}, List.Forall₂ R l l' → List.Forall₂ R (l.insertIdx i a) (l'.insertIdx i b)
  | 0, _, _, h => by simpa using ⟨hab, h⟩
  | i + 1, [], _, h => by cases h; simp
  | i + 1, _ :: _, _, .cons h1 h2 => by
    rw [List.insertIdx_succ_cons, List.insertIdx_succ_cons]
    exact .cons h1 (forall₂_insertIdx hab i h2)

theorem Alike.insertAt {R : α → β → Prop} {l : List α} {l' : List β} (h : List.Forall₂ R l l') {a : α} {b : β}
    (hab : R a b) (i : Nat) : Alike (List.Forall₂ R) (Geom3d.insertAt l i a) (Geom3d.insertAt l' i b) := by
  unfold Geom3d.insertAt
  rw [← h.length_eq]
  split
  · exact forall₂_insertIdx hab i h
  · exact rfl

theorem Alike.slice {R : α → β → Prop} {l : List α} {l' : List β} (h : List.Forall₂ R l l') (a b : Nat) :
    Alike (List.Forall₂ R) (Geom3d.slice l a b) (Geom3d.slice l' a b) := by
  unfold Geom3d.slice
  rw [← h.length_eq]
  split
  · exact List.forall₂_drop _ (List.forall₂_take _ h)
  · exact rfl

/-- A loop, with a relation for each number of rounds. -/
theorem Alike.foldlM {ι : Type} {R : Nat → σ → τ → Prop} {body : σ → ι → Res σ} {body' : τ → ι → Res τ}
    (l : List ι) {k : Nat} {s : σ} {t : τ}
    (hb : ∀ j i s t, j < k + l.length → i ∈ l → R j s t → Alike (R (j + 1)) (body s i) (body' t i)) (h : R k s t) :
    Alike (R (k + l.length)) (l.foldlM body s) (l.foldlM body' t) := by
  induction l generalizing k s t with
  | nil => exact h
  | cons i l ih =>
    rw [List.foldlM_cons, List.foldlM_cons]
    refine Alike.bind (hb k i s t (by simp) (by simp) h) fun a b hab => ?_
    rw [List.length_cons, show k + (l.length + 1) = k + 1 + l.length by omega]
    exact ih (fun j i s t hj hi => hb j i s t (by simp only [List.length_cons]; omega) (by simp [hi])) hab

theorem Alike.forRange {R : Nat → σ → τ → Prop} {body : σ → Nat → Res σ} {body' : τ → Nat → Res τ} {a b k : Nat}
    {s : σ} {t : τ} (hb : ∀ j i s t, j < k + (b - a) → R j s t → Alike (R (j + 1)) (body s i) (body' t i)) (h : R k s t) :
    Alike (R (k + (b - a))) (Geom3d.forRange a b s body) (Geom3d.forRange a b t body') := by
  have := Alike.foldlM (List.range' a (b - a)) (R := R) (body := body) (body' := body') (k := k) (s := s) (t := t)
    (fun j i s t hj _ => hb j i s t (by rwa [List.length_range'] at hj)) h
  rwa [List.length_range'] at this

/-- A loop downwards, with a relation for each index that is still to come. -/
theorem Alike.forRangeRev {R : Nat → σ → τ → Prop} {body : σ → Nat → Res σ} {body' : τ → Nat → Res τ} {a b : Nat}
    (hab : a ≤ b) {s : σ} {t : τ}
    (hb : ∀ i s t, a ≤ i → i < b → R (i + 1) s t → Alike (R i) (body s i) (body' t i)) (h : R b s t) :
    Alike (R a) (Geom3d.forRangeRev a b s body) (Geom3d.forRangeRev a b t body') := by
  unfold Geom3d.forRangeRev
  obtain ⟨n, rfl⟩ := Nat.exists_eq_add_of_le hab
  rw [Nat.add_sub_cancel_left]
  clear hab
  induction n generalizing s t with
  | zero => exact h
  | succ n ih =>
    rw [List.range'_concat, List.reverse_append]
    simp only [List.reverse_cons, List.reverse_nil, List.nil_append, List.singleton_append, List.foldlM_cons, one_mul]
    refine Alike.bind (hb (a + n) s t (by omega) (by omega) h) fun s' t' h' => ?_
    exact ih (fun i s t h1 h2 => hb i s t h1 (by omega)) h'

end

namespace F64

/-! ### One combination of two points -/

/-- All coordinates are at most `M` in absolute value. -/
def Within (M : ℝ) (q : V3 ℝ) : Prop := |q.x| ≤ M ∧ |q.y| ≤ M ∧ |q.z| ≤ M

theorem combine_err {p q a : Float} {P Q α M e : ℝ} (fp : IsFin p) (fq : IsFin q) (fa : IsFin a) (a0 : 0 ≤ val a)
    (a1 : val a ≤ 1) (α0 : 0 ≤ α) (α1 : α ≤ 1) (ha : |val a - α| ≤ 9 / 2 * eps) (hp : |val p - P| ≤ e)
    (hq : |val q - Q| ≤ e) (hP : |P| ≤ M) (hQ : |Q| ≤ M) (he : e ≤ M) (hM : (2 : ℝ) ^ (-900 : Int) ≤ M)
    (hM' : M ≤ 2 ^ (1000 : Int)) :
    IsFin (p * (1 - a) + q * a) ∧ |val (p * (1 - a) + q * a) - (P * (1 - α) + Q * α)| ≤ e + 2 ^ (-48 : Int) * M ∧
      |P * (1 - α) + Q * α| ≤ M := by
  have hM0 : 0 < M := lt_of_lt_of_le (two_zpow_pos _) hM
  have he0 : 0 ≤ e := (abs_nonneg _).trans hp
  have hε := eps_pos
  have hs : eps ≤ 1 / 1000 := by rw [eps_eq]; norm_num
  have hη : eta ≤ 1 / 10 * eps * M := by
    calc eta ≤ 1 / 10 * eps * 2 ^ (-900 : Int) := by
          rw [eta, eps]
          calc (2 : ℝ) ^ (-1075 : Int) = 2 ^ (-122 : Int) * (2 ^ (-53 : Int) * 2 ^ (-900 : Int)) := by
                rw [← zpow_add₀ (by norm_num), ← zpow_add₀ (by norm_num)]; norm_num
            _ ≤ 1 / 10 * (2 ^ (-53 : Int) * 2 ^ (-900 : Int)) := by
                refine mul_le_mul_of_nonneg_right (by norm_num) (mul_pos (two_zpow_pos _) (two_zpow_pos _)).le
            _ = _ := by ring
      _ ≤ _ := mul_le_mul_of_nonneg_left hM (by positivity)
  have hη0 := eta_pos
  have big : ∀ X : ℝ, |X| ≤ 8 * M → |X| ≤ maxFinite := fun X hX => small_le_max (hX.trans (by
    calc 8 * M ≤ 8 * 2 ^ (1000 : Int) := by linarith
      _ = 2 ^ (1003 : Int) := by
        rw [show (8 : ℝ) = 2 ^ (3 : Int) by norm_num, ← zpow_add₀ (by norm_num)]; norm_num
      _ ≤ _ := two_zpow_le (by norm_num)))
  have bp : |val p| ≤ 2 * M := by
    calc |val p| = |(val p - P) + P| := by ring_nf
      _ ≤ _ := (abs_add_le _ _).trans (by linarith)
  have bq : |val q| ≤ 2 * M := by
    calc |val q| = |(val q - Q) + Q| := by ring_nf
      _ ≤ _ := (abs_add_le _ _).trans (by linarith)
  have e1 : |val (1 : Float) - val a| ≤ 1 := by rw [one_val.2, abs_le]; constructor <;> linarith
  obtain ⟨fb, rb⟩ := sub_rounds one_val.1 fa (le_max_of_le_four (e1.trans (by norm_num)))
  have eb := sub_err one_val.1 fa (le_max_of_le_four (e1.trans (by norm_num)))
  rw [one_val.2] at rb eb e1
  have b0 := rb.nonneg (by linarith)
  have b1 := rb.le_one (by linarith)
  obtain ⟨b, hb⟩ : ∃ b, val (1 - a) = b := ⟨_, rfl⟩
  rw [hb] at rb eb b0 b1
  have eb' : |b - (1 - val a)| ≤ eps := eb.trans (by nlinarith)
  have eb2 := abs_le.mp eb'
  have ha2 := abs_le.mp ha
  have ebα : |b - (1 - α)| ≤ 11 / 2 * eps := by rw [abs_le]; constructor <;> linarith
  have mpb : |val p * val (1 - a)| ≤ 2 * M * b := by
    rw [hb, abs_mul, abs_of_nonneg b0]; exact mul_le_mul_of_nonneg_right bp b0
  have mqa : |val q * val a| ≤ 2 * M * val a := by
    rw [abs_mul, abs_of_nonneg a0]; exact mul_le_mul_of_nonneg_right bq a0
  obtain ⟨f1, r1⟩ := mul_rounds fp fb (big _ (mpb.trans (by nlinarith)))
  obtain ⟨f2, r2⟩ := mul_rounds fq fa (big _ (mqa.trans (by nlinarith)))
  have x1 := r1.bound
  have x2 := r2.bound
  have hab : val a + b ≤ 1 + eps := by linarith
  have msum : |val p * val (1 - a)| + |val q * val a| ≤ 2 * M * (1 + eps) := by nlinarith
  have mtot : |val (p * (1 - a)) + val (q * a)| ≤ 21 / 10 * M := by
    have : val (p * (1 - a)) + val (q * a) = (val (p * (1 - a)) - val p * val (1 - a))
      + (val (q * a) - val q * val a) + (val p * val (1 - a) + val q * val a) := by ring
    rw [this]
    refine (abs_add_le _ _).trans ((add_le_add (abs_add_le _ _) (abs_add_le _ _)).trans ?_)
    have z4 := mul_le_mul_of_nonneg_left msum hε.le
    have z5 : eps * (2 * M * (1 + eps)) ≤ 21 / 10 * (eps * M) := by
      have : eps * M * eps ≤ eps * M * (1 / 1000) := mul_le_mul_of_nonneg_left hs (mul_pos hε hM0).le
      linarith
    have z6 : eps * M ≤ 1 / 1000 * M := mul_le_mul_of_nonneg_right hs hM0.le
    linarith [abs_add_le (val p * val (1 - a)) (val q * val a)]
  obtain ⟨f3, r3⟩ := add_rounds f1 f2 (big _ (mtot.trans (by linarith)))
  have x3 := add_err f1 f2 (big _ (mtot.trans (by linarith)))
  refine ⟨f3, ?_, ?_⟩
  · have y1 : |val p * val (1 - a) - P * (1 - α)| ≤ 11 * eps * M + (1 - α) * e := by
      rw [hb]
      have : val p * b - P * (1 - α) = val p * (b - (1 - α)) + (1 - α) * (val p - P) := by ring
      rw [this]
      refine (abs_add_le _ _).trans ?_
      rw [abs_mul, abs_mul, abs_of_nonneg (by linarith : 0 ≤ 1 - α)]
      have z1 : |val p| * |b - (1 - α)| ≤ 2 * M * (11 / 2 * eps) := mul_le_mul bp ebα (abs_nonneg _) (by linarith)
      have z2 : (1 - α) * |val p - P| ≤ (1 - α) * e := mul_le_mul_of_nonneg_left hp (by linarith)
      linarith
    have y2 : |val q * val a - Q * α| ≤ 9 * eps * M + α * e := by
      have : val q * val a - Q * α = val q * (val a - α) + α * (val q - Q) := by ring
      rw [this]
      refine (abs_add_le _ _).trans ?_
      rw [abs_mul, abs_mul, abs_of_nonneg α0]
      have z1 : |val q| * |val a - α| ≤ 2 * M * (9 / 2 * eps) := mul_le_mul bq ha (abs_nonneg _) (by linarith)
      have z2 : α * |val q - Q| ≤ α * e := mul_le_mul_of_nonneg_left hq α0
      linarith
    have e48 : (2 : ℝ) ^ (-48 : Int) * M = 32 * eps * M := by rw [eps_eq]; norm_num
    have : val (p * (1 - a) + q * a) - (P * (1 - α) + Q * α)
        = (val (p * (1 - a) + q * a) - (val (p * (1 - a)) + val (q * a)))
        + ((val (p * (1 - a)) - val p * val (1 - a)) + (val (q * a) - val q * val a))
        + ((val p * val (1 - a) - P * (1 - α)) + (val q * val a - Q * α)) := by ring
    rw [this, e48]
    refine (abs_add_le _ _).trans ((add_le_add ((abs_add_le _ _).trans (add_le_add le_rfl (abs_add_le _ _)))
      (abs_add_le _ _)).trans ?_)
    have z3 := mul_le_mul_of_nonneg_left mtot hε.le
    have z4 := mul_le_mul_of_nonneg_left msum hε.le
    have z5 : eps * (2 * M * (1 + eps)) ≤ 21 / 10 * (eps * M) := by
      have : eps * M * eps ≤ eps * M * (1 / 1000) := mul_le_mul_of_nonneg_left hs (mul_pos hε hM0).le
      linarith
    have z6 : 0 < eps * M := mul_pos hε hM0
    linarith
  · refine (abs_add_le _ _).trans ?_
    rw [abs_mul, abs_mul, abs_of_nonneg α0, abs_of_nonneg (by linarith : 0 ≤ 1 - α)]
    nlinarith

/-- The weight `(x - lo) / (hi - lo)` of the old point. -/
theorem insert_weight {hi lo x : Float} (fh : IsFin hi) (fl : IsFin lo) (fx : IsFin x) (bh : |val hi| ≤ 2 ^ (900 : Int))
    (bl : |val lo| ≤ 2 ^ (900 : Int)) (h1 : val lo ≤ val x) (h2 : val x ≤ val hi)
    (hgap : val hi = val lo ∨ (2 : ℝ) ^ (-51 : Int) ≤ val hi - val lo) :
    IsFin ((x - lo) * invOrZero (hi - lo)) ∧ 0 ≤ val ((x - lo) * invOrZero (hi - lo)) ∧
      val ((x - lo) * invOrZero (hi - lo)) ≤ 1 ∧
      0 ≤ (val x - val lo) * invOrZero (val hi - val lo) ∧ (val x - val lo) * invOrZero (val hi - val lo) ≤ 1 ∧
      |val ((x - lo) * invOrZero (hi - lo)) - (val x - val lo) * invOrZero (val hi - val lo)| ≤ 9 / 2 * eps := by
  have hε := eps_pos
  rcases hgap with heq | hgap
  · have e1 : val x - val lo = 0 := by linarith
    have e2 : val hi - val lo = 0 := by linarith
    obtain ⟨f1, r1⟩ := sub_rounds fx fl (le_max_of_le_four (by rw [e1, abs_zero]; norm_num))
    obtain ⟨f2, r2⟩ := sub_rounds fh fl (le_max_of_le_four (by rw [e2, abs_zero]; norm_num))
    rw [e1] at r1
    rw [e2] at r2
    have v1 := r1.of_rep rep_zero
    have v2 := r2.of_rep rep_zero
    have hz : invOrZero (hi - lo) = 0 := if_pos ((ulpsEq_zero_iff f2).mpr (by
      rw [v2, abs_zero]; exact (two_zpow_pos _).le))
    have e3 : val (x - lo) * val (0 : Float) = 0 := by rw [v1, zero_mul]
    obtain ⟨f3, r3⟩ := mul_rounds f1 zero_val.1 (le_max_of_le_four (by rw [e3, abs_zero]; norm_num))
    rw [e3] at r3
    have v3 := r3.of_rep rep_zero
    rw [hz, v3, e1, zero_mul]
    refine ⟨f3, le_rfl, zero_le_one, le_rfl, zero_le_one, ?_⟩
    simp only [sub_self, abs_zero]
    linarith
  have hT : (2 : ℝ) ^ (901 : Int) ≤ 2 ^ (1023 : Int) := two_zpow_le (by norm_num)
  have h901 : (2 : ℝ) ^ (901 : Int) = 2 * 2 ^ (900 : Int) := by
    rw [show (901 : Int) = 1 + 900 by norm_num, ← two_mul_zpow]
  have hg0 := two_zpow_pos (-51)
  have hD0 : 0 < val hi - val lo := lt_of_lt_of_le hg0 hgap
  have hy0 : 0 ≤ val x - val lo := sub_nonneg.mpr h1
  have hD1 : val hi - val lo ≤ 2 ^ (901 : Int) := by
    rw [h901]; linarith [(abs_le.mp bh).2, (abs_le.mp bl).1]
  have mD : |val hi - val lo| ≤ maxFinite := small_le_max (by rw [abs_of_pos hD0]; exact hD1.trans hT)
  have my : |val x - val lo| ≤ maxFinite :=
    small_le_max (by rw [abs_of_nonneg hy0]; exact (by linarith : _ ≤ val hi - val lo).trans (hD1.trans hT))
  obtain ⟨fD, rD⟩ := sub_rounds fh fl mD
  obtain ⟨fy, ry⟩ := sub_rounds fx fl my
  have eD := sub_err fh fl mD
  have ey := sub_err fx fl my
  rw [abs_of_pos hD0] at eD
  rw [abs_of_nonneg hy0] at ey
  have hDlo : (2 : ℝ) ^ (-51 : Int) ≤ val (hi - lo) := rD.ge _ (rep_pow _ (by norm_num)) hgap
  have hDhi : val (hi - lo) ≤ 2 ^ (901 : Int) := rD.le _ (rep_pow _ (by norm_num)) hD1
  have hyD : val (x - lo) ≤ val (hi - lo) := ry.mono rD (by linarith)
  have hy0' := ry.nonneg hy0
  have hDp : 0 < val (hi - lo) := lt_of_lt_of_le hg0 hDlo
  rw [invOrZero_of_large fD (by
    rw [abs_of_pos hDp]
    exact lt_of_lt_of_le (zpow_lt_zpow_right₀ (by norm_num) (by norm_num)) hDlo)]
  have q0 : 0 < 1 / val (hi - lo) := one_div_pos.mpr hDp
  have q1 : 1 / val (hi - lo) ≤ 2 ^ (51 : Int) := by
    rw [div_le_iff₀ hDp]
    calc (1 : ℝ) = 2 ^ (51 : Int) * 2 ^ (-51 : Int) := by norm_num
      _ ≤ _ := mul_le_mul_of_nonneg_left hDlo (two_zpow_pos _).le
  have q2 : (2 : ℝ) ^ (-901 : Int) ≤ 1 / val (hi - lo) := by
    rw [le_div_iff₀ hDp]
    calc (2 : ℝ) ^ (-901 : Int) * val (hi - lo) ≤ 2 ^ (-901 : Int) * 2 ^ (901 : Int) :=
          mul_le_mul_of_nonneg_left hDhi (two_zpow_pos _).le
      _ = 1 := by rw [← zpow_add₀ (by norm_num)]; norm_num
  have eq : val (1 : Float) / val (hi - lo) = 1 / val (hi - lo) := by rw [one_val.2]
  obtain ⟨fv, rv⟩ := div_rounds one_val.1 fD hDp.ne' (small_le_max (by
    rw [eq, abs_of_pos q0]; exact q1.trans (two_zpow_le (by norm_num))))
  rw [eq] at rv
  have ev := rv.err
  rw [abs_of_pos q0] at ev
  have ev' : |val (1 / (hi - lo)) - 1 / val (hi - lo)| ≤ eps * (1 / val (hi - lo)) := by
    refine ev.trans (max_le le_rfl ?_)
    calc (2 : ℝ) ^ (-1075 : Int) ≤ 2 ^ (-53 : Int) * 2 ^ (-901 : Int) := by
          rw [← zpow_add₀ (by norm_num)]; exact two_zpow_le (by norm_num)
      _ ≤ _ := mul_le_mul_of_nonneg_left q2 (two_zpow_pos _).le
  have hv0 := rv.nonneg q0.le
  have hX0 : 0 ≤ val (1 / (hi - lo)) * val (x - lo) := mul_nonneg hv0 hy0'
  have hX1 : val (1 / (hi - lo)) * val (x - lo) ≤ 1 + eps := by
    calc _ ≤ val (1 / (hi - lo)) * val (hi - lo) := mul_le_mul_of_nonneg_left hyD hv0
      _ ≤ (1 + eps) * (1 / val (hi - lo)) * val (hi - lo) := by
          refine mul_le_mul_of_nonneg_right ?_ hDp.le
          linarith [(abs_le.mp ev').2]
      _ = 1 + eps := by field_simp
  have hes : eps ≤ 1 := by rw [eps_eq]; norm_num
  obtain ⟨fb, rb⟩ := mul_rounds fv fy (le_max_of_le_four (by rw [abs_of_nonneg hX0]; linarith))
  have eb := rb.bound
  rw [abs_of_nonneg hX0] at eb
  have hreal : (val x - val lo) * invOrZero (val hi - val lo) = (val x - val lo) / (val hi - val lo) := by
    unfold invOrZero
    rw [if_neg (by simp only [Env.ulpsEq, decide_eq_true_eq]; exact hD0.ne'), mul_one_div]
  rw [fmul_comm (x - lo), hreal]
  exact ⟨fb, rb.nonneg hX0, rb.le_one_of_le hX1, div_nonneg hy0 hD0.le, (div_le_one hD0).mpr (by linarith),
    quotient_err hD0 hy0 (by linarith) eD ey ev' hv0 hy0' eb⟩

end F64
end Geom3d
