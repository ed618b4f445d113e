import Verif.Lemmas.F64Sim
import Verif.Props.Curves

/-!
# C127: inserting knots, clamping, splitting and converting to Bézier curves in binary64

The run in binary64 is compared, step by step, with the run of the same code on the same numbers in exact arithmetic.
-/

namespace Geom3d
open Spec F64

/-- Finite parameters; two of them are equal or at least `g` apart, and `ulps_eq!` tells them apart. -/
structure Spec.Apart (g : ℝ) (S : List Float) : Prop where
  fin : ∀ x ∈ S, IsFin x ∧ |val x| ≤ 2 ^ (900 : Int)
  gap : ∀ a ∈ S, ∀ b ∈ S, val a < val b → g ≤ val b - val a
  told : ∀ a ∈ S, ∀ b ∈ S, ulpsEqF64 a b = true → val a = val b

theorem Spec.Apart.mono {g : ℝ} {S T : List Float} (h : Apart g S) (hT : ∀ x ∈ T, x ∈ S) : Apart g T :=
  ⟨fun x hx => h.fin x (hT x hx), fun a ha b hb => h.gap a (hT a ha) b (hT b hb),
    fun a ha b hb => h.told a (hT a ha) b (hT b hb)⟩

/-! ### Knot vectors -/

theorem rposition_comp {α β : Type} (f : α → β) (p : β → Bool) (l : List α) :
    rposition p (l.map f) = rposition (fun a => p (f a)) l := by
  unfold rposition
  rw [← List.map_reverse, List.findIdx?_map, List.length_map]
  rfl

theorem rposition_agree {α : Type} {p q : α → Bool} {l : List α} (h : ∀ a ∈ l, p a = q a) :
    rposition p l = rposition q l := by
  unfold rposition
  have : ∀ l' : List α, (∀ a ∈ l', p a = q a) → l'.findIdx? p = l'.findIdx? q := by
    intro l'
    induction l' with
    | nil => intro _; rfl
    | cons a l' ih =>
      intro h
      rw [List.findIdx?_cons, List.findIdx?_cons, h a (by simp), ih fun b hb => h b (by simp [hb])]
  rw [this _ fun a ha => h a (List.mem_reverse.mp ha)]

theorem rposition_val {l : List Float} {x : Float} (hl : ∀ a ∈ l, IsFin a) (hx : IsFin x) :
    rposition (fun t => decide (t ≤ val x)) (l.map val) = rposition (fun t => decide (t ≤ x)) l := by
  rw [rposition_comp]
  exact rposition_agree fun a ha => by rw [decide_eq_decide]; exact (le_iff (hl a ha) hx).symm

theorem addKnot_val {l : List Float} {x : Float} (hl : ∀ a ∈ l, IsFin a) (hx : IsFin x) :
    KnotVector.addKnot (l.map val) (val x) = ((KnotVector.addKnot l x).1.map val, (KnotVector.addKnot l x).2) := by
  unfold KnotVector.addKnot
  rw [rposition_val hl hx]
  cases rposition (fun t => decide (t ≤ x)) l with
  | none => simp only [insertIdx_map]
  | some i => simp only [insertIdx_map]

theorem Spec.Apart.eq_iff {g : ℝ} {S : List Float} (h : Apart g S) {a b : Float} (ha : a ∈ S) (hb : b ∈ S) :
    Env.ulpsEq a b = Env.ulpsEq (val a) (val b) := by
  have : ∀ x y : Bool, (x = true ↔ y = true) → x = y := by decide
  refine this _ _ ⟨fun h' => decide_eq_true (h.told a ha b hb h'), fun h' => ?_⟩
  exact ulpsEq_of_val (h.fin a ha).1 (h.fin b hb).1 (of_decide_eq_true h')

theorem multiplicity_val {g : ℝ} {S l : List Float} (h : Apart g S) (hl : ∀ a ∈ l, a ∈ S) (i : Nat) :
    KnotVector.multiplicity (l.map val) i = KnotVector.multiplicity l i := by
  unfold KnotVector.multiplicity
  rw [idx_map]
  unfold idx
  cases hi : l[i]? with
  | none => rfl
  | some k =>
    have hk := hl k (List.mem_of_getElem? hi)
    refine congrArg Except.ok ?_
    rw [List.filter_map, List.length_map]
    congr 1
    refine List.filter_congr fun a ha => ?_
    exact (h.eq_iff hk (hl a ha)).symm

theorem spanIndex_val {g : ℝ} {S l : List Float} (h : Apart g S) (hl : ∀ a ∈ l, a ∈ S) {x : Float} (hx : x ∈ S) :
    KnotVector.spanIndex (l.map val) (val x) = KnotVector.spanIndex l x := by
  unfold KnotVector.spanIndex
  rw [rposition_val (fun a ha => (h.fin a (hl a ha)).1) (h.fin x hx).1, List.length_map]
  simp only [multiplicity_val h hl]

/-! ### One insertion -/

/-- A curve in binary64 next to a real curve: the same knots, control points that differ by at most `e`. -/
structure SimC (S : List Float) (p : Nat) (M e : ℝ) (c : BSplineCurve Float (V3 Float)) (r : BSplineCurve ℝ (V3 ℝ)) : Prop where
  knots : r.knots = c.knots.map val
  degree : c.degree = p
  degreeR : r.degree = p
  pts : List.Forall₂ (fun p q => Near e p q ∧ Within M q) c.controlPoints r.controlPoints
  sorted : Sorted r.knots
  sub : ∀ x ∈ c.knots, x ∈ S

theorem SimC.mono {S : List Float} {p : Nat} {M e e' : ℝ} {c : BSplineCurve Float (V3 Float)} {r : BSplineCurve ℝ (V3 ℝ)}
    (h : SimC S p M e c r) (he : e ≤ e') : SimC S p M e' c r :=
  ⟨h.knots, h.degree, h.degreeR, h.pts.imp fun _ _ hp =>
    ⟨⟨⟨hp.1.1.1, hp.1.1.2.trans he⟩, ⟨hp.1.2.1.1, hp.1.2.1.2.trans he⟩, ⟨hp.1.2.2.1, hp.1.2.2.2.trans he⟩⟩, hp.2⟩,
    h.sorted, h.sub⟩

theorem near_mono {e e' : ℝ} {p : V3 Float} {q : V3 ℝ} (h : Near e p q) (he : e ≤ e') : Near e' p q :=
  ⟨⟨h.1.1, h.1.2.trans he⟩, ⟨h.2.1.1, h.2.1.2.trans he⟩, ⟨h.2.2.1, h.2.2.2.trans he⟩⟩

theorem combine_near {p q : V3 Float} {P Q : V3 ℝ} {a : Float} {α M e : ℝ} (fa : IsFin a) (a0 : 0 ≤ val a)
    (a1 : val a ≤ 1) (α0 : 0 ≤ α) (α1 : α ≤ 1) (ha : |val a - α| ≤ 9 / 2 * eps) (hp : Near e p P) (hq : Near e q Q)
    (hP : Within M P) (hQ : Within M Q) (he : e ≤ M) (hM : (2 : ℝ) ^ (-900 : Int) ≤ M) (hM' : M ≤ 2 ^ (1000 : Int)) :
    Near (e + 2 ^ (-48 : Int) * M) (p * (1 - a) + q * a) (P * (1 - α) + Q * α) ∧ Within M (P * (1 - α) + Q * α) := by
  obtain ⟨x1, x2, x3⟩ := combine_err hp.1.1 hq.1.1 fa a0 a1 α0 α1 ha hp.1.2 hq.1.2 hP.1 hQ.1 he hM hM'
  obtain ⟨y1, y2, y3⟩ := combine_err hp.2.1.1 hq.2.1.1 fa a0 a1 α0 α1 ha hp.2.1.2 hq.2.1.2 hP.2.1 hQ.2.1 he hM hM'
  obtain ⟨z1, z2, z3⟩ := combine_err hp.2.2.1 hq.2.2.1 fa a0 a1 α0 α1 ha hp.2.2.2 hq.2.2.2 hP.2.2 hQ.2.2 he hM hM'
  exact ⟨⟨⟨x1, x2⟩, ⟨y1, y2⟩, ⟨z1, z2⟩⟩, ⟨x3, y3, z3⟩⟩

/-- The points below `k` differ by at most `e`, the others by at most `e'`. -/
def Upto (M e e' : ℝ) (k j : Nat) (p : V3 Float) (q : V3 ℝ) : Prop := Near (if j < k then e else e') p q ∧ Within M q

theorem addKnotBody_sim {S knots : List Float} {g M e : ℝ} {x : Float} (hS : Apart g S) (hg : (2 : ℝ) ^ (-51 : Int) ≤ g)
    (hk : ∀ a ∈ knots, a ∈ S) (hx : x ∈ S) (p i : Nat)
    (h1 : ∀ lo, knots[i]? = some lo → val lo ≤ val x) (h2 : ∀ hi, knots[i + p + 1]? = some hi → val x ≤ val hi)
    (he : e ≤ M) (hM : (2 : ℝ) ^ (-900 : Int) ≤ M) (hM' : M ≤ 2 ^ (1000 : Int)) {l : List (V3 Float)} {l' : List (V3 ℝ)}
    (h : Places (Upto M e (e + 2 ^ (-48 : Int) * M) (i + 1)) l l') :
    Alike (Places (Upto M e (e + 2 ^ (-48 : Int) * M) i)) (addKnotBody knots p x l i)
      (addKnotBody (knots.map val) p (val x) l' i) := by
  have hidx : ∀ j, Alike (fun a b => b = val a ∧ a ∈ S ∧ knots[j]? = some a) (idx knots j) (idx (knots.map val) j) := by
    intro j
    rw [idx_map]
    unfold idx
    cases hj : knots[j]? with
    | none => exact rfl
    | some a => exact ⟨rfl, hk a (List.mem_of_getElem? hj), rfl⟩
  unfold addKnotBody
  refine (hidx _).bind ?_
  rintro hi _ ⟨rfl, hhi, ehi⟩
  refine (hidx _).bind ?_
  rintro lo _ ⟨rfl, hlo, elo⟩
  have hsub : Alike (fun a b => a = b ∧ a < i + 1) (usub i 1) (usub i 1) := by
    unfold usub
    split
    · exact ⟨rfl, by omega⟩
    · exact rfl
  refine hsub.bind ?_
  rintro m _ ⟨rfl, hm⟩
  refine (h.idx m).bind ?_
  rintro prev prev' ⟨⟨hprev, wprev⟩, -, -⟩
  refine (h.idx i).bind ?_
  rintro cur cur' ⟨⟨hcur, wcur⟩, -, -⟩
  rw [if_pos hm] at hprev
  rw [if_pos (Nat.lt_succ_self i)] at hcur
  have b1 := h1 lo elo
  have b2 := h2 hi ehi
  obtain ⟨w1, w2, w3, w4, w5, w6⟩ := insert_weight (hS.fin hi hhi).1 (hS.fin lo hlo).1 (hS.fin x hx).1 (hS.fin hi hhi).2
    (hS.fin lo hlo).2 b1 b2 (by
      rcases (b1.trans b2).eq_or_lt with e | e
      · exact Or.inl e.symm
      · exact Or.inr (hg.trans (hS.gap lo hlo hi hhi e)))
  obtain ⟨n1, n2⟩ := combine_near w1 w2 w3 w4 w5 w6 hprev hcur wprev wcur he hM hM'
  refine h.upd ⟨?_, n2⟩ ?_
  · rw [if_neg (lt_irrefl i)]
    exact n1
  · rintro j a b hj ⟨ha, hb⟩
    refine ⟨?_, hb⟩
    by_cases hji : j < i
    · rw [if_pos (by omega)] at ha
      rw [if_pos hji]
      exact ha
    · rw [if_neg (by omega)] at ha
      rw [if_neg hji]
      exact ha

theorem addKnot_getElem {l : List ℝ} (hs : Sorted l) (x : ℝ) :
    Sorted (KnotVector.addKnot l x).1 ∧ (KnotVector.addKnot l x).1.length = l.length + 1 ∧
      (∀ j y, j < (KnotVector.addKnot l x).2 → (KnotVector.addKnot l x).1[j]? = some y → y ≤ x) ∧
      ∀ j y, (KnotVector.addKnot l x).2 < j → (KnotVector.addKnot l x).1[j]? = some y → x ≤ y := by
  obtain ⟨-, -, h3, h4, h5⟩ := C08_addKnot l x
  exact ⟨(h5 hs).1, h3, (h5 hs).2, fun j y hj hy => (h4 j y hj hy).le⟩

/-- **C127**, the step: the insertion in binary64 panics exactly when the exact one does, and otherwise the control
points get away from the exact ones by at most `2 ^ -48 * M`. -/
theorem addKnot_sim {S : List Float} {p : Nat} {g M e : ℝ} {x : Float} (hS : Apart g S) (hg : (2 : ℝ) ^ (-51 : Int) ≤ g)
    (hx : x ∈ S) (he0 : 0 ≤ e) (he : e ≤ M) (hM : (2 : ℝ) ^ (-900 : Int) ≤ M) (hM' : M ≤ 2 ^ (1000 : Int))
    {c : BSplineCurve Float (V3 Float)} {r : BSplineCurve ℝ (V3 ℝ)} (h : SimC S p M e c r) :
    Alike (SimC S p M (e + 2 ^ (-48 : Int) * M)) (c.addKnot x) (r.addKnot (val x)) := by
  have hM0 : 0 < M := lt_of_lt_of_le (two_zpow_pos _) hM
  have hstep : (0 : ℝ) ≤ 2 ^ (-48 : Int) * M := mul_nonneg (two_zpow_pos _).le hM0.le
  have hfin : ∀ a ∈ c.knots, IsFin a := fun a ha => (hS.fin a (h.sub a ha)).1
  have hkn := addKnot_val hfin (hS.fin x hx).1
  have hlen := h.pts.length_eq
  obtain ⟨s1, s2, s3, s4⟩ := addKnot_getElem h.sorted (val x)
  rw [h.knots] at s1 s2 s3 s4
  have hsub' : ∀ a ∈ (KnotVector.addKnot c.knots x).1, a ∈ S := by
    intro a ha
    unfold KnotVector.addKnot at ha
    cases hr : rposition (fun t => decide (t ≤ x)) c.knots with
    | none =>
      rw [hr] at ha
      rcases List.mem_cons.mp ha with rfl | ha
      · exact hx
      · exact h.sub a ha
    | some i =>
      rw [hr] at ha
      have := (List.perm_insertIdx x c.knots (by have := (rposition_some hr).1; omega)).subset ha
      rcases List.mem_cons.mp this with rfl | ha
      · exact hx
      · exact h.sub a ha
  rw [hkn] at s1 s2 s3 s4
  simp only at s1 s2 s3 s4
  have hzero : Near e (0 : V3 Float) (0 : V3 ℝ) ∧ Within M (0 : V3 ℝ) := by
    have z : |val (0 : Float) - (0 : ℝ)| ≤ e := by rw [zero_val.2, sub_self, abs_zero]; exact he0
    have w : |(0 : ℝ)| ≤ M := by rw [abs_zero]; exact hM0.le
    exact ⟨⟨⟨zero_val.1, z⟩, ⟨zero_val.1, z⟩, ⟨zero_val.1, z⟩⟩, ⟨w, w, w⟩⟩
  unfold BSplineCurve.addKnot
  rw [h.knots, hkn, h.degree, h.degreeR, ← hlen]
  generalize KnotVector.addKnot c.knots x = kv at *
  obtain ⟨kn, index⟩ := kv
  simp only at s1 s2 s3 s4 hsub' ⊢
  have fin : ∀ {e'} {cps : List (V3 Float)} {cps' : List (V3 ℝ)},
      List.Forall₂ (fun p q => Near e' p q ∧ Within M q) cps cps' → e' ≤ e + 2 ^ (-48 : Int) * M →
      SimC S p M (e + 2 ^ (-48 : Int) * M) ⟨cps, kn, p⟩ ⟨cps', kn.map val, p⟩ := fun hc he' =>
    ⟨rfl, rfl, rfl, hc.imp fun _ _ hp => ⟨near_mono hp.1 he', hp.2⟩, s1, hsub'⟩
  have hle : e ≤ e + 2 ^ (-48 : Int) * M := by linarith
  have tail : ∀ {cps : List (V3 Float)} {cps' : List (V3 ℝ)} (stop : Nat), stop ≤ index →
      List.Forall₂ (fun p q => Near e p q ∧ Within M q) cps cps' →
      Alike (SimC S p M (e + 2 ^ (-48 : Int) * M))
        (do
          let cps ← forRangeRev (if p < index then index - p else 0) stop cps (addKnotBody kn p x)
          pure ⟨cps, kn, p⟩)
        (do
          let cps ← forRangeRev (if p < index then index - p else 0) stop cps'
            (addKnotBody (kn.map val) p (val x))
          pure ⟨cps, kn.map val, p⟩) := by
    intro cps cps' stop hstop hc
    generalize hst : (if p < index then index - p else 0) = start
    have hst' : index ≤ start + p := by split at hst <;> omega
    by_cases hss : start ≤ stop
    · refine Alike.bind (R := Places (Upto M e (e + 2 ^ (-48 : Int) * M) start))
        (Alike.forRangeRev (R := fun k => Places (Upto M e (e + 2 ^ (-48 : Int) * M) k)) hss ?_ ?_) fun a b hab => ?_
      · intro i l l' hi1 hi2 hl
        refine addKnotBody_sim hS hg hsub' hx p i ?_ ?_ he hM hM' hl
        · intro lo hlo
          exact s3 i (val lo) (by omega) (by rw [List.getElem?_map, hlo]; rfl)
        · intro hi hhi
          exact s4 (i + p + 1) (val hi) (by omega) (by rw [List.getElem?_map, hhi]; rfl)
      · refine (places_iff.mpr hc).mono fun j a b hab => ⟨?_, hab.2⟩
        split
        · exact hab.1
        · exact near_mono hab.1 hle
      · refine fin (places_iff.mp (hab.mono fun j a b hab' => ?_)) le_rfl
        refine ⟨?_, hab'.2⟩
        have := hab'.1
        split at this
        · exact near_mono this hle
        · exact this
    · unfold forRangeRev
      rw [show stop - start = 0 by omega]
      exact fin hc hle
  by_cases h0 : index = 0
  · rw [if_pos h0, if_pos h0]
    refine (Alike.insertAt h.pts hzero 0).bind fun cps cps' hc => ?_
    exact fin hc hle
  · rw [if_neg h0, if_neg h0]
    by_cases hn : c.controlPoints.length < index
    · rw [if_pos hn, if_pos hn]
      exact tail (c.controlPoints.length + 1) hn (List.rel_append h.pts (.cons hzero .nil))
    · rw [if_neg hn, if_neg hn]
      refine ((places_iff.mpr h.pts).idx _).bind ?_
      rintro a b ⟨hab, -, -⟩
      refine (Alike.insertAt h.pts hab _).bind fun cps cps' hc => ?_
      exact tail index le_rfl hc

/-! ### Several insertions -/

/-- The control points after `k` insertions. -/
def SimK (S : List Float) (p : Nat) (M : ℝ) (k : Nat) : BSplineCurve Float (V3 Float) → BSplineCurve ℝ (V3 ℝ) → Prop :=
  SimC S p M (k * (2 ^ (-48 : Int) * M))

theorem SimK.mono {S : List Float} {p : Nat} {M : ℝ} {k l : Nat} {c : BSplineCurve Float (V3 Float)} {r : BSplineCurve ℝ (V3 ℝ)}
    (h : SimK S p M k c r) (hM : (2 : ℝ) ^ (-900 : Int) ≤ M) (hkl : k ≤ l) : SimK S p M l c r := by
  refine SimC.mono h (mul_le_mul_of_nonneg_right (Nat.cast_le.mpr hkl) ?_)
  exact mul_nonneg (two_zpow_pos _).le ((two_zpow_pos _).le.trans hM)

/-- What all the theorems below assume of the parameters and of the bound of the coordinates. -/
structure Setup (S : List Float) (g M : ℝ) : Prop where
  apart : Apart g S
  gap : (2 : ℝ) ^ (-51 : Int) ≤ g
  lo : (2 : ℝ) ^ (-900 : Int) ≤ M
  hi : M ≤ 2 ^ (1000 : Int)

theorem Setup.nonneg {S : List Float} {g M : ℝ} (hs : Setup S g M) : 0 ≤ M := (two_zpow_pos _).le.trans hs.lo

theorem addKnot_step {S : List Float} {p : Nat} {g M : ℝ} {x : Float} (hs : Setup S g M) (hx : x ∈ S) {k : Nat} (hk : k ≤ 2 ^ 48)
    {c : BSplineCurve Float (V3 Float)} {r : BSplineCurve ℝ (V3 ℝ)} (h : SimK S p M k c r) :
    Alike (SimK S p M (k + 1)) (c.addKnot x) (r.addKnot (val x)) := by
  have h0 : (0 : ℝ) ≤ 2 ^ (-48 : Int) * M := mul_nonneg (two_zpow_pos _).le hs.nonneg
  have := addKnot_sim hs.apart hs.gap hx (mul_nonneg (Nat.cast_nonneg k) h0) (by
    have : (k : ℝ) ≤ 2 ^ 48 := by exact_mod_cast hk
    calc (k : ℝ) * (2 ^ (-48 : Int) * M) ≤ 2 ^ 48 * (2 ^ (-48 : Int) * M) := mul_le_mul_of_nonneg_right this h0
      _ = M := by rw [← mul_assoc]; norm_num) hs.lo hs.hi h
  refine this.mono fun a b hab => ?_
  unfold SimK
  rwa [Nat.cast_add, Nat.cast_one, add_mul, one_mul]

theorem addKnots_sim {S : List Float} {p : Nat} {g M : ℝ} (hs : Setup S g M) (xs : List Float) (hx : ∀ x ∈ xs, x ∈ S) {k : Nat}
    (hk : k + xs.length ≤ 2 ^ 48) {c : BSplineCurve Float (V3 Float)} {r : BSplineCurve ℝ (V3 ℝ)} (h : SimK S p M k c r) :
    Alike (SimK S p M (k + xs.length)) (xs.foldlM (fun c x => c.addKnot x) c)
      ((xs.map val).foldlM (fun c x => c.addKnot x) r) := by
  rw [List.foldlM_map]
  refine Alike.foldlM xs (R := SimK S p M) ?_ h
  intro j i s t hj hi hst
  exact addKnot_step hs (hx i hi) (by omega) hst

/-! ### Clamping and splitting -/

theorem near_val {S : List Float} {g : ℝ} (h : Apart g S) (hg : (2 : ℝ) ^ (-22 : Int) ≤ g) {a b : Float} (ha : a ∈ S)
    (hb : b ∈ S) : near a b = near (val a) (val b) := by
  have fa := h.fin a ha
  have fb := h.fin b hb
  have h900 : (2 : ℝ) ^ (900 : Int) + 2 ^ (900 : Int) ≤ 2 ^ (1023 : Int) := by
    calc (2 : ℝ) ^ (900 : Int) + 2 ^ (900 : Int) = 2 ^ (901 : Int) := by
          rw [show (901 : Int) = 900 + 1 by norm_num, zpow_add₀ (by norm_num)]; ring
      _ ≤ _ := two_zpow_le (by norm_num)
  obtain ⟨f, r⟩ := sub_rounds fa.1 fb.1 (small_le_max ((abs_sub _ _).trans ((add_le_add fa.2 fb.2).trans h900)))
  obtain ⟨f2, v2⟩ := fabs_val f
  have hreal : ∀ x : ℝ, fabs x = |x| := by
    intro x
    unfold fabs
    split
    · rename_i hx; rw [abs_of_neg hx]
    · rename_i hx; rw [abs_of_nonneg (not_lt.mp hx)]
  unfold near
  rw [decide_eq_decide, le_iff f2 tol_val.1, v2, hreal, tol_val.2]
  have t1 : (0 : ℝ) ≤ 7555786372591432 * 2 ^ (-76 : Int) := by positivity
  have t2 : (7555786372591432 * 2 ^ (-76 : Int) : ℝ) < 2 ^ (-22 : Int) := by norm_num
  have t3 : (Env.tol : ℝ) = 1 / 10000000 := rfl
  rw [t3]
  rcases lt_trichotomy (val a) (val b) with hab | hab | hab
  · have hg' := h.gap a ha b hb hab
    have hv : val (a - b) ≤ -2 ^ (-22 : Int) := r.le _ (rep_pow _ (by norm_num)).neg (by linarith)
    constructor
    · intro hc
      rw [abs_of_neg (by linarith [two_zpow_pos (-22)])] at hc
      linarith
    · intro hc
      rw [abs_of_neg (by linarith)] at hc
      have : (1 / 10000000 : ℝ) < 2 ^ (-22 : Int) := by norm_num
      exact absurd (this.trans_le (hg.trans hg')) (not_lt.mpr (by linarith only [hc]))
  · rw [hab, sub_self, abs_zero]
    rw [hab, sub_self] at r
    rw [r.of_rep rep_zero, abs_zero]
    exact ⟨fun _ => by norm_num, fun _ => t1⟩
  · have hg' := h.gap b hb a ha hab
    have hv : 2 ^ (-22 : Int) ≤ val (a - b) := r.ge _ (rep_pow _ (by norm_num)) (by linarith)
    constructor
    · intro hc
      rw [abs_of_pos (by linarith [two_zpow_pos (-22)])] at hc
      linarith
    · intro hc
      rw [abs_of_pos (by linarith)] at hc
      have : (1 / 10000000 : ℝ) < 2 ^ (-22 : Int) := by norm_num
      exact absurd (this.trans_le (hg.trans hg')) (not_lt.mpr (by linarith only [hc]))

theorem SimC.knot_idx {S : List Float} {p : Nat} {M e : ℝ} {c : BSplineCurve Float (V3 Float)} {r : BSplineCurve ℝ (V3 ℝ)}
    (h : SimC S p M e c r) (i : Nat) : Alike (fun a b => b = val a ∧ a ∈ S) (idx c.knots i) (idx r.knots i) := by
  rw [h.knots, idx_map]
  unfold idx
  cases hj : c.knots[i]? with
  | none => exact rfl
  | some a => exact ⟨rfl, h.sub a (List.mem_of_getElem? hj)⟩

theorem SimC.multiplicity {S : List Float} {p : Nat} {g M e : ℝ} {c : BSplineCurve Float (V3 Float)} {r : BSplineCurve ℝ (V3 ℝ)}
    (h : SimC S p M e c r) (hS : Apart g S) (i : Nat) :
    Alike Eq (KnotVector.multiplicity c.knots i) (KnotVector.multiplicity r.knots i) := by
  rw [h.knots, multiplicity_val hS h.sub]
  exact Alike.same _

theorem SimC.spanIndex {S : List Float} {p : Nat} {g M e : ℝ} {c : BSplineCurve Float (V3 Float)} {r : BSplineCurve ℝ (V3 ℝ)}
    (h : SimC S p M e c r) (hS : Apart g S) {x : Float} (hx : x ∈ S) :
    Alike Eq (KnotVector.spanIndex c.knots x) (KnotVector.spanIndex r.knots (val x)) := by
  rw [h.knots, spanIndex_val hS h.sub hx]
  exact Alike.same _

theorem clamp_sim {S : List Float} {p : Nat} {g M : ℝ} (hs : Setup S g M) {k : Nat} {c : BSplineCurve Float (V3 Float)}
    {r : BSplineCurve ℝ (V3 ℝ)} (hk : k + 2 * (p + 1) ≤ 2 ^ 48) (h : SimK S p M k c r) :
    Alike (SimK S p M (k + 2 * (p + 1))) c.clamp r.clamp := by
  unfold BSplineCurve.clamp
  rw [h.degree, h.degreeR]
  refine (SimC.multiplicity h hs.apart 0).bind ?_
  rintro s _ rfl
  refine (Alike.forRange (R := SimK S p M) (k := k) ?_ h).bind fun c1 r1 h1 => ?_
  · intro j i s t hj hst
    refine (SimC.knot_idx hst 0).bind ?_
    rintro a _ ⟨rfl, ha⟩
    exact addKnot_step hs ha (by omega) hst
  have hl : r1.knots.length = c1.knots.length := by rw [h1.knots, List.length_map]
  rw [hl]
  refine (Alike.same _).bind ?_
  rintro last _ rfl
  refine (SimC.multiplicity h1 hs.apart last).bind ?_
  rintro s' _ rfl
  refine (Alike.forRange (R := SimK S p M) ?_ h1).mono fun a b hab => SimK.mono hab hs.lo (by omega)
  intro j i s t hj hst
  refine (SimC.knot_idx hst last).bind ?_
  rintro a _ ⟨rfl, ha⟩
  exact addKnot_step hs ha (by omega) hst

theorem split_sim {S : List Float} {p : Nat} {g M : ℝ} (hs : Setup S g M) (hg : (2 : ℝ) ^ (-22 : Int) ≤ g) {t : Float} (ht : t ∈ S)
    {k : Nat} {c : BSplineCurve Float (V3 Float)} {r : BSplineCurve ℝ (V3 ℝ)} (hk : k + (p + 1) ≤ 2 ^ 48)
    (h : SimK S p M k c r) :
    Alike (fun a b => SimK S p M (k + (p + 1)) a.1 b.1 ∧ SimK S p M (k + (p + 1)) a.2 b.2) (c.split t)
      (r.split (val t)) := by
  have tail : ∀ (t : Float) (s : Nat), t ∈ S →
      Alike (fun a b => SimK S p M (k + (p + 1)) a.1 b.1 ∧ SimK S p M (k + (p + 1)) a.2 b.2)
        (do
          let c1 ← forRange s (p + 1) c (fun c _ => c.addKnot t)
          let k ← KnotVector.spanIndex c1.knots t
          let m := c1.knots.length
          let n := c1.controlPoints.length
          let knots0 ← KnotVector.subVec c1.knots 0 (k + 1)
          let kp ← usub k p
          let knots1 ← KnotVector.subVec c1.knots kp m
          let cps0 ← slice c1.controlPoints 0 kp
          let cps1 ← slice c1.controlPoints kp n
          pure (⟨cps0, knots0, c1.degree⟩, ⟨cps1, knots1, c1.degree⟩))
        (do
          let c1 ← forRange s (p + 1) r (fun c _ => c.addKnot (val t))
          let k ← KnotVector.spanIndex c1.knots (val t)
          let m := c1.knots.length
          let n := c1.controlPoints.length
          let knots0 ← KnotVector.subVec c1.knots 0 (k + 1)
          let kp ← usub k p
          let knots1 ← KnotVector.subVec c1.knots kp m
          let cps0 ← slice c1.controlPoints 0 kp
          let cps1 ← slice c1.controlPoints kp n
          pure (⟨cps0, knots0, c1.degree⟩, ⟨cps1, knots1, c1.degree⟩)) := by
    intro t s ht
    refine (Alike.forRange (R := SimK S p M) (k := k) ?_ h).bind fun c1 r1 h1 => ?_
    · intro j i s t hj hst
      exact addKnot_step hs ht (by omega) hst
    refine (SimC.spanIndex h1 hs.apart ht).bind ?_
    rintro q _ rfl
    have h1' := SimK.mono (l := k + (p + 1)) h1 hs.lo (by omega)
    have hkn : ∀ a b, Alike (fun x y => y = x.map val ∧ Sorted y ∧ ∀ z ∈ x, z ∈ S) (KnotVector.subVec c1.knots a b)
        (KnotVector.subVec r1.knots a b) := by
      intro a b
      have hso := h1.sorted
      rw [h1.knots] at hso ⊢
      unfold KnotVector.subVec slice
      rw [List.length_map]
      split
      · refine ⟨by rw [List.map_drop, List.map_take], ?_, fun z hz => h1.sub z (List.mem_of_mem_take (List.mem_of_mem_drop hz))⟩
        exact (hso.sublist ((List.drop_sublist _ _).trans (List.take_sublist _ _)))
      · exact rfl
    have hl : r1.knots.length = c1.knots.length := by rw [h1.knots, List.length_map]
    rw [hl, ← h1.pts.length_eq]
    refine (hkn _ _).bind ?_
    rintro k0 _ ⟨rfl, so0, m0⟩
    refine (Alike.same _).bind ?_
    rintro kp _ rfl
    refine (hkn _ _).bind ?_
    rintro k1 _ ⟨rfl, so1, m1⟩
    refine (Alike.slice h1'.pts _ _).bind fun p0 q0 hp0 => ?_
    refine (Alike.slice h1'.pts _ _).bind fun p1 q1 hp1 => ?_
    exact ⟨⟨rfl, h1.degree, h1.degreeR, hp0, so0, m0⟩, ⟨rfl, h1.degree, h1.degreeR, hp1, so1, m1⟩⟩
  unfold BSplineCurve.split
  rw [h.degree, h.degreeR]
  refine (SimC.spanIndex h hs.apart ht).bind ?_
  rintro index _ rfl
  refine (SimC.knot_idx h index).bind ?_
  rintro ti _ ⟨rfl, hti⟩
  rw [near_val hs.apart hg ht hti]
  split
  · refine (SimC.multiplicity h hs.apart index).bind ?_
    rintro s _ rfl
    exact tail ti s hti
  · exact tail t 0 ht

/-! ### Bézier pieces -/

theorem dedupAux_val {S : List Float} {g : ℝ} (h : Apart g S) (hg : (2 : ℝ) ^ (-22 : Int) ≤ g) {l : List Float}
    (hl : ∀ a ∈ l, a ∈ S) {last : Float} (hlast : last ∈ S) :
    dedupAux (fun a b => near a b) (val last) (l.map val) = (dedupAux (fun a b => near a b) last l).map val ∧
      ∀ a ∈ dedupAux (fun a b => near a b) last l, a ∈ S := by
  induction l generalizing last with
  | nil => exact ⟨rfl, by simp [dedupAux]⟩
  | cons a l ih =>
    have ha := hl a (by simp)
    have hl' : ∀ b ∈ l, b ∈ S := fun b hb => hl b (by simp [hb])
    have hn := near_val h hg ha hlast
    simp only [dedupAux, List.map_cons]
    by_cases hc : near a last = true
    · rw [if_pos hc, if_pos (hn ▸ hc)]
      exact ih hl' hlast
    · rw [if_neg hc, if_neg (hn ▸ hc)]
      obtain ⟨i1, i2⟩ := ih hl' ha
      rw [i1]
      refine ⟨rfl, fun b hb => ?_⟩
      rcases List.mem_cons.mp hb with rfl | hb
      · exact ha
      · exact i2 b hb

theorem dedupBy_val {S : List Float} {g : ℝ} (h : Apart g S) (hg : (2 : ℝ) ^ (-22 : Int) ≤ g) {l : List Float}
    (hl : ∀ a ∈ l, a ∈ S) : dedupBy (fun a b => near a b) (l.map val) = (dedupBy (fun a b => near a b) l).map val ∧
      ∀ a ∈ dedupBy (fun a b => near a b) l, a ∈ S := by
  cases l with
  | nil => exact ⟨rfl, by simp [dedupBy]⟩
  | cons a l =>
    have ha := hl a (by simp)
    obtain ⟨i1, i2⟩ := dedupAux_val (l := l) h hg (fun b hb => hl b (by simp [hb])) ha
    simp only [dedupBy, List.map_cons]
    rw [i1]
    refine ⟨rfl, fun b hb => ?_⟩
    rcases List.mem_cons.mp hb with rfl | hb
    · exact ha
    · exact i2 b hb

/-- The control points of two Bézier curves. -/
def SimB (M e : ℝ) (b : BezierCurve (V3 Float)) (q : BezierCurve (V3 ℝ)) : Prop :=
  List.Forall₂ (fun p q => Near e p q ∧ Within M q) b.controlPoints q.controlPoints

theorem toPiecewiseBezier_sim {S : List Float} {p : Nat} {g M : ℝ} (hs : Setup S g M) (hg : (2 : ℝ) ^ (-22 : Int) ≤ g) {k d : Nat}
    {c : BSplineCurve Float (V3 Float)} {r : BSplineCurve ℝ (V3 ℝ)}
    (hd : d = k + (p + 1) * (2 + ((dedupBy (fun a b => near a b) c.knots).length - 2))) (hk : d ≤ 2 ^ 48)
    (h : SimK S p M k c r) :
    Alike (List.Forall₂ (SimB M (d * (2 ^ (-48 : Int) * M)))) c.toPiecewiseBezier r.toPiecewiseBezier := by
  obtain ⟨e1, e2⟩ := dedupBy_val hs.apart hg h.sub
  unfold BSplineCurve.toPiecewiseBezier
  rw [h.knots, e1]
  simp only [List.length_map]
  generalize hn : (dedupBy (fun a b => near a b) c.knots).length = n at *
  have hd' : d = k + 2 * (p + 1) + (p + 1) * (n - 2) := by rw [hd]; ring
  refine (clamp_sim hs (by omega) h).bind fun c0 r0 h0 => ?_
  refine (Alike.same _).bind ?_
  rintro _ _ rfl
  refine (Alike.forRange (k := 0) (R := fun j (a : BSplineCurve Float (V3 Float) × List (BezierCurve (V3 Float)))
    (b : BSplineCurve ℝ (V3 ℝ) × List (BezierCurve (V3 ℝ))) =>
      SimK S p M (k + 2 * (p + 1) + (p + 1) * j) a.1 b.1 ∧
      List.Forall₂ (SimB M (d * (2 ^ (-48 : Int) * M))) a.2 b.2) ?_ ⟨h0, .nil⟩).bind ?_
  · rintro j i ⟨c1, l1⟩ ⟨r1, m1⟩ hj ⟨h1, h3⟩
    have hj' : (p + 1) * (j + 1) ≤ (p + 1) * (n - 2) := Nat.mul_le_mul_left _ (by omega)
    have hidx : Alike (fun a b => b = val a ∧ a ∈ S) (idx (dedupBy (fun a b => near a b) c.knots) (n - i))
        (idx ((dedupBy (fun a b => near a b) c.knots).map val) (n - i)) := by
      rw [idx_map]
      unfold idx
      cases hj : (dedupBy (fun a b => near a b) c.knots)[n - i]? with
      | none => exact rfl
      | some a => exact ⟨rfl, e2 a (List.mem_of_getElem? hj)⟩
    refine hidx.bind ?_
    rintro t _ ⟨rfl, ht⟩
    refine (split_sim hs hg ht (by rw [Nat.mul_add] at hj'; omega) h1).bind ?_
    rintro ⟨a1, a2⟩ ⟨b1, b2⟩ ⟨g1, g2⟩
    refine ⟨?_, List.rel_append h3 (.cons ?_ .nil)⟩
    · rw [show k + 2 * (p + 1) + (p + 1) * (j + 1) = k + 2 * (p + 1) + (p + 1) * j + (p + 1) by ring]
      exact g1
    · refine (SimK.mono g2 hs.lo ?_).pts
      rw [Nat.mul_add] at hj'; omega
  · rintro ⟨c1, l1⟩ ⟨r1, m1⟩ ⟨h1, h3⟩
    refine List.rel_reverse (List.rel_append h3 (.cons ?_ .nil))
    refine (SimK.mono h1 hs.lo ?_).pts
    rw [hd', Nat.zero_add]

/-! ### Control points that are close give points that are close -/

/-- Coordinates that differ by at most `e`. -/
def Spec.Close (e : ℝ) (p q : V3 ℝ) : Prop := |p.x - q.x| ≤ e ∧ |p.y - q.y| ≤ e ∧ |p.z - q.z| ≤ e

theorem weighted_close {n : Nat} {w : Nat → ℝ} (hw : ∀ i, i < n → 0 ≤ w i) (hw1 : ∑ i ∈ Finset.range n, w i ≤ 1)
    {f g : Nat → V3 ℝ} {e : ℝ} (he : 0 ≤ e) (h : ∀ i, i < n → Close e (f i) (g i)) :
    Close e (∑ i ∈ Finset.range n, w i • f i) (∑ i ∈ Finset.range n, w i • g i) := by
  have key : ∀ π : V3 ℝ →+ ℝ, (∀ (a : ℝ) v, π (a • v) = a * π v) → (∀ i, i < n → |π (f i) - π (g i)| ≤ e) →
      |π (∑ i ∈ Finset.range n, w i • f i) - π (∑ i ∈ Finset.range n, w i • g i)| ≤ e := by
    intro π hπ hfg
    rw [map_sum, map_sum, ← Finset.sum_sub_distrib]
    refine (Finset.abs_sum_le_sum_abs _ _).trans ?_
    calc _ ≤ ∑ i ∈ Finset.range n, w i * e := by
          refine Finset.sum_le_sum fun i hi => ?_
          rw [Finset.mem_range] at hi
          rw [hπ, hπ, ← mul_sub, abs_mul, abs_of_nonneg (hw i hi)]
          exact mul_le_mul_of_nonneg_left (hfg i hi) (hw i hi)
      _ ≤ 1 * e := by
          rw [← Finset.sum_mul]
          exact mul_le_mul_of_nonneg_right hw1 he
      _ = e := one_mul e
  exact ⟨key ⟨⟨V3.x, rfl⟩, fun _ _ => rfl⟩ (fun _ _ => rfl) fun i hi => (h i hi).1,
    key ⟨⟨V3.y, rfl⟩, fun _ _ => rfl⟩ (fun _ _ => rfl) fun i hi => (h i hi).2.1,
    key ⟨⟨V3.z, rfl⟩, fun _ _ => rfl⟩ (fun _ _ => rfl) fun i hi => (h i hi).2.2⟩

theorem cp_close {e : ℝ} {l l' : List (V3 ℝ)} (h : List.Forall₂ (Close e) l l') (i : Nat) (hi : i < l.length) :
    Close e (cp l i) (cp l' i) := by
  have := (places_iff.mpr h).2 i l[i] (l'[i]'(h.length_eq ▸ hi)) (List.getElem?_eq_getElem hi)
    (List.getElem?_eq_getElem (h.length_eq ▸ hi))
  have e1 : cp l i = l[i] := by simp [cp, List.getD, hi]
  have e2 : cp l' i = l'[i]'(h.length_eq ▸ hi) := by simp [cp, List.getD, h.length_eq ▸ hi]
  rw [e1, e2]
  exact this

theorem curve_close {r r' : BSplineCurve ℝ (V3 ℝ)} (hv : r'.Valid) (hk : r.knots = r'.knots) (hd : r.degree = r'.degree)
    {e : ℝ} (he : 0 ≤ e) (h : List.Forall₂ (Close e) r.controlPoints r'.controlPoints) {u : ℝ} (h0 : knot r'.knots 0 ≤ u)
    (h1 : u ≤ knot r'.knots (r'.controlPoints.length + r'.degree)) :
    ∃ q q', r.getPoint u = .ok q ∧ r'.getPoint u = .ok q' ∧ Close e q q' := by
  have hl := h.length_eq
  have hlen := hv.len
  have hpts := hv.pts
  have hv' : r.Valid := by
    refine ⟨by rw [hk, hl, hd]; exact hv.len, hk ▸ hv.sorted, hk ▸ hv.resolved, ?_, by rw [hl]; exact hv.pts⟩
    rw [hk, hl, hd]
    exact hv.nonconst
  obtain ⟨s, hc, e1⟩ := getPoint_eq hv h0
  have e2 := getPoint_of_contains hv' (u := u) (s := s) (by rw [hk, hl, hd]; exact hc)
  have hsp := hc.spanAt hv.mono
  have hle : u ≤ knot r'.knots (s + 1) := by
    rcases hc.right with h | ⟨_, h⟩
    · exact h.le
    · rw [h]; exact h1
  refine ⟨_, _, e2, e1, ?_⟩
  unfold BSplineCurve.pieceSum
  rw [hk, hl, hd]
  refine weighted_close (fun i hi => piece_nonneg hsp hc.left hle _ _ (by omega)) ?_ he
    (fun i hi => cp_close h i (by omega))
  have := piece_sum_le hsp hc.left hle r'.degree (by omega)
  rwa [Nat.add_sub_cancel] at this

theorem bezier_close {b b' : BezierCurve (V3 ℝ)} {e : ℝ} (he : 0 ≤ e)
    (h : List.Forall₂ (Close e) b.controlPoints b'.controlPoints) (h1 : 1 ≤ b'.controlPoints.length) {u : ℝ} (h0 : 0 ≤ u)
    (h2 : u ≤ 1) : ∃ q q', b.getPoint u = .ok q ∧ b'.getPoint u = .ok q' ∧ Close e q q' := by
  have hl := h.length_eq
  refine ⟨_, _, bezier_getPoint b (by omega) u, bezier_getPoint b' h1 u, ?_⟩
  rw [hl]
  refine weighted_close (fun i _ => (bernsteinPoly_unit h0 h2).1) ?_ he (fun i hi => cp_close h i (by omega))
  exact (bernsteinPoly_sum _ h1 u).le

theorem close_of_near {M e : ℝ} {l : List (V3 Float)} {l' : List (V3 ℝ)}
    (h : List.Forall₂ (fun p q => Near e p q ∧ Within M q) l l') : List.Forall₂ (Close e) (l.map toReal) l' := by
  rw [List.forall₂_map_left_iff]
  exact h.imp fun p q hp => ⟨hp.1.1.2, hp.1.2.1.2, hp.1.2.2.2⟩

theorem SimC.close {S : List Float} {p : Nat} {M e : ℝ} {c : BSplineCurve Float (V3 Float)} {r : BSplineCurve ℝ (V3 ℝ)}
    (h : SimC S p M e c r) (he : 0 ≤ e) (hv : r.Valid) {u : ℝ} (h0 : knot r.knots 0 ≤ u)
    (h1 : u ≤ knot r.knots (r.controlPoints.length + r.degree)) :
    ∃ q q', (realCurve c).getPoint u = .ok q ∧ r.getPoint u = .ok q' ∧ Close e q q' :=
  curve_close hv h.knots.symm (h.degree.trans h.degreeR.symm) he (close_of_near h.pts) h0 h1

/-! ### C127 -/

/-- A B-spline curve with finite data: sorted knots from `S`, coordinates up to `M`. -/
structure Spec.CurveF (S : List Float) (g M : ℝ) (c : BSplineCurve Float (V3 Float)) : Prop where
  setup : Setup S g M
  sub : ∀ x ∈ c.knots, x ∈ S
  sorted : (c.knots.map val).Pairwise (· ≤ ·)
  len : c.knots.length = c.controlPoints.length + c.degree + 1
  pts : 0 < c.controlPoints.length
  nonconst : val (knot c.knots 0) < val (knot c.knots (c.controlPoints.length + c.degree))
  bounded : ∀ p ∈ c.controlPoints, Bounded M p

theorem Spec.CurveF.valid {S : List Float} {g M : ℝ} {c : BSplineCurve Float (V3 Float)} (h : CurveF S g M c) :
    (realCurve c).Valid := by
  refine ⟨?_, h.sorted, resolved_real _, ?_, ?_⟩
  · simp only [realCurve, List.length_map]; exact h.len
  · simp only [realCurve, List.length_map]
    rw [← tval_eq]
    exact h.nonconst
  · simp only [realCurve, List.length_map]; exact h.pts

theorem Spec.CurveF.sim {S : List Float} {g M : ℝ} {c : BSplineCurve Float (V3 Float)} (h : CurveF S g M c) :
    SimK S c.degree M 0 c (realCurve c) := by
  refine ⟨rfl, rfl, rfl, ?_, h.sorted, h.sub⟩
  simp only [realCurve]
  rw [List.forall₂_map_right_iff, List.forall₂_same]
  intro p hp
  obtain ⟨⟨f1, b1⟩, ⟨f2, b2⟩, ⟨f3, b3⟩⟩ := h.bounded p hp
  refine ⟨?_, b1, b2, b3⟩
  simp [Near, toReal, f1, f2, f3]

/-- First and last knot, as real numbers. -/
noncomputable def Spec.first (c : BSplineCurve Float (V3 Float)) : ℝ := val (knot c.knots 0)
noncomputable def Spec.last (c : BSplineCurve Float (V3 Float)) : ℝ := val (knot c.knots (c.controlPoints.length + c.degree))

theorem first_eq (c : BSplineCurve Float (V3 Float)) : Spec.first c = knot (realCurve c).knots 0 := by
  simp only [realCurve]
  rw [← tval_eq]
  rfl

theorem last_eq (c : BSplineCurve Float (V3 Float)) :
    Spec.last c = knot (realCurve c).knots ((realCurve c).controlPoints.length + (realCurve c).degree) := by
  simp only [realCurve, List.length_map]
  rw [← tval_eq]
  rfl

theorem valid_first_le {r : BSplineCurve ℝ (V3 ℝ)} (hv : r.Valid) {x : ℝ} (hx : x ∈ r.knots) : knot r.knots 0 ≤ x := by
  obtain ⟨i, hi, rfl⟩ := List.getElem_of_mem hx
  rw [knot_getElem hi]
  exact hv.sorted.knot_le (Nat.zero_le i) hi

theorem valid_le_last {r : BSplineCurve ℝ (V3 ℝ)} (hv : r.Valid) {x : ℝ} (hx : x ∈ r.knots) :
    x ≤ knot r.knots (r.controlPoints.length + r.degree) := by
  obtain ⟨i, hi, rfl⟩ := List.getElem_of_mem hx
  have := hv.len
  rw [knot_getElem hi]
  exact hv.sorted.knot_le (by omega) (by omega)

theorem knot_mem_real {r : BSplineCurve ℝ (V3 ℝ)} (hv : r.Valid) :
    knot r.knots 0 ∈ r.knots ∧ knot r.knots (r.controlPoints.length + r.degree) ∈ r.knots := by
  have := hv.len
  exact ⟨knot_mem (by omega), knot_mem (by omega)⟩

theorem step_nonneg {S : List Float} {g M : ℝ} (hs : Setup S g M) (k : Nat) : 0 ≤ k * (2 ^ (-48 : Int) * M) :=
  mul_nonneg (Nat.cast_nonneg k) (mul_nonneg (two_zpow_pos _).le hs.nonneg)

/-- **C127.** Inserting knots of the range one after the other in binary64 panics exactly when the exact insertion
does. Otherwise the new knots and the number of control points are exactly right, and the curve through the computed
control points differs from the given one by at most `2 ^ -48 * M` per inserted knot, on the whole knot range. -/
theorem C127_addKnots {S : List Float} {M : ℝ} {c : BSplineCurve Float (V3 Float)} (h : CurveF S (2 ^ (-51 : Int)) M c)
    (xs : List Float) (hxs : ∀ x ∈ xs, x ∈ S ∧ Spec.first c ≤ val x ∧ val x ≤ Spec.last c) (hn : xs.length ≤ 2 ^ 48) :
    ((∃ c', xs.foldlM (fun c x => c.addKnot x) c = .ok c') ↔
        ∃ r', (xs.map val).foldlM (fun c x => c.addKnot x) (realCurve c) = .ok r') ∧
      ∀ c', xs.foldlM (fun c x => c.addKnot x) c = .ok c' → c'.degree = c.degree ∧
        (c'.knots.map val).Pairwise (· ≤ ·) ∧ (c'.knots.map val).Perm ((xs ++ c.knots).map val) ∧
        c'.controlPoints.length = c.controlPoints.length + xs.length ∧
        ∀ u, Spec.first c ≤ u → u ≤ Spec.last c →
          ∃ q' q, (realCurve c').getPoint u = .ok q' ∧ (realCurve c).getPoint u = .ok q ∧
            Close (xs.length * (2 ^ (-48 : Int) * M)) q' q := by
  have hsim := addKnots_sim h.setup xs (fun x hx => (hxs x hx).1) (k := 0) (by omega) h.sim
  rw [Nat.zero_add] at hsim
  refine ⟨⟨fun ⟨c', hc'⟩ => ?_, fun ⟨r', hr'⟩ => ?_⟩, fun c' hc' => ?_⟩
  · obtain ⟨r', hr', -⟩ := hsim.ok_left hc'
    exact ⟨r', hr'⟩
  · obtain ⟨c', hc', -⟩ := hsim.ok_right hr'
    exact ⟨c', hc'⟩
  obtain ⟨r', hr', hs⟩ := hsim.ok_left hc'
  have hx' : ∀ x ∈ xs.map val, knot (realCurve c).knots 0 ≤ x ∧
      x ≤ knot (realCurve c).knots ((realCurve c).controlPoints.length + (realCurve c).degree) := by
    intro x hx
    obtain ⟨y, hy, rfl⟩ := List.mem_map.mp hx
    rw [← first_eq, ← last_eq]
    exact (hxs y hy).2
  obtain ⟨v1, v2, v3, v4, v5⟩ := C15_addKnots h.valid (xs.map val) hx' (resolved_real _) hr'
  refine ⟨hs.degree, ?_, ?_, ?_, ?_⟩
  · rw [← hs.knots]; exact hs.sorted
  · rw [← hs.knots, List.map_append]; exact v3
  · rw [hs.pts.length_eq, v4]
    simp [realCurve]
  · intro u h0 h1
    rw [first_eq] at h0
    rw [last_eq] at h1
    obtain ⟨m0, m1⟩ := knot_mem_real h.valid
    obtain ⟨q, q', e1, e2, e3⟩ := SimC.close hs (step_nonneg h.setup _) v1 (u := u)
      ((valid_first_le v1 (v3.symm.subset (List.mem_append_right _ m0))).trans h0)
      (h1.trans (valid_le_last v1 (v3.symm.subset (List.mem_append_right _ m1))))
    rw [v5 u h0] at e2
    exact ⟨q, q', e1, e2, e3⟩

/-- **C127**, with the evaluation: a point evaluated in binary64 on the curve with knots inserted in binary64, against
the exact point of the curve without them. -/
theorem C127_evaluate {S : List Float} {M : ℝ} {c c' : BSplineCurve Float (V3 Float)}
    (h : CurveF S (2 ^ (-51 : Int)) M c) (xs : List Float)
    (hxs : ∀ x ∈ xs, x ∈ S ∧ Spec.first c ≤ val x ∧ val x ≤ Spec.last c)
    (hn : c.controlPoints.length + c.degree + xs.length ≤ 2 ^ 40) (hc' : xs.foldlM (fun c x => c.addKnot x) c = .ok c')
    (u : Float) (fu : IsFin u) (h1 : val (knot c'.knots c'.degree) ≤ val u)
    (h2 : val u < val (knot c'.knots c'.controlPoints.length)) (h3 : Spec.first c ≤ val u) (h4 : val u ≤ Spec.last c) :
    ∃ x q, c'.getPoint u = .ok x ∧ (realCurve c).getPoint (val u) = .ok q ∧
      Near ((2 * (c.degree + 1) + xs.length) * (2 ^ (-48 : Int) * M) + (c.degree + 1) * 2 ^ (-1073 : Int)) x q := by
  have hsim := addKnots_sim h.setup xs (fun x hx => (hxs x hx).1) (k := 0) (by omega) h.sim
  rw [Nat.zero_add] at hsim
  obtain ⟨r', hr', hs⟩ := hsim.ok_left hc'
  obtain ⟨-, hall⟩ := C127_addKnots h xs hxs (by omega)
  obtain ⟨g1, g2, g3, g4, g5⟩ := hall c' hc'
  obtain ⟨q', q, e1, e2, e3⟩ := g5 (val u) h3 h4
  have hlen : c'.knots.length = c'.controlPoints.length + c'.degree + 1 := by
    have := g3.length_eq
    simp only [List.length_map, List.length_append] at this
    rw [this, h.len, g4, g1]; omega
  have hk : KnotsF c'.knots := by
    refine ⟨fun x hx => h.setup.apart.fin x (hs.sub x hx), g2, fun i hi hlt => ?_⟩
    refine h.setup.apart.gap _ (hs.sub _ ?_) _ (hs.sub _ ?_) hlt
    · have : knot c'.knots i = c'.knots[i] := by simp [knot, List.getD, show i < c'.knots.length by omega]
      rw [this]; exact List.getElem_mem _
    · have : knot c'.knots (i + 1) = c'.knots[i + 1] := by simp [knot, List.getD, hi]
      rw [this]; exact List.getElem_mem _
  have hM0 := h.setup.nonneg
  have hδ : (0 : ℝ) ≤ 2 ^ (-48 : Int) * M := mul_nonneg (two_zpow_pos _).le hM0
  have hb : ∀ p ∈ c'.controlPoints, Bounded (2 * M) p := by
    have he : (xs.length : ℝ) * (2 ^ (-48 : Int) * M) ≤ M := by
      have : (xs.length : ℝ) ≤ 2 ^ 48 := by
        have : xs.length ≤ 2 ^ 48 := by omega
        exact_mod_cast this
      calc (xs.length : ℝ) * (2 ^ (-48 : Int) * M) ≤ 2 ^ 48 * (2 ^ (-48 : Int) * M) := mul_le_mul_of_nonneg_right this hδ
        _ = M := by rw [← mul_assoc]; norm_num
    have key : ∀ {a b : ℝ}, |a - b| ≤ (xs.length : ℝ) * (2 ^ (-48 : Int) * M) → |b| ≤ M → |a| ≤ 2 * M := by
      intro a b h1 h2
      calc |a| = |(a - b) + b| := by ring_nf
        _ ≤ _ := (abs_add_le _ _).trans (by linarith)
    intro p hp
    obtain ⟨i, hi, rfl⟩ := List.getElem_of_mem hp
    obtain ⟨n1, n2⟩ := (places_iff.mpr hs.pts).2 i _ _ (List.getElem?_eq_getElem hi)
      (List.getElem?_eq_getElem (hs.pts.length_eq ▸ hi))
    exact ⟨⟨n1.1.1, key n1.1.2 n2.1⟩, ⟨n1.2.1.1, key n1.2.1.2 n2.2.1⟩, ⟨n1.2.2.1, key n1.2.2.2 n2.2.2⟩⟩
  have hpts := h.pts
  obtain ⟨x, y, f1, f2, f3⟩ := C100_error c' hk hlen rfl (by omega) (by omega) u fu h1 h2 (2 * M) (by
    calc 2 * M ≤ 2 * 2 ^ (1000 : Int) := by linarith [h.setup.hi]
      _ = 2 ^ (1001 : Int) := by rw [show (1001 : Int) = 1 + 1000 by norm_num, ← two_mul_zpow]
      _ ≤ _ := two_zpow_le (by norm_num)) hb
  rw [e1] at f2
  cases f2
  refine ⟨x, q, f1, e2, ?_⟩
  rw [g1] at f3
  have key : ∀ {a b d : ℝ}, |a - b| ≤ (c.degree + 1) * 2 ^ (-48 : Int) * (2 * M) + (c.degree + 1) * 2 ^ (-1073 : Int) →
      |b - d| ≤ xs.length * (2 ^ (-48 : Int) * M) →
      |a - d| ≤ (2 * (c.degree + 1) + xs.length) * (2 ^ (-48 : Int) * M) + (c.degree + 1) * 2 ^ (-1073 : Int) := by
    intro a b d h1 h2
    refine (abs_sub_le a b d).trans ((add_le_add h1 h2).trans (le_of_eq ?_))
    ring
  exact ⟨⟨f3.1.1, key f3.1.2 e3.1⟩, ⟨f3.2.1.1, key f3.2.1.2 e3.2.1⟩, ⟨f3.2.2.1, key f3.2.2.2 e3.2.2⟩⟩

theorem addKnot_keeps {r r' : BSplineCurve ℝ (V3 ℝ)} {x : ℝ} (h : r.addKnot x = .ok r') : ∀ y ∈ r.knots, y ∈ r'.knots := by
  have hk : ∀ y ∈ r.knots, y ∈ (KnotVector.addKnot r.knots x).1 := by
    intro y hy
    obtain ⟨-, h2, -⟩ := C08_addKnot r.knots x
    rw [← h2] at hy
    exact List.mem_of_mem_eraseIdx hy
  unfold BSplineCurve.addKnot at h
  simp only at h
  split at h
  · rw [bind_eq_ok] at h
    obtain ⟨cps, -, h⟩ := h
    cases h
    exact hk
  · split at h <;> simp only [bind_eq_ok] at h
    · obtain ⟨_, -, cps, -, h⟩ := h
      cases h
      exact hk
    · obtain ⟨_, -, _, -, _, -, cps, -, h⟩ := h
      cases h
      exact hk

theorem forRange_keeps {σ : Type} {P : σ → Prop} {body : σ → Nat → Res σ} (hb : ∀ s i s', P s → body s i = .ok s' → P s')
    (a b : Nat) {s s' : σ} (h0 : P s) (h : forRange a b s body = .ok s') : P s' := by
  unfold forRange at h
  generalize List.range' a (b - a) = l at h
  induction l generalizing s with
  | nil => cases h; exact h0
  | cons i l ih =>
    rw [List.foldlM_cons, bind_eq_ok] at h
    obtain ⟨s1, h1, h2⟩ := h
    exact ih (hb s i s1 h0 h1) h2

theorem clamp_keeps {r r' : BSplineCurve ℝ (V3 ℝ)} (h : r.clamp = .ok r') : ∀ y ∈ r.knots, y ∈ r'.knots := by
  unfold BSplineCurve.clamp at h
  simp only [bind_eq_ok] at h
  obtain ⟨_, -, r1, h1, _, -, _, -, h2⟩ := h
  have step : ∀ (k : Nat) (s : BSplineCurve ℝ (V3 ℝ)) (i : Nat) (s' : BSplineCurve ℝ (V3 ℝ)), (∀ y ∈ r.knots, y ∈ s.knots) →
      (idx s.knots k >>= fun x => s.addKnot x) = .ok s' → ∀ y ∈ r.knots, y ∈ s'.knots := by
    intro k s i s' hs hs' y hy
    rw [bind_eq_ok] at hs'
    obtain ⟨x, -, hx⟩ := hs'
    exact addKnot_keeps hx y (hs y hy)
  have k1 := forRange_keeps (P := fun s : BSplineCurve ℝ (V3 ℝ) => ∀ y ∈ r.knots, y ∈ s.knots) (step 0) _ _
    (fun y hy => hy) h1
  exact forRange_keeps (P := fun s : BSplineCurve ℝ (V3 ℝ) => ∀ y ∈ r.knots, y ∈ s.knots) (step _) _ _ k1 h2

/-- **C127.** Clamping in binary64 panics exactly when the first knot has multiplicity below `degree + 1` (as in exact
arithmetic); otherwise the curve moves by at most `2 * (degree + 1) * 2 ^ -48 * M`. -/
theorem C127_clamp {S : List Float} {M : ℝ} {c : BSplineCurve Float (V3 Float)} (h : CurveF S (2 ^ (-51 : Int)) M c)
    (hp : c.degree < 2 ^ 40) :
    ((∃ c', c.clamp = .ok c') ↔ c.degree + 1 ≤ (c.knots.map val).count (Spec.first c)) ∧
      ∀ c', c.clamp = .ok c' → c'.degree = c.degree ∧ (c'.knots.map val).Pairwise (· ≤ ·) ∧
        c'.knots.length = c'.controlPoints.length + c'.degree + 1 ∧
        c.degree + 1 ≤ (c'.knots.map val).count (Spec.last c) ∧
        ∀ u, Spec.first c ≤ u → u ≤ Spec.last c →
          ∃ q' q, (realCurve c').getPoint u = .ok q' ∧ (realCurve c).getPoint u = .ok q ∧
            Close ((2 * (c.degree + 1) : Nat) * (2 ^ (-48 : Int) * M)) q' q := by
  have hsim := clamp_sim h.setup (k := 0) (by omega) h.sim
  rw [Nat.zero_add] at hsim
  obtain ⟨x1, x2⟩ := C66_clamp h.valid
  rw [← first_eq] at x1
  refine ⟨⟨fun ⟨c', hc'⟩ => ?_, fun hc => ?_⟩, fun c' hc' => ?_⟩
  · obtain ⟨r', hr', -⟩ := hsim.ok_left hc'
    exact x1.mp ⟨r', hr'⟩
  · obtain ⟨r', hr'⟩ := x1.mpr hc
    obtain ⟨c', hc', -⟩ := hsim.ok_right hr'
    exact ⟨c', hc'⟩
  obtain ⟨r', hr', hs⟩ := hsim.ok_left hc'
  obtain ⟨v1, v2, v3, v4⟩ := x2 r' hr'
  rw [← last_eq] at v3
  have hl := v1.len
  rw [hs.knots, List.length_map, ← hs.pts.length_eq, hs.degreeR, ← hs.degree] at hl
  refine ⟨hs.degree, ?_, hl, ?_, ?_⟩
  · rw [← hs.knots]; exact hs.sorted
  · rw [← hs.knots]; exact v3
  · intro u h0 h1
    rw [first_eq] at h0
    rw [last_eq] at h1
    obtain ⟨m0, m1⟩ := knot_mem_real h.valid
    obtain ⟨q, q', e1, e2, e3⟩ := SimC.close hs (step_nonneg h.setup _) v1 (u := u)
      ((valid_first_le v1 (clamp_keeps hr' _ m0)).trans h0) (h1.trans (valid_le_last v1 (clamp_keeps hr' _ m1)))
    rw [v4 u h0] at e2
    exact ⟨q, q', e1, e2, e3⟩

/-- Parameters at least `2 ^ -22` apart are further apart than the tolerance. -/
theorem apart_tol {S : List Float} {g : ℝ} (h : Apart g S) (hg : (2 : ℝ) ^ (-22 : Int) ≤ g) {a b : Float} (ha : a ∈ S)
    (hb : b ∈ S) (hab : val a < val b) : (Env.tol : ℝ) < val b - val a := by
  have : (Env.tol : ℝ) = 1 / 10000000 := rfl
  rw [this]
  exact lt_of_lt_of_le (by norm_num : (1 / 10000000 : ℝ) < 2 ^ (-22 : Int)) (hg.trans (h.gap a ha b hb hab))

/-- **C127.** Splitting in binary64 at a parameter of the domain, that is a knot or `2 ^ -22` away from all of them:
no panic, the right knots, and both pieces are within `(degree + 1) * 2 ^ -48 * M` of the curve. -/
theorem C127_split {S : List Float} {M : ℝ} {c : BSplineCurve Float (V3 Float)} (h : CurveF S (2 ^ (-22 : Int)) M c)
    (hp : c.degree < 2 ^ 40) {t : Float} (ht : t ∈ S) (h1 : val (knot c.knots c.degree) ≤ val t)
    (h2 : val t < Spec.last c) :
    ∃ L R m, c.split t = .ok (L, R) ∧ L.degree = c.degree ∧ R.degree = c.degree ∧ c.degree + 1 ≤ m ∧
      L.knots.map val = (c.knots.map val).filter (fun x => decide (x < val t)) ++ List.replicate m (val t) ∧
      R.knots.map val = List.replicate (c.degree + 1) (val t) ++ (c.knots.map val).filter (fun x => decide (val t < x)) ∧
      (∀ u, val t ≤ u → u ≤ Spec.last c →
        ∃ q' q, (realCurve R).getPoint u = .ok q' ∧ (realCurve c).getPoint u = .ok q ∧
          Close ((c.degree + 1 : Nat) * (2 ^ (-48 : Int) * M)) q' q) ∧
      (Spec.first c < val t → ∀ u, Spec.first c ≤ u → u < val t →
        ∃ q' q, (realCurve L).getPoint u = .ok q' ∧ (realCurve c).getPoint u = .ok q ∧
          Close ((c.degree + 1 : Nat) * (2 ^ (-48 : Int) * M)) q' q) := by
  have hsim := split_sim h.setup le_rfl ht (k := 0) (by omega) h.sim
  rw [Nat.zero_add] at hsim
  have htol : (0 : ℝ) ≤ Env.tol := by
    have : (Env.tol : ℝ) = 1 / 10000000 := rfl
    rw [this]; norm_num
  obtain ⟨t', L', R', m, g1, g2, g3, g4, g5, g6, g7, g8, g9, g10⟩ := C17_split h.valid htol (t := val t)
    (by simp only [realCurve]; rw [← tval_eq]; exact h1) (by rw [← last_eq]; exact h2) (resolved_real _)
  have ht' : t' = val t := by
    rcases g2 with ⟨g2, -⟩ | ⟨k1, k2, k3, -⟩
    · exact g2
    · obtain ⟨y, hy, rfl⟩ := List.mem_map.mp k1
      by_contra hc
      exact absurd (apart_tol h.setup.apart le_rfl (h.sub y hy) ht (lt_of_le_of_ne k2 hc)) (not_lt.mpr k3)
  subst ht'
  obtain ⟨⟨L, R⟩, hLR, sL, sR⟩ := hsim.ok_right g1
  simp only at sL sR
  refine ⟨L, R, m, hLR, sL.degree, sR.degree, g5, by rw [← sL.knots, g6]; rfl, by rw [← sR.knots, g7]; rfl, ?_, ?_⟩
  · intro u hu hu'
    have hb : knot R'.knots 0 = val t := by rw [g7]; simp [knot]
    obtain ⟨q, q', e1, e2, e3⟩ := SimC.close sR (step_nonneg h.setup _) g8 (u := u) (by rw [hb]; exact hu) (by
      refine hu'.trans (valid_le_last g8 ?_)
      rw [g7]
      refine List.mem_append_right _ (List.mem_filter.mpr ⟨?_, decide_eq_true h2⟩)
      rw [last_eq]
      exact (knot_mem_real h.valid).2)
    rw [g9 u hu] at e2
    exact ⟨q, q', e1, e2, e3⟩
  · intro hft u hu hu'
    rw [first_eq] at hft hu
    obtain ⟨v1, v2⟩ := g10 hft
    obtain ⟨q, q', e1, e2, e3⟩ := SimC.close sL (step_nonneg h.setup _) v1 (u := u) (by
      refine le_trans (valid_first_le v1 ?_) hu
      rw [g6]
      exact List.mem_append_left _ (List.mem_filter.mpr ⟨(knot_mem_real h.valid).1, decide_eq_true hft⟩)) (by
      refine hu'.le.trans (valid_le_last v1 ?_)
      rw [g6]
      exact List.mem_append_right _ (List.mem_replicate.mpr ⟨by omega, rfl⟩))
    rw [v2 u hu hu'] at e2
    exact ⟨q, q', e1, e2, e3⟩

/-- **C127.** Conversion to Bézier curves in binary64: for end knots of multiplicity `degree + 1` and inner ones of at
most that, and distinct knots `ds` at least `2 ^ -22` apart, there are `len(ds) - 1` pieces of `degree + 1` control
points, the `k`-th of which stays within `(degree + 1) * len(ds) * 2 ^ -48 * M` of the curve on `[ds[k], ds[k+1])`
(the last one also at the last knot). -/
theorem C127_pieces {S : List Float} {M : ℝ} {c : BSplineCurve Float (V3 Float)} (h : CurveF S (2 ^ (-22 : Int)) M c)
    {ds : List ℝ} (hds : ds.Pairwise (· < ·)) (hmem : ∀ x, x ∈ ds ↔ x ∈ c.knots.map val)
    (hmult : ∀ x ∈ c.knots.map val, (c.knots.map val).count x ≤ c.degree + 1)
    (h0 : (c.knots.map val).count (knot ds 0) = c.degree + 1)
    (h1 : (c.knots.map val).count (knot ds (ds.length - 1)) = c.degree + 1)
    (hn : (c.degree + 1) * ds.length ≤ 2 ^ 48) :
    ∃ bs, c.toPiecewiseBezier = .ok bs ∧ bs.length = ds.length - 1 ∧
      ∀ k b, bs[k]? = some b → b.controlPoints.length = c.degree + 1 ∧
        ∀ u, knot ds k ≤ u → u ≤ knot ds (k + 1) → (u < knot ds (k + 1) ∨ k + 2 = ds.length) →
          ∃ q' q, (BezierCurve.mk (b.controlPoints.map toReal)).getPoint
              ((u - knot ds k) / (knot ds (k + 1) - knot ds k)) = .ok q' ∧
            (realCurve c).getPoint u = .ok q ∧
            Close (((c.degree + 1) * ds.length : Nat) * (2 ^ (-48 : Int) * M)) q' q := by
  have htol : (0 : ℝ) ≤ Env.tol := by
    have : (Env.tol : ℝ) = 1 / 10000000 := rfl
    rw [this]; norm_num
  have hsep : ∀ a ∈ (realCurve c).knots, ∀ b ∈ (realCurve c).knots, a < b → Env.tol < b - a := by
    intro a ha b hb hab
    obtain ⟨x, hx, rfl⟩ := List.mem_map.mp ha
    obtain ⟨y, hy, rfl⟩ := List.mem_map.mp hb
    exact apart_tol h.setup.apart le_rfl (h.sub x hx) (h.sub y hy) hab
  obtain ⟨bs', e1, e2, e3⟩ := C18_toPiecewiseBezier h.valid htol hsep hds hmem hmult h0 h1
  obtain ⟨d1, -⟩ := dedupBy_val h.setup.apart le_rfl h.sub
  have hded : dedupBy (fun a b => near a b) (c.knots.map val) = ds := by
    obtain ⟨a1, a2⟩ := dedup_spec (knots := (realCurve c).knots) hsep htol h.valid.sorted
    exact strict_unique a1 hds fun x => (a2 x).trans (hmem x).symm
  have hlen : (dedupBy (fun a b => near a b) c.knots).length = ds.length := by
    rw [← hded, d1, List.length_map]
  have hd2 : 2 ≤ ds.length := by
    obtain ⟨m0, m1⟩ := knot_mem_real h.valid
    have m0' := (hmem _).mpr m0
    have m1' := (hmem _).mpr m1
    have hne := h.valid.nonconst
    rcases ds with _ | ⟨a, _ | ⟨b, l⟩⟩
    · cases m0'
    · rw [List.mem_singleton] at m0' m1'
      rw [m0', m1'] at hne
      exact absurd hne (lt_irrefl _)
    · simp
  have hsim := toPiecewiseBezier_sim h.setup le_rfl (k := 0) (d := (c.degree + 1) * ds.length) (by
    rw [hlen, Nat.zero_add, show 2 + (ds.length - 2) = ds.length by omega]) hn h.sim
  obtain ⟨bs, hbs, hrel⟩ := hsim.ok_right e1
  refine ⟨bs, hbs, hrel.length_eq.trans e2, fun k b hb => ?_⟩
  have hk : k < bs.length := (List.getElem?_eq_some_iff.mp hb).1
  have hk' : bs'[k]? = some (bs'[k]'(hrel.length_eq ▸ hk)) := List.getElem?_eq_getElem _
  have hbb := (places_iff.mpr hrel).2 k b _ hb hk'
  obtain ⟨x1, x2⟩ := e3 k _ hk'
  have hl : b.controlPoints.length = c.degree + 1 := hbb.length_eq.trans x1
  refine ⟨hl, fun u hu1 hu2 hu3 => ?_⟩
  have hlt : knot ds k < knot ds (k + 1) := by
    have hkl : k + 1 < ds.length := by have := hrel.length_eq; omega
    rw [← knot_getElem (show k < ds.length by omega), ← knot_getElem hkl]
    exact List.pairwise_iff_getElem.mp hds k (k + 1) _ _ (by omega)
  have hpos : 0 < knot ds (k + 1) - knot ds k := sub_pos.mpr hlt
  obtain ⟨q, q', y1, y2, y3⟩ := bezier_close (b := ⟨b.controlPoints.map toReal⟩) (step_nonneg h.setup _) (close_of_near hbb)
    (by rw [x1]; simp) (u := (u - knot ds k) / (knot ds (k + 1) - knot ds k)) (div_nonneg (by linarith) hpos.le)
    ((div_le_one hpos).mpr (by linarith))
  rw [x2 u hu1 hu3] at y2
  exact ⟨q, q', y1, y2, y3⟩

/-! ### A concrete case -/

/-- A quadratic curve with an inner knot, in binary64. -/
def insertExample : BSplineCurve Float (V3 Float) :=
  ⟨[⟨0, 0, 0⟩, ⟨1, 2, 0⟩, ⟨3, 3, 3⟩, ⟨4, 0, 1⟩], [0, 0, 0, 1, 3, 3, 3], 2⟩

theorem insertExample_ok : CurveF [0, 1, 2, 3] (2 ^ (-22 : Int)) 4 insertExample := by
  have v0 := zero_val
  have v1 := one_val
  have v2 : IsFin (2 : Float) ∧ val (2 : Float) = 2 := by
    obtain ⟨h1, h2⟩ := ofNat_val (n := 2) (by norm_num)
    exact ⟨h1, h2.trans (by norm_num)⟩
  have v3 : IsFin (3 : Float) ∧ val (3 : Float) = 3 := by
    obtain ⟨h1, h2⟩ := ofNat_val (n := 3) (by norm_num)
    exact ⟨h1, h2.trans (by norm_num)⟩
  have v4 : IsFin (4 : Float) ∧ val (4 : Float) = 4 := by
    obtain ⟨h1, h2⟩ := ofNat_val (n := 4) (by norm_num)
    exact ⟨h1, h2.trans (by norm_num)⟩
  have hval : ∀ x ∈ ([0, 1, 2, 3] : List Float), IsFin x ∧ ∃ k : Nat, k ≤ 3 ∧ val x = k := by
    intro x hx
    simp only [List.mem_cons, List.not_mem_nil, or_false] at hx
    rcases hx with rfl | rfl | rfl | rfl
    · exact ⟨v0.1, 0, by norm_num, by rw [v0.2]; norm_num⟩
    · exact ⟨v1.1, 1, by norm_num, by rw [v1.2]; norm_num⟩
    · exact ⟨v2.1, 2, by norm_num, by rw [v2.2]; norm_num⟩
    · exact ⟨v3.1, 3, by norm_num, by rw [v3.2]; norm_num⟩
  refine ⟨⟨⟨fun x hx => ?_, fun a ha b hb hab => ?_, fun a ha b hb hab => ?_⟩, ?_, ?_, ?_⟩, ?_, ?_, by decide, by decide, ?_, ?_⟩
  · obtain ⟨h1, k, h2, h3⟩ := hval x hx
    refine ⟨h1, ?_⟩
    have : (k : ℝ) ≤ 3 := by exact_mod_cast h2
    rw [h3, abs_of_nonneg (Nat.cast_nonneg k)]
    refine this.trans (le_trans (by norm_num : (3 : ℝ) ≤ 2 ^ (2 : Int)) (two_zpow_le (by norm_num)))
  · obtain ⟨-, k, -, h3⟩ := hval a ha
    obtain ⟨-, l, -, h4⟩ := hval b hb
    rw [h3, h4] at hab ⊢
    have : k + 1 ≤ l := by exact_mod_cast hab
    have : (k : ℝ) + 1 ≤ l := by exact_mod_cast this
    have e : (2 : ℝ) ^ (-22 : Int) ≤ 1 := by norm_num
    linarith
  · have key : ∀ a ∈ ([0, 1, 2, 3] : List Float), ∀ b ∈ ([0, 1, 2, 3] : List Float), ulpsEqF64 a b = true → a = b := by
      decide +kernel
    rw [key a ha b hb hab]
  · exact two_zpow_le (by norm_num)
  · exact le_trans (two_zpow_le (by norm_num : (-900 : Int) ≤ 0)) (by norm_num)
  · exact le_trans (by norm_num : (4 : ℝ) ≤ 2 ^ (2 : Int)) (two_zpow_le (by norm_num))
  · have key : ∀ x ∈ insertExample.knots, x = 0 ∨ x = 1 ∨ x = 2 ∨ x = 3 := by decide +kernel
    intro x hx
    simp only [List.mem_cons, List.not_mem_nil, or_false]
    exact key x hx
  · simp only [insertExample, List.map_cons, List.map_nil, v0.2, v1.2, v3.2]
    norm_num
  · show val (0 : Float) < val (3 : Float)
    rw [v0.2, v3.2]
    norm_num
  · intro p hp
    simp only [insertExample, List.mem_cons, List.not_mem_nil, or_false] at hp
    rcases hp with rfl | rfl | rfl | rfl <;>
      (simp only [Bounded, v0.1, v1.1, v2.1, v3.1, v4.1, v0.2, v1.2, v2.2, v3.2, v4.2, true_and]; norm_num)

/-- Inserting 2 gives control points with rounding errors: `1/3` is not a binary64 number. -/
theorem C127_example : insertExample.addKnot 2 =
    .ok ⟨[⟨0, 0, 0⟩, ⟨1, 2, 0⟩, ⟨2.3333333333333335, 2.666666666666667, 2⟩, ⟨3.5, 1.5, 2⟩, ⟨4, 0, 1⟩], [0, 0, 0, 1, 2, 3, 3, 3], 2⟩ := by
  decide +kernel

end Geom3d
