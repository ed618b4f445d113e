import Verif.Props.ReflexFaces
import Verif.Props.FloatNormal
import Verif.Lemmas.F64Close

/-!
# From a STEP file to an OBJ file in binary64 (C143)

C138 is about exact arithmetic.  Here the file and all computations are in binary64: the directions of lines are only
nearly unit vectors, the vertices only nearly on the lines of their edges, and every operation is rounded.  If the faces
clear a margin, `convert_stp` still writes triangles that tile them, up to a drift of the vertices that is bounded.
-/

namespace Geom3d
open Spec F64

/-! ### Points that are told apart, and points that are not -/

theorem F64.Near.bounded {e B C : ℝ} {p : V3 Float} {q : V3 ℝ} (h : Near e p q) (hB : Within B q) (hC : B + e ≤ C) : Bounded C p :=
  ⟨⟨h.1.1, (Close.size h.1 hB.1).trans hC⟩, ⟨h.2.1.1, (Close.size h.2.1 hB.2.1).trans hC⟩,
    ⟨h.2.2.1, (Close.size h.2.2 hB.2.2).trans hC⟩⟩

theorem hundred_le : (2 : ℝ) ^ 100 + 1 ≤ 2 ^ (509 : Int) := by
  calc (2 : ℝ) ^ 100 + 1 ≤ 2 ^ 101 := by norm_num
    _ = 2 ^ (101 : Int) := by rw [← zpow_natCast]; rfl
    _ ≤ _ := two_zpow_le (by norm_num)

theorem lengthSq_parts (p q : V3 Float) : (toReal p - toReal q).lengthSq =
    (val p.x - val q.x) ^ 2 + (val p.y - val q.y) ^ 2 + (val p.z - val q.z) ^ 2 := by
  simp only [V3.lengthSq, V3.dot, V3.sub_x, V3.sub_y, V3.sub_z, toReal]; ring

theorem eps_small : 8 * eps ≤ 1 / 2 ^ 49 := by rw [eps_eq]; norm_num

/-- Two computed points near the same point. -/
theorem close_lengthSq {e : ℝ} {p q : V3 Float} {X : V3 ℝ} (hp : Near e p X) (hq : Near e q X) (he : e ≤ 1 / 2 ^ 15)
    (hX : Within (2 ^ 100) X) : IsFin (p - q).lengthSq ∧ 0 ≤ val (p - q).lengthSq ∧ val (p - q).lengthSq ≤ 1 / 2 ^ 25 := by
  have e1 : (2 : ℝ) ^ 100 + e ≤ 2 ^ (509 : Int) := le_trans (by norm_num at he ⊢; linarith) hundred_le
  obtain ⟨f, n, -, a⟩ := lengthSq_apx (hp.bounded hX e1) (hq.bounded hX e1)
  refine ⟨f, n, ?_⟩
  have u := a.upper
  rw [lengthSq_parts] at u
  have c : ∀ {x y z : ℝ}, |x - z| ≤ e → |y - z| ≤ e → (x - y) ^ 2 ≤ 1 / 2 ^ 28 := by
    intro x y z h1 h2
    have h3 : |x - y| ≤ 1 / 2 ^ 14 := by
      have := abs_sub_le x z y
      rw [abs_sub_comm z y] at this
      norm_num at he ⊢; linarith
    have := sq_le_sq' (by linarith [neg_abs_le (x - y)]) ((le_abs_self _).trans h3)
    norm_num at this ⊢; linarith
  have c1 := c hp.1.2 hq.1.2
  have c2 := c hp.2.1.2 hq.2.1.2
  have c3 := c hp.2.2.2 hq.2.2.2
  have h8 := eps_small
  have ht := eta_le_hundred
  have e0 := eps_pos
  set L := (val p.x - val q.x) ^ 2 + (val p.y - val q.y) ^ 2 + (val p.z - val q.z) ^ 2 with hL
  have hL0 : 0 ≤ L := by positivity
  have hLu : L ≤ 3 / 2 ^ 28 := by norm_num at c1 c2 c3 ⊢; linarith
  have : 8 * eps * L ≤ 1 / 2 ^ 49 * L := mul_le_mul_of_nonneg_right h8 hL0
  norm_num at this ht hLu ⊢
  linarith

theorem near_same {e : ℝ} {p q : V3 Float} {X : V3 ℝ} (hp : Near e p X) (hq : Near e q X) (he : e ≤ 1 / 2 ^ 15)
    (hX : Within (2 ^ 100) X) : near (p.distanceSq q) 0 = true := by
  obtain ⟨f, n, u⟩ := close_lengthSq hp hq he hX
  unfold V3.distanceSq
  rw [near_zero_iff f, abs_of_nonneg n, tol_val.2]
  norm_num at u ⊢; linarith

theorem hundredth_val : IsFin (Env.hundredth : Float) ∧ 1 / 2 ^ 7 ≤ val (Env.hundredth : Float) := by
  have e0 : (0.01 : Float) = Float.ofBits 0x3F847AE147AE147B := by decide +kernel
  have e : (Float.ofBits 0x3F847AE147AE147B).toModel.unpack = .finite .positive 5764607523034235 (-59) (by norm_num) := rfl
  show IsFin (0.01 : Float) ∧ 1 / 2 ^ 7 ≤ val (0.01 : Float)
  rw [e0]
  refine ⟨?_, ?_⟩
  · rw [fin_unpack, e]; rfl
  · rw [val, e, uval]
    norm_num

theorem distance_small {e : ℝ} {p q : V3 Float} {X : V3 ℝ} (hp : Near e p X) (hq : Near e q X) (he : e ≤ 1 / 2 ^ 15)
    (hX : Within (2 ^ 100) X) : p.distance q < (Env.hundredth : Float) := by
  obtain ⟨f, n, u⟩ := close_lengthSq hp hq he hX
  obtain ⟨g, r⟩ := sqrt_rounds f n
  show Float.sqrt ((p - q).lengthSq) < _
  rw [lt_iff g hundredth_val.1]
  have h1 : Real.sqrt (val (p - q).lengthSq) ≤ 2 ^ (-12 : Int) := by
    rw [Real.sqrt_le_iff]
    refine ⟨by positivity, u.trans (by norm_num)⟩
  have h2 := r.le _ (rep_pow _ (by norm_num)) h1
  have h3 := hundredth_val.2
  norm_num at h2 h3 ⊢
  linarith

/-- Two points differ by more than `2 ^ -10` in some coordinate. -/
def Spec.Distinct (p q : V3 ℝ) : Prop := 1 / 2 ^ 10 < |p.x - q.x| ∨ 1 / 2 ^ 10 < |p.y - q.y| ∨ 1 / 2 ^ 10 < |p.z - q.z|

theorem near_distinct {e : ℝ} {p q : V3 Float} {X Y : V3 ℝ} (hp : Near e p X) (hq : Near e q Y) (he : e ≤ 1 / 2 ^ 15)
    (hX : Within (2 ^ 100) X) (hY : Within (2 ^ 100) Y) (h : Distinct X Y) : near (p.distanceSq q) 0 = false := by
  have e1 : (2 : ℝ) ^ 100 + e ≤ 2 ^ (509 : Int) := le_trans (by norm_num at he ⊢; linarith) hundred_le
  obtain ⟨f, n, -, a⟩ := lengthSq_apx (hp.bounded hX e1) (hq.bounded hY e1)
  unfold V3.distanceSq
  rw [← Bool.not_eq_true, near_zero_iff f, abs_of_nonneg n, tol_val.2, not_le]
  have u := (abs_le.1 a).1
  rw [lengthSq_parts] at u
  have c : ∀ {x y z w : ℝ}, |x - z| ≤ e → |y - w| ≤ e → 1 / 2 ^ 10 < |z - w| → 1 / 2 ^ 21 ≤ (x - y) ^ 2 := by
    intro x y z w h1 h2 h3
    have h4 : 3 / 2 ^ 12 ≤ |x - y| := by
      have h5 : |z - w| ≤ |x - z| + |x - y| + |y - w| := by
        rw [show z - w = -(x - z) + (x - y) + (y - w) by ring]
        refine (abs_add_three _ _ _).trans ?_
        rw [abs_neg]
      norm_num at he h3 ⊢; linarith
    rw [← sq_abs]
    have := mul_self_le_mul_self (by norm_num) h4
    norm_num at this ⊢; nlinarith
  have hs : 1 / 2 ^ 21 ≤ (val p.x - val q.x) ^ 2 + (val p.y - val q.y) ^ 2 + (val p.z - val q.z) ^ 2 := by
    have s1 := sq_nonneg (val p.x - val q.x)
    have s2 := sq_nonneg (val p.y - val q.y)
    have s3 := sq_nonneg (val p.z - val q.z)
    rcases h with h | h | h
    · have := c hp.1.2 hq.1.2 h; linarith
    · have := c hp.2.1.2 hq.2.1.2 h; linarith
    · have := c hp.2.2.2 hq.2.2.2 h; linarith
  have h8 := eps_small
  have ht := eta_le_hundred
  set L := (val p.x - val q.x) ^ 2 + (val p.y - val q.y) ^ 2 + (val p.z - val q.z) ^ 2 with hL
  have hL0 : 0 ≤ L := by positivity
  have : 8 * eps * L ≤ 1 / 2 ^ 49 * L := mul_le_mul_of_nonneg_right h8 hL0
  norm_num at this ht hs u ⊢
  linarith

/-! ### Lines -/

/-- The accuracies for which the error bounds are made: sizes `M`, relative errors `δ`. -/
structure Spec.Accuracy (M δ : ℝ) : Prop where
  one : 1 ≤ M
  fine : 1 / 2 ^ 46 ≤ δ
  coarse : M * δ ≤ 1 / 2 ^ 20

theorem Spec.Accuracy.unit {M δ : ℝ} (h : Accuracy M δ) : M / 2 ^ 46 ≤ M * δ := by
  have := mul_le_mul_of_nonneg_left h.fine (zero_le_one.trans h.one)
  norm_num at this ⊢; linarith

theorem Spec.Accuracy.size {M δ : ℝ} (h : Accuracy M δ) : M ≤ 2 ^ 26 := by
  have h1 := h.unit
  have h2 := h.coarse
  norm_num at h1 h2 ⊢; linarith

theorem Spec.Accuracy.small {M δ : ℝ} (h : Accuracy M δ) : δ ≤ 1 / 2 ^ 20 := by
  have h1 := h.coarse
  have h2 := h.one
  have h3 := h.fine
  have : (0 : ℝ) ≤ δ := le_trans (by norm_num) h3
  nlinarith

/-- A vector whose square is close to `1`. -/
def Spec.NearlyUnit (δ : ℝ) (d : V3 ℝ) : Prop := |d.dot d - 1| ≤ δ

theorem nearlyUnit_within {M δ : ℝ} (h : Accuracy M δ) {d : V3 ℝ} (hd : NearlyUnit δ d) : Within 2 d ∧ d.dot d ≤ 5 / 4 := by
  have h1 := (abs_le.1 hd).2
  have h2 := h.small
  have h3 : d.dot d ≤ 5 / 4 := by norm_num at h2; linarith
  refine ⟨?_, h3⟩
  have h4 : d.dot d = d.x ^ 2 + d.y ^ 2 + d.z ^ 2 := by simp only [V3.dot]; ring
  rw [h4] at h3
  refine ⟨?_, ?_, ?_⟩ <;> refine abs_le_of_sq_le_sq ?_ (by norm_num) <;> nlinarith [sq_nonneg d.x, sq_nonneg d.y, sq_nonneg d.z]

/-- Cauchy and Schwarz, for bounded coordinates. -/
theorem dot_bound {B : ℝ} {p d : V3 ℝ} (hp : Within B p) (hd : d.dot d ≤ 5 / 4) : |p.dot d| ≤ 2 * B := by
  have hB : 0 ≤ B := (abs_nonneg _).trans hp.1
  refine abs_le_of_sq_le_sq ?_ (by linarith)
  have h1 : (p.dot d) ^ 2 ≤ (p.dot p) * (d.dot d) := by
    simp only [V3.dot]
    nlinarith [sq_nonneg (p.x * d.y - p.y * d.x), sq_nonneg (p.x * d.z - p.z * d.x), sq_nonneg (p.y * d.z - p.z * d.y)]
  have sq : ∀ {x : ℝ}, |x| ≤ B → x * x ≤ B * B := fun h => by
    rw [← abs_mul_abs_self]; exact mul_self_le_mul_self (abs_nonneg _) h
  have h2 : p.dot p ≤ 3 * (B * B) := by
    simp only [V3.dot]
    linarith [sq hp.1, sq hp.2.1, sq hp.2.2]
  have h3 : 0 ≤ d.dot d := by
    simp only [V3.dot]
    nlinarith [mul_self_nonneg d.x, mul_self_nonneg d.y, mul_self_nonneg d.z]
  have h4 := mul_le_mul h2 hd h3 (by positivity)
  nlinarith

/-- `s` is nearly the point of the line through `o` in direction `d` at parameter `a`. -/
def Spec.NearLine (e : ℝ) (o d s : V3 ℝ) : Prop := ∃ a : ℝ, Within e (s - (o + a • d))

theorem within_sub {B C : ℝ} {p q : V3 ℝ} (hp : Within B p) (hq : Within C q) : Within (B + C) (p - q) :=
  ⟨(abs_sub _ _).trans (add_le_add hp.1 hq.1), (abs_sub _ _).trans (add_le_add hp.2.1 hq.2.1),
    (abs_sub _ _).trans (add_le_add hp.2.2 hq.2.2)⟩

theorem within_add {B C : ℝ} {p q : V3 ℝ} (hp : Within B p) (hq : Within C q) : Within (B + C) (p + q) :=
  ⟨(abs_add_le _ _).trans (add_le_add hp.1 hq.1), (abs_add_le _ _).trans (add_le_add hp.2.1 hq.2.1),
    (abs_add_le _ _).trans (add_le_add hp.2.2 hq.2.2)⟩

theorem within_smul {B C x : ℝ} {p : V3 ℝ} (hp : Within B p) (hx : |x| ≤ C) : Within (B * C) (p * x) := by
  have hB : 0 ≤ B := (abs_nonneg _).trans hp.1
  refine ⟨?_, ?_, ?_⟩ <;> simp only [V3.rmul_eq, V3.smul_x, V3.smul_y, V3.smul_z] <;> rw [abs_mul, mul_comm]
  · exact mul_le_mul hp.1 hx (abs_nonneg _) hB
  · exact mul_le_mul hp.2.1 hx (abs_nonneg _) hB
  · exact mul_le_mul hp.2.2 hx (abs_nonneg _) hB

theorem within_mono {B C : ℝ} {p : V3 ℝ} (hp : Within B p) (h : B ≤ C) : Within C p :=
  ⟨hp.1.trans h, hp.2.1.trans h, hp.2.2.trans h⟩

theorem bounded_within {M : ℝ} {p : V3 Float} (h : Bounded M p) : Within M (toReal p) := ⟨h.1.2, h.2.1.2, h.2.2.2⟩

/-- The accuracy of computed points of a line. -/
theorem line_point {M : ℝ} (h1 : 1 ≤ M) (h2 : M ≤ 2 ^ 26) {l : Line Float} (ho : Bounded M l.origin) (hd : Near 0 l.direction (toReal l.direction))
    (hD : Within 2 (toReal l.direction)) {t : Float} {T B e : ℝ} (ht : Close e t T) (hT : |T| ≤ B) (he : e ≤ B) (hB1 : M ≤ B) (hB : B ≤ 16 * M) :
    Near (2 * e + B / 2 ^ 48) (l.getPoint t) (toReal l.origin + toReal l.direction * T) := by
  have hW : Within (3 * B) (toReal l.origin + toReal l.direction * T) :=
    within_mono (within_add (bounded_within ho) (within_smul hD hT)) (by linarith)
  have e0 := ht.nonneg
  have s1 := Near.smul hd ht hD hT (by norm_num) he (by linarith) (by norm_num at h2 ⊢; linarith)
  have s2 := Near.add (near_self ho) s1 hW (by norm_num; linarith) (by norm_num at h2 ⊢; linarith)
  exact near_mono s2 (by norm_num; linarith)

/-- The parameter of a vertex. -/
theorem line_parameter {M δ : ℝ} (h : Accuracy M δ) {l : Line Float} (ho : Bounded M l.origin)
    (hd : Near 0 l.direction (toReal l.direction)) (hu : NearlyUnit δ (toReal l.direction)) {s : V3 Float} (hs : Bounded M s) :
    Close (5 * M / 2 ^ 46) (l.project s) ((toReal s - toReal l.origin).dot (toReal l.direction)) ∧
      |(toReal s - toReal l.origin).dot (toReal l.direction)| ≤ 4 * M := by
  obtain ⟨hD, hd2⟩ := nearlyUnit_within h hu
  have h1 := h.one
  have h2 := h.size
  have hW : Within (2 * M) (toReal s - toReal l.origin) := within_mono (within_sub (bounded_within hs) (bounded_within ho)) (by linarith)
  have s1 := Near.sub (near_self hs) (near_self ho) hW (by linarith) (by norm_num at h2 ⊢; linarith)
  have s2 := Near.dot s1 hd hW hD (by norm_num; linarith) (by norm_num) (by linarith) (by norm_num at h2 ⊢; linarith)
  exact ⟨s2.mono (by norm_num; linarith), (dot_bound hW hd2).trans (by linarith)⟩

/-- The foot of a vertex on the line of its edge. -/
theorem line_foot {M δ : ℝ} (h : Accuracy M δ) {o d s : V3 ℝ} (ho : Within M o) (hs : Within M s) (hu : NearlyUnit δ d)
    (hl : NearLine (M * δ) o d s) : Within (8 * (M * δ)) (o + d * (s - o).dot d - s) := by
  obtain ⟨hD, hd2⟩ := nearlyUnit_within h hu
  obtain ⟨a, hr⟩ := hl
  have h1 := h.one
  have hc := h.coarse
  have hsm := h.small
  have hδ : 0 ≤ δ := le_trans (by norm_num) h.fine
  obtain ⟨r, hrd⟩ : ∃ r, r = s - (o + a • d) := ⟨_, rfl⟩
  rw [← hrd] at hr
  have hso : s - o = a • d + r := by rw [hrd]; ext <;> simp <;> ring
  have hRD := dot_bound hr hd2
  have hT : (s - o).dot d = a * d.dot d + r.dot d := by rw [hso]; simp only [V3.dot, V3.add_x, V3.add_y, V3.add_z, V3.smul_x, V3.smul_y, V3.smul_z]; ring
  have key : ∀ {di si oi ri : ℝ}, |di| ≤ 2 → |si| ≤ M → |oi| ≤ M → |ri| ≤ M * δ → si - oi = a * di + ri →
      |oi + di * (a * d.dot d + r.dot d) - si| ≤ 8 * (M * δ) := by
    intro di si oi ri c1 c2 c3 c4 c5
    have e : oi + di * (a * d.dot d + r.dot d) - si = (a * di) * (d.dot d - 1) + di * r.dot d - ri := by
      linear_combination (-1 : ℝ) * c5
    have b1 : |a * di| ≤ 3 * M := by
      rw [show a * di = si - oi - ri by linarith]
      have := abs_sub (si - oi) ri
      have := abs_sub si oi
      norm_num at hc
      linarith
    have b2 : |(a * di) * (d.dot d - 1)| ≤ 3 * M * δ := by
      rw [abs_mul]; exact mul_le_mul b1 hu (abs_nonneg _) (by linarith)
    have b3 : |di * r.dot d| ≤ 2 * (2 * (M * δ)) := by
      rw [abs_mul]; exact mul_le_mul c1 hRD (abs_nonneg _) (by norm_num)
    rw [e]
    have t1 := abs_sub ((a * di) * (d.dot d - 1) + di * r.dot d) ri
    have t2 := abs_add_le ((a * di) * (d.dot d - 1)) (di * r.dot d)
    linarith
  rw [hT]
  refine ⟨?_, ?_, ?_⟩ <;> simp only [V3.rmul_eq, V3.smul_x, V3.smul_y, V3.smul_z, V3.add_x, V3.add_y, V3.add_z, V3.sub_x, V3.sub_y, V3.sub_z]
  · rw [mul_comm _ d.x]; exact key hD.1 hs.1 ho.1 hr.1 (by have := congrArg V3.x hso; simpa using this)
  · rw [mul_comm _ d.y]; exact key hD.2.1 hs.2.1 ho.2.1 hr.2.1 (by have := congrArg V3.y hso; simpa using this)
  · rw [mul_comm _ d.z]; exact key hD.2.2 hs.2.2 ho.2.2 hr.2.2 (by have := congrArg V3.z hso; simpa using this)

/-- By how much the vertices of a mesh are off. -/
noncomputable def Spec.drift (M δ : ℝ) : ℝ := 20 * (M * δ)

theorem line_end_float {M δ : ℝ} (h : Accuracy M δ) {l : Line Float} (ho : Bounded M l.origin)
    (hd : Near 0 l.direction (toReal l.direction)) (hu : NearlyUnit δ (toReal l.direction)) {s : V3 Float} (hs : Bounded M s)
    (hl : NearLine (M * δ) (toReal l.origin) (toReal l.direction) (toReal s)) :
    Near (drift M δ) (l.getPoint (l.project s)) (toReal s) := by
  obtain ⟨h1, h2⟩ := line_parameter h ho hd hu hs
  have hM := h.one
  have hU := h.unit
  have p := line_point hM h.size ho hd (nearlyUnit_within h hu).1 h1 h2 (by norm_num; linarith) (by linarith) (by linarith)
  have f := line_foot h (bounded_within ho) (bounded_within hs) hu hl
  have hb : 2 * (5 * M / 2 ^ 46) + 4 * M / 2 ^ 48 + 8 * (M * δ) ≤ drift M δ := by
    unfold drift; norm_num at hU ⊢; linarith
  exact ⟨(Close.shift p.1 f.1).mono hb, (Close.shift p.2.1 f.2.1).mono hb, (Close.shift p.2.2 f.2.2).mono hb⟩

/-- A number drawn by the random number generator. -/
def Spec.Drawn (x : Float) : Prop := IsFin x ∧ 0 ≤ val x ∧ val x ≤ 1

theorem drawRatio_val {x : Float} (h : Drawn x) : IsFin (drawRatio x) ∧ |val (drawRatio x)| ≤ 1 := by
  obtain ⟨f, x0, x1⟩ := h
  have c : ∀ (n : Nat), 2 ≤ n → n ≤ 10 → F64.Close (1 / 2 ^ 20) (1 / (Nat.cast n : Float)) (1 / n) := by
    intro n n2 n10
    obtain ⟨g, v⟩ := natCast_val (n := n) (lt_of_le_of_lt n10 (by norm_num))
    have hn : (2 : ℝ) ≤ n := by exact_mod_cast n2
    have hb : |val (1 : Float) / val (Nat.cast n : Float)| ≤ 1 := by
      rw [one_val.2, v, abs_of_nonneg (by positivity), div_le_one (by linarith)]; linarith
    obtain ⟨k, r⟩ := div_rounds one_val.1 g (by rw [v]; linarith) (le_max_of_le_four (hb.trans (by norm_num)))
    refine ⟨k, ?_⟩
    have := r.bound
    have ht := eta_le_hundred
    have := mul_le_mul_of_nonneg_left hb eps_pos.le
    rw [one_val.2, v] at *
    rw [eps_eq] at *
    norm_num at *
    linarith
  have hx : |val x| ≤ 1 := by rw [abs_of_nonneg x0]; exact x1
  have c2 := c 2 le_rfl (by norm_num)
  have c5 := c 5 (by norm_num) (by norm_num)
  have c10 := c 10 (by norm_num) (by norm_num)
  have m := c5.mul (close_val f) (A := 1) (B := 1) (by norm_num) hx (by norm_num) (by norm_num) (by norm_num) (by norm_num)
  have s := m.sub c10 (B := 1) (by push_cast; rw [abs_le]; constructor <;> linarith) (by norm_num) (by norm_num)
  have a := c2.add s (B := 1) (by push_cast; rw [abs_le]; constructor <;> linarith) (by norm_num) (by norm_num)
  refine ⟨a.1, ?_⟩
  have := abs_le.1 a.2
  push_cast at this
  unfold drawRatio
  rw [abs_le]
  norm_num at this ⊢
  constructor <;> linarith

/-- Lines are never subdivided. -/
theorem line_flat {M : ℝ} (h1 : 1 ≤ M) (h2 : M ≤ 2 ^ 26) {l : Line Float} (ho : Bounded M l.origin)
    (hd : Near 0 l.direction (toReal l.direction)) (hD : Within 2 (toReal l.direction)) {a b p : Float} (fa : IsFin a) (fb : IsFin b)
    (fp : IsFin p) (ba : |val a| ≤ 5 * M) (bb : |val b| ≤ 5 * M) (bp : |val p| ≤ 1) :
    (l.getPoint (rangeAt (a, b) p)).distance (l.getPoint a + (l.getPoint b - l.getPoint a) * p) < Env.hundredth := by
  have d1 := (close_val fb).sub (close_val fa) (B := 10 * M) (by have := abs_sub (val b) (val a); linarith) (by linarith) (by norm_num at h2 ⊢; linarith)
  have bba : |val b - val a| ≤ 10 * M := by have := abs_sub (val b) (val a); linarith
  have d2 := d1.mul (close_val fp) (A := 10 * M) (B := 1) bba bp (by norm_num; linarith) (by norm_num) (by linarith) (by norm_num at h2 ⊢; linarith)
  have bm : |(val b - val a) * val p| ≤ 10 * M := by
    rw [abs_mul]
    have := mul_le_mul bba bp (abs_nonneg _) (by linarith)
    linarith
  have bt : |val a + (val b - val a) * val p| ≤ 15 * M := (abs_add_le _ _).trans (by linarith)
  have d3 := (close_val fa).add d2 (B := 16 * M) (by linarith) (by norm_num; linarith) (by norm_num at h2 ⊢; linarith)
  have d4 : Close (2 * M / 2 ^ 46) (rangeAt (a, b) p) (val a + (val b - val a) * val p) := d3.mono (by norm_num; linarith)
  have g0 := line_point h1 h2 ho hd hD (close_val fa) (B := 5 * M) ba (by linarith) (by linarith) (by linarith)
  have g1 := line_point h1 h2 ho hd hD (close_val fb) (B := 5 * M) bb (by linarith) (by linarith) (by linarith)
  have gt := line_point h1 h2 ho hd hD d4 (B := 15 * M) bt (by norm_num; linarith) (by linarith) (by linarith)
  have w : ∀ {t : ℝ}, |t| ≤ 5 * M → Within (11 * M) (toReal l.origin + toReal l.direction * t) := fun ht =>
    within_mono (within_add (bounded_within ho) (within_smul hD ht)) (by linarith)
  have m1 := Near.sub g1 g0 (within_mono (within_sub (w bb) (w ba)) (show 11 * M + 11 * M ≤ 22 * M by linarith))
    (by norm_num; linarith) (by norm_num at h2 ⊢; linarith)
  have m2 := Near.smul m1 (close_val fp) (within_mono (within_sub (w bb) (w ba)) (show 11 * M + 11 * M ≤ 22 * M by linarith)) bp
    (by norm_num; linarith) (by norm_num) (by linarith) (by norm_num at h2 ⊢; linarith)
  have hW := within_add (w ba) (within_smul (within_sub (w bb) (w ba)) bp)
  have m3 := Near.add g0 m2 (within_mono hW (show _ ≤ 33 * M by linarith)) (by norm_num; linarith) (by norm_num at h2 ⊢; linarith)
  have e : toReal l.origin + toReal l.direction * val a + (toReal l.origin + toReal l.direction * val b -
      (toReal l.origin + toReal l.direction * val a)) * val p
      = toReal l.origin + toReal l.direction * (val a + (val b - val a) * val p) := by
    ext <;> simp <;> ring
  rw [e] at m3 hW
  exact distance_small (e := 1 / 2 ^ 15) (near_mono gt (by norm_num at h2 ⊢; linarith)) (near_mono m3 (by norm_num at h2 ⊢; linarith)) le_rfl
    (within_mono hW (by norm_num at h2 ⊢; linarith))

theorem line_points_float [Trig Float] {M δ : ℝ} (h : Accuracy M δ) {l : Line Float} (ho : Bounded M l.origin)
    (hd : Near 0 l.direction (toReal l.direction)) (hu : NearlyUnit δ (toReal l.direction)) {s e : V3 Float} (hs : Bounded M s)
    (he : Bounded M e) {fuel : Nat} (hf : 0 < fuel) {rnd : List Bool → Float} (hr : ∀ path, Drawn (rnd path)) (n : Nat) :
    (CurveSegment.mk (DynCurve.line l).obj (l.project s, l.project e) Env.hundredth n).getPoints fuel rnd
      = .ok [l.getPoint (l.project s), l.getPoint (l.project e)] := by
  obtain ⟨fuel, rfl⟩ : ∃ k, fuel = k + 1 := ⟨fuel - 1, by omega⟩
  have hp : ∀ u, (DynCurve.line l).obj.getPoint u = .ok (l.getPoint u) := fun u => rfl
  obtain ⟨a1, a2⟩ := line_parameter h ho hd hu hs
  obtain ⟨b1, b2⟩ := line_parameter h ho hd hu he
  obtain ⟨p1, p2⟩ := drawRatio_val (hr [])
  have hM := h.one
  have hflat := line_flat hM h.size ho hd (nearlyUnit_within h hu).1 a1.1 b1.1 p1 ((a1.size a2).trans (by norm_num; linarith))
    ((b1.size b2).trans (by norm_num; linarith)) p2
  unfold CurveSegment.getPoints parameterDivision
  simp only [hp, ok_bind]
  rw [if_pos hflat]
  simp [pure_eq_ok, ok_bind, List.mapM_cons, List.mapM_nil, hp]

/-! ### The polygon of a face -/

/-- Duplicates among the ends of consecutive edges are removed also if they are only recognised as the same point. -/
theorem dedup_near {α β : Type} {R : α → β → Prop} {same : α → α → Bool} (hsame : ∀ {a a' b}, R a b → R a' b → same a' a = true) :
    ∀ (l : List β) (a : α) (b : β) (L : List (α × α)), R a b →
      List.Forall₂ (fun e f => R e.1 f.1 ∧ R e.2 f.2) L (pathEdges (b :: l)) →
      (∀ f ∈ pathEdges (b :: l), ∀ a a', R a f.1 → R a' f.2 → same a' a = false) →
      List.Forall₂ R (dedupAux same a (L.flatMap fun e => [e.1, e.2])) l
  | [], a, b, L, _, h, _ => by
    cases h
    exact .nil
  | c :: l, a, b, L, hab, h, hd => by
    have h1 : pathEdges (b :: c :: l) = (b, c) :: pathEdges (c :: l) := rfl
    rw [h1] at h hd
    obtain ⟨e, L, ⟨e1, e2⟩, h', rfl⟩ := List.forall₂_cons_right_iff.1 h
    have h2 : same e.2 a = false := hd (b, c) (by simp) a e.2 hab e2
    rw [List.flatMap_cons]
    simp only [List.cons_append, List.nil_append, dedupAux, hsame hab e1, h2, if_true, Bool.false_eq_true, if_false]
    exact .cons e2 (dedup_near (R := R) hsame l e.2 c L e2 h' fun f hf => hd f (by simp [hf]))

/-- `to_polygon` on edges whose ends are recognised: one vertex for each corner. -/
theorem closePolygon_near {F β : Type} [Add F] [Sub F] [Mul F] [Div F] [Neg F] [Zero F] [One F] [NatCast F] [LT F] [DecidableLT F]
    [LE F] [DecidableLE F] [Env F] {R : V3 F → β → Prop} (hsame : ∀ {a a' b}, R a b → R a' b → near (a'.distanceSq a) 0 = true)
    {vs : List β} (hne : vs ≠ []) {L : List (V3 F × V3 F)} (h : List.Forall₂ (fun e f => R e.1 f.1 ∧ R e.2 f.2) L (loopEdges vs))
    (hd : ∀ f ∈ loopEdges vs, ∀ a a', R a f.1 → R a' f.2 → near (a'.distanceSq a) 0 = false) :
    ∃ l, closePolygon (L.flatMap fun e => [e.1, e.2]) = .ok l ∧ List.Forall₂ R l vs := by
  obtain ⟨v, t, rfl⟩ := List.exists_cons_of_ne_nil hne
  have h3 : loopEdges (v :: t) = pathEdges (v :: (t ++ [v])) := rfl
  rw [h3] at h hd
  have h1 : ∃ w m, t ++ [v] = w :: m := by
    cases t with
    | nil => exact ⟨v, [], rfl⟩
    | cons b t => exact ⟨b, t ++ [v], rfl⟩
  obtain ⟨w, m, h1⟩ := h1
  rw [h1] at h hd
  have h4 : pathEdges (v :: w :: m) = (v, w) :: pathEdges (w :: m) := rfl
  have hfull := h
  rw [h4] at h
  obtain ⟨e, L, ⟨e1, e2⟩, h, rfl⟩ := List.forall₂_cons_right_iff.1 h
  have hr := dedup_near (R := R) (same := fun a b : V3 F => near (a.distanceSq b) 0) hsame (w :: m) e.1 v (e :: L) e1 hfull hd
  rw [← h1] at hr
  have hd' : dedupBy (fun a b : V3 F => near (a.distanceSq b) 0) ((e :: L).flatMap fun e => [e.1, e.2])
      = e.1 :: dedupAux (fun a b : V3 F => near (a.distanceSq b) 0) e.1 ((e :: L).flatMap fun e => [e.1, e.2]) := by
    rw [List.flatMap_cons]
    simp only [List.cons_append, List.nil_append, dedupBy, dedupAux, hsame e1 e1, if_true]
  set r := dedupAux (fun a b : V3 F => near (a.distanceSq b) 0) e.1 ((e :: L).flatMap fun e => [e.1, e.2]) with hrdef
  obtain ⟨r1, r2, hr1, hr2, hrr⟩ : ∃ r1 r2, List.Forall₂ R r1 t ∧ R r2 v ∧ r = r1 ++ [r2] := by
    have g1 := List.forall₂_take_append r t [v] hr
    obtain ⟨r2, n, g2, g3, g4⟩ := List.forall₂_cons_right_iff.1 (List.forall₂_drop_append r t [v] hr)
    cases g3
    exact ⟨_, r2, g1, g2, by rw [← g4, List.take_append_drop]⟩
  refine ⟨e.1 :: r1, ?_, .cons e1 hr1⟩
  unfold closePolygon
  rw [hd', hrr]
  have hu : usub (e.1 :: (r1 ++ [r2])).length 1 = .ok (r1.length + 1) := by simp [usub]
  have h0 : idx (e.1 :: (r1 ++ [r2])) 0 = .ok e.1 := rfl
  have hl : idx (e.1 :: (r1 ++ [r2])) (r1.length + 1) = .ok r2 := by simp [idx]
  simp only [h0, hu, hl, ok_bind, pure_eq_ok]
  rw [if_pos (hsame hr2 e1)]
  congr 1
  rw [← List.cons_append, List.dropLast_concat]

/-! ### The projection to the plane -/

/-- The plane meant by a plane in binary64. -/
noncomputable def Spec.meantPlane (p : Plane Float) : Plane ℝ :=
  ⟨toReal p.origin, toReal p.normal, toReal p.uAxis, (toReal p.normal).cross (toReal p.uAxis)⟩

/-- The origin of a plane is not far away, and its axes are not long. -/
structure Spec.PlaneOk (M : ℝ) (p : Plane Float) : Prop where
  origin : Bounded M p.origin
  normal : Bounded 1 p.normal
  uAxis : Bounded 1 p.uAxis
  vAxis : p.vAxis = p.normal.cross p.uAxis

theorem drift_ge {M δ : ℝ} (h : Accuracy M δ) : 20 * M / 2 ^ 46 ≤ drift M δ := by
  have := h.unit
  unfold drift; norm_num at this ⊢; linarith

theorem drift_le {M δ : ℝ} (h : Accuracy M δ) : drift M δ ≤ 1 / 2 ^ 15 := by
  have := h.coarse
  unfold drift; norm_num at this ⊢; linarith

theorem cross_within {A B : ℝ} {p q : V3 ℝ} (hp : Within A p) (hq : Within B q) : Within (2 * (A * B)) (p.cross q) := by
  have hA : 0 ≤ A := (abs_nonneg _).trans hp.1
  have key : ∀ {a b c d : ℝ}, |a| ≤ A → |b| ≤ B → |c| ≤ B → |d| ≤ A → |a * b - c * d| ≤ 2 * (A * B) := by
    intro a b c d h1 h2 h3 h4
    refine (abs_sub _ _).trans ?_
    rw [abs_mul, abs_mul]
    have := mul_le_mul h1 h2 (abs_nonneg _) hA
    have := mul_le_mul h4 h3 (abs_nonneg _) hA
    linarith
  exact ⟨key hp.2.1 hq.2.2 hq.2.1 hp.2.2, key hp.2.2 hq.1 hq.2.2 hp.1, key hp.1 hq.2.1 hq.1 hp.2.1⟩

theorem dot_within {A B : ℝ} {p q : V3 ℝ} (hp : Within A p) (hq : Within B q) : |p.dot q| ≤ 3 * (A * B) := by
  have hA : 0 ≤ A := (abs_nonneg _).trans hp.1
  simp only [V3.dot]
  refine (abs_add_three _ _ _).trans ?_
  rw [abs_mul, abs_mul, abs_mul]
  have := mul_le_mul hp.1 hq.1 (abs_nonneg _) hA
  have := mul_le_mul hp.2.1 hq.2.1 (abs_nonneg _) hA
  have := mul_le_mul hp.2.2 hq.2.2 (abs_nonneg _) hA
  linarith

theorem project_near {M δ : ℝ} (h : Accuracy M δ) {p : Plane Float} (hp : PlaneOk M p) {v : V3 Float} {V : V3 ℝ}
    (hv : Near (drift M δ) v V) (hV : Within M V) :
    (F64.Close (7 * drift M δ) (p.project v).x ((meantPlane p).project V).x ∧
      F64.Close (7 * drift M δ) (p.project v).y ((meantPlane p).project V).y) ∧
      |((meantPlane p).project V).x| ≤ 12 * M ∧ |((meantPlane p).project V).y| ≤ 12 * M := by
  have h1 := h.one
  have h2 := h.size
  have hg := drift_ge h
  have hl := drift_le h
  have hW : Within (2 * M) (V - toReal p.origin) := within_mono (within_sub hV (bounded_within hp.origin)) (by linarith)
  have s1 := Near.sub hv (near_self hp.origin) hW (by norm_num at hl ⊢; linarith) (by norm_num at h2 ⊢; linarith)
  have hu := bounded_within hp.uAxis
  have hn := bounded_within hp.normal
  have d1 := Near.dot s1 (near_self hp.uAxis) hW hu (by norm_num at hl ⊢; linarith) (by norm_num) (by linarith)
    (by norm_num at h2 ⊢; linarith)
  have c0 := F64.cross_near (near_self hp.normal) (near_self hp.uAxis) hn hu (by
    have : (1 : ℝ) ≤ 2 ^ (1000 : Int) := one_le_zpow₀ (by norm_num) (by norm_num)
    simpa using this)
  have c1 : Near (1 / 2 ^ 50) p.vAxis ((toReal p.normal).cross (toReal p.uAxis)) := by
    rw [hp.vAxis]
    refine near_mono c0 ?_
    have ht := eta_le_hundred
    rw [eps_eq]
    norm_num at ht ⊢; linarith
  have hc := within_mono (cross_within hn hu) (show 2 * ((1 : ℝ) * 1) ≤ 2 by norm_num)
  have d2 := Near.dot s1 c1 hW hc (by norm_num at hl ⊢; linarith) (by norm_num) (by linarith) (by norm_num at h2 ⊢; linarith)
  have b1 := dot_within hW hu
  have b2 := dot_within hW hc
  refine ⟨⟨d1.mono (by norm_num at hg hl ⊢; linarith), d2.mono ?_⟩, b1.trans (by linarith), b2.trans (by linarith)⟩
  norm_num at hg hl ⊢
  linarith

/-- Twice the area that three corners of a face must span. -/
noncomputable def Spec.margin (M δ : ℝ) : ℝ := 1 / 2 ^ 23 + 2 ^ 15 * (M * M * δ)

/-- Every three corners span a triangle of more than `c`, twice its area. -/
def Spec.Spread (c : ℝ) (Q : List (V2 ℝ)) : Prop :=
  ∀ i j k, i < Q.length → j < Q.length → k < Q.length → i ≠ j → i ≠ k → j ≠ k →
    c < |triArea2 (Q.getD i 0) (Q.getD j 0) (Q.getD k 0)|

/-- How much the area of a triangle changes when its corners move. -/
theorem area_moves {a b c a' b' c' : V2 ℝ} {g B : ℝ} (ha : |a'.x - a.x| ≤ g ∧ |a'.y - a.y| ≤ g)
    (hb : |b'.x - b.x| ≤ g ∧ |b'.y - b.y| ≤ g) (hc : |c'.x - c.x| ≤ g ∧ |c'.y - c.y| ≤ g)
    (wa : |a.x| ≤ B ∧ |a.y| ≤ B) (wb : |b.x| ≤ B ∧ |b.y| ≤ B) (wc : |c.x| ≤ B ∧ |c.y| ≤ B) :
    |triArea2 a' b' c' - triArea2 a b c| ≤ 16 * (B * g) + 8 * (g * g) := by
  have g0 : 0 ≤ g := (abs_nonneg _).trans ha.1
  have B0 : 0 ≤ B := (abs_nonneg _).trans wa.1
  have key : ∀ {p q p' q' : ℝ}, |p' - p| ≤ 2 * g → |q' - q| ≤ 2 * g → |p| ≤ 2 * B → |q| ≤ 2 * B →
      |p' * q' - p * q| ≤ 8 * (B * g) + 4 * (g * g) := by
    intro p q p' q' h1 h2 h3 h4
    rw [show p' * q' - p * q = (p' - p) * (q' - q) + (p' - p) * q + p * (q' - q) by ring]
    refine (abs_add_three _ _ _).trans ?_
    rw [abs_mul, abs_mul, abs_mul]
    have m1 := mul_le_mul h1 h2 (abs_nonneg _) (by linarith)
    have m2 := mul_le_mul h1 h4 (abs_nonneg _) (by linarith)
    have m3 := mul_le_mul h3 h2 (abs_nonneg _) (by linarith)
    linarith
  have d : ∀ {u v u' v' : ℝ}, |u' - u| ≤ g → |v' - v| ≤ g → |(u' - v') - (u - v)| ≤ 2 * g := by
    intro u v u' v' h1 h2
    rw [show (u' - v') - (u - v) = (u' - u) - (v' - v) by ring]
    exact (abs_sub _ _).trans (by linarith)
  have k1 := key (d hb.1 ha.1) (d hc.2 ha.2) (abs_sub_le_two wb.1 wa.1) (abs_sub_le_two wc.2 wa.2)
  have k2 := key (d hb.2 ha.2) (d hc.1 ha.1) (abs_sub_le_two wb.2 wa.2) (abs_sub_le_two wc.1 wa.1)
  have e : triArea2 a' b' c' - triArea2 a b c = ((b'.x - a'.x) * (c'.y - a'.y) - (b.x - a.x) * (c.y - a.y)) -
      ((b'.y - a'.y) * (c'.x - a'.x) - (b.y - a.y) * (c.x - a.x)) := by
    unfold triArea2; ring
  rw [e]
  exact (abs_sub _ _).trans (by linarith)

/-- All tests on the computed projections decide as exact arithmetic does on the projections of the corners. -/
theorem decides_face {M δ : ℝ} (h : Accuracy M δ) {p : Plane Float} (hp : PlaneOk M p) {l : List (V3 Float)} {vs : List (V3 ℝ)}
    (hl : List.Forall₂ (Near (drift M δ)) l vs) (hM : ∀ v ∈ vs, Within M v)
    (hs : Spread (margin M δ) (vs.map (meantPlane p).project)) :
    Winding.Decides (l.map p.project) (Winding.pt (vs.map (meantPlane p).project)) := by
  have hlen := hl.length_eq
  have h1 := h.one
  have h2 := h.size
  have hg := drift_ge h
  have hd := drift_le h
  have hp0 : 0 ≤ drift M δ := le_trans (by positivity) hg
  -- the computed points next to the exact ones
  have near : ∀ i, i < l.length →
      ((IsFin (Winding.pt (l.map p.project) i).x ∧ |val (Winding.pt (l.map p.project) i).x - (Winding.pt (vs.map (meantPlane p).project) i).x| ≤ 7 * drift M δ) ∧
        (IsFin (Winding.pt (l.map p.project) i).y ∧ |val (Winding.pt (l.map p.project) i).y - (Winding.pt (vs.map (meantPlane p).project) i).y| ≤ 7 * drift M δ)) ∧
      |(Winding.pt (vs.map (meantPlane p).project) i).x| ≤ 12 * M ∧ |(Winding.pt (vs.map (meantPlane p).project) i).y| ≤ 12 * M := by
    intro i hi
    have hi' : i < vs.length := by omega
    unfold Winding.pt
    rw [getD_of_lt _ (by simpa using hi), getD_of_lt _ (by simpa using hi'), List.getElem_map, List.getElem_map]
    have hn : Near (drift M δ) l[i] vs[i] := hl.get hi hi'
    exact project_near h hp hn (hM _ (List.getElem_mem hi'))
  have hb : ∀ q ∈ l.map p.project, Bounded2 (16 * M) q := by
    intro q hq
    obtain ⟨i, hi, rfl⟩ := List.getElem_of_mem hq
    have hi' : i < l.length := by simpa using hi
    obtain ⟨⟨n1, n2⟩, n3, n4⟩ := near i hi'
    unfold Winding.pt at n1 n2
    rw [getD_of_lt _ hi] at n1 n2
    exact ⟨⟨n1.1, (Close.size n1 n3).trans (by norm_num at hd ⊢; linarith)⟩, ⟨n2.1, (Close.size n2 n4).trans (by norm_num at hd ⊢; linarith)⟩⟩
  have hpt : ∀ {i}, i < l.length → Winding.pt ((l.map p.project).map toReal2) i = toReal2 (Winding.pt (l.map p.project) i) := by
    intro i hi
    unfold Winding.pt
    rw [getD_of_lt _ (by simpa using hi), getD_of_lt _ (by simpa using hi), List.getElem_map]
  have moves : ∀ {i j k}, i < l.length → j < l.length → k < l.length →
      |triArea2 (Winding.pt ((l.map p.project).map toReal2) i) (Winding.pt ((l.map p.project).map toReal2) j) (Winding.pt ((l.map p.project).map toReal2) k) -
        triArea2 (Winding.pt (vs.map (meantPlane p).project) i) (Winding.pt (vs.map (meantPlane p).project) j) (Winding.pt (vs.map (meantPlane p).project) k)| ≤ 28000 * (M * M * δ) := by
    intro i j k hi hj hk
    obtain ⟨⟨a1, a2⟩, a3⟩ := near i hi
    obtain ⟨⟨b1, b2⟩, b3⟩ := near j hj
    obtain ⟨⟨c1, c2⟩, c3⟩ := near k hk
    rw [hpt hi, hpt hj, hpt hk]
    refine (area_moves ⟨a1.2, a2.2⟩ ⟨b1.2, b2.2⟩ ⟨c1.2, c2.2⟩ a3 b3 c3).trans ?_
    have e1 : drift M δ ≤ M / 1000 := by norm_num at hd ⊢; linarith
    have e2 := mul_le_mul_of_nonneg_left e1 hp0
    unfold drift at e2 ⊢
    nlinarith
  have hcl : ClearOfLines (16 * M) ((l.map p.project).map toReal2) := by
    intro i j k hi hj hk x1 x2 x3
    simp only [List.length_map] at hi hj hk
    have m := moves hi hj hk
    have s := hs i j k (by simp; omega) (by simp; omega) (by simp; omega) x1 x2 x3
    unfold Winding.pt at m
    have := abs_sub_abs_le_abs_sub (triArea2 ((vs.map (meantPlane p).project).getD i 0) ((vs.map (meantPlane p).project).getD j 0) ((vs.map (meantPlane p).project).getD k 0))
      (triArea2 (((l.map p.project).map toReal2).getD i 0) (((l.map p.project).map toReal2).getD j 0) (((l.map p.project).map toReal2).getD k 0))
    rw [abs_sub_comm] at this
    have hu := mul_le_mul_of_nonneg_left h.unit (show (0 : ℝ) ≤ M by linarith)
    unfold clearance
    unfold margin at s
    revert m s this
    generalize triArea2 ((vs.map (meantPlane p).project).getD i 0) ((vs.map (meantPlane p).project).getD j 0) ((vs.map (meantPlane p).project).getD k 0) = A
    generalize triArea2 (((l.map p.project).map toReal2).getD i 0) (((l.map p.project).map toReal2).getD j 0) (((l.map p.project).map toReal2).getD k 0) = B
    intro m s this
    norm_num at s hu ⊢
    nlinarith
  have hD := decides_float (M := 16 * M) (by
    refine le_trans ?_ (le_trans (show (2 : ℝ) ^ 100 ≤ 2 ^ 100 + 1 by linarith) hundred_le)
    norm_num at h2 ⊢; linarith) hb hcl
  have sign : ∀ {i j k}, i < l.length → j < l.length → k < l.length → i ≠ j → i ≠ k → j ≠ k →
      triArea2 (Winding.pt (vs.map (meantPlane p).project) i) (Winding.pt (vs.map (meantPlane p).project) j) (Winding.pt (vs.map (meantPlane p).project) k) ≠ 0 ∧
      (0 < triArea2 (Winding.pt ((l.map p.project).map toReal2) i) (Winding.pt ((l.map p.project).map toReal2) j) (Winding.pt ((l.map p.project).map toReal2) k) ↔
        0 < triArea2 (Winding.pt (vs.map (meantPlane p).project) i) (Winding.pt (vs.map (meantPlane p).project) j) (Winding.pt (vs.map (meantPlane p).project) k)) ∧
      (0 ≤ triArea2 (Winding.pt ((l.map p.project).map toReal2) i) (Winding.pt ((l.map p.project).map toReal2) j) (Winding.pt ((l.map p.project).map toReal2) k) ↔
        0 ≤ triArea2 (Winding.pt (vs.map (meantPlane p).project) i) (Winding.pt (vs.map (meantPlane p).project) j) (Winding.pt (vs.map (meantPlane p).project) k)) := by
    intro i j k hi hj hk x1 x2 x3
    have m := abs_le.1 (moves hi hj hk)
    have s := hs i j k (by simp; omega) (by simp; omega) (by simp; omega) x1 x2 x3
    have q0 : 0 ≤ M * M * δ := by
      have : (0 : ℝ) ≤ δ := le_trans (by norm_num) h.fine
      positivity
    unfold margin at s
    change _ < |triArea2 (Winding.pt (vs.map (meantPlane p).project) i) (Winding.pt (vs.map (meantPlane p).project) j) (Winding.pt (vs.map (meantPlane p).project) k)| at s
    norm_num at s
    refine ⟨?_, ?_, ?_⟩
    · intro h0
      rw [h0, abs_zero] at s
      linarith
    · rcases lt_abs.1 s with s | s <;> constructor <;> intro <;> linarith
    · rcases lt_abs.1 s with s | s <;> constructor <;> intro <;> linarith
  simp only [Winding.Decides, List.length_map] at hD ⊢
  refine ⟨fun i j k hi hj hk x1 x2 x3 => (sign hi hj hk x1 x2 x3).1, fun i j k hi hj hk x1 x2 x3 => ?_,
    fun i j k m hi hj hk hm x1 x2 x3 y1 y2 y3 => ?_⟩
  · rw [hD.conv i j k hi hj hk x1 x2 x3]
    simp only [(sign hi hj hk x1 x2 x3).2.1]
  · rw [hD.inside i j k m hi hj hk hm x1 x2 x3 y1 y2 y3, ← Winding.isInside_iff, ← Winding.isInside_iff, isInsideTriangle_iff, isInsideTriangle_iff,
      (sign hm hi hj y1 y2 x1).2.2, (sign hm hj hk y2 y3 x3).2.2, (sign hm hk hi y3 y1 x2.symm).2.2]

/-! ### The centroid -/

theorem sum_near {e M : ℝ} {N : Nat} (hN : N ≤ 2 ^ 20) (h1 : 1 ≤ M) (h2 : M ≤ 2 ^ 26) (he : e ≤ 1 / 2 ^ 15)
    {l : List (V3 Float)} {vs : List (V3 ℝ)} (h : List.Forall₂ (Near e) l vs) : (∀ v ∈ vs, Within M v) →
    ∀ (k : Nat) (a : V3 Float) (A : V3 ℝ), k + l.length ≤ N → Near (k * (e + N * M / 2 ^ 52)) a A → Within (k * M) A →
      Near ((k + l.length : Nat) * (e + N * M / 2 ^ 52)) (l.foldl (· + ·) a) (vs.foldl (· + ·) A) ∧
        Within ((k + l.length : Nat) * M) (vs.foldl (· + ·) A) := by
  induction h with
  | nil => exact fun _ k a A _ h3 h4 => ⟨h3, h4⟩
  | @cons x X l vs hx hl ih =>
    intro hM k a A hk h3 h4
    rw [List.length_cons] at hk
    have hW : Within ((k + 1 : Nat) * M) (A + X) := by
      have := within_add h4 (hM X (by simp))
      push_cast
      rwa [add_mul, one_mul]
    have hkN : ((k : ℝ) + 1) ≤ N := by exact_mod_cast (show k + 1 ≤ N by omega)
    have hNR : (N : ℝ) ≤ 2 ^ 20 := by exact_mod_cast hN
    have hk0 : (0 : ℝ) ≤ k := Nat.cast_nonneg k
    have hNM : (N : ℝ) * M ≤ 2 ^ 46 := by
      have := mul_le_mul hNR h2 (by linarith) (by norm_num)
      norm_num at this ⊢; linarith
    have hN0 : (0 : ℝ) ≤ N := Nat.cast_nonneg N
    have q0 : (0 : ℝ) ≤ N * M := by positivity
    have hbig : k * (e + N * M / 2 ^ 52) + e ≤ N * M := by
      have e1 : e + N * M / 2 ^ 52 ≤ M := by norm_num at he hNM ⊢; linarith
      have e2 := mul_le_mul_of_nonneg_left e1 hk0
      have e3 := mul_le_mul_of_nonneg_right hkN (show (0 : ℝ) ≤ M by linarith)
      norm_num at he; linarith
    have hW' : Within (N * M) (A + X) := within_mono hW (by
      push_cast; exact mul_le_mul_of_nonneg_right hkN (by linarith))
    have s := Near.add h3 hx hW' hbig (by norm_num at hNM ⊢; linarith)
    have r := ih (fun v hv => hM v (by simp [hv])) (k + 1) (a + x) (A + X) (by omega)
      (near_mono s (le_of_eq (by push_cast; ring))) hW
    rw [show k + 1 + l.length = k + (x :: l).length by rw [List.length_cons]; omega] at r
    exact r

theorem close_div_nat {e X B : ℝ} {x : Float} {n : Nat} (hn : 1 ≤ n) (hn' : n ≤ 2 ^ 20) (hx : F64.Close e x X) (hX : |X| ≤ n * B)
    (he : e ≤ n * B / 8) (h1 : 1 ≤ B) (hB : B ≤ 2 ^ 100) : F64.Close (e / n + B / 2 ^ 51) (x / (Nat.cast n : Float)) (X / n) := by
  obtain ⟨g, v⟩ := natCast_val (n := n) (lt_of_le_of_lt hn' (by norm_num))
  have hn0 : (0 : ℝ) < n := by exact_mod_cast (show 0 < n by omega)
  have hs := hx.size hX
  have hb : |val x / val (Nat.cast n : Float)| ≤ 2 * B := by
    rw [v, abs_div, abs_of_pos hn0, div_le_iff₀ hn0]
    have : (0 : ℝ) ≤ n * B := by positivity
    linarith
  obtain ⟨k, r⟩ := div_rounds hx.1 g (by rw [v]; exact hn0.ne') (le_max_of_hundred (hb.trans (by norm_num at hB ⊢; linarith)))
  refine ⟨k, ?_⟩
  have r := r.bound
  have ht := eta_le_hundred
  have hb' := mul_le_mul_of_nonneg_left hb eps_pos.le
  have d : |val x / n - X / n| ≤ e / n := by
    rw [← sub_div, abs_div, abs_of_pos hn0]
    exact div_le_div_of_nonneg_right hx.2 hn0.le
  rw [v] at r hb'
  rw [eps_eq] at r hb'
  rw [show val (x / (Nat.cast n : Float)) - X / n = (val (x / (Nat.cast n : Float)) - val x / n) + (val x / n - X / n) by ring]
  refine (abs_add_le _ _).trans ?_
  norm_num at r ht hb' ⊢
  linarith

/-- How far the vertices of the mesh of a face with `n` corners are from where they should be. -/
noncomputable def Spec.blur (M δ : ℝ) (n : Nat) : ℝ := drift M δ + n * M / 2 ^ 51

theorem near_zero_point : Near 0 (0 : V3 Float) 0 := by
  have c : F64.Close 0 (0 : Float) 0 := ⟨zero_val.1, by rw [zero_val.2]; simp⟩
  exact ⟨c, c, c⟩

theorem centroid_near {M δ : ℝ} (h : Accuracy M δ) {l : List (V3 Float)} {vs : List (V3 ℝ)} (hl : List.Forall₂ (Near (drift M δ)) l vs)
    (hM : ∀ v ∈ vs, Within M v) (hn : 2 ≤ vs.length) (hn' : vs.length ≤ 2 ^ 20) :
    Near (blur M δ vs.length) (sumV3 l / (Nat.cast l.length : Float)) (centroid vs) := by
  have h1 := h.one
  have h2 := h.size
  have hd := drift_le h
  obtain ⟨s, w⟩ := sum_near hn' h1 h2 (drift_le h) hl hM 0 0 0 (by rw [hl.length_eq]; omega)
    (near_mono near_zero_point (by simp)) (by simp [Within])
  rw [← sumV3_div, hl.length_eq]
  rw [hl.length_eq, Nat.zero_add] at s w
  have hn0 : (0 : ℝ) < vs.length := by exact_mod_cast (show 0 < vs.length by omega)
  have hn2 : (2 : ℝ) ≤ vs.length := by exact_mod_cast hn
  have hnR : (vs.length : ℝ) ≤ 2 ^ 20 := by exact_mod_cast hn'
  have hNM : (vs.length : ℝ) * M ≤ 2 ^ 20 * M := mul_le_mul_of_nonneg_right hnR (by linarith)
  have he : (vs.length : ℝ) * (drift M δ + vs.length * M / 2 ^ 52) ≤ vs.length * M / 8 := by
    rw [mul_div_assoc (vs.length : ℝ) M 8]
    refine mul_le_mul_of_nonneg_left ?_ hn0.le
    norm_num at hd hNM ⊢; linarith
  have hB : M ≤ 2 ^ 100 := by norm_num at h2 ⊢; linarith
  have hfin : (vs.length : ℝ) * (drift M δ + vs.length * M / 2 ^ 52) / vs.length + M / 2 ^ 51 ≤ blur M δ vs.length := by
    rw [mul_div_cancel_left₀ _ hn0.ne']
    unfold blur
    have := mul_le_mul_of_nonneg_right hn2 (show (0 : ℝ) ≤ M by linarith)
    norm_num; linarith
  exact ⟨(close_div_nat (by omega) hn' s.1 w.1 he h1 hB).mono hfin, (close_div_nat (by omega) hn' s.2.1 w.2.1 he h1 hB).mono hfin,
    (close_div_nat (by omega) hn' s.2.2 w.2.2 he h1 hB).mono hfin⟩

/-! ### What the file says -/

/-- Edge `g` is nearly straight from `s` to `e`. -/
def Spec.SaysStraight64 (M δ : ℝ) (file : StepFile Float) (g : Ref) (s e : V3 Float) : Prop :=
  ∃ (c : Ref) (sense : Bool) (o d : V3 Float), SaysEdge file g s e c sense ∧ SaysLine file c o d ∧ Bounded M o ∧
    Near 0 d (toReal d) ∧ NearlyUnit δ (toReal d) ∧ NearLine (M * δ) (toReal o) (toReal d) (toReal s) ∧
    NearLine (M * δ) (toReal o) (toReal d) (toReal e)

/-- `face` lies in plane `p` and has one bound, which goes straight from each point of `vs` to the next and from the last to
the first, using all edges in their direction. -/
def Spec.SaysPolygon64 (M δ : ℝ) (file : StepFile Float) (face : StepAdvancedFace) (p : Plane Float) (vs : List (V3 Float)) : Prop :=
  SaysPlane file face p ∧ ∃ r b flag refs, face.bounds = [r] ∧ file.faceBound r = some ⟨b, flag⟩ ∧ file.edgeLoop b = some refs ∧
    List.Forall₂ (fun r e => ∃ g, file.orientedEdge r = some ⟨g, true⟩ ∧ SaysStraight64 M δ file g e.1 e.2) refs (loopEdges vs)

/-- The exact polygon of a face with corners `vs` in plane `p`. -/
noncomputable def Spec.meantPolygon (p : Plane Float) (vs : List (V3 Float)) : List (V2 ℝ) :=
  (vs.map toReal).map (meantPlane p).project

/-- A loop that `trim` meshes without gaps and overlaps in binary64. -/
structure Spec.Proper64 (M δ : ℝ) (p : Plane Float) (vs : List (V3 Float)) : Prop where
  corners : 3 ≤ vs.length
  few : vs.length ≤ 2 ^ 20
  plane : PlaneOk M p
  bounded : ∀ v ∈ vs, Bounded M v
  apart : ∀ e ∈ loopEdges vs, Distinct (toReal e.2) (toReal e.1)
  simple : Simple (meantPolygon p vs)
  spread : Spread (margin M δ) (meantPolygon p vs)
  ccw : 0 < area2 (meantPolygon p vs)

/-- The numbers drawn while a face is subdivided lie between 0 and 1. -/
def Spec.DrawsUnit (o : TrimOracle Float) : Prop := ∀ i j path, Drawn (o.rnd i j path)

/-- The mesh of a face: triangles that tile it, with vertices that are off by at most `e`. -/
def Spec.MeshNear (e : ℝ) (p : Plane Float) (vs : List (V3 Float)) (mesh : TriangleMesh Float) : Prop :=
  ∃ ideal : TriangleMesh ℝ, MeshOf (meantPlane p) (vs.map toReal) ideal ∧ mesh.triangles = ideal.triangles ∧ mesh.normals = [] ∧
    List.Forall₂ (Near e) mesh.vertices ideal.vertices

/-! ### Reading it -/

section
variable [Trig Float]

theorem use_float {M δ : ℝ} (h : Accuracy M δ) {file : StepFile Float} {r g : Ref} {s e : V3 Float}
    (hg : file.orientedEdge r = some ⟨g, true⟩) (hu : SaysStraight64 M δ file g s e) (hs : Bounded M s) (he : Bounded M e) :
    ∃ seg a b, SaysOriented file r seg ∧ Near (drift M δ) a (toReal s) ∧ Near (drift M δ) b (toReal e) ∧
      ∀ fuel, 0 < fuel → ∀ (rnd : List Bool → Float), (∀ path, Drawn (rnd path)) → seg.getPoints fuel rnd = .ok [a, b] := by
  obtain ⟨c, sense, o, d, g2, g3, ho, hd, hn, h1, h2⟩ := hu
  exact ⟨_, Line.getPoint ⟨o, d⟩ (Line.project ⟨o, d⟩ s), Line.getPoint ⟨o, d⟩ (Line.project ⟨o, d⟩ e),
    ⟨g, true, s, e, c, sense, _, _, _, hg, g2, .line g3, rfl, rfl, rfl⟩, line_end_float h (l := ⟨o, d⟩) ho hd hn hs h1,
    line_end_float h (l := ⟨o, d⟩) ho hd hn he h2, fun fuel hf rnd hr => line_points_float h (l := ⟨o, d⟩) ho hd hn hs he hf hr 16⟩

theorem uses_float {M δ : ℝ} (h : Accuracy M δ) {file : StepFile Float} {refs : List Ref} {E : List (V3 Float × V3 Float)}
    (hu : List.Forall₂ (fun r e => ∃ g, file.orientedEdge r = some ⟨g, true⟩ ∧ SaysStraight64 M δ file g e.1 e.2) refs E)
    {vs : List (V3 Float)} (hb : ∀ v ∈ vs, Bounded M v) (hm : ∀ e ∈ E, e.1 ∈ vs ∧ e.2 ∈ vs) :
    ∃ segs L, List.Forall₂ (SaysOriented file) refs segs ∧
      List.Forall₂ (fun (a b : V3 Float × V3 Float) => (Near (drift M δ) a.1 (toReal b.1) ∧ b.1 ∈ vs) ∧
        (Near (drift M δ) a.2 (toReal b.2) ∧ b.2 ∈ vs)) L E ∧
      ∀ fuel, 0 < fuel → ∀ (rnd : Nat → List Bool → Float), (∀ j path, Drawn (rnd j path)) → ∀ (k : Nat),
        (segs.zipIdx k).mapM (fun (e : CurveSegment Float × Nat) => e.1.getPoints fuel (rnd e.2)) = .ok (L.map fun u => [u.1, u.2]) := by
  induction hu with
  | nil => exact ⟨[], [], .nil, .nil, fun _ _ _ _ _ => rfl⟩
  | @cons r e refs E h1 _ ih =>
    obtain ⟨segs, L, b1, b2, b3⟩ := ih fun e he => hm e (by simp [he])
    obtain ⟨w1, w2⟩ := hm e (by simp)
    obtain ⟨g, g1, g2⟩ := h1
    obtain ⟨seg, a, b, a1, a2, a3, a4⟩ := use_float h g1 g2 (hb _ w1) (hb _ w2)
    refine ⟨seg :: segs, (a, b) :: L, .cons a1 b1, .cons ⟨⟨a2, w1⟩, ⟨a3, w2⟩⟩ b2, fun fuel hf rnd hr k => ?_⟩
    rw [List.zipIdx_cons, mapM_cons, a4 fuel hf _ (hr k), b3 fuel hf rnd hr (k + 1)]
    rfl

end

/-- The mesh of a loop near the corners of the face. -/
theorem mesh_float {M δ : ℝ} (h : Accuracy M δ) {p : Plane Float} {vs : List (V3 Float)} (hv : Proper64 M δ p vs) {o : TrimOracle Float}
    (hbs : BinarySearch o.bs) (hear : vs.length < o.earFuel) {bounds : List (EdgeLoop Float)} {l : List (V3 Float)} {k : Nat}
    (hc : collectLoops o bounds = .ok (l, [0, k])) (hl : List.Forall₂ (Near (drift M δ)) l (vs.map toReal)) :
    ∃ mesh, p.trim o bounds = .ok mesh ∧ ValidMesh mesh ∧ MeshNear (blur M δ vs.length) p vs mesh := by
  have hlen : l.length = vs.length := by rw [hl.length_eq, List.length_map]
  have hM : ∀ v ∈ vs.map toReal, Within M v := by
    intro v hm
    obtain ⟨w, hw, rfl⟩ := List.mem_map.1 hm
    exact bounded_within (hv.bounded w hw)
  have hn : 3 ≤ (vs.map toReal).length := by rw [List.length_map]; exact hv.corners
  have hd : Winding.Decides (l.map p.project) (Winding.pt (meantPolygon p vs)) := decides_face h hv.plane hl hM hv.spread
  have hQ : (meantPolygon p vs).length = l.length := by simp [meantPolygon, hlen]
  have hS : Winding.Simple (meantPolygon p vs) := simple_of_nz (by rw [hQ, hlen]; exact hv.corners) hv.simple fun hi hj hk h1 h2 h3 =>
    hd.nz _ _ _ (by simpa [hQ] using hi) (by simpa [hQ] using hj) (by simpa [hQ] using hk) h1 h2 h3
  have hlev := Winding.level_of_area hS (by rw [hQ, hlen]; exact hv.corners) hv.ccw
  have hw : ∀ x, OffLines (meantPolygon p vs) x → winding (meantPolygon p vs) x = 0 ∨ winding (meantPolygon p vs) x = 1 := by
    obtain ⟨V, C, T, -, -, -, -, -, h4⟩ := complete_of_decides hbs (by rw [List.length_map]; exact hQ) hd
      (by rw [List.length_map, hlen]; exact hv.corners) hv.simple hv.ccw (fuel := o.earFuel) (by rw [List.length_map, hlen]; exact hear)
    exact fun x hx => (h4 x hx).1
  have hwid : drift M δ ≤ blur M δ vs.length := by
    have := h.one
    unfold blur
    have : 0 ≤ (vs.length : ℝ) * M / 2 ^ 51 := by positivity
    linarith
  have hwide : List.Forall₂ (Near (blur M δ vs.length)) l (vs.map toReal) := hl.imp fun _ _ h => near_mono h hwid
  have valid : ∀ {mesh}, p.trim o bounds = .ok mesh → ValidMesh mesh := by
    intro mesh h1
    obtain ⟨⟨k, v1⟩, v2, v3⟩ := C53_valid h1
    exact ⟨by omega, v2, .inl v3⟩
  rcases trim_of_decides hbs hc rfl (by rw [hlen]; exact hear) (by rw [hlen]; exact hv.corners) hQ hd hv.simple hv.ccw with
    ⟨hleft, T, e1, -, e3⟩ | ⟨T, e1, -, e3⟩
  · refine ⟨_, e1, valid e1, ⟨vs.map toReal ++ [centroid (vs.map toReal)], [], T⟩, ⟨.inr rfl, rfl, ?_⟩, rfl, rfl, ?_⟩
    · exact fan_tiles hn rfl hS hlev hleft hw (by rw [e3, hlen, List.length_map])
    · refine List.rel_append hwide (.cons ?_ .nil)
      have := centroid_near h hl hM (by omega) (by rw [List.length_map]; exact hv.few)
      rwa [List.length_map] at this
  · exact ⟨_, e1, valid e1, ⟨vs.map toReal, [], T⟩, ⟨.inl rfl, rfl, e3⟩, rfl, rfl, hwide⟩

section
variable [Trig Float]

/-- **C143** One face: read without an error, and meshed without gaps and overlaps. -/
theorem C143_face {M δ : ℝ} (h : Accuracy M δ) {file : StepFile Float} {face : StepAdvancedFace} {p : Plane Float} {vs : List (V3 Float)}
    (hf : SaysPolygon64 M δ file face p vs) (hv : Proper64 M δ p vs) :
    ∃ t, SaysFace file face t ∧ ∀ o : TrimOracle Float, BinarySearch o.bs → DrawsUnit o → 0 < o.divFuel → vs.length < o.earFuel →
      ∃ mesh, t.getTriangleMesh o = .ok mesh ∧ ValidMesh mesh ∧ MeshNear (blur M δ vs.length) p vs mesh := by
  obtain ⟨⟨pos, o, z, x, hp, hpos, ep⟩, r, b, flag, refs, hb, hr, he, hu⟩ := hf
  obtain ⟨segs, L, hs, hL, hpts⟩ := uses_float h hu hv.bounded fun e he => mem_of_mem_loopEdges he
  obtain ⟨S, hS, hmesh⟩ : ∃ S : Surface Float, SaysSurface file face S ∧
      ∀ o bounds, (TrimmedSurface.mk S bounds).getTriangleMesh o = p.trim o bounds := by
    subst ep
    exact ⟨_, .plane hp hpos, fun _ _ => rfl⟩
  refine ⟨⟨S, [⟨segs⟩]⟩, ⟨hS, by rw [hb]; exact .cons ⟨b, flag, refs, hr, he, hs⟩ .nil⟩, fun o hbs hdr hdiv hear => ?_⟩
  have hne : vs ≠ [] := fun hn => by have := hv.corners; rw [hn] at this; simp at this
  have hd := drift_le h
  have big : ∀ {v}, v ∈ vs → Within (2 ^ 100) (toReal v) := fun hm =>
    within_mono (bounded_within (hv.bounded _ hm)) (by have := h.size; norm_num at this ⊢; linarith)
  obtain ⟨l, hl, hnear⟩ := closePolygon_near (R := fun (a : V3 Float) (v : V3 Float) => Near (drift M δ) a (toReal v) ∧ v ∈ vs)
    (fun h1 h2 => near_same h2.1 h1.1 hd (big h1.2)) hne hL fun f hf a a' h1 h2 =>
      near_distinct h2.1 h1.1 hd (big h2.2) (big h1.2) (hv.apart f hf)
  have hpoly : EdgeLoop.toPolygon o.divFuel (o.rnd 0) ⟨segs⟩ = .ok l := by
    unfold EdgeLoop.toPolygon
    have := hpts o.divFuel hdiv (o.rnd 0) (hdr 0) 0
    refine (congrArg (fun r : Res (List (List (V3 Float))) => r >>= fun points => closePolygon points.flatten) this).trans ?_
    rw [ok_bind, ← hl, ← List.flatMap_def]
  have hlen : 0 < l.length := by rw [hnear.length_eq]; exact List.length_pos_iff.2 hne
  have hc : collectLoops o [⟨segs⟩] = .ok (l, [0, l.length]) := by
    unfold collectLoops
    simp only [List.zipIdx_cons, List.zipIdx_nil, List.foldlM_cons, List.foldlM_nil, hpoly, ok_bind, pure_eq_ok, hlen, if_true,
      List.nil_append, Nat.zero_add]
    rfl
  rw [hmesh]
  exact mesh_float h hv hbs hear hc (by
    rw [List.forall₂_map_right_iff]
    exact hnear.imp fun _ _ h => h.1)

/-- A face of a file in binary64. -/
structure Spec.FaceSide64 where
  plane : Plane Float
  corners : List (V3 Float)

/-- `m` is the mesh of the face `s`. -/
def Spec.FaceMesh (M δ : ℝ) (s : FaceSide64) (m : TriangleMesh Float) : Prop :=
  MeshNear (blur M δ s.corners.length) s.plane s.corners m

theorem sides_float {M δ : ℝ} (ha : Accuracy M δ) {file : StepFile Float} {faces : List StepAdvancedFace} {sides : List FaceSide64}
    (h : List.Forall₂ (fun face s => SaysPolygon64 M δ file face s.plane s.corners) faces sides)
    (hv : ∀ s ∈ sides, Proper64 M δ s.plane s.corners) (o : Nat → TrimOracle Float)
    (hbs : ∀ i, BinarySearch (o i).bs) (hdr : ∀ i, DrawsUnit (o i)) (hdiv : ∀ i, 0 < (o i).divFuel)
    (hear : ∀ i, ∀ s ∈ sides, s.corners.length < (o i).earFuel) (k : Nat) :
    ∃ ts meshes, List.Forall₂ (SaysFace file) faces ts ∧
      List.Forall₂ (fun (f : TrimmedSurface Float × Nat) m => f.1.getTriangleMesh (o f.2) = .ok m ∧ ValidMesh m) (ts.zipIdx k) meshes ∧
      List.Forall₂ (FaceMesh M δ) sides meshes := by
  induction h generalizing k with
  | nil => exact ⟨[], [], .nil, .nil, .nil⟩
  | @cons face s _ _ h1 _ ih =>
    obtain ⟨ts, ms, a1, a2, a3⟩ := ih (fun s hs => hv s (by simp [hs])) (fun i s hs => hear i s (by simp [hs])) (k + 1)
    obtain ⟨t, b1, b2⟩ := C143_face ha h1 (hv s (by simp))
    obtain ⟨m, c1, c2, c3⟩ := b2 (o k) (hbs k) (hdr k) (hdiv k) (hear k s (by simp))
    exact ⟨t :: ts, m :: ms, .cons b1 a1, by rw [List.zipIdx_cons]; exact .cons ⟨c1, c2⟩ a2, .cons c3 a3⟩

omit [Trig Float] in
theorem meshes_size64 {M δ : ℝ} {sides : List FaceSide64} {meshes : List (TriangleMesh Float)}
    (h : List.Forall₂ (FaceMesh M δ) sides meshes) :
    (meshes.map fun m => m.vertices.length).sum ≤ (sides.map fun s => s.corners.length + 1).sum := by
  induction h with
  | nil => exact le_refl _
  | cons h1 _ ih =>
    rw [List.map_cons, List.map_cons, List.sum_cons, List.sum_cons]
    obtain ⟨ideal, i1, -, -, i2⟩ := h1
    have := i2.length_eq
    rcases i1.vertices with h | h
    · rw [h, List.length_map] at this; omega
    · rw [h, List.length_append, List.length_map] at this; simp only [List.length_cons, List.length_nil] at this; omega

/-- **C143** `convert_stp` in binary64, on a file with planar faces that use all their edges in their direction: the OBJ file
that is written, read by any reader of the format, consists of triangles that tile the faces of the STEP file, in its order,
with vertices that are off by no more than `blur`. -/
theorem C143_convert {M δ : ℝ} (ha : Accuracy M δ) {file : StepFile Float} {sides : List FaceSide64} (hc : file.compositeCurves = [])
    (hne : sides ≠ []) (h : List.Forall₂ (fun face s => SaysPolygon64 M δ file face s.plane s.corners) file.advancedFaces sides)
    (hv : ∀ s ∈ sides, Proper64 M δ s.plane s.corners) {o : Nat → TrimOracle Float}
    (hbs : ∀ i, BinarySearch (o i).bs) (hdr : ∀ i, DrawsUnit (o i)) (hdiv : ∀ i, 0 < (o i).divFuel)
    (hear : ∀ i, ∀ s ∈ sides, s.corners.length < (o i).earFuel)
    (hsz : (sides.map fun s => s.corners.length + 1).sum + 1 < 2 ^ 32) (fmt : Float → List Char) (fuel : Nat)
    (rnd : Nat → Nat → List Bool → Float) :
    ∃ lines meshes, convertStp o fmt fuel rnd file = .ok (some lines, none) ∧
      List.Forall₂ (FaceMesh M δ) sides meshes ∧ (objRead lines).faces = meshes.flatMap meshFaces := by
  obtain ⟨ts, ms, a1, a2, a3⟩ := sides_float ha h hv o hbs hdr hdiv hear 0
  have hsz' : (ms.map fun m => m.vertices.length).sum + 1 < 2 ^ 32 :=
    lt_of_le_of_lt (Nat.add_le_add_right (meshes_size64 a3) 1) hsz
  obtain ⟨obj, svg, h1, h2, h3, h4, -⟩ := C115_convert (curves := []) (paths := []) (by rw [hc]; exact .nil) a1 (o := o)
    (fmt := fmt) (fuel := fuel) (rnd := rnd) a2 hsz' .nil
  have hts : ts ≠ [] := by
    rintro rfl
    have e1 := a1.length_eq
    have e2 := h.length_eq
    rw [e1] at e2
    exact hne (List.length_eq_zero_iff.1 e2.symm)
  obtain ⟨lines, rfl⟩ := Option.isSome_iff_exists.1 (h2.2 hts)
  have hsvg : svg = none := by
    rcases svg with _ | d
    · rfl
    · exact absurd rfl (h3.1 rfl)
  subst hsvg
  exact ⟨lines, ms, h1, a3, h4 lines rfl⟩

end

/-! ### A sample file: a triangle with an edge whose direction is not exact in binary64 -/

theorem point6_val : IsFin (-0.6 : Float) ∧ val (-0.6 : Float) = -5404319552844595 / 2 ^ 53 := by
  have e0 : (-0.6 : Float) = Float.ofBits 0xBFE3333333333333 := by decide +kernel
  have e : (Float.ofBits 0xBFE3333333333333).toModel.unpack = .finite .negative 5404319552844595 (-53) (by norm_num) := rfl
  rw [e0]
  refine ⟨?_, ?_⟩
  · rw [fin_unpack, e]; rfl
  · rw [val, e, uval]
    norm_num

theorem point8_val : IsFin (0.8 : Float) ∧ val (0.8 : Float) = 7205759403792794 / 2 ^ 53 := by
  have e0 : (0.8 : Float) = Float.ofBits 0x3FE999999999999A := by decide +kernel
  have e : (Float.ofBits 0x3FE999999999999A).toModel.unpack = .finite .positive 7205759403792794 (-53) (by norm_num) := rfl
  rw [e0]
  refine ⟨?_, ?_⟩
  · rw [fin_unpack, e]; rfl
  · rw [val, e, uval]
    norm_num

/-- The corners `(0, 0, 0)`, `(3, 0, 0)` and `(0, 4, 0)`. -/
def corner64 (i : Nat) : V3 Float :=
  match i with
  | 1 => ⟨(3 : Nat), 0, 0⟩
  | 2 => ⟨0, (4 : Nat), 0⟩
  | _ => ⟨0, 0, 0⟩

/-- The directions of the three edges. -/
def direction64 (i : Nat) : V3 Float :=
  match i with
  | 0 => ⟨1, 0, 0⟩
  | 1 => ⟨-0.6, 0.8, 0⟩
  | _ => ⟨0, 1, 0⟩

/-- Corners are the entities `i`, their vertices `10 + i`, edges `20 + e` on lines `30 + e`, oriented edges `100 + e`. -/
def file64 : StepFile Float :=
  { (emptyFile : StepFile Float) with
    cartesianPoint := fun r => if r < 3 then some [(corner64 r).x, (corner64 r).y, (corner64 r).z] else none
    vertexGeometry := fun r => if 10 ≤ r ∧ r < 13 then some (r - 10) else none
    direction := fun r => if 40 ≤ r ∧ r < 43 then some [(direction64 (r - 40)).x, (direction64 (r - 40)).y, (direction64 (r - 40)).z] else
      if r = 60 then some [0, 0, 1] else if r = 70 then some [1, 0, 0] else none
    vectorOrientation := fun r => if 50 ≤ r ∧ r < 53 then some (r - 10) else none
    line := fun r => if 30 ≤ r ∧ r < 33 then some (if r = 31 then 1 else 0, r + 20) else none
    edgeCurve := fun r => if 20 ≤ r ∧ r < 23 then some ⟨r - 10, if r = 22 then 10 else r - 9, r + 10, true⟩ else none
    orientedEdge := fun r => if 100 ≤ r ∧ r < 103 then some ⟨r - 80, true⟩ else none
    edgeLoop := fun r => if r = 300 then some [100, 101, 102] else none
    faceBound := fun r => if r = 320 then some ⟨300, true⟩ else none
    axis2Placement3d := fun r => if r = 330 then some (0, some 60, some 70) else none
    plane := fun r => if r = 310 then some 330 else none
    advancedFaces := [⟨[320], 310, true⟩] }

def plane64 : Plane Float := ⟨⟨0, 0, 0⟩, ⟨0, 0, 1⟩, ⟨1, 0, 0⟩, (⟨0, 0, 1⟩ : V3 Float).cross ⟨1, 0, 0⟩⟩

theorem three_val : IsFin ((3 : Nat) : Float) ∧ val ((3 : Nat) : Float) = 3 := by
  have := natCast_val (n := 3) (by norm_num)
  exact ⟨this.1, by rw [this.2]; norm_num⟩

theorem four_val : IsFin ((4 : Nat) : Float) ∧ val ((4 : Nat) : Float) = 4 := by
  have := natCast_val (n := 4) (by norm_num)
  exact ⟨this.1, by rw [this.2]; norm_num⟩

theorem corner64_real : toReal (corner64 0) = ⟨0, 0, 0⟩ ∧ toReal (corner64 1) = ⟨3, 0, 0⟩ ∧ toReal (corner64 2) = ⟨0, 4, 0⟩ := by
  simp only [corner64, toReal, zero_val.2, three_val.2, four_val.2, and_self]

theorem corner64_bounded (i : Nat) : Bounded 4 (corner64 i) := by
  have z : IsFin (0 : Float) ∧ |val (0 : Float)| ≤ 4 := ⟨zero_val.1, by rw [zero_val.2]; norm_num⟩
  unfold corner64
  split
  · exact ⟨⟨three_val.1, by rw [three_val.2]; norm_num⟩, z, z⟩
  · exact ⟨z, ⟨four_val.1, by rw [four_val.2]; norm_num⟩, z⟩
  · exact ⟨z, z, z⟩

theorem accuracy64 : Accuracy 4 (1 / 2 ^ 46) := ⟨by norm_num, le_rfl, by norm_num⟩

theorem direction64_real : toReal (direction64 0) = ⟨1, 0, 0⟩ ∧
    toReal (direction64 1) = ⟨-5404319552844595 / 2 ^ 53, 7205759403792794 / 2 ^ 53, 0⟩ ∧ toReal (direction64 2) = ⟨0, 1, 0⟩ := by
  simp only [direction64, toReal, zero_val.2, one_val.2, point6_val.2, point8_val.2, and_self]

theorem direction64_ok : ∀ i < 3, Near 0 (direction64 i) (toReal (direction64 i)) ∧ NearlyUnit (1 / 2 ^ 46) (toReal (direction64 i)) := by
  obtain ⟨d0, d1, d2⟩ := direction64_real
  intro i hi
  interval_cases i
  · refine ⟨⟨close_val one_val.1, close_val zero_val.1, close_val zero_val.1⟩, ?_⟩
    rw [d0]; norm_num [NearlyUnit, V3.dot]
  · refine ⟨⟨close_val point6_val.1, close_val point8_val.1, close_val zero_val.1⟩, ?_⟩
    rw [d1]; norm_num [NearlyUnit, V3.dot, abs_le]
  · refine ⟨⟨close_val zero_val.1, close_val one_val.1, close_val zero_val.1⟩, ?_⟩
    rw [d2]; norm_num [NearlyUnit, V3.dot]

theorem edges64 : SaysStraight64 4 (1 / 2 ^ 46) file64 20 (corner64 0) (corner64 1) ∧
    SaysStraight64 4 (1 / 2 ^ 46) file64 21 (corner64 1) (corner64 2) ∧
    SaysStraight64 4 (1 / 2 ^ 46) file64 22 (corner64 2) (corner64 0) := by
  obtain ⟨d0, d1, d2⟩ := direction64_real
  obtain ⟨c0, c1, c2⟩ := corner64_real
  refine ⟨⟨30, true, corner64 0, direction64 0, ⟨10, 11, rfl, ⟨0, rfl, rfl⟩, ⟨1, rfl, rfl⟩⟩, ⟨0, 50, 40, rfl, rfl, rfl, rfl⟩, corner64_bounded 0,
      (direction64_ok 0 (by norm_num)).1, (direction64_ok 0 (by norm_num)).2, ⟨0, ?_⟩, ⟨3, ?_⟩⟩,
    ⟨31, true, corner64 1, direction64 1, ⟨11, 12, rfl, ⟨1, rfl, rfl⟩, ⟨2, rfl, rfl⟩⟩, ⟨1, 51, 41, rfl, rfl, rfl, rfl⟩, corner64_bounded 1,
      (direction64_ok 1 (by norm_num)).1, (direction64_ok 1 (by norm_num)).2, ⟨0, ?_⟩, ⟨5, ?_⟩⟩,
    ⟨32, true, corner64 0, direction64 2, ⟨12, 10, rfl, ⟨2, rfl, rfl⟩, ⟨0, rfl, rfl⟩⟩, ⟨0, 52, 42, rfl, rfl, rfl, rfl⟩, corner64_bounded 0,
      (direction64_ok 2 (by norm_num)).1, (direction64_ok 2 (by norm_num)).2, ⟨4, ?_⟩, ⟨0, ?_⟩⟩⟩
  all_goals
    simp only [c0, c1, c2, d0, d1, d2]
    norm_num [Within, abs_le]

theorem polygon64 : meantPolygon plane64 [corner64 0, corner64 1, corner64 2] = [⟨0, 0⟩, ⟨3, 0⟩, ⟨0, 4⟩] := by
  obtain ⟨c0, c1, c2⟩ := corner64_real
  have o : toReal plane64.origin = ⟨0, 0, 0⟩ := by simp only [plane64, toReal, zero_val.2]
  have n : toReal plane64.normal = ⟨0, 0, 1⟩ := by simp only [plane64, toReal, zero_val.2, one_val.2]
  have u : toReal plane64.uAxis = ⟨1, 0, 0⟩ := by simp only [plane64, toReal, zero_val.2, one_val.2]
  simp only [meantPolygon, List.map_cons, List.map_nil, c0, c1, c2, meantPlane, o, n, u, Plane.project, V3.dot, V3.cross, V3.sub_x, V3.sub_y, V3.sub_z]
  norm_num

theorem proper64 : Proper64 4 (1 / 2 ^ 46) plane64 [corner64 0, corner64 1, corner64 2] := by
  obtain ⟨c0, c1, c2⟩ := corner64_real
  have z : ∀ {B : ℝ}, 0 ≤ B → IsFin (0 : Float) ∧ |val (0 : Float)| ≤ B := fun h => ⟨zero_val.1, by rw [zero_val.2]; simpa using h⟩
  have u : IsFin (1 : Float) ∧ |val (1 : Float)| ≤ 1 := ⟨one_val.1, by rw [one_val.2]; norm_num⟩
  refine ⟨by simp, by simp, ⟨⟨z (by norm_num), z (by norm_num), z (by norm_num)⟩, ⟨z (by norm_num), z (by norm_num), u⟩,
    ⟨u, z (by norm_num), z (by norm_num)⟩, rfl⟩, ?_, ?_, ?_, ?_, ?_⟩
  · intro v hv
    simp only [List.mem_cons, List.not_mem_nil, or_false] at hv
    rcases hv with rfl | rfl | rfl <;> exact corner64_bounded _
  · intro e he
    simp only [loopEdges, pathEdges, List.cons_append, List.nil_append, List.tail_cons, List.zip_cons_cons, List.zip_nil_right,
      List.mem_cons, List.not_mem_nil, or_false] at he
    rcases he with rfl | rfl | rfl <;> simp only [c0, c1, c2, Distinct] <;> norm_num
  · rw [polygon64]
    intro i j hi hj h1 h2 h3
    simp only [List.length_cons, List.length_nil] at hi hj h2 h3
    interval_cases i <;> interval_cases j <;> simp at h1 h2 h3
  · rw [polygon64]
    intro i j k hi hj hk h1 h2 h3
    simp only [List.length_cons, List.length_nil] at hi hj hk
    interval_cases i <;> interval_cases j <;> interval_cases k <;> simp at h1 h2 h3 <;>
      norm_num [margin, triArea2]
  · rw [polygon64]
    norm_num [area2, loopEdges, pathEdges, cross2]

theorem C143_example [Trig Float] {o : Nat → TrimOracle Float} (hbs : ∀ i, BinarySearch (o i).bs) (hdr : ∀ i, DrawsUnit (o i))
    (hdiv : ∀ i, 0 < (o i).divFuel) (hear : ∀ i, 3 < (o i).earFuel) (fmt : Float → List Char) (fuel : Nat)
    (rnd : Nat → Nat → List Bool → Float) :
    ∃ lines m, convertStp o fmt fuel rnd file64 = .ok (some lines, none) ∧ (objRead lines).faces = meshFaces m ∧
      MeshNear (1 / 2 ^ 38) plane64 [corner64 0, corner64 1, corner64 2] m := by
  obtain ⟨e0, e1, e2⟩ := edges64
  have hp : SaysPolygon64 4 (1 / 2 ^ 46) file64 ⟨[320], 310, true⟩ plane64 [corner64 0, corner64 1, corner64 2] :=
    ⟨⟨330, ⟨0, 0, 0⟩, ⟨0, 0, 1⟩, ⟨1, 0, 0⟩, rfl, ⟨0, 60, 70, rfl, rfl, rfl, rfl⟩, rfl⟩, 320, 300, true, [100, 101, 102], rfl, rfl, rfl,
      .cons ⟨20, rfl, e0⟩ (.cons ⟨21, rfl, e1⟩ (.cons ⟨22, rfl, e2⟩ .nil))⟩
  obtain ⟨lines, meshes, h1, h2, h3⟩ := C143_convert accuracy64 (file := file64)
    (sides := [⟨plane64, [corner64 0, corner64 1, corner64 2]⟩]) rfl (by simp) (.cons hp .nil)
    (fun s hs => by rw [List.mem_singleton] at hs; subst hs; exact proper64) hbs hdr hdiv
    (fun i s hs => by rw [List.mem_singleton] at hs; subst hs; exact hear i) (by simp) fmt fuel rnd
  cases h2 with
  | cons a b =>
    cases b
    refine ⟨lines, _, h1, by simpa using h3, ?_⟩
    obtain ⟨ideal, i1, i2, i3, i4⟩ := a
    refine ⟨ideal, i1, i2, i3, i4.imp fun _ _ h => near_mono h ?_⟩
    norm_num [blur, drift]

end Geom3d
