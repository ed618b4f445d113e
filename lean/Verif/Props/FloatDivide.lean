import Verif.Lemmas.F64Dist
import Verif.Props.Utils

/-!
# Subdivision of parameter ranges in binary64 (C95)
-/

namespace Geom3d
open Spec F64

theorem two_val : IsFin ((2 : Nat) : Float) ∧ val ((2 : Nat) : Float) = 2 := by
  obtain ⟨a, b⟩ := natCast_val (n := 2) (by norm_num)
  exact ⟨a, b.trans (by norm_num)⟩

theorem rep_two_mul {c : ℝ} (h : Rep c) : Rep (2 * c) := by
  obtain ⟨k, e, h1, h2, rfl⟩ := h
  refine ⟨k, 1 + e, h1, by omega, ?_⟩
  rw [← two_mul_zpow]; ring

/-- The midpoint of two finite numbers is finite and between them. -/
theorem midpoint_between {a b : Float} (ha : IsFin a) (hb : IsFin b) (ba : |val a| ≤ 2 ^ (1022 : Int))
    (bb : |val b| ≤ 2 ^ (1022 : Int)) (h : val a ≤ val b) :
    IsFin ((a + b) / ((2 : Nat) : Float)) ∧ val a ≤ val ((a + b) / ((2 : Nat) : Float)) ∧
      val ((a + b) / ((2 : Nat) : Float)) ≤ val b := by
  have hs : |val a + val b| ≤ maxFinite := by
    refine small_le_max ((abs_add_le _ _).trans ?_)
    rw [show (1023 : Int) = 1 + 1022 by norm_num, ← two_mul_zpow, two_mul]
    exact add_le_add ba bb
  obtain ⟨f, r⟩ := add_rounds ha hb hs
  have l : 2 * val a ≤ val (a + b) := r.ge _ (rep_two_mul (val_rep ha)) (by linarith)
  have u : val (a + b) ≤ 2 * val b := r.le _ (rep_two_mul (val_rep hb)) (by linarith)
  have h2 : |val (a + b) / val ((2 : Nat) : Float)| ≤ maxFinite := by
    rw [two_val.2, abs_div, abs_two]
    have := val_abs_le f
    have := abs_nonneg (val (a + b))
    linarith
  obtain ⟨g, q⟩ := div_rounds f two_val.1 (by rw [two_val.2]; norm_num) h2
  rw [two_val.2] at q
  exact ⟨g, q.ge _ (val_rep ha) (by linarith), q.le _ (val_rep hb) (by linarith)⟩

/-- Finite, at most `2 ^ 1022`, and between `lo` and `hi`. -/
def F64.InRange (lo hi x : ℝ) (u : Float) : Prop := IsFin u ∧ |val u| ≤ x ∧ lo ≤ val u ∧ val u ≤ hi

/-- **C95.** For a finite range within `± 2 ^ 1022`, `parameter_division` gives finite parameters in the range, in
weakly increasing order, whatever the curve, the tolerance and the random numbers. -/
theorem C95_sorted {getPoint : Float → Res (V3 Float)} {rnd : List Bool → Float} {tol : Float} {fuel : Nat}
    {path : List Bool} {range : Float × Float} {l : List Float} (f1 : IsFin range.1) (f2 : IsFin range.2)
    (b1 : |val range.1| ≤ 2 ^ (1022 : Int)) (b2 : |val range.2| ≤ 2 ^ (1022 : Int)) (hr : val range.1 ≤ val range.2)
    (h : parameterDivision getPoint rnd tol fuel path range = .ok l) :
    (∀ u ∈ l, IsFin u ∧ val range.1 ≤ val u ∧ val u ≤ val range.2) ∧ (l.map val).Pairwise (· ≤ ·) := by
  let R : Float → Float → Prop := fun a b => InRange (val range.1) (val range.2) (2 ^ (1022 : Int)) a ∧
    InRange (val range.1) (val range.2) (2 ^ (1022 : Int)) b ∧ val a ≤ val b
  have hmid : ∀ a b, R a b → R a ((a + b) / ((2 : Nat) : Float)) ∧ R ((a + b) / ((2 : Nat) : Float)) b := by
    rintro a b ⟨⟨fa, ba, la, ua⟩, ⟨fb, bb, lb, ub⟩, hab⟩
    obtain ⟨f, h1, h2⟩ := midpoint_between fa fb ba bb hab
    have hm : InRange (val range.1) (val range.2) (2 ^ (1022 : Int)) ((a + b) / ((2 : Nat) : Float)) := by
      refine ⟨f, ?_, la.trans h1, h2.trans ub⟩
      exact abs_le.mpr ⟨(abs_le.mp ba).1.trans h1, h2.trans (abs_le.mp bb).2⟩
    exact ⟨⟨⟨fa, ba, la, ua⟩, hm, h1⟩, hm, ⟨fb, bb, lb, ub⟩, h2⟩
  have hc : l.IsChain R := C29_monotone_of R hmid h ⟨⟨f1, b1, le_rfl, hr⟩, ⟨f2, b2, hr, le_rfl⟩, hr⟩
  obtain ⟨e1, _, e3⟩ := C29_ends h
  have htrans : ∀ {a b c : Float}, R a b → R b c → R a c := fun h1 h2 => ⟨h1.1, h2.2.1, h1.2.2.trans h2.2.2⟩
  have hp : l.Pairwise R := by
    have : Trans R R R := ⟨htrans⟩
    exact List.isChain_iff_pairwise.1 hc
  constructor
  · cases l with
    | nil => simp at e3
    | cons x l =>
      intro u hu
      have hx := (List.pairwise_cons.1 hp).1
      rcases List.mem_cons.1 hu with rfl | hu
      · cases l with
        | nil => simp at e3
        | cons y l =>
          obtain ⟨⟨a, _, b, c⟩, _⟩ := hx y (by simp)
          exact ⟨a, b, c⟩
      · obtain ⟨_, ⟨a, _, b, c⟩, _⟩ := hx u hu
        exact ⟨a, b, c⟩
  · rw [List.pairwise_map]
    exact hp.imp fun h => h.2.2

example : ((parameterDivision (F := Float) (fun u => .ok ⟨u, u * u, 0⟩) (fun _ => 0.5) 0.125 8 [] (0, 1)).toOption.map
    (·.map Float.toBits)) = some [(0 : Float).toBits, (0.5 : Float).toBits, (1 : Float).toBits] := by decide +kernel

/-! ### The parameters at which the curve is evaluated -/

theorem const_frac {n : Nat} {c : ℝ} (hc : (n : ℝ) = c) (h1 : 1 ≤ n) (h : n ≤ 10) :
    IsFin (1 / ((n : Nat) : Float)) ∧ |val (1 / ((n : Nat) : Float)) - 1 / c| ≤ 2 * eps := by
  subst hc
  obtain ⟨fn, vn⟩ := natCast_val (n := n) (lt_of_le_of_lt h (by norm_num))
  have hn : (1 : ℝ) ≤ n := by exact_mod_cast h1
  have hn0 : (0 : ℝ) < n := by linarith
  have hq0 : 0 < 1 / (n : ℝ) := by positivity
  have hq : 1 / (n : ℝ) ≤ 1 := by rw [div_le_one hn0]; exact hn
  obtain ⟨f, r⟩ := div_rounds one_val.1 fn (by rw [vn]; exact hn0.ne')
    (le_max_of_le_four (by rw [one_val.2, vn, abs_of_pos hq0]; linarith))
  rw [one_val.2, vn] at r
  refine ⟨f, r.bound.trans ?_⟩
  rw [abs_of_pos hq0]
  have h2 : eta ≤ eps := eta_le.trans (by rw [eps_eq]; norm_num)
  have := mul_le_mul_of_nonneg_left hq eps_pos.le
  linarith

/-- The ratio drawn in binary64. -/
theorem drawRatio_float {r : Float} (h0 : 0 ≤ r) (h1 : r < 1) :
    IsFin (drawRatio r) ∧ 2 / 5 - 16 * eps ≤ val (drawRatio r) ∧ val (drawRatio r) ≤ 3 / 5 + 16 * eps := by
  obtain ⟨fr, r0, r1⟩ := unit_float h0 (le_of_lt_of h1)
  obtain ⟨f2, e2⟩ := const_frac (n := 2) (c := 2) (by norm_num) (by norm_num) (by norm_num)
  obtain ⟨f5, e5⟩ := const_frac (n := 5) (c := 5) (by norm_num) (by norm_num) (by norm_num)
  obtain ⟨f10, e10⟩ := const_frac (n := 10) (c := 10) (by norm_num) (by norm_num) (by norm_num)
  have he0 := eps_pos
  have he : eps ≤ 1 / 1024 := by rw [eps_eq]; norm_num
  have hη : eta ≤ eps := eta_le.trans (by rw [eps_eq]; norm_num)
  obtain ⟨l2, u2⟩ := abs_le.mp e2
  obtain ⟨l5, u5⟩ := abs_le.mp e5
  obtain ⟨l10, u10⟩ := abs_le.mp e10
  have p5 : 0 ≤ val (1 / ((5 : Nat) : Float)) := by linarith
  have q5 : val (1 / ((5 : Nat) : Float)) ≤ 1 / 4 := by linarith
  have hm0 : 0 ≤ val (1 / ((5 : Nat) : Float)) * val r := mul_nonneg p5 r0
  have hm1 : val (1 / ((5 : Nat) : Float)) * val r ≤ val (1 / ((5 : Nat) : Float)) := by nlinarith
  obtain ⟨fm, rm⟩ := mul_rounds f5 fr (le_max_of_le_four (by rw [abs_of_nonneg hm0]; linarith))
  have m0 := rm.nonneg hm0
  have m1 : val (1 / ((5 : Nat) : Float) * r) ≤ val (1 / ((5 : Nat) : Float)) := rm.le _ (val_rep f5) hm1
  have hs : |val (1 / ((5 : Nat) : Float) * r) - val (1 / ((10 : Nat) : Float))| ≤ 1 := by
    rw [abs_le]; constructor <;> linarith
  obtain ⟨fs, rs⟩ := sub_rounds fm f10 (le_max_of_le_four (by linarith))
  have es := rs.bound
  have es' : |val (1 / ((5 : Nat) : Float) * r - 1 / ((10 : Nat) : Float)) -
      (val (1 / ((5 : Nat) : Float) * r) - val (1 / ((10 : Nat) : Float)))| ≤ 2 * eps := by
    refine es.trans ?_
    have := mul_le_mul_of_nonneg_left hs he0.le
    linarith
  obtain ⟨ls, us⟩ := abs_le.mp es'
  have hx : |val (1 / ((2 : Nat) : Float)) + val (1 / ((5 : Nat) : Float) * r - 1 / ((10 : Nat) : Float))| ≤ 1 := by
    rw [abs_le]; constructor <;> linarith
  obtain ⟨fx, rx⟩ := add_rounds f2 fs (le_max_of_le_four (by linarith))
  have ex : |val (1 / ((2 : Nat) : Float) + (1 / ((5 : Nat) : Float) * r - 1 / ((10 : Nat) : Float))) -
      (val (1 / ((2 : Nat) : Float)) + val (1 / ((5 : Nat) : Float) * r - 1 / ((10 : Nat) : Float)))| ≤ 2 * eps := by
    refine rx.bound.trans ?_
    have := mul_le_mul_of_nonneg_left hx he0.le
    linarith
  obtain ⟨lx, ux⟩ := abs_le.mp ex
  refine ⟨fx, ?_, ?_⟩
  · show _ ≤ val (1 / ((2 : Nat) : Float) + (1 / ((5 : Nat) : Float) * r - 1 / ((10 : Nat) : Float)))
    linarith
  · show val (1 / ((2 : Nat) : Float) + (1 / ((5 : Nat) : Float) * r - 1 / ((10 : Nat) : Float))) ≤ _
    linarith

/-- The inner parameter of the chord test is in the range. -/
theorem rangeAt_between {a b p : Float} (ha : IsFin a) (hb : IsFin b) (ba : |val a| ≤ 2 ^ (1022 : Int))
    (bb : |val b| ≤ 2 ^ (1022 : Int)) (h : val a ≤ val b) (fp : IsFin p) (p0 : 0 ≤ val p) (p1 : val p ≤ 3 / 4) :
    IsFin (rangeAt (a, b) p) ∧ val a ≤ val (rangeAt (a, b) p) ∧ val (rangeAt (a, b) p) ≤ val b := by
  have hD0 : 0 ≤ val b - val a := sub_nonneg.2 h
  have hD : |val b - val a| ≤ maxFinite := by
    refine small_le_max ((abs_sub _ _).trans ?_)
    rw [show (1023 : Int) = 1 + 1022 by norm_num, ← two_mul_zpow, two_mul]
    exact add_le_add bb ba
  obtain ⟨fd, rd⟩ := sub_rounds hb ha hD
  have ed := sub_err hb ha hD
  rw [abs_of_nonneg hD0] at ed
  have d0 := rd.nonneg hD0
  have he0 := eps_pos
  have he : eps ≤ 1 / 1024 := by rw [eps_eq]; norm_num
  have d1 : val (b - a) ≤ (1 + eps) * (val b - val a) := by
    have := (abs_le.mp ed).2
    linarith
  have hm0 : 0 ≤ val (b - a) * val p := mul_nonneg d0 p0
  have hm1 : val (b - a) * val p ≤ val (b - a) := by nlinarith
  obtain ⟨fm, rm⟩ := mul_rounds fd fp (by
    rw [abs_of_nonneg hm0]
    exact hm1.trans ((le_abs_self _).trans (val_abs_le fd)))
  have m0 := rm.nonneg hm0
  -- the rounded product does not exceed the exact difference
  have m1 : val ((b - a) * p) ≤ val b - val a := by
    obtain ⟨k, hk⟩ := rep_multiple (val_rep ha)
    obtain ⟨l, hl⟩ := rep_multiple (val_rep hb)
    by_cases hz : val b - val a = 0
    · have : val (b - a) = 0 := rd.of_rep (by rw [hz]; exact rep_zero) |>.trans hz
      rw [this, zero_mul] at rm
      rw [rm.of_rep rep_zero, hz]
    · have hDp : 0 < val b - val a := lt_of_le_of_ne hD0 (Ne.symm hz)
      -- the difference is at least one unit of the smallest kind
      have hmin : (2 : ℝ) ^ (-1074 : Int) ≤ val b - val a := by
        have e : val b - val a = ((l - k : Int) : ℝ) * 2 ^ (-1074 : Int) := by rw [hk, hl]; push_cast; ring
        have hpos : 0 < (l - k : Int) := by
          by_contra hc
          have : ((l - k : Int) : ℝ) ≤ 0 := by exact_mod_cast not_lt.mp hc
          have := mul_nonpos_of_nonpos_of_nonneg this (two_zpow_pos (-1074)).le
          rw [← e] at this
          linarith
        rw [e]
        have h1 : (1 : ℝ) ≤ ((l - k : Int) : ℝ) := by exact_mod_cast hpos
        calc (2 : ℝ) ^ (-1074 : Int) = 1 * 2 ^ (-1074 : Int) := (one_mul _).symm
          _ ≤ _ := mul_le_mul_of_nonneg_right h1 (two_zpow_pos _).le
      by_cases hR : Rep (val b - val a)
      · refine rm.le _ hR ?_
        have : val (b - a) = val b - val a := rd.of_rep hR
        rw [this]
        nlinarith
      · -- not representable, so large compared with the smallest number
        have hbig : (2 : ℝ) ^ 53 * 2 ^ (-1074 : Int) ≤ val b - val a := by
          by_contra hc
          rw [not_le] at hc
          have e : val b - val a = ((l - k : Int) : ℝ) * 2 ^ (-1074 : Int) := by rw [hk, hl]; push_cast; ring
          rw [e] at hc
          have h1 : ((l - k : Int) : ℝ) < 2 ^ 53 := lt_of_mul_lt_mul_right hc (two_zpow_pos _).le
          have h2 : (0 : ℝ) ≤ ((l - k : Int) : ℝ) := by
            by_contra hneg
            have := mul_neg_of_neg_of_pos (not_le.mp hneg) (two_zpow_pos (-1074))
            rw [← e] at this
            linarith
          refine hR ⟨l - k, -1074, ?_, le_rfl, e⟩
          rw [abs_of_nonneg (by exact_mod_cast h2)]
          exact_mod_cast h1.le
        have hη : eta ≤ eps * (val b - val a) := by
          have h4 : eta = (1 / 2) * 2 ^ (-1074 : Int) := by
            rw [eta, show (-1075 : Int) = -1 + -1074 by norm_num, zpow_add₀ (by norm_num)]; norm_num
          have h5 : eps * (2 : ℝ) ^ 53 = 1 := by rw [eps_eq]; norm_num
          calc eta ≤ 1 * 2 ^ (-1074 : Int) := by rw [h4]; exact mul_le_mul_of_nonneg_right (by norm_num) (two_zpow_pos _).le
            _ = eps * ((2 : ℝ) ^ 53 * 2 ^ (-1074 : Int)) := by rw [← mul_assoc, h5]
            _ ≤ _ := mul_le_mul_of_nonneg_left hbig he0.le
        have hb := rm.bound
        rw [abs_of_nonneg hm0] at hb
        have hu := (abs_le.mp hb).2
        have h7 : val (b - a) * val p ≤ (1 + eps) * (val b - val a) * (3 / 4) :=
          mul_le_mul d1 p1 p0 (mul_nonneg (by linarith) hD0)
        generalize val b - val a = D at *
        generalize val (b - a) * val p = Q at *
        nlinarith [mul_nonneg he0.le hD0]
  have hs0 : val a ≤ val a + val ((b - a) * p) := by linarith
  have hs1 : val a + val ((b - a) * p) ≤ val b := by linarith
  have hs : |val a + val ((b - a) * p)| ≤ maxFinite := by
    rw [abs_le]
    have A := abs_le.mp (val_abs_le ha)
    have B := abs_le.mp (val_abs_le hb)
    exact ⟨A.1.trans hs0, hs1.trans B.2⟩
  obtain ⟨f, r⟩ := add_rounds ha fm hs
  exact ⟨f, r.ge _ (val_rep ha) hs0, r.le _ (val_rep hb) hs1⟩

/-- **C95.** `parameter_division` evaluates the curve only inside the range: what the curve does elsewhere (panics
included) has no influence on the result. -/
theorem C95_only_inside {g g' : Float → Res (V3 Float)} {rnd : List Bool → Float} {tol : Float}
    (hrnd : ∀ a, 0 ≤ rnd a ∧ rnd a < 1) {range : Float × Float} (f1 : IsFin range.1) (f2 : IsFin range.2)
    (b1 : |val range.1| ≤ 2 ^ (1022 : Int)) (b2 : |val range.2| ≤ 2 ^ (1022 : Int)) (hr : val range.1 ≤ val range.2)
    (hg : ∀ u, IsFin u → val range.1 ≤ val u → val u ≤ val range.2 → g u = g' u) (fuel : Nat) (path : List Bool) :
    parameterDivision g rnd tol fuel path range = parameterDivision g' rnd tol fuel path range := by
  induction fuel generalizing path range with
  | zero => rfl
  | succ fuel ih =>
    obtain ⟨lo, hi⟩ := range
    obtain ⟨fp, p0, p1⟩ := drawRatio_float (hrnd path).1 (hrnd path).2
    have he : 16 * eps ≤ 1 / 64 := by rw [eps_eq]; norm_num
    obtain ⟨ft, t0, t1⟩ := rangeAt_between f1 f2 b1 b2 hr fp (by linarith) (by linarith)
    obtain ⟨fm, m0, m1⟩ := midpoint_between f1 f2 b1 b2 hr
    have bm : |val ((lo + hi) / ((2 : Nat) : Float))| ≤ 2 ^ (1022 : Int) :=
      abs_le.mpr ⟨(abs_le.mp b1).1.trans m0, m1.trans (abs_le.mp b2).2⟩
    have i1 := ih (range := (lo, (lo + hi) / ((2 : Nat) : Float))) f1 fm b1 bm m0
      (fun u a b c => hg u a b (c.trans m1)) (path ++ [false])
    have i2 := ih (range := ((lo + hi) / ((2 : Nat) : Float), hi)) fm f2 bm b2 m1
      (fun u a b c => hg u a (m0.trans b) c) (path ++ [true])
    have g1 := hg lo f1 le_rfl hr
    have g2 := hg hi f2 hr le_rfl
    have g3 := hg _ ft t0 t1
    rw [parameterDivision, parameterDivision]
    dsimp only
    rw [g1, g2, g3]
    simp only [i1, i2]

/-! ### Uniform division -/

theorem step_float {lo hi : Float} {M : ℝ} (f1 : IsFin lo) (f2 : IsFin hi) (b1 : |val lo| ≤ M) (b2 : |val hi| ≤ M)
    (hM : M ≤ 2 ^ (1000 : Int)) {d : Nat} (hd1 : 1 ≤ d) (hd : d ≤ 2 ^ 40) :
    IsFin ((hi - lo) / (d : Float)) ∧
      |val ((hi - lo) / (d : Float)) - (val hi - val lo) / d| ≤ 6 * eps * M + eta := by
  obtain ⟨fd, vd⟩ := natCast_val (n := d) (lt_of_le_of_lt hd (by norm_num))
  have hd0 : (0 : ℝ) < d := by exact_mod_cast hd1
  have hd1' : (1 : ℝ) ≤ d := by exact_mod_cast hd1
  have hM0 : 0 ≤ M := (abs_nonneg _).trans b1
  have hD : |val hi - val lo| ≤ 2 * M := (abs_sub _ _).trans (by linarith)
  have h2M : 2 * M ≤ 2 ^ (1001 : Int) := by
    rw [show (1001 : Int) = 1 + 1000 by norm_num, ← two_mul_zpow]
    exact mul_le_mul_of_nonneg_left hM (by norm_num)
  have hDm : |val hi - val lo| ≤ maxFinite := small_le_max (hD.trans (h2M.trans (two_zpow_le (by norm_num))))
  clear hM
  obtain ⟨fs, rs⟩ := sub_rounds f2 f1 hDm
  have es := sub_err f2 f1 hDm
  have he0 := eps_pos
  have he : eps ≤ 1 / 1024 := by rw [eps_eq]; norm_num
  have hs : |val (hi - lo)| ≤ 2 ^ (1001 : Int) := rs.abs_le (rep_pow _ (by norm_num)) (hD.trans h2M)
  clear h2M
  have hs2 : |val (hi - lo)| ≤ 3 * M := by
    have e1 : |val (hi - lo)| ≤ |val (hi - lo) - (val hi - val lo)| + |val hi - val lo| := by
      refine le_trans (le_of_eq ?_) (abs_add_le _ _)
      congr 1; ring
    have e2 : eps * |val hi - val lo| ≤ eps * (2 * M) := mul_le_mul_of_nonneg_left hD he0.le
    nlinarith
  have hq : |val (hi - lo) / val (d : Float)| ≤ |val (hi - lo)| := by
    rw [vd, abs_div, abs_of_pos hd0]
    exact div_le_self (abs_nonneg _) hd1'
  obtain ⟨fq, rq⟩ := div_rounds fs fd (by rw [vd]; exact hd0.ne')
    (small_le_max (hq.trans (hs.trans (two_zpow_le (by norm_num)))))
  clear hs
  refine ⟨fq, ?_⟩
  have e3 := rq.bound
  have e4 : |val (hi - lo) / val (d : Float) - (val hi - val lo) / d| ≤ eps * (2 * M) := by
    rw [vd, ← sub_div, abs_div, abs_of_pos hd0]
    calc _ ≤ |val (hi - lo) - (val hi - val lo)| := div_le_self (abs_nonneg _) hd1'
      _ ≤ _ := es.trans (mul_le_mul_of_nonneg_left hD he0.le)
  have e5 : eps * |val (hi - lo) / val (d : Float)| ≤ eps * (3 * M) := mul_le_mul_of_nonneg_left (hq.trans hs2) he0.le
  calc _ = |(val ((hi - lo) / (d : Float)) - val (hi - lo) / val (d : Float)) +
        (val (hi - lo) / val (d : Float) - (val hi - val lo) / d)| := by congr 1; ring
    _ ≤ _ := abs_add_le _ _
    _ ≤ (eps * (3 * M) + eta) + eps * (2 * M) := add_le_add (e3.trans (by linarith)) e4
    _ ≤ 6 * eps * M + eta := by nlinarith [mul_nonneg he0.le hM0]

theorem uniformLoop_float {lo hi : Float} {M : ℝ} (b1 : |val lo| ≤ M) (b2 : |val hi| ≤ M)
    (hM : M ≤ 2 ^ (1000 : Int)) {d : Nat} (hd1 : 1 ≤ d) (hd : d ≤ 2 ^ 40) {step : Float} (fs : IsFin step)
    (es : |val step - (val hi - val lo) / d| ≤ 6 * eps * M + eta) (n k : Nat) (hk : k + n ≤ d) (u : Float) (fu : IsFin u)
    (eu : |val u - (val lo + k * ((val hi - val lo) / d))| ≤ k * (8 * eps * M + 2 * eta)) (i : Nat) (hi' : i < n) :
    ∃ x, (uniformLoop step n u)[i]? = some x ∧ IsFin x ∧
      |val x - (val lo + (k + i + 1 : Nat) * ((val hi - val lo) / d))| ≤ (k + i + 1 : Nat) * (8 * eps * M + 2 * eta) := by
  have hM0 : 0 ≤ M := (abs_nonneg _).trans b1
  have he0 := eps_pos
  have hη0 := eta_pos
  have hd0 : (0 : ℝ) < d := by exact_mod_cast hd1
  have hd2 : (d : ℝ) ≤ 2 ^ 40 := by exact_mod_cast hd
  induction n generalizing k u i with
  | zero => omega
  | succ n ih =>
    set h := (val hi - val lo) / d with hh
    have hk' : ((k + 1 : Nat) : ℝ) ≤ d := by exact_mod_cast (by omega : k + 1 ≤ d)
    have hk0 : (0 : ℝ) ≤ k := Nat.cast_nonneg _
    push_cast at hk'
    -- the exact value is between the ends
    have hex : |val lo + (k + 1) * h| ≤ M := by
      have e : val lo + (k + 1) * h = (1 - (k + 1) / d) * val lo + ((k + 1) / d) * val hi := by rw [hh]; field_simp; ring
      have w0 : 0 ≤ ((k : ℝ) + 1) / d := by positivity
      have w1 : ((k : ℝ) + 1) / d ≤ 1 := (div_le_one hd0).2 hk'
      rw [e]
      refine (abs_add_le _ _).trans ?_
      rw [abs_mul, abs_mul, abs_of_nonneg w0, abs_of_nonneg (sub_nonneg.2 w1)]
      have m1 := mul_le_mul_of_nonneg_left b1 (sub_nonneg.2 w1)
      have m2 := mul_le_mul_of_nonneg_left b2 w0
      linarith
    have hsum : |val u + val step - (val lo + (k + 1) * h)| ≤ k * (8 * eps * M + 2 * eta) + (6 * eps * M + eta) := by
      calc _ = |(val u - (val lo + k * h)) + (val step - h)| := by congr 1; ring
        _ ≤ _ := abs_add_le _ _
        _ ≤ _ := add_le_add eu es
    have hK : (k : ℝ) ≤ 2 ^ 40 := by linarith
    have hsmall : k * (8 * eps * M + 2 * eta) + (6 * eps * M + eta) ≤ 1 / 100 * M + eta * 2 ^ 42 := by
      have q1 : (k : ℝ) * (8 * eps * M) ≤ 2 ^ 40 * (8 * eps * M) := mul_le_mul_of_nonneg_right hK (by positivity)
      have q2 : (k : ℝ) * (2 * eta) ≤ 2 ^ 40 * (2 * eta) := mul_le_mul_of_nonneg_right hK (by positivity)
      have q3 : (2 : ℝ) ^ 40 * (8 * eps * M) + 6 * eps * M ≤ 1 / 100 * M := by
        rw [eps_eq]; nlinarith
      nlinarith
    have hη1 : eta * 2 ^ 42 ≤ 1 := by
      have := eta_le
      have e20 : eps ^ 20 * 2 ^ 42 ≤ 1 := by rw [eps_eq]; norm_num
      nlinarith
    have hX : |val u + val step| ≤ 2 * M + eta * 2 ^ 42 := by
      calc _ = |(val u + val step - (val lo + (k + 1) * h)) + (val lo + (k + 1) * h)| := by congr 1; ring
        _ ≤ _ := abs_add_le _ _
        _ ≤ _ := by linarith
    have hXm : |val u + val step| ≤ maxFinite := by
      refine small_le_max (hX.trans ?_)
      have : (1 : ℝ) ≤ 2 ^ (1000 : Int) := one_le_zpow₀ (by norm_num) (by norm_num)
      calc 2 * M + eta * 2 ^ 42 ≤ 2 * 2 ^ (1000 : Int) + 2 * 2 ^ (1000 : Int) := by
            refine add_le_add (mul_le_mul_of_nonneg_left hM (by norm_num)) (hη1.trans (this.trans ?_))
            exact le_mul_of_one_le_left (two_zpow_pos _).le (by norm_num)
        _ = 2 ^ (1002 : Int) := by rw [← two_mul, two_mul_zpow, two_mul_zpow]; norm_num
        _ ≤ _ := two_zpow_le (by norm_num)
    obtain ⟨fx, _⟩ := add_rounds fu fs hXm
    have ex := add_err fu fs hXm
    clear hXm
    have enew : |val (u + step) - (val lo + ((k + 1 : Nat) : ℝ) * h)| ≤ ((k + 1 : Nat) : ℝ) * (8 * eps * M + 2 * eta) := by
      have q1 : eps * |val u + val step| ≤ eps * (2 * M + eta * 2 ^ 42) := mul_le_mul_of_nonneg_left hX he0.le
      have q2 : eps * (eta * 2 ^ 42) ≤ eta := by
        have : eps * 2 ^ 42 ≤ 1 := by rw [eps_eq]; norm_num
        nlinarith
      push_cast
      calc _ = |(val (u + step) - (val u + val step)) + (val u + val step - (val lo + (k + 1) * h))| := by congr 1; ring
        _ ≤ _ := abs_add_le _ _
        _ ≤ _ := add_le_add ex hsum
        _ ≤ _ := by nlinarith
    cases i with
    | zero => exact ⟨u + step, rfl, fx, enew⟩
    | succ i =>
      obtain ⟨x, e1, e2, e3⟩ := ih (k + 1) (by omega) (u + step) fx enew i (by omega)
      refine ⟨x, e1, e2, ?_⟩
      rw [show k + (i + 1) + 1 = k + 1 + i + 1 by omega]
      exact e3

/-- **C95.** `uniform_divide` into up to `2 ^ 40` parts of a range within `± M` gives finite parameters; the `i`-th
differs from the exact one by at most `i * (2 ^ -50 * M + 2 ^ -1074)`, and the two ends are exact. -/
theorem C95_uniform {lo hi : Float} {M : ℝ} (f1 : IsFin lo) (f2 : IsFin hi) (b1 : |val lo| ≤ M) (b2 : |val hi| ≤ M)
    (hM : M ≤ 2 ^ (1000 : Int)) {d : Nat} (hd1 : 1 ≤ d) (hd : d ≤ 2 ^ 40) :
    ∃ l, uniformDivide (lo, hi) d = .ok l ∧ l.length = d + 1 ∧ l[0]? = some lo ∧ l[d]? = some hi ∧
      ∀ i, i ≤ d → ∃ x, l[i]? = some x ∧ IsFin x ∧
        |val x - (val lo + i * ((val hi - val lo) / d))| ≤ i * (2 ^ (-50 : Int) * M + 2 ^ (-1074 : Int)) := by
  have e50 : (2 : ℝ) ^ (-50 : Int) = 8 * eps := by rw [eps_eq]; norm_num
  have e74 : (2 : ℝ) ^ (-1074 : Int) = 2 * eta := by
    rw [eta, show (-1074 : Int) = 1 + -1075 by norm_num, ← two_mul_zpow]
  have hd0 : (0 : ℝ) < d := by exact_mod_cast hd1
  have hM0 : 0 ≤ M := (abs_nonneg _).trans b1
  obtain ⟨fs, es⟩ := step_float f1 f2 b1 b2 hM hd1 hd
  rw [e50, e74]
  have hl : (uniformLoop ((hi - lo) / (d : Float)) (d - 1) lo).length = d - 1 := uniformLoop_length _ _ _
  have hlast : (lo :: uniformLoop ((hi - lo) / (d : Float)) (d - 1) lo ++ [hi])[d]? = some hi := by
    rw [List.getElem?_append_right (by simp [hl]; omega)]
    simp [hl, show d - (d - 1 + 1) = 0 by omega]
  refine ⟨_, by unfold uniformDivide; rw [usub_ok hd1]; rfl, by simp [hl]; omega, rfl, hlast, ?_⟩
  intro i hi'
  rcases Nat.eq_zero_or_pos i with rfl | hpos
  · refine ⟨lo, rfl, f1, ?_⟩
    simp
  · rcases Nat.eq_or_lt_of_le hi' with rfl | hlt
    · refine ⟨hi, hlast, f2, ?_⟩
      rw [show val hi - (val lo + (i : ℝ) * ((val hi - val lo) / i)) = 0 by field_simp; ring, abs_zero]
      exact mul_nonneg (Nat.cast_nonneg _)
        (add_nonneg (mul_nonneg (mul_nonneg (by norm_num) eps_pos.le) hM0) (mul_nonneg (by norm_num) eta_pos.le))
    · obtain ⟨x, e1, e2, e3⟩ := uniformLoop_float b1 b2 hM hd1 hd fs es (d - 1) 0 (by omega) lo f1
        (by simp) (i - 1) (by omega)
      refine ⟨x, ?_, e2, ?_⟩
      · rw [List.getElem?_append_left (by simp [hl]; omega)]
        obtain ⟨j, rfl⟩ : ∃ j, i = j + 1 := ⟨i - 1, by omega⟩
        simpa using e1
      · rwa [show 0 + (i - 1) + 1 = i by omega] at e3

/-- **C95.** In binary64 the parameters of `uniform_divide` need not be monotone and need not stay in the range: five
divisions of `[1, 1 + 3 * 2 ^ -52]` give `1 + 4 * 2 ^ -52` before the end. -/
theorem C95_uniform_overshoots :
    ((uniformDivide (F := Float) (1, Float.ofBits 0x3FF0000000000003) 5).toOption.map (·.map Float.toBits))
      = some [0x3FF0000000000000, 0x3FF0000000000001, 0x3FF0000000000002, 0x3FF0000000000003, 0x3FF0000000000004,
          0x3FF0000000000003] := by decide +kernel

end Geom3d
