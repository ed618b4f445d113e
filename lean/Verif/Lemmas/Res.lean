import Verif.Model.Base
import Mathlib.Order.Basic
import Mathlib.Data.Nat.Init

/-! Hoare-style rules for the panic monad and the loop combinators. -/

namespace Geom3d

variable {α σ : Type}

@[simp] theorem ok_bind {β : Type} (a : α) (f : α → Res β) : ((Except.ok a : Res α) >>= f) = f a := rfl
@[simp] theorem error_bind {β : Type} (e : Panic) (f : α → Res β) :
    ((Except.error e : Res α) >>= f) = .error e := rfl
@[simp] theorem pure_eq_ok (a : α) : (pure a : Res α) = .ok a := rfl

theorem bind_eq_ok {β : Type} {x : Res α} {f : α → Res β} {b : β} :
    (x >>= f) = .ok b ↔ ∃ a, x = .ok a ∧ f a = .ok b := by
  cases x <;> simp

theorem idx_ok {l : List α} {i : Nat} (h : i < l.length) : idx l i = .ok l[i] := by
  simp [idx, h]

theorem idx_eq_ok {l : List α} {i : Nat} {a : α} : idx l i = .ok a ↔ l[i]? = some a := by
  unfold idx; split <;> simp_all

theorem idx_of_getElem? {l : List α} {i : Nat} {a : α} (h : l[i]? = some a) : idx l i = .ok a :=
  idx_eq_ok.2 h

theorem idx_err {l : List α} {i : Nat} (h : l.length ≤ i) : idx l i = .error .index := by
  simp [idx, List.getElem?_eq_none h]

theorem idx_lt {l : List α} {i : Nat} {a : α} (h : idx l i = .ok a) : i < l.length := by
  rw [idx_eq_ok, List.getElem?_eq_some_iff] at h
  exact h.1

theorem upd_ok {l : List α} {i : Nat} {a : α} (h : i < l.length) : upd l i a = .ok (l.set i a) := by
  simp [upd, h]

theorem upd_eq_ok {l l' : List α} {i : Nat} {a : α} :
    upd l i a = .ok l' ↔ i < l.length ∧ l' = l.set i a := by
  unfold upd; split
  · simp_all [eq_comm]
  · rename_i h; simp only [reduceCtorEq, false_iff, not_and]; intro h'; exact absurd h' h

theorem usub_ok {a b : Nat} (h : b ≤ a) : usub a b = .ok (a - b) := by simp [usub, h]

theorem usub_eq_ok {a b c : Nat} : usub a b = .ok c ↔ b ≤ a ∧ c = a - b := by
  unfold usub; split
  · simp_all [eq_comm]
  · rename_i h; simp only [reduceCtorEq, false_iff, not_and]; intro h'; exact absurd h' h

theorem usub_err {a b : Nat} (h : a < b) : usub a b = .error .overflow := by
  simp [usub, Nat.not_le.2 h]

theorem assertR_eq_ok {c : Bool} {u : Unit} : assertR c = .ok u ↔ c = true := by
  unfold assertR; split <;> simp_all

/-! ### Loops -/

theorem foldlM_append' {β : Type} (f : σ → β → Res σ) (s : σ) (l₁ l₂ : List β) :
    (l₁ ++ l₂).foldlM f s = (l₁.foldlM f s >>= fun s' => l₂.foldlM f s') := by
  simp

theorem forRange_nil {a b : Nat} (h : b ≤ a) (s : σ) (body : σ → Nat → Res σ) :
    forRange a b s body = .ok s := by
  simp [forRange, Nat.sub_eq_zero_of_le h]

theorem forRange_succ_right {a b : Nat} (h : a ≤ b) (s : σ) (body : σ → Nat → Res σ) :
    forRange a (b + 1) s body = (forRange a b s body >>= fun s' => body s' b) := by
  have : b + 1 - a = (b - a) + 1 := by omega
  simp only [forRange, this, List.range'_concat, foldlM_append']
  have h2 : a + 1 * (b - a) = b := by omega
  rw [h2]
  cases List.foldlM body s (List.range' a (b - a)) with
  | error => rfl
  | ok s' => simp only [ok_bind, List.foldlM_cons, List.foldlM_nil]; cases body s' b <;> rfl

theorem forRange_succ_left {a b : Nat} (h : a < b) (s : σ) (body : σ → Nat → Res σ) :
    forRange a b s body = (body s a >>= fun s' => forRange (a + 1) b s' body) := by
  have : b - a = (b - (a + 1)) + 1 := by omega
  simp only [forRange, this, List.range'_succ, List.foldlM_cons]

/-- Total-correctness rule for `for i in a..b`. -/
theorem forRange_inv {a b : Nat} {s : σ} {body : σ → Nat → Res σ} (I : Nat → σ → Prop)
    (hab : a ≤ b) (h0 : I a s)
    (hstep : ∀ i s, a ≤ i → i < b → I i s → ∃ s', body s i = .ok s' ∧ I (i + 1) s') :
    ∃ s', forRange a b s body = .ok s' ∧ I b s' := by
  induction b, hab using Nat.le_induction with
  | base => exact ⟨s, forRange_nil (Nat.le_refl _) _ _, h0⟩
  | succ n hn ih =>
    obtain ⟨s', h1, h2⟩ := ih (fun i s h1 h2 => hstep i s h1 (by omega))
    obtain ⟨s'', h3, h4⟩ := hstep n s' hn (by omega) h2
    exact ⟨s'', by rw [forRange_succ_right hn, h1]; simpa using h3, h4⟩

/-- Partial-correctness rule for `for i in a..b`: whatever the body returns keeps the invariant. -/
theorem forRange_partial {a b : Nat} {s s' : σ} {body : σ → Nat → Res σ} (I : Nat → σ → Prop)
    (hab : a ≤ b) (h0 : I a s)
    (hstep : ∀ i s s', a ≤ i → i < b → I i s → body s i = .ok s' → I (i + 1) s')
    (h : forRange a b s body = .ok s') : I b s' := by
  induction b, hab using Nat.le_induction generalizing s' with
  | base => rw [forRange_nil (Nat.le_refl _)] at h; cases h; exact h0
  | succ n hn ih =>
    rw [forRange_succ_right hn, bind_eq_ok] at h
    obtain ⟨s₁, h1, h2⟩ := h
    exact hstep n s₁ s' hn (by omega) (ih (fun i s s' h1 h2 => hstep i s s' h1 (by omega)) h1) h2

theorem forRangeRev_nil {a b : Nat} (h : b ≤ a) (s : σ) (body : σ → Nat → Res σ) :
    forRangeRev a b s body = .ok s := by
  simp [forRangeRev, Nat.sub_eq_zero_of_le h]

theorem forRangeRev_succ {a b : Nat} (h : a ≤ b) (s : σ) (body : σ → Nat → Res σ) :
    forRangeRev a (b + 1) s body = (body s b >>= fun s' => forRangeRev a b s' body) := by
  have : b + 1 - a = (b - a) + 1 := by omega
  have h2 : a + 1 * (b - a) = b := by omega
  simp only [forRangeRev, this, List.range'_concat, h2, List.reverse_append, List.reverse_singleton,
    List.singleton_append, List.foldlM_cons]

/-- Total-correctness rule for `for i in (a..b).rev()`: `I j` holds when indices `≥ j` are done. -/
theorem forRangeRev_inv {a b : Nat} {s : σ} {body : σ → Nat → Res σ} (I : Nat → σ → Prop)
    (hab : a ≤ b) (h0 : I b s)
    (hstep : ∀ i s, a ≤ i → i < b → I (i + 1) s → ∃ s', body s i = .ok s' ∧ I i s') :
    ∃ s', forRangeRev a b s body = .ok s' ∧ I a s' := by
  induction b, hab using Nat.le_induction generalizing s with
  | base => exact ⟨s, forRangeRev_nil (Nat.le_refl _) _ _, h0⟩
  | succ n hn ih =>
    obtain ⟨s', h1, h2⟩ := hstep n s hn (by omega) h0
    obtain ⟨s'', h3, h4⟩ := ih h2 (fun i s h1 h2 => hstep i s h1 (by omega))
    exact ⟨s'', by rw [forRangeRev_succ hn, h1]; simpa using h3, h4⟩

end Geom3d
