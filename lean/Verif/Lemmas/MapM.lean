import Verif.Lemmas.Res
import Mathlib.Data.List.Forall2

/-! `List.mapM` in the panic monad. -/

namespace Geom3d

variable {α β : Type}

theorem mapM_nil (f : α → Res β) : ([] : List α).mapM f = .ok [] := by simp

theorem mapM_cons (f : α → Res β) (a : α) (l : List α) :
    (a :: l).mapM f = (f a >>= fun b => l.mapM f >>= fun bs => .ok (b :: bs)) := by
  simp [List.mapM_cons]

/-- `mapM` succeeds when every call does, element by element. -/
theorem mapM_ok {f : α → Res β} {P : α → β → Prop} {l : List α} (h : ∀ a ∈ l, ∃ b, f a = .ok b ∧ P a b) :
    ∃ l', l.mapM f = .ok l' ∧ List.Forall₂ P l l' := by
  induction l with
  | nil => exact ⟨[], mapM_nil f, .nil⟩
  | cons a l ih =>
    obtain ⟨b, hb, hp⟩ := h a (List.mem_cons_self ..)
    obtain ⟨l', hl, hf⟩ := ih fun x hx => h x (List.mem_cons_of_mem _ hx)
    exact ⟨b :: l', by rw [mapM_cons, hb, hl]; rfl, .cons hp hf⟩

/-- Conversely, a successful `mapM` consists of successful calls. -/
theorem of_mapM_ok {f : α → Res β} {l : List α} {l' : List β} (h : l.mapM f = .ok l') :
    List.Forall₂ (fun a b => f a = .ok b) l l' := by
  induction l generalizing l' with
  | nil => rw [mapM_nil] at h; cases h; exact .nil
  | cons a l ih =>
    rw [mapM_cons, bind_eq_ok] at h
    obtain ⟨b, hb, h⟩ := h
    rw [bind_eq_ok] at h
    obtain ⟨bs, hbs, h⟩ := h
    cases h
    exact .cons hb (ih hbs)

/-- `mapM` of a total function. -/
theorem mapM_pure {f : α → Res β} {g : α → β} {l : List α} (h : ∀ a ∈ l, f a = .ok (g a)) :
    l.mapM f = .ok (l.map g) := by
  induction l with
  | nil => exact mapM_nil f
  | cons a l ih =>
    rw [mapM_cons, h a (List.mem_cons_self ..), ih fun x hx => h x (List.mem_cons_of_mem _ hx)]
    rfl

/-- Partial correctness of `foldlM`. -/
theorem foldlM_partial {σ : Type} {f : σ → β → Res σ} {l : List β} (I : σ → Prop)
    (hstep : ∀ s b s', b ∈ l → I s → f s b = .ok s' → I s') {s s' : σ} (h0 : I s)
    (h : l.foldlM f s = .ok s') : I s' := by
  induction l generalizing s with
  | nil => cases h; exact h0
  | cons b l ih =>
    rw [List.foldlM_cons, bind_eq_ok] at h
    obtain ⟨s1, h1, h2⟩ := h
    exact ih (fun s b s' hb => hstep s b s' (List.mem_cons_of_mem _ hb))
      (hstep _ _ _ (List.mem_cons_self ..) h0 h1) h2

theorem forall₂_getElem? {α β : Type} {R : α → β → Prop} {l : List α} {l' : List β} (h : List.Forall₂ R l l')
    {i : Nat} {a : α} (hi : l[i]? = some a) : ∃ b, l'[i]? = some b ∧ R a b := by
  induction h generalizing i with
  | nil => simp at hi
  | cons hr _ ih =>
    cases i with
    | zero => simp at hi; subst hi; exact ⟨_, rfl, hr⟩
    | succ i => simpa using ih (by simpa using hi)


end Geom3d
