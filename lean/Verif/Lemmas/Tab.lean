import Verif.Lemmas.Res
import Mathlib.Logic.Function.Basic
import Mathlib.Data.List.Basic

/-! Lists presented as tables of functions, used for loop invariants over arrays. -/

namespace Geom3d

variable {α β : Type}

/-- The list `[f 0, …, f (n-1)]`. -/
def tab (n : Nat) (f : Nat → α) : List α := (List.range n).map f

@[simp] theorem tab_length (n : Nat) (f : Nat → α) : (tab n f).length = n := by simp [tab]

theorem tab_getElem? (n : Nat) (f : Nat → α) (i : Nat) :
    (tab n f)[i]? = if i < n then some (f i) else none := by
  simp only [tab, List.getElem?_map]
  split
  · simp [*]
  · rw [List.getElem?_eq_none (by simpa using by omega)]; rfl

@[simp] theorem tab_getElem (n : Nat) (f : Nat → α) (i : Nat) (h : i < (tab n f).length) :
    (tab n f)[i] = f i := by
  simp [tab]

theorem tab_congr {n : Nat} {f g : Nat → α} (h : ∀ i, i < n → f i = g i) : tab n f = tab n g := by
  apply List.ext_getElem? ; intro i
  simp only [tab_getElem?]; split <;> simp_all

theorem idx_tab {n : Nat} {f : Nat → α} {i : Nat} (h : i < n) : idx (tab n f) i = .ok (f i) := by
  apply idx_of_getElem?; rw [tab_getElem?, if_pos h]

theorem set_tab {n : Nat} {f : Nat → α} {i : Nat} {a : α} :
    (tab n f).set i a = tab n (Function.update f i a) := by
  apply List.ext_getElem?; intro j
  rw [List.getElem?_set, tab_getElem?, tab_getElem?, tab_length]
  by_cases h : i = j
  · subst h; simp
  · simp [h, Function.update_of_ne (Ne.symm h)]

theorem upd_tab {n : Nat} {f : Nat → α} {i : Nat} {a : α} (h : i < n) :
    upd (tab n f) i a = .ok (tab n (Function.update f i a)) := by
  rw [upd_ok (by simpa), set_tab]

theorem replicate_eq_tab (n : Nat) (a : α) : List.replicate n a = tab n (fun _ => a) := by
  apply List.ext_getElem?; intro j
  simp [tab_getElem?, List.getElem?_replicate]

theorem map_tab (n : Nat) (f : Nat → α) (g : α → β) : (tab n f).map g = tab n (fun i => g (f i)) := by
  simp [tab]

theorem take_tab (m n : Nat) (f : Nat → α) (h : m ≤ n) : (tab n f).take m = tab m f := by
  apply List.ext_getElem?; intro j
  simp only [List.getElem?_take, tab_getElem?]
  by_cases h1 : j < m
  · simp [h1, show j < n by omega]
  · simp [h1]

/-- Any list is the table of its (defaulted) entries. -/
theorem eq_tab_getD (l : List α) (d : α) : l = tab l.length (fun i => l.getD i d) := by
  apply List.ext_getElem?; intro j
  rw [tab_getElem?]
  split
  · rename_i h; simp [List.getD, h]
  · rename_i h; exact List.getElem?_eq_none (by omega)

theorem insertIdx_eq (l : List α) (r : Nat) (x : α) (h : r ≤ l.length) :
    l.insertIdx r x = l.take r ++ x :: l.drop r := by
  induction r generalizing l with
  | zero => simp
  | succ r ih =>
    cases l with
    | nil => simp at h
    | cons a l => simp [ih l (by simpa using h)]

end Geom3d
