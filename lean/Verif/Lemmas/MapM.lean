import Mathlib.Data.List.Basic

/-!
# `List.mapM` in `Option`: lengths, entries, members
-/

namespace Esat

theorem mapM_option_length {α β : Type*} (f : α → Option β) : ∀ (l : List α) (r : List β), l.mapM f = some r → r.length = l.length
  | [], r, h => by
    simp only [List.mapM_nil, Option.pure_def, Option.some.injEq] at h
    subst h; rfl
  | a :: l, r, h => by
    rw [List.mapM_cons] at h
    simp only [Option.bind_eq_bind, Option.bind_eq_some_iff, Option.pure_def, Option.some.injEq] at h
    obtain ⟨b, -, w, hw, rfl⟩ := h
    simp [mapM_option_length f l w hw]

theorem mapM_option_get {α β : Type*} (f : α → Option β) : ∀ (l : List α) (r : List β) (h : l.mapM f = some r) (i : ℕ)
    (hi : i < l.length), f l[i] = some (r[i]'(by rw [mapM_option_length f l r h]; exact hi))
  | [], r, h, i, hi => absurd hi (Nat.not_lt_zero _)
  | a :: l, r, h, i, hi => by
    have h' := h
    rw [List.mapM_cons] at h'
    simp only [Option.bind_eq_bind, Option.bind_eq_some_iff, Option.pure_def, Option.some.injEq] at h'
    obtain ⟨b, hb, w, hw, rfl⟩ := h'
    cases i with
    | zero => exact hb
    | succ i => exact mapM_option_get f l w hw i (by simpa using hi)

theorem mapM_option_mem {α β : Type*} (f : α → Option β) (l : List α) (r : List β) (h : l.mapM f = some r) (b : β) (hb : b ∈ r) :
    ∃ a, a ∈ l ∧ f a = some b := by
  obtain ⟨i, hi, rfl⟩ := List.getElem_of_mem hb
  have hl := mapM_option_length f l r h
  exact ⟨l[i]'(by omega), List.getElem_mem _, mapM_option_get f l r h i (by omega)⟩

theorem mapM_option_congr {α β : Type*} (f g : α → Option β) : ∀ (l : List α), (∀ a ∈ l, f a = g a) → l.mapM f = l.mapM g
  | [], _ => rfl
  | a :: l, h => by
    rw [List.mapM_cons, List.mapM_cons, h a List.mem_cons_self,
      mapM_option_congr f g l fun b hb => h b (List.mem_cons_of_mem _ hb)]

theorem mapM_isSome_iff {α β : Type*} (f : α → Option β) (l : List α) : (l.mapM f).isSome ↔ ∀ a ∈ l, (f a).isSome := by
  induction l with
  | nil => simp
  | cons a l ih =>
    rw [List.mapM_cons]
    cases h : f a with
    | none => simp [h]
    | some b =>
      cases h2 : l.mapM f with
      | none => simp only [h2] at ih; simpa [h] using ih
      | some c => simp only [h2] at ih; simpa [h] using ih

end Esat
