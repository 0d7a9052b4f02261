import Verif.Model.PyDict
import Mathlib.Data.List.Nodup
import Mathlib.Data.List.Induction

/-!
# Lemmas about dictionaries
-/

namespace Esat

variable {κ κ' β : Type*} [DecidableEq κ] [DecidableEq κ']

theorem dictGet_dictSet (d : PyDict κ β) (key key' : κ) (v : β) :
    dictGet (dictSet d key v) key' = if key' = key then some v else dictGet d key' := by
  unfold dictSet
  split
  · rename_i hany
    induction d with
    | nil => simp at hany
    | cons p d ih =>
      by_cases hp : p.1 = key
      · by_cases hk : key' = key
        · subst hk; simp [dictGet, hp]
        · simp only [List.map_cons, hp, if_true, dictGet, List.find?_cons, Ne.symm hk, decide_false, if_neg hk]
          clear ih hany
          congr 1
          induction d with
          | nil => rfl
          | cons q d ih =>
            simp only [List.map_cons, List.find?_cons]
            by_cases hq : q.1 = key
            · simp only [hq, if_true, Ne.symm hk, decide_false]
              exact ih
            · simp only [hq, if_false]
              by_cases hq' : q.1 = key'
              · simp [hq']
              · simp only [hq', decide_false]
                exact ih
      · have hany' : d.any (fun p => decide (p.1 = key)) = true := by simpa [hp] using hany
        have := ih hany'
        simp only [List.map_cons, hp, if_false, dictGet, List.find?_cons]
        by_cases hk : p.1 = key'
        · have : ¬key' = key := fun h => hp (hk.trans h)
          simp [hk, this]
        · simp only [hk, decide_false]
          exact this
  · rename_i hany
    simp only [dictGet, List.find?_append]
    by_cases hk : key' = key
    · subst hk
      have : d.find? (fun p => decide (p.1 = key')) = none := by
        rw [List.find?_eq_none]
        intro p hp h
        exact hany (List.any_eq_true.2 ⟨p, hp, h⟩)
      simp [this]
    · simp [Ne.symm hk, hk]

theorem dictGet_foldl (out : κ → β) (l : List κ) : ∀ (d : PyDict κ β) (key : κ),
    dictGet (l.foldl (fun e j => dictSet e j (out j)) d) key = if key ∈ l then some (out key) else dictGet d key := by
  induction l with
  | nil => intro d key; simp
  | cons a l ih =>
    intro d key
    rw [List.foldl_cons, ih, dictGet_dictSet]
    by_cases h1 : key ∈ l
    · simp [h1]
    · by_cases h2 : key = a
      · subst h2; simp [h1]
      · simp [h1, h2]

/-- Setting distinct fresh keys appends. -/
theorem foldl_dictSet_append (out : κ → β) (l : List κ) (hl : l.Nodup) : ∀ (d : PyDict κ β),
    (∀ a ∈ l, ∀ p ∈ d, p.1 ≠ a) →
    l.foldl (fun e j => dictSet e j (out j)) d = d ++ l.map fun j => (j, out j) := by
  induction l with
  | nil => intro d _; simp
  | cons a l ih =>
    intro d h
    rw [List.nodup_cons] at hl
    have hset : dictSet d a (out a) = d ++ [(a, out a)] := by
      unfold dictSet
      rw [if_neg]
      intro hc
      obtain ⟨p, hp, he⟩ := List.any_eq_true.1 hc
      exact h a List.mem_cons_self p hp (by simpa using he)
    rw [List.foldl_cons, hset, ih hl.2]
    · simp
    · intro b hb p hp
      rcases List.mem_append.1 hp with hp | hp
      · exact h b (List.mem_cons_of_mem _ hb) p hp
      · simp only [List.mem_singleton] at hp
        subst hp
        rintro rfl
        exact hl.1 hb

theorem dictGet_map (g : κ → β) (l : List κ) (a : κ) :
    dictGet (l.map fun b => (b, g b)) a = if a ∈ l then some (g a) else none := by
  induction l with
  | nil => rfl
  | cons b l ih =>
    unfold dictGet at ih ⊢
    simp only [List.map_cons, List.find?_cons]
    by_cases h : b = a
    · subst h; simp
    · simp only [h, decide_false, ih, List.mem_cons, Ne.symm h, false_or]

theorem dictSet_map (g : κ → β) (l : List κ) (a : κ) (v : β) :
    dictSet (l.map fun b => (b, g b)) a v =
      if a ∈ l then l.map (fun b => (b, if b = a then v else g b)) else (l.map fun b => (b, g b)) ++ [(a, v)] := by
  unfold dictSet
  have hany : (l.map fun b => (b, g b)).any (fun p => decide (p.1 = a)) = true ↔ a ∈ l := by
    simp [List.any_eq_true]
  by_cases h : a ∈ l
  · rw [if_pos (hany.2 h), if_pos h, List.map_map]
    apply List.map_congr_left
    intro b _
    simp only [Function.comp]
    by_cases hb : b = a
    · simp [hb]
    · simp [hb]
  · rw [if_neg (fun hc => h (hany.1 hc)), if_neg h]

/-- Keys in the order of their first appearance. -/
def firsts : List (κ × κ') → List κ := fun l => l.foldl (fun acc p => if p.1 ∈ acc then acc else acc ++ [p.1]) []

theorem firsts_append (l : List (κ × κ')) (p : κ × κ') :
    firsts (l ++ [p]) = if p.1 ∈ firsts l then firsts l else firsts l ++ [p.1] := by
  rw [firsts, List.foldl_append]
  rfl

theorem mem_firsts (l : List (κ × κ')) (a : κ) : a ∈ firsts l ↔ ∃ p ∈ l, p.1 = a := by
  induction l using List.reverseRecOn with
  | nil => simp [firsts]
  | append_singleton l p ih =>
    rw [firsts_append]
    split
    · rename_i h
      rw [ih]
      constructor
      · rintro ⟨q, hq, rfl⟩
        exact ⟨q, by simp [hq], rfl⟩
      · rintro ⟨q, hq, rfl⟩
        rcases List.mem_append.1 hq with hq | hq
        · exact ⟨q, hq, rfl⟩
        · simp only [List.mem_singleton] at hq
          subst hq
          exact ih.1 h
    · rw [List.mem_append, List.mem_singleton, ih]
      simp [or_and_right, exists_or, eq_comm (a := a)]


theorem dictGet_isSome (d : PyDict κ β) (key : κ) : (dictGet d key).isSome = true ↔ key ∈ d.map (·.1) := by
  unfold dictGet
  rw [Option.isSome_map, List.find?_isSome]
  simp

/-- Setting a key keeps the keys distinct. -/
theorem dictSet_nodup (d : PyDict κ β) (hd : (d.map (·.1)).Nodup) (key : κ) (v : β) : ((dictSet d key v).map (·.1)).Nodup := by
  unfold dictSet
  split
  · have : (d.map fun p => if p.1 = key then (key, v) else p).map (·.1) = d.map (·.1) := by
      rw [List.map_map]
      apply List.map_congr_left
      intro p _
      simp only [Function.comp]
      split
      · rename_i h; exact h.symm
      · rfl
    rw [this]
    exact hd
  · rename_i h
    rw [List.map_append, List.nodup_append]
    refine ⟨hd, by simp, fun a ha b hb => ?_⟩
    simp only [List.map_cons, List.map_nil, List.mem_singleton] at hb
    subst hb
    rintro rfl
    obtain ⟨p, hp, rfl⟩ := List.mem_map.1 ha
    exact h (List.any_eq_true.2 ⟨p, hp, by simp⟩)

theorem dictPop_nodup (d d' : PyDict κ β) (hd : (d.map (·.1)).Nodup) (key : κ) (h : dictPop d key = some d') :
    (d'.map (·.1)).Nodup := by
  unfold dictPop at h
  split at h
  · rw [Option.some.injEq] at h
    subst h
    exact hd.sublist (List.filter_sublist.map _)
  · simp at h

theorem dictGet_dictPop (d d' : PyDict κ β) (key key' : κ) (h : dictPop d key = some d') :
    dictGet d' key' = if key' = key then none else dictGet d key' := by
  unfold dictPop at h
  split at h
  · rw [Option.some.injEq] at h
    subst h
    unfold dictGet
    rw [List.find?_filter]
    split
    · rename_i hk
      subst hk
      rw [Option.map_eq_none_iff, List.find?_eq_none]
      intro p _
      by_cases hp : p.1 = key' <;> simp [hp]
    · rename_i hk
      congr 2
      funext p
      by_cases hp : p.1 = key'
      · simp [hp, hk]
      · simp [hp]
  · simp at h

theorem mem_of_dictGet (d : PyDict κ β) (key : κ) (v : β) (h : dictGet d key = some v) : (key, v) ∈ d := by
  unfold dictGet at h
  rw [Option.map_eq_some_iff] at h
  obtain ⟨p, h1, h2⟩ := h
  have h3 := List.find?_some h1
  have h4 := List.mem_of_find?_eq_some h1
  simp only [decide_eq_true_eq] at h3
  rw [← h3, ← h2]
  exact h4

theorem dictGet_of_mem (d : PyDict κ β) (hd : (d.map (·.1)).Nodup) (key : κ) (v : β) (h : (key, v) ∈ d) :
    dictGet d key = some v := by
  induction d with
  | nil => simp at h
  | cons p d ih =>
    rw [List.map_cons, List.nodup_cons] at hd
    unfold dictGet
    rw [List.find?_cons]
    rcases List.mem_cons.1 h with h | h
    · subst h; simp
    · have : p.1 ≠ key := by
        rintro rfl
        exact hd.1 (List.mem_map.2 ⟨_, h, rfl⟩)
      simp only [this, decide_false]
      exact ih hd.2 h

end Esat
