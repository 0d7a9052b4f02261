import Verif.Model.Expressions
import Verif.Lemmas.PyDict
import Mathlib.Tactic.SplitIfs
import Mathlib.Tactic.Tauto

/-!
# Lemmas about the expression parser
-/

namespace Esat

theorem splitChar_free (c : Char) (a : List Char) (h : c ∉ a) : splitChar c a = [a] := by
  induction a with
  | nil => rfl
  | cons x a ih =>
    rw [List.mem_cons, not_or] at h
    rw [splitChar, if_neg (Ne.symm h.1), ih h.2]

theorem splitChar_append (c : Char) (a b : List Char) (h : c ∉ a) : splitChar c (a ++ c :: b) = a :: splitChar c b := by
  induction a with
  | nil => rw [List.nil_append, splitChar, if_pos rfl]
  | cons x a ih =>
    rw [List.mem_cons, not_or] at h
    rw [List.cons_append, splitChar, if_neg (Ne.symm h.1), ih h.2]

theorem splitRuns_free (p : Char → Bool) (a : List Char) (h : ∀ x ∈ a, p x = false) : splitRuns p a = [a] := by
  induction a with
  | nil => rfl
  | cons x a ih =>
    rw [splitRuns.eq_def]
    simp only [h x List.mem_cons_self, ih fun y hy => h y (List.mem_cons_of_mem _ hy), Bool.false_eq_true, if_false]

/-- A separator in front of a text that does not start with one. -/
theorem splitRuns_sep (p : Char → Bool) (d y : Char) (b : List Char) (hd : p d = true) (hy : p y = false) :
    splitRuns p (d :: y :: b) = [] :: splitRuns p (y :: b) := by
  rw [splitRuns, if_pos hd]
  simp only [hy, Bool.false_eq_true, if_false]

theorem splitRuns_append (p : Char → Bool) (a : List Char) (d y : Char) (b : List Char) (h : ∀ x ∈ a, p x = false)
    (hd : p d = true) (hy : p y = false) : splitRuns p (a ++ d :: y :: b) = a :: splitRuns p (y :: b) := by
  induction a with
  | nil => exact splitRuns_sep p d y b hd hy
  | cons x a ih =>
    rw [List.cons_append, splitRuns.eq_def]
    simp only [h x List.mem_cons_self, ih fun z hz => h z (List.mem_cons_of_mem _ hz), Bool.false_eq_true, if_false]

theorem splitRuns_end (p : Char → Bool) (a : List Char) (d : Char) (h : ∀ x ∈ a, p x = false) (hd : p d = true) :
    splitRuns p (a ++ [d]) = [a, []] := by
  induction a with
  | nil => simp [splitRuns, hd]
  | cons x a ih =>
    rw [List.cons_append, splitRuns.eq_def]
    simp only [h x List.mem_cons_self, ih fun z hz => h z (List.mem_cons_of_mem _ hz), Bool.false_eq_true, if_false]

theorem firstBracket_spec (a b : List Char) (ha : '[' ∉ a) (hb : ']' ∉ b) : firstBracket (a ++ '[' :: b ++ [']']) = some b := by
  have h1 : (a ++ '[' :: b ++ [']']).dropWhile (· ≠ '[') = '[' :: (b ++ [']']) := by
    rw [List.append_assoc, List.dropWhile_append_of_pos (by intro x hx; simp; rintro rfl; exact ha hx)]
    simp
  have h2 : (b ++ [']']).takeWhile (· ≠ ']') = b := by
    rw [List.takeWhile_append_of_pos (by intro x hx; simp; rintro rfl; exact hb hx)]
    simp
  unfold firstBracket
  rw [h1]
  simp only
  rw [if_pos (by simp), h2]

/-- The distinct elements in order of first appearance. -/
def appear {α : Type*} [DecidableEq α] (l : List α) : List α := l.foldl (fun acc a => if a ∈ acc then acc else acc ++ [a]) []

theorem appear_snoc {α : Type*} [DecidableEq α] (l : List α) (a : α) :
    appear (l ++ [a]) = if a ∈ appear l then appear l else appear l ++ [a] := by
  rw [appear, List.foldl_append]
  rfl

theorem mem_appear {α : Type*} [DecidableEq α] (l : List α) (a : α) : a ∈ appear l ↔ a ∈ l := by
  induction l using List.reverseRecOn with
  | nil => simp [appear]
  | append_singleton l b ih =>
    rw [appear_snoc]
    split
    · rename_i h
      rw [ih, List.mem_append, List.mem_singleton]
      constructor
      · exact .inl
      · rintro (h' | rfl)
        · exact h'
        · exact ih.1 h
    · simp [ih]

theorem appear_append {α : Type*} [DecidableEq α] (l : List α) (a : α) :
    appear (l ++ [a]) = if a ∈ l then appear l else appear l ++ [a] := by
  rw [appear_snoc]
  simp only [mem_appear]

section mapping
variable {K : Type*} [Field K]

/-- One term as it is entered: label, index, type, signed coefficient, number of its expression. -/
structure Occ (K : Type*) where
  /-- label -/
  label : List Char
  /-- index -/
  index : ℤ × ℤ
  /-- type -/
  kind : List Char
  /-- signed coefficient -/
  coef : K
  /-- expression -/
  expr : ℕ

/-- Entering a term. -/
def enterOcc (st : ExprState K) (o : Occ K) : ExprState K := enterTerm st o.expr o.label o.index o.kind o.coef

theorem enterOcc_none (st : ExprState K) (o : Occ K) (h : dictGet st.mapping o.label = none) :
    enterOcc st o = ⟨dictSet st.mapping o.label ⟨[o.coef], [o.expr], o.index, o.kind, st.terms⟩, st.terms + 1⟩ := by
  unfold enterOcc enterTerm
  rw [h]

theorem enterOcc_some (st : ExprState K) (o : Occ K) (en : ExprEntry K) (h : dictGet st.mapping o.label = some en) :
    enterOcc st o = ⟨dictSet st.mapping o.label ⟨en.coef ++ [o.coef], en.exprs ++ [o.expr], en.index, en.kind, en.col⟩, st.terms⟩ := by
  unfold enterOcc enterTerm
  rw [h]

theorem foldl_enterOcc (occ : List (Occ K)) :
    (occ.foldl enterOcc ⟨[], 0⟩).terms = (appear (occ.map (·.label))).length ∧
    ∀ l, dictGet (occ.foldl enterOcc ⟨[], 0⟩).mapping l =
      (occ.find? fun o => o.label = l).map fun o =>
        ⟨(occ.filter fun o => o.label = l).map (·.coef), (occ.filter fun o => o.label = l).map (·.expr), o.index, o.kind,
          (appear (occ.map (·.label))).idxOf l⟩ := by
  induction occ using List.reverseRecOn with
  | nil => exact ⟨rfl, fun l => rfl⟩
  | append_singleton occ o ih =>
    obtain ⟨ih1, ih2⟩ := ih
    rw [List.foldl_append, List.foldl_cons, List.foldl_nil, List.map_append, List.map_cons, List.map_nil]
    have hmem : o.label ∈ occ.map (·.label) ↔ (occ.find? fun o' => o'.label = o.label).isSome := by
      simp [List.find?_isSome]
    cases hf : occ.find? fun o' => o'.label = o.label with
    | none =>
      have hn : o.label ∉ occ.map (·.label) := by rw [hmem, hf]; simp
      have hn' : o.label ∉ appear (occ.map (·.label)) := by rwa [mem_appear]
      have hfir : appear (occ.map (·.label) ++ [o.label]) = appear (occ.map (·.label)) ++ [o.label] := by
        rw [appear_append, if_neg hn]
      have hg := ih2 o.label
      rw [hf, Option.map_none] at hg
      have he := enterOcc_none _ o hg
      rw [he, hfir]
      refine ⟨by simp [ih1], fun l => ?_⟩
      simp only
      rw [dictGet_dictSet, List.find?_append]
      by_cases hl : l = o.label
      · subst hl
        rw [if_pos rfl, hf]
        have hfil : (occ.filter fun o' => decide (o'.label = o.label)) = [] := by
          rw [List.filter_eq_nil_iff]
          intro x hx
          rw [List.find?_eq_none] at hf
          simpa using hf x hx
        simp [hfil, ih1, List.idxOf_append_of_notMem hn']
      · rw [if_neg hl, ih2]
        have hl' : ¬o.label = l := fun h => hl h.symm
        cases hfl : occ.find? fun o' => decide (o'.label = l) with
        | none => simp [hl']
        | some x =>
          have hlm : l ∈ appear (occ.map (·.label)) := by
            rw [mem_appear, List.mem_map]
            exact ⟨x, List.mem_of_find?_eq_some hfl, by simpa using List.find?_some hfl⟩
          simp [hl', List.idxOf_append_of_mem hlm]
    | some x =>
      have hm : o.label ∈ occ.map (·.label) := by rw [hmem, hf]; rfl
      have hfir : appear (occ.map (·.label) ++ [o.label]) = appear (occ.map (·.label)) := by
        rw [appear_append, if_pos hm]
      have hg := ih2 o.label
      rw [hf, Option.map_some] at hg
      have he := enterOcc_some _ o _ hg
      rw [he, hfir]
      refine ⟨ih1, fun l => ?_⟩
      simp only
      rw [dictGet_dictSet, List.find?_append]
      by_cases hl : l = o.label
      · subst hl
        rw [if_pos rfl, hf]
        simp
      · rw [if_neg hl, ih2]
        have hl' : ¬o.label = l := fun h => hl h.symm
        cases hfl : occ.find? fun o' => decide (o'.label = l) with
        | none => simp [hl']
        | some x => simp [hl']

theorem getElem?_idxOf_map {α β : Type*} (f : α → β) (g : α → ℕ) (i : ℕ) (l : List α) :
    (if i ∈ l.map g then (l.map f)[(l.map g).idxOf i]? else none) = (l.find? fun a => g a = i).map f := by
  induction l with
  | nil => rfl
  | cons a l ih =>
    by_cases h : g a = i
    · simp [h]
    · simp only [List.map_cons, List.mem_cons, Ne.symm h, false_or, List.find?_cons, h, decide_false]
      rw [← ih]
      congr 1
      rw [List.idxOf_cons_ne _ h]
      simp

end mapping

end Esat
