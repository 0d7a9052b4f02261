import Verif.Model.Constrained
import Verif.Model.SA
import Verif.Lemmas.PyDict
import Verif.Lemmas.AxisIndex
import Verif.Lemmas.LsNmf
import Mathlib.Algebra.Order.Field.Basic
import Mathlib.Algebra.Order.BigOperators.Ring.Finset
import Mathlib.Algebra.BigOperators.Field
import Mathlib.Algebra.BigOperators.Fin
import Mathlib.Data.Fin.VecNotation
import Mathlib.Data.Rat.Defs
import Mathlib.Algebra.Order.Ring.Rat
import Mathlib.Algebra.Field.Rat
import Mathlib.Tactic.Linarith
import Mathlib.Tactic.Ring
import Mathlib.Tactic.NormNum
import Mathlib.Tactic.SplitIfs

/-!
# C41-C44, C47-C49, C82, C83, C87: the constrained model
-/

namespace Esat

/-! ## C41, C42 -/

section dict
variable {K : Type*} {m n k : ℕ}

/-- What holds after any history: distinct labels, and every constraint stored under its own label after passing the index
checks. -/
structure CInv (m n k : ℕ) (d : PyDict CLabel (Constraint K)) : Prop where
  /-- distinct labels -/
  nodup : (d.map (·.1)).Nodup
  /-- stored under its own label -/
  label : ∀ p ∈ d, p.1 = cLabel p.2
  /-- passed the checks -/
  ok : ∀ p ∈ d, cIndexOk m n k p.2 = true

theorem dictSet_mem {κ β : Type*} [DecidableEq κ] (d : PyDict κ β) (key : κ) (v : β) (p : κ × β) (h : p ∈ dictSet d key v) :
    p = (key, v) ∨ p ∈ d := by
  unfold dictSet at h
  split at h
  · obtain ⟨q, hq, rfl⟩ := List.mem_map.1 h
    split
    · exact .inl rfl
    · exact .inr hq
  · rcases List.mem_append.1 h with h | h
    · exact .inr h
    · exact .inl (by simpa using h)

theorem cStep_inv (d : PyDict CLabel (Constraint K)) (hd : CInv m n k d) (op : COp K) : CInv m n k (cStep m n k d op) := by
  cases op with
  | add c =>
    show CInv m n k (addConstraint m n k d c).1
    unfold addConstraint
    split
    · exact hd
    · rename_i h1
      split
      · exact hd
      · refine ⟨dictSet_nodup d hd.nodup _ _, fun p hp => ?_, fun p hp => ?_⟩
        · rcases dictSet_mem d _ _ p hp with rfl | hp
          · rfl
          · exact hd.label p hp
        · rcases dictSet_mem d _ _ p hp with rfl | hp
          · simpa using h1
          · exact hd.ok p hp
  | remove l =>
    show CInv m n k ((dictPop d l).getD d)
    cases h : dictPop d l with
    | none => exact hd
    | some d' =>
      rw [Option.getD_some]
      have hsub : ∀ p ∈ d', p ∈ d := by
        intro p hp
        unfold dictPop at h
        split at h
        · rw [Option.some.injEq] at h
          subst h
          exact (List.mem_filter.1 hp).1
        · simp at h
      exact ⟨dictPop_nodup d d' hd.nodup l h, fun p hp => hd.label p (hsub p hp), fun p hp => hd.ok p (hsub p hp)⟩

theorem cRunOps_inv (ops : List (COp K)) : CInv m n k (cRunOps m n k ops) := by
  have : ∀ d : PyDict CLabel (Constraint K), CInv m n k d → CInv m n k (ops.foldl (cStep m n k) d) := by
    induction ops with
    | nil => intro d hd; exact hd
    | cons op ops ih => intro d hd; exact ih _ (cStep_inv d hd op)
  exact this [] ⟨by simp, by simp, by simp⟩

/-- After any history of calls, two stored constraints with a valid target that address the same element are the same one.

What is missing: constraints whose target is neither `feature` nor `sample` (`C41_refuted`). -/
theorem C41_one_partial (ops : List (COp K)) (p q : CLabel × Constraint K) (hp : p ∈ cRunOps m n k ops)
    (hq : q ∈ cRunOps m n k ops) (ht : p.2.target = q.2.target) (hi : p.2.index = q.2.index) : p = q := by
  have hd := cRunOps_inv (m := m) (n := n) (k := k) ops
  have hl : p.1 = q.1 := by
    rw [hd.label p hp, hd.label q hq]
    simp only [cLabel, ht, hi]
  have h1 := dictGet_of_mem _ hd.nodup p.1 p.2 hp
  have h2 := dictGet_of_mem _ hd.nodup q.1 q.2 hq
  rw [hl, h2, Option.some.injEq] at h1
  exact Prod.ext hl h1.symm

/-- A successful add makes exactly that constraint visible under its label. -/
theorem C41_add (d d' : PyDict CLabel (Constraint K)) (c : Constraint K) (h : addConstraint m n k d c = (d', true)) (l : CLabel) :
    dictGet d (cLabel c) = none ∧ dictGet d' l = if l = cLabel c then some c else dictGet d l := by
  unfold addConstraint at h
  split at h
  · simp at h
  · split at h
    · simp at h
    · rename_i hany
      simp only [Prod.mk.injEq, and_true] at h
      subst h
      refine ⟨?_, dictGet_dictSet d _ l c⟩
      unfold dictGet
      rw [Option.map_eq_none_iff, List.find?_eq_none]
      intro p hp hc
      exact hany (List.any_eq_true.2 ⟨p, hp, hc⟩)

/-- A rejected add changes nothing. -/
theorem C41_reject (d d' : PyDict CLabel (Constraint K)) (c : Constraint K) (h : addConstraint m n k d c = (d', false)) : d' = d := by
  unfold addConstraint at h
  split at h
  · simpa using h.symm
  · split at h
    · simpa using h.symm
    · simp at h

/-- An add is accepted exactly when the index checks pass and the label is free. -/
theorem C41_accept_iff (d : PyDict CLabel (Constraint K)) (c : Constraint K) :
    (addConstraint m n k d c).2 = true ↔ cIndexOk m n k c = true ∧ dictGet d (cLabel c) = none := by
  unfold addConstraint
  have hiff : d.any (fun p => decide (p.1 = cLabel c)) = true ↔ dictGet d (cLabel c) ≠ none := by
    rw [← Option.isSome_iff_ne_none, dictGet_isSome]
    simp
  cases h1 : cIndexOk m n k c with
  | false => simp
  | true =>
    simp only [if_false, true_and, Bool.true_eq_false]
    by_cases h2 : dictGet d (cLabel c) = none
    · rw [if_neg (fun hc => hiff.1 hc h2)]
      simp [h2]
    · rw [if_pos (hiff.2 h2)]
      simp [h2]

/-- Removal removes exactly the named constraint; with an unknown name the method raises. -/
theorem C41_remove (d : PyDict CLabel (Constraint K)) (l : CLabel) :
    (dictGet d l = none → dictPop d l = none) ∧
    (dictGet d l ≠ none → ∃ d', dictPop d l = some d' ∧ ∀ l', dictGet d' l' = if l' = l then none else dictGet d l') := by
  have hiff : d.any (fun p => decide (p.1 = l)) = true ↔ dictGet d l ≠ none := by
    rw [← Option.isSome_iff_ne_none, dictGet_isSome]
    simp
  constructor
  · intro h
    unfold dictPop
    rw [if_neg (fun hc => hiff.1 hc h)]
  · intro h
    have : ∃ d', dictPop d l = some d' := by
      unfold dictPop
      rw [if_pos (hiff.2 h)]
      exact ⟨_, rfl⟩
    obtain ⟨d', hd'⟩ := this
    exact ⟨d', hd', fun l' => dictGet_dictPop d d' l l' hd'⟩

/-- After any history of calls: two stored constraints that address the same element are the same one, or the element is a contribution and exactly one of them has a misspelt target. So a profile entry carries at most one constraint, a contribution at most two. -/
theorem C41_element_partial (ops : List (COp K)) (e : Fin k × Fin n ⊕ Fin m × Fin k) :
    (∀ p ∈ cRunOps m n k ops, ∀ q ∈ cRunOps m n k ops, cEntry m n k p.2 = some e → cEntry m n k q.2 = some e →
      p = q ∨ e.isRight = true ∧ (p.2.target = .sample ∧ q.2.target = .other ∨ p.2.target = .other ∧ q.2.target = .sample)) ∧
    ((cRunOps m n k ops).filter fun p => cEntry m n k p.2 = some e).length ≤ if e.isRight then 2 else 1 := by
  have hd := cRunOps_inv (m := m) (n := n) (k := k) ops
  have key : ∀ p ∈ cRunOps m n k ops, ∀ q ∈ cRunOps m n k ops, cEntry m n k p.2 = some e → cEntry m n k q.2 = some e →
      p = q ∨ e.isRight = true ∧ (p.2.target = .sample ∧ q.2.target = .other ∨ p.2.target = .other ∧ q.2.target = .sample) := by
    intro p hp q hq h1 h2
    have hp1 := hd.ok p hp
    have hq1 := hd.ok q hq
    have same : p.1 = q.1 → p = q := by
      intro hl
      have h1 := dictGet_of_mem _ hd.nodup p.1 p.2 hp
      have h2 := dictGet_of_mem _ hd.nodup q.1 q.2 hq
      rw [hl, h2, Option.some.injEq] at h1
      exact Prod.ext hl h1.symm
    rw [hd.label p hp, hd.label q hq] at same
    unfold cIndexOk at hp1 hq1
    unfold cEntry at h1 h2
    unfold cLabel at same
    cases htp : p.2.target <;> cases htq : q.2.target <;> rw [htp] at h1 hp1 same <;> rw [htq] at h2 hq1 same <;>
      simp only [Option.bind_eq_some_iff, Option.map_eq_some_iff, decide_eq_true_eq] at h1 h2 hp1 hq1 <;>
      obtain ⟨a, ha, b, hb, rfl⟩ := h1 <;> obtain ⟨a', ha', b', hb', he⟩ := h2 <;>
      simp only [reduceCtorEq, Sum.inl.injEq, Sum.inr.injEq, Prod.mk.injEq] at he
    · obtain ⟨rfl, rfl⟩ := he
      rw [axisIndex_of_nonneg (by omega)] at ha hb ha' hb'
      left
      apply same
      rw [ha, hb, ha', hb']
    · obtain ⟨rfl, rfl⟩ := he
      rw [axisIndex_of_nonneg (by omega)] at ha hb ha' hb'
      left
      apply same
      rw [ha, hb, ha', hb']
    · exact .inr ⟨rfl, .inl ⟨rfl, rfl⟩⟩
    · exact .inr ⟨rfl, .inr ⟨rfl, rfl⟩⟩
    · exact .inl (same rfl)
  refine ⟨key, ?_⟩
  have hnd : ((cRunOps m n k ops).filter fun p => cEntry m n k p.2 = some e).Nodup := (List.Nodup.of_map _ hd.nodup).filter _
  have hmem : ∀ p ∈ (cRunOps m n k ops).filter (fun p => cEntry m n k p.2 = some e), p ∈ cRunOps m n k ops ∧ cEntry m n k p.2 = some e := by
    intro p hp
    simpa using List.mem_filter.1 hp
  generalize (cRunOps m n k ops).filter (fun p => cEntry m n k p.2 = some e) = l at hnd hmem
  match l, hnd, hmem with
  | [], _, _ => simp
  | [_], _, _ => split <;> simp
  | p :: q :: [], hnd, hmem =>
    have hpq : p ≠ q := fun h => by simp [h] at hnd
    obtain ⟨hp, hp'⟩ := hmem p (by simp)
    obtain ⟨hq, hq'⟩ := hmem q (by simp)
    rw [if_pos ((key p hp q hq hp' hq').resolve_left hpq).1]
    simp
  | p :: q :: r :: l, hnd, hmem =>
    have hpq : p ≠ q := fun h => by simp [h] at hnd
    have hpr : p ≠ r := fun h => by simp [h] at hnd
    have hqr : q ≠ r := fun h => by simp [h] at hnd
    obtain ⟨hp, hp'⟩ := hmem p (by simp)
    obtain ⟨hq, hq'⟩ := hmem q (by simp)
    obtain ⟨hr, hr'⟩ := hmem r (by simp)
    rcases ((key p hp q hq hp' hq').resolve_left hpq).2 with ⟨h1, h2⟩ | ⟨h1, h2⟩ <;>
    rcases ((key p hp r hr hp' hr').resolve_left hpr).2 with ⟨h3, h4⟩ | ⟨h3, h4⟩ <;>
    rcases ((key q hq r hr hq' hr').resolve_left hqr).2 with ⟨h5, h6⟩ | ⟨h5, h6⟩ <;> simp_all

/-- **Disagreement.** A misspelt target is accepted without any check and addresses the contributions, so one element can
carry two constraints. -/
theorem C41_refuted (kind kind' : CKind K) (i a : ℤ) (hm : 0 ≤ i ∧ i < m) (ha : 0 ≤ a ∧ a < m) (hk : a < k) :
    ∃ p q : CLabel × Constraint K,
      cRunOps m n k [.add ⟨kind, (i, a), .sample⟩, .add ⟨kind', (i, a), .other⟩] = [p, q] ∧ p.1 ≠ q.1 ∧
      p.2.kind = kind ∧ q.2.kind = kind' ∧
      ∃ e, cEntry m n k p.2 = some e ∧ cEntry m n k q.2 = some e := by
  refine ⟨(.sample i a, ⟨kind, (i, a), .sample⟩), (.blank, ⟨kind', (i, a), .other⟩), ?_, by simp, rfl, rfl,
    .inr (⟨i.toNat, by omega⟩, ⟨a.toNat, by omega⟩), ?_, ?_⟩
  · have h1 : ¬((m : ℤ) ≤ i ∨ i < 0) := by omega
    have h2 : ¬((m : ℤ) ≤ a ∨ a < 0) := by omega
    simp [cRunOps, cStep, addConstraint, cIndexOk, cLabel, dictSet, h1, h2]
  · have h1 : 0 ≤ i ∧ i.toNat < m := by omega
    have h2 : 0 ≤ a ∧ a.toNat < k := by omega
    simp [cEntry, axisIndex, h1, h2]
  · have h1 : 0 ≤ i ∧ i.toNat < m := by omega
    have h2 : 0 ≤ a ∧ a.toNat < k := by omega
    simp [cEntry, axisIndex, h1, h2]

example : (cRunOps 3 4 2 [.add ⟨CKind.zero (K := ℚ), (0, 1), .feature⟩, .add ⟨.base, (0, 1), .feature⟩,
    .add ⟨.base, (1, 1), .sample⟩, .remove (.feature 0 1), .remove (.feature 5 5), .add ⟨.zero, (2, 0), .feature⟩]).map (·.1) =
    [.sample 1 1] := by decide +kernel

/-- A feature constraint passes the checks exactly when the entry exists in the profile matrix. -/
theorem C42_feature_partial (kind : CKind K) (i j : ℤ) :
    cIndexOk m n k ⟨kind, (i, j), .feature⟩ = true ↔ ∃ (a : Fin k) (b : Fin n), i = a ∧ j = b := by
  simp only [cIndexOk, decide_eq_true_eq]
  constructor
  · rintro ⟨h1, h2⟩
    exact ⟨⟨i.toNat, by omega⟩, ⟨j.toNat, by omega⟩, by simp; omega, by simp; omega⟩
  · rintro ⟨a, b, rfl, rfl⟩
    have := a.2
    have := b.2
    omega

/-- A sample constraint passes the checks exactly when both indices are below the number of samples. What is missing: the
second index should be compared with the number of factors (`C42_sample_refuted`). -/
theorem C42_sample_partial (kind : CKind K) (i j : ℤ) :
    cIndexOk m n k ⟨kind, (i, j), .sample⟩ = true ↔ ∃ a b : Fin m, i = a ∧ j = b := by
  simp only [cIndexOk, decide_eq_true_eq]
  constructor
  · rintro ⟨h1, h2⟩
    exact ⟨⟨i.toNat, by omega⟩, ⟨j.toNat, by omega⟩, by simp; omega, by simp; omega⟩
  · rintro ⟨a, b, rfl, rfl⟩
    have := a.2
    have := b.2
    omega

/-- The index check of sample constraints is right for all indices exactly if there are as many samples as factors (or no samples). -/
theorem C42_sample_iff (kind : CKind K) :
    (∀ i j : ℤ, cIndexOk m n k ⟨kind, (i, j), .sample⟩ = true ↔ ∃ (a : Fin m) (b : Fin k), i = a ∧ j = b) ↔ m = k ∨ m = 0 := by
  simp only [C42_sample_partial]
  constructor
  · intro h
    by_contra hc
    rw [not_or] at hc
    have hm : 0 < m := Nat.pos_of_ne_zero hc.2
    rcases Nat.lt_or_gt_of_ne hc.1 with hlt | hgt
    · obtain ⟨_, b, -, hb⟩ := (h 0 m).2 ⟨⟨0, hm⟩, ⟨m, hlt⟩, rfl, rfl⟩
      have := b.2
      omega
    · obtain ⟨_, b, -, hb⟩ := (h 0 k).1 ⟨⟨0, hm⟩, ⟨k, hgt⟩, rfl, rfl⟩
      have := b.2
      omega
  · rintro (rfl | rfl) i j
    · rfl
    · exact ⟨fun ⟨a, _⟩ => a.elim0, fun ⟨a, _⟩ => a.elim0⟩

/-- **Disagreement.** With more samples than factors, the sample constraint `(0, k)` is accepted although the contribution
matrix has only `k` columns; applying it raises `IndexError`. With fewer samples than factors the existing entry `(0, m)` is
rejected. -/
theorem C42_sample_refuted (kind : CKind K) (hm : 0 < m) :
    (k < m → cIndexOk m n k ⟨kind, (0, k), .sample⟩ = true ∧ cEntry m n k ⟨kind, (0, k), .sample⟩ = none) ∧
    (∀ h : m < k, cIndexOk m n k ⟨kind, (0, m), .sample⟩ = false ∧
      cEntry m n k ⟨kind, (0, m), .sample⟩ = some (.inr (⟨0, hm⟩, ⟨m, h⟩))) := by
  constructor
  · intro h
    constructor
    · simp only [cIndexOk, decide_eq_true_eq]
      omega
    · simp [cEntry, axisIndex]
  · intro h
    constructor
    · simp only [cIndexOk, decide_eq_false_iff_not]
      omega
    · simp [cEntry, axisIndex, hm, h]

end dict

/-! ## C43 -/

section limits
variable {K : Type*} [Field K] [LinearOrder K] [IsStrictOrderedRing K] {m n k : ℕ}

/-- Below the lower limit the profile entry handed to the update is the lower limit.

What is missing: values inside and above the limits (`C43_inside_refuted`, `C43_above_refuted`). -/
theorem C43_below_partial (E : CEnv m n k K) (f : K → K) (cur base lo hi : K) (h0 : 0 ≤ lo) (hc : cur < lo) :
    cDelta E (.limits lo hi) f cur base + cur = lo ∧ |cDelta E (.limits lo hi) f cur base + cur| = lo := by
  have : cDelta E (.limits lo hi) f cur base + cur = lo := by
    simp only [cDelta, if_pos hc]
    ring
  exact ⟨this, by rw [this, abs_of_nonneg h0]⟩

/-- **Disagreement.** A value inside its limits is doubled. -/
theorem C43_inside_refuted (E : CEnv m n k K) (f : K → K) (cur base lo hi : K) (h1 : lo ≤ cur) (h2 : cur ≤ hi) (h0 : 0 < cur) :
    |cDelta E (.limits lo hi) f cur base + cur| = 2 * cur ∧ 2 * cur ≠ cur ∧ (hi < 2 * lo → hi < 2 * cur) := by
  have : cDelta E (.limits lo hi) f cur base + cur = 2 * cur := by
    simp only [cDelta, if_neg (not_lt.2 h1), if_neg (not_lt.2 h2)]
    ring
  refine ⟨by rw [this, abs_of_pos (by linarith)], by linarith, fun h => by linarith⟩

/-- **Disagreement.** A value above its upper limit is moved further up, by the distance to the limit. -/
theorem C43_above_refuted (E : CEnv m n k K) (f : K → K) (cur base lo hi : K) (h0 : 0 ≤ lo) (h1 : lo ≤ hi) (h2 : hi < cur) :
    |cDelta E (.limits lo hi) f cur base + cur| = cur + (cur - hi) ∧ hi < cur + (cur - hi) := by
  have : cDelta E (.limits lo hi) f cur base + cur = cur + (cur - hi) := by
    simp only [cDelta, if_neg (not_lt.2 (h1.trans h2.le)), if_pos h2]
    ring
  refine ⟨by rw [this, abs_of_pos (by linarith)], by linarith⟩

example (E : CEnv 1 1 1 ℚ) : cDelta E (.limits 1 4) (fun _ => 0) 3 0 + 3 = 6 ∧ cDelta E (.limits 1 4) (fun _ => 0) 5 0 + 5 = 6 ∧
    cDelta E (.limits 1 4) (fun _ => 0) (1 / 2) 0 + 1 / 2 = 1 := by
  norm_num [cDelta]

end limits

/-! ## C44 -/

section zero
variable {K : Type*} [Field K] [LinearOrder K] [IsStrictOrderedRing K] {m n k : ℕ}

theorem applyConstraints_feature (E : CEnv m n k K) (W : Mat m k K) (H : Mat k n K) (a : Fin k) (j : Fin n) (cs : List (Constraint K)) :
    ∀ D D', applyConstraints E W H cs D = some D' →
    (∀ c ∈ cs, cEntry m n k c = some (.inl (a, j)) → c.kind matches .zero) →
    ((∃ c ∈ cs, cEntry m n k c = some (.inl (a, j))) ∨ D.2 a j = -H a j) → D'.2 a j = -H a j := by
  induction cs with
  | nil =>
    intro D D' h _ h2
    simp only [applyConstraints, Option.some.injEq] at h
    subst h
    simpa using h2
  | cons c cs ih =>
    intro D D' h h1 h2
    simp only [applyConstraints, Option.bind_eq_some_iff] at h
    obtain ⟨D1, hD1, h⟩ := h
    refine ih D1 D' h (fun c' hc' => h1 c' (List.mem_cons_of_mem _ hc')) ?_
    by_cases hex : ∃ c' ∈ cs, cEntry m n k c' = some (.inl (a, j))
    · exact .inl hex
    · right
      unfold applyOne at hD1
      split at hD1
      · simp at hD1
      · rename_i a' j' he
        simp only [Option.some.injEq] at hD1
        subst hD1
        simp only [setEntry]
        by_cases hsame : a = a' ∧ j = j'
        · rw [if_pos hsame]
          obtain ⟨rfl, rfl⟩ := hsame
          have := h1 c List.mem_cons_self he
          split at this
          · rename_i hk
            simp [cDelta, hk]
          · simp at this
        · rw [if_neg hsame]
          rcases h2 with ⟨c', hc', he'⟩ | h2
          · rcases List.mem_cons.1 hc' with rfl | hc'
            · rw [he, Option.some.injEq, Sum.inl.injEq, Prod.mk.injEq] at he'
              exact absurd ⟨he'.1.symm, he'.2.symm⟩ hsame
            · exact absurd ⟨c', hc', he'⟩ hex
          · exact h2
      · rename_i i' a' he
        simp only [Option.some.injEq] at hD1
        subst hD1
        rcases h2 with ⟨c', hc', he'⟩ | h2
        · rcases List.mem_cons.1 hc' with rfl | hc'
          · rw [he] at he'
            simp at he'
          · exact absurd ⟨c', hc', he'⟩ hex
        · exact h2

theorem applyConstraints_sample (E : CEnv m n k K) (W : Mat m k K) (H : Mat k n K) (i : Fin m) (a : Fin k) (cs : List (Constraint K)) :
    ∀ D D', applyConstraints E W H cs D = some D' →
    (∀ c ∈ cs, cEntry m n k c = some (.inr (i, a)) → c.kind matches .zero) →
    ((∃ c ∈ cs, cEntry m n k c = some (.inr (i, a))) ∨ D.1 i a = -W i a) → D'.1 i a = -W i a := by
  induction cs with
  | nil =>
    intro D D' h _ h2
    simp only [applyConstraints, Option.some.injEq] at h
    subst h
    simpa using h2
  | cons c cs ih =>
    intro D D' h h1 h2
    simp only [applyConstraints, Option.bind_eq_some_iff] at h
    obtain ⟨D1, hD1, h⟩ := h
    refine ih D1 D' h (fun c' hc' => h1 c' (List.mem_cons_of_mem _ hc')) ?_
    by_cases hex : ∃ c' ∈ cs, cEntry m n k c' = some (.inr (i, a))
    · exact .inl hex
    · right
      unfold applyOne at hD1
      split at hD1
      · simp at hD1
      · rename_i a' j' he
        simp only [Option.some.injEq] at hD1
        subst hD1
        rcases h2 with ⟨c', hc', he'⟩ | h2
        · rcases List.mem_cons.1 hc' with rfl | hc'
          · rw [he] at he'
            simp at he'
          · exact absurd ⟨c', hc', he'⟩ hex
        · exact h2
      · rename_i i' a' he
        simp only [Option.some.injEq] at hD1
        subst hD1
        simp only [setEntry]
        by_cases hsame : i = i' ∧ a = a'
        · rw [if_pos hsame]
          obtain ⟨rfl, rfl⟩ := hsame
          have := h1 c List.mem_cons_self he
          split at this
          · rename_i hk
            simp [cDelta, hk]
          · simp at this
        · rw [if_neg hsame]
          rcases h2 with ⟨c', hc', he'⟩ | h2
          · rcases List.mem_cons.1 hc' with rfl | hc'
            · rw [he, Option.some.injEq, Sum.inr.injEq, Prod.mk.injEq] at he'
              exact absurd ⟨he'.1.symm, he'.2.symm⟩ hsame
            · exact absurd ⟨c', hc', he'⟩ hex
          · exact h2

theorem lsUpdate_zeros (V We : Mat m n K) (hold : Bool) (W W' : Mat m k K) (H H' : Mat k n K)
    (h : lsUpdate V We hold W H = some (W', H')) :
    (∀ i a, W i a = 0 → W' i a = 0) ∧ (∀ a j, H a j = 0 → H' a j = 0) := by
  obtain ⟨h1, h2⟩ := lsUpdate_eq_some.1 h
  refine ⟨fun i a h0 => ?_, fun a j h0 => ?_⟩
  · obtain ⟨_, e⟩ := lsStepW_eq_some.1 h2
    rw [e]
    simp [emul, h0]
  · rcases h1 with ⟨_, rfl⟩ | ⟨_, h1⟩
    · exact h0
    · obtain ⟨_, e⟩ := lsStepH_eq_some.1 h1
      rw [e]
      simp [emul, h0]

/-- States of the training loop, one per iteration. -/
def cStates (E : CEnv m n k K) (ep : Mat m k K → Mat k n K → Mat m k K × Mat k n K)
    (update : Mat m k K → Mat k n K → Option (Mat m k K × Mat k n K)) (cs : List (Constraint K)) :
    ℕ → Mat m k K × Mat k n K → Option (Mat m k K × Mat k n K)
  | 0, s => some s
  | t + 1, s => (cIteration E ep update cs s).bind fun s' => cStates E ep update cs t s'

theorem cStates_last (E : CEnv m n k K) (ep : Mat m k K → Mat k n K → Mat m k K × Mat k n K)
    (update : Mat m k K → Mat k n K → Option (Mat m k K × Mat k n K)) (cs : List (Constraint K)) (t : ℕ) :
    ∀ s s', cStates E ep update cs (t + 1) s = some s' → ∃ s1, cIteration E ep update cs s1 = some s' := by
  induction t with
  | zero =>
    intro s s' h
    simp only [cStates, Option.bind_eq_some_iff, Option.some.injEq] at h
    obtain ⟨x, h1, rfl⟩ := h
    exact ⟨s, h1⟩
  | succ t ih =>
    intro s s' h
    rw [cStates, Option.bind_eq_some_iff] at h
    obtain ⟨x, h1, h2⟩ := h
    exact ih x s' h2

/-- With LS-NMF and a 'set to zero' constraint on a profile entry, that entry is exactly zero after every iteration, whatever
the data, the expressions and the other constraints are, as long as no other constraint addresses the same entry. -/
theorem C44_profile (E : CEnv m n k K) (We : Mat m n K) (hold : Bool) (ep : Mat m k K → Mat k n K → Mat m k K × Mat k n K)
    (cs : List (Constraint K)) (a : Fin k) (j : Fin n) (c : Constraint K) (hc : c ∈ cs) (he : cEntry m n k c = some (.inl (a, j)))
    (hall : ∀ c ∈ cs, cEntry m n k c = some (.inl (a, j)) → c.kind matches .zero) (t : ℕ) (s s' : Mat m k K × Mat k n K)
    (h : cStates E ep (lsUpdate E.V We hold) cs (t + 1) s = some s') : s'.2 a j = 0 := by
  obtain ⟨s1, h1⟩ := cStates_last E ep _ cs t s s' h
  unfold cIteration at h1
  rw [Option.bind_eq_some_iff] at h1
  obtain ⟨D, hD, hu⟩ := h1
  have := applyConstraints_feature E s1.1 s1.2 a j cs _ D hD hall (.inl ⟨c, hc, he⟩)
  refine (lsUpdate_zeros _ _ _ _ _ _ _ hu).2 a j ?_
  simp [pulled, this]

/-- The same for a contribution entry. -/
theorem C44_contribution (E : CEnv m n k K) (We : Mat m n K) (hold : Bool) (ep : Mat m k K → Mat k n K → Mat m k K × Mat k n K)
    (cs : List (Constraint K)) (i : Fin m) (a : Fin k) (c : Constraint K) (hc : c ∈ cs) (he : cEntry m n k c = some (.inr (i, a)))
    (hall : ∀ c ∈ cs, cEntry m n k c = some (.inr (i, a)) → c.kind matches .zero) (t : ℕ) (s s' : Mat m k K × Mat k n K)
    (h : cStates E ep (lsUpdate E.V We hold) cs (t + 1) s = some s') : s'.1 i a = 0 := by
  obtain ⟨s1, h1⟩ := cStates_last E ep _ cs t s s' h
  unfold cIteration at h1
  rw [Option.bind_eq_some_iff] at h1
  obtain ⟨D, hD, hu⟩ := h1
  have := applyConstraints_sample E s1.1 s1.2 i a cs _ D hD hall (.inl ⟨c, hc, he⟩)
  refine (lsUpdate_zeros _ _ _ _ _ _ _ hu).1 i a ?_
  simp [pulled, this]

/-- In the stored solution (`initialize(H=H_i, W=W_i)`) a zero profile entry has become `1e-12`, a zero contribution entry is
still zero. The data have no NaN: the call would raise otherwise (`whiten`, sa.py:255). -/
theorem C44_stored {R : Type*} (sqrt? : K → Option K) (wsU : Mat k n (Option K) → Mat m k (Option K)) (sa : SA m n k K R)
    (hV : ∀ i j, sa.V i j ≠ none) (W : Mat m k K) (H : Mat k n K) (d : InitDraws m n k K) :
    ∃ sa', sa.initialize sqrt? wsU ⟨some ⟨k, n, fun a j => some (H a j)⟩, false, some ⟨m, k, fun i a => some (W i a)⟩, false,
        false, d, true⟩ = .ok sa' ∧
      sa'.H = some ⟨k, n, fun a j => some ((if H a j ≤ 0 then 1 / 10 ^ 12 else H a j : K) : WithTop K)⟩ ∧
      sa'.W = some ⟨m, k, fun i a => some (W i a)⟩ := by
  have e : asShape k n (⟨k, n, fun a j => some (H a j)⟩ : DMat (Option K)) = some fun a j => some (H a j) := by simp [asShape]
  have hN : anyNaN sa.V = false := by
    unfold anyNaN
    rw [decide_eq_false_iff_not]
    rintro ⟨i, j, hc⟩
    exact hV i j (Option.isNone_iff_eq_none.1 hc)
  simp only [SA.initialize, scipyAccepts, hN, Bool.and_false, Bool.not_false, if_true, initFactors, baseFactors, Option.bind_some, e,
    Option.isSome_some, Option.getD_some, Bool.false_eq_true, if_false, Bool.and_true]
  refine ⟨_, rfl, ?_, rfl⟩
  simp only [Option.some.injEq, DMat.mk.injEq, heq_eq_eq, true_and]
  rfl

/-- Non-trivial case: two iterations on a 2×2 problem with two factors; the constrained profile entry is zero, the others
are not. -/
example : ((cStates (K := ℚ) (m := 2) (n := 2) (k := 2) ⟨fun i j => i.1 + j.1 + 1, fun _ _ => 1, fun _ _ => 1, fun _ _ => 1, 1 / 10 ^ 8, 100⟩
      (fun _ _ => (fun _ _ => 0, fun _ _ => 0)) (lsUpdate (fun i j => i.1 + j.1 + 1) (fun _ _ => 1) false)
      [⟨.zero, (0, 1), .feature⟩] 2 (fun i a => i.1 + a.1 + 1, fun a j => a.1 + 2 * j.1 + 1)).map
      fun s => (decide (s.2 0 1 = 0), decide (s.2 0 0 = 0), decide (s.2 1 1 = 0))) = some (true, false, false) := by
  decide +kernel

end zero

/-! ## C47 -/

section pulls
variable {K : Type*} [Field K] [LinearOrder K] [IsStrictOrderedRing K]

theorem pullToLoop_between (f : K → K) (lim eps slack : K) : ∀ (r : ℕ) (low high mid pv : K), low ≤ mid → mid ≤ high →
    low ≤ pullToLoop f lim eps slack r low high mid pv ∧ pullToLoop f lim eps slack r low high mid pv ≤ high := by
  intro r
  induction r with
  | zero => intro low high mid pv h1 h2; exact ⟨h1, h2⟩
  | succ r ih =>
    intro low high mid pv h1 h2
    unfold pullToLoop
    split
    · simp only
      split
      · exact ⟨h1, h2⟩
      · have := ih mid high ((mid + high) / 2) ((mid + high) / 2) (by linarith) (by linarith)
        exact ⟨h1.trans this.1, this.2⟩
    · split
      · simp only
        split
        · exact ⟨h1, h2⟩
        · have := ih low mid ((low + mid) / 2) ((low + mid) / 2) (by linarith) (by linarith)
          exact ⟨this.1, this.2.trans h2⟩
      · exact ⟨h1, h2⟩

/-- 'Pull to value' returns a value between the current value and the target, for any loss. -/
theorem C47_to (f : K → K) (lim eps slack cur target : K) :
    min cur target ≤ pullTo f lim eps slack cur target ∧ pullTo f lim eps slack cur target ≤ max cur target := by
  unfold pullTo
  split
  · exact ⟨min_le_right _ _, le_max_right _ _⟩
  · split
    · rename_i h
      have := pullToLoop_between f lim eps slack 31 cur target ((target + cur) / 2) 0 (by linarith) (by linarith)
      exact ⟨(min_le_left _ _).trans this.1, this.2.trans (le_max_right _ _)⟩
    · rename_i h
      have h' := not_lt.1 h
      have := pullToLoop_between f lim eps slack 31 target cur ((cur + target) / 2) 0 (by linarith) (by linarith)
      exact ⟨(min_le_right _ _).trans this.1, this.2.trans (le_max_left _ _)⟩

theorem pullDownLoop_bounds (f : K → K) (lim eps slack : K) : ∀ (r : ℕ) (low high md pmd cur : K), 0 < r → 0 ≤ low → low ≤ md → 0 < md →
    md ≤ high → high ≤ 1 → 0 < cur →
    0 < pullDownLoop f lim eps slack r low high md pmd cur ∧ pullDownLoop f lim eps slack r low high md pmd cur ≤ cur * md := by
  intro r
  induction r with
  | zero => intro low high md pmd cur h; omega
  | succ r ih =>
    intro low high md pmd cur _ h0 h1 h2 h3 h4 h5
    have hv : 0 < cur * md := mul_pos h5 h2
    have hstep : ∀ md', md' ≤ 1 → cur * md * md' ≤ cur * md := fun md' h => mul_le_of_le_one_right hv.le h
    unfold pullDownLoop
    simp only
    split
    · split
      · exact ⟨hv, le_rfl⟩
      · rename_i hn
        have := ih md high ((md + high) / 2) ((md + high) / 2) (cur * md) (Nat.pos_of_ne_zero fun h => hn (.inr h)) h2.le (by linarith) (by linarith) (by linarith) h4 hv
        exact ⟨this.1, this.2.trans (hstep _ (by linarith))⟩
    · split
      · split
        · exact ⟨hv, le_rfl⟩
        · rename_i hn
          have := ih low md ((low + md) / 2) ((low + md) / 2) (cur * md) (Nat.pos_of_ne_zero fun h => hn (.inr h)) h0 (by linarith) (by linarith) (by linarith) (by linarith) hv
          exact ⟨this.1, this.2.trans (hstep _ (by linarith))⟩
      · exact ⟨hv, le_rfl⟩

/-- 'Pull down' of a positive value returns a positive value, at most half of the current one.

What is missing: entries that are zero or negative (`C47_down_zero_refuted`, `C47_down_negative_refuted`). -/
theorem C47_down_partial (f : K → K) (lim eps slack cur : K) (h : 0 < cur) :
    0 < pullDown f lim eps slack cur ∧ pullDown f lim eps slack cur ≤ cur / 2 := by
  obtain ⟨h1, h2⟩ := pullDownLoop_bounds f lim eps slack 31 0 1 ((1 + 0) / 2) 0 cur (by norm_num) le_rfl (by norm_num) (by norm_num)
    (by norm_num) le_rfl h
  unfold pullDown
  simp only [if_neg h1.ne']
  exact ⟨h1, h2.trans (by linarith)⟩

/-- **Disagreement.** 'Pull down' raises an entry that is zero to `1e-8`. -/
theorem C47_down_zero_refuted (f : K → K) (lim eps slack : K) (he : 0 < eps) : 0 < pullDown f lim eps slack 0 := by
  have key : ∀ (r : ℕ) (low high md pmd : K), pullDownLoop f lim eps slack r low high md pmd 0 = 0 := by
    intro r
    induction r with
    | zero => intro low high md pmd; rfl
    | succ r ih =>
      intro low high md pmd
      unfold pullDownLoop
      simp only [zero_mul, ih, ite_self]
  unfold pullDown
  simp only [key, if_true]
  exact he

/-- **Disagreement.** 'Pull down' moves a negative entry (WS-NMF contributions) up. -/
theorem C47_down_negative_refuted (f : K → K) (lim eps slack cur : K) (h : cur < 0) : cur < pullDown f lim eps slack cur := by
  have neg : ∀ (r : ℕ) (low high md pmd c : K), pullDownLoop f lim eps slack r low high md pmd (-c) =
      -pullDownLoop (fun v => f (-v)) lim eps slack r low high md pmd c := by
    intro r
    induction r with
    | zero => intro low high md pmd c; rfl
    | succ r ih =>
      intro low high md pmd c
      unfold pullDownLoop
      simp only [neg_mul, ih]
      split_ifs <;> rfl
  have h2 := pullDownLoop_bounds (fun v => f (-v)) lim eps slack 31 0 1 ((1 + 0) / 2) 0 (-cur) (by norm_num) le_rfl (by norm_num)
    (by norm_num) (by norm_num) le_rfl (by linarith)
  have e := neg 31 0 1 ((1 + 0) / 2) 0 (-cur)
  rw [neg_neg] at e
  unfold pullDown
  simp only [e]
  rw [if_neg (by linarith [h2.1])]
  linarith [h2.2]

theorem pullUpLoop_ge (f : K → K) (lim slack base : K) (hb : 0 ≤ base) : ∀ (r : ℕ) (low high md : K), 1 ≤ low → low ≤ md → md ≤ high →
    base ≤ pullUpLoop f lim slack base r low high md := by
  intro r
  induction r with
  | zero => intro low high md h1 h2 _; exact le_mul_of_one_le_right hb (h1.trans h2)
  | succ r ih =>
    intro low high md h1 h2 h3
    have hv : base ≤ base * md := le_mul_of_one_le_right hb (h1.trans h2)
    unfold pullUpLoop
    simp only
    split
    · split
      · exact hv
      · exact ih low md ((md + low) / 2) h1 (by linarith) (by linarith)
    · split
      · split
        · exact hv
        · exact ih md high ((high + md) / 2) (by linarith) (by linarith) (by linarith)
      · exact hv

theorem pullUpBound_spec (f : K → K) (lim base : K) (hb : 0 ≤ base) : ∀ (r : ℕ) (low high : K), 1 ≤ low → low ≤ high →
    (∀ v, pullUpBound f lim base r low high = .inl v → base ≤ v) ∧
    (∀ l h, pullUpBound f lim base r low high = .inr (l, h) → 1 ≤ l ∧ l ≤ h) := by
  intro r
  induction r with
  | zero =>
    intro low high h1 h2
    simp only [pullUpBound, Sum.inl.injEq, reduceCtorEq, false_imp_iff, implies_true, and_true]
    rintro v rfl
    exact le_mul_of_one_le_right hb (h1.trans h2)
  | succ r ih =>
    intro low high h1 h2
    have hv : base ≤ base * high := le_mul_of_one_le_right hb (h1.trans h2)
    unfold pullUpBound
    simp only
    split
    · split
      · simp only [Sum.inl.injEq, reduceCtorEq, false_imp_iff, implies_true, and_true]
        rintro v rfl
        exact hv
      · exact ih high (high * 2) (by linarith) (by linarith)
    · split
      · simp only [Sum.inl.injEq, reduceCtorEq, false_imp_iff, implies_true, and_true]
        rintro v rfl
        exact hv
      · simp only [Sum.inr.injEq, Prod.mk.injEq, reduceCtorEq, false_imp_iff, implies_true, true_and]
        rintro l h ⟨rfl, rfl⟩
        exact ⟨h1, h2⟩

/-- 'Pull up' of a non-negative value never returns less than the current value, for a non-negative limit and any loss
(`f base = 0`: the response is the change relative to the current value).

What is missing: negative limits and negative entries (`C47_up_negative_refuted`). -/
theorem C47_up_partial (f : K → K) (lim slack base : K) (hb : 0 ≤ base) (hlim : 0 ≤ lim) (hf : f base = 0) :
    base ≤ pullUp f lim slack base := by
  unfold pullUp
  have h29 : pullUpBound f lim base 30 0 2 =
      if f (base * 2) < lim then pullUpBound f lim base 29 2 (2 * 2) else .inr (0, 2) := by
    rw [show (30 : ℕ) = 29 + 1 from rfl, pullUpBound]
    simp
  rw [h29]
  by_cases h : f (base * 2) < lim
  · rw [if_pos h]
    obtain ⟨s1, s2⟩ := pullUpBound_spec f lim base hb 29 2 (2 * 2) (by norm_num) (by norm_num)
    cases hx : pullUpBound f lim base 29 2 (2 * 2) with
    | inl v => exact s1 v hx
    | inr p =>
      obtain ⟨l, h'⟩ := p
      obtain ⟨q1, q2⟩ := s2 l h' hx
      exact pullUpLoop_ge f lim slack base hb 30 l h' ((h' + l) / 2) q1 (by linarith) (by linarith)
  · rw [if_neg h]
    simp only
    rw [show (30 : ℕ) = 29 + 1 from rfl, pullUpLoop]
    have e : base * ((2 + 0) / 2) = base := by norm_num
    simp only [e, hf, if_neg (not_lt.2 hlim)]
    split
    · simp only [Nat.reduceEqDiff, if_false]
      exact pullUpLoop_ge f lim slack base hb 29 _ 2 _ (by norm_num) (by norm_num) (by norm_num)
    · exact le_rfl

/-- **Disagreement.** 'Pull up' moves a negative entry down when the first doubling leaves room: with a loss that never reaches
the limit it returns `2^30` times the negative value. -/
theorem C47_up_negative_refuted (f : K → K) (lim slack base : K) (hb : base < 0) (hf : ∀ v, f v < lim) :
    pullUp f lim slack base < base := by
  have key : ∀ (r : ℕ) (low high : K), 2 ≤ high → 0 < r → ∃ v, pullUpBound f lim base r low high = .inl v ∧ v ≤ base * 2 := by
    intro r
    induction r with
    | zero => intro low high _ h; omega
    | succ r ih =>
      intro low high h1 _
      unfold pullUpBound
      simp only [hf, if_true]
      split
      · exact ⟨_, rfl, mul_le_mul_of_nonpos_left h1 hb.le⟩
      · exact ih high (high * 2) (by linarith) (by omega)
  obtain ⟨v, h1, h2⟩ := key 30 0 2 le_rfl (by norm_num)
  unfold pullUp
  rw [h1]
  simp only
  linarith

/-- 'Pull down' never returns more than the current value exactly for positive entries. -/
theorem C47_down_iff (f : K → K) (lim eps slack cur : K) (he : 0 < eps) : pullDown f lim eps slack cur ≤ cur ↔ 0 < cur := by
  constructor
  · intro h
    by_contra hc
    rcases (not_lt.1 hc).lt_or_eq with hc | rfl
    · exact absurd h (not_le.2 (C47_down_negative_refuted f lim eps slack cur hc))
    · exact absurd h (not_le.2 (C47_down_zero_refuted f lim eps slack he))
  · intro h
    linarith [(C47_down_partial f lim eps slack cur h).2]

theorem pullUpLoop_inside (f : K → K) (lim slack base : K) : ∀ (r : ℕ) (low high md : K), low < md → md < high →
    ∃ t, low < t ∧ t < high ∧ pullUpLoop f lim slack base r low high md = base * t := by
  intro r
  induction r with
  | zero => intro low high md h1 h2; exact ⟨md, h1, h2, rfl⟩
  | succ r ih =>
    intro low high md h1 h2
    unfold pullUpLoop
    simp only
    split
    · split
      · exact ⟨md, h1, h2, rfl⟩
      · obtain ⟨t, t1, t2, t3⟩ := ih low md ((md + low) / 2) (by linarith) (by linarith)
        exact ⟨t, t1, t2.trans h2, t3⟩
    · split
      · split
        · exact ⟨md, h1, h2, rfl⟩
        · obtain ⟨t, t1, t2, t3⟩ := ih md high ((high + md) / 2) (by linarith) (by linarith)
          exact ⟨t, h1.trans t1, t2, t3⟩
      · exact ⟨md, h1, h2, rfl⟩

theorem pullUpBound_factor (f : K → K) (lim base : K) : ∀ (r : ℕ) (low high : K), 2 ≤ low → low < high →
    (∀ v, pullUpBound f lim base r low high = .inl v → ∃ t, 2 ≤ t ∧ v = base * t) ∧
    (∀ l h, pullUpBound f lim base r low high = .inr (l, h) → 2 ≤ l ∧ l < h) := by
  intro r
  induction r with
  | zero =>
    intro low high h1 h2
    simp only [pullUpBound, Sum.inl.injEq, reduceCtorEq, false_imp_iff, implies_true, and_true]
    rintro v rfl
    exact ⟨high, h1.trans h2.le, rfl⟩
  | succ r ih =>
    intro low high h1 h2
    unfold pullUpBound
    simp only
    split
    · split
      · simp only [Sum.inl.injEq, reduceCtorEq, false_imp_iff, implies_true, and_true]
        rintro v rfl
        exact ⟨high, h1.trans h2.le, rfl⟩
      · exact ih high (high * 2) (by linarith) (by linarith)
    · split
      · simp only [Sum.inl.injEq, reduceCtorEq, false_imp_iff, implies_true, and_true]
        rintro v rfl
        exact ⟨high, h1.trans h2.le, rfl⟩
      · simp only [Sum.inr.injEq, Prod.mk.injEq, reduceCtorEq, false_imp_iff, implies_true, true_and]
        rintro l h ⟨rfl, rfl⟩
        exact ⟨h1, h2⟩

/-- 'Pull up' multiplies the current value by a positive factor: at least 2 if the loss at twice the value is below the limit, otherwise at least 1 and below 2 for a non-negative limit, and below 1 for a negative one. -/
theorem C47_up_factor (f : K → K) (lim slack base : K) (hf : f base = 0) :
    ∃ t, 0 < t ∧ pullUp f lim slack base = base * t ∧ (f (base * 2) < lim → 2 ≤ t) ∧ (¬f (base * 2) < lim → 0 ≤ lim → 1 ≤ t ∧ t < 2) ∧
      (¬f (base * 2) < lim → lim < 0 → t < 1) := by
  unfold pullUp
  have h29 : pullUpBound f lim base 30 0 2 =
      if f (base * 2) < lim then pullUpBound f lim base 29 2 (2 * 2) else .inr (0, 2) := by
    rw [show (30 : ℕ) = 29 + 1 from rfl, pullUpBound]
    simp
  rw [h29]
  by_cases h : f (base * 2) < lim
  · rw [if_pos h]
    simp only [h, not_true_eq_false, true_imp_iff, false_imp_iff, and_true]
    obtain ⟨s1, s2⟩ := pullUpBound_factor f lim base 29 2 (2 * 2) le_rfl (by norm_num)
    cases hx : pullUpBound f lim base 29 2 (2 * 2) with
    | inl v =>
      obtain ⟨t, ht, e⟩ := s1 v hx
      exact ⟨t, by linarith, e, ht⟩
    | inr p =>
      obtain ⟨l, h'⟩ := p
      obtain ⟨q1, q2⟩ := s2 l h' hx
      obtain ⟨t, t1, t2, t3⟩ := pullUpLoop_inside f lim slack base 30 l h' ((h' + l) / 2) (by linarith) (by linarith)
      exact ⟨t, by linarith, t3, by linarith⟩
  · rw [if_neg h]
    simp only [h, not_false_eq_true, true_imp_iff, false_imp_iff, true_and]
    rw [show (30 : ℕ) = 29 + 1 from rfl, pullUpLoop]
    have e : base * ((2 + 0) / 2) = base := by norm_num
    simp only [e, hf]
    by_cases hl : lim < 0
    · rw [if_pos hl, if_neg (by norm_num)]
      obtain ⟨t, t1, t2, t3⟩ := pullUpLoop_inside f lim slack base 29 0 ((2 + 0) / 2) (((2 + 0) / 2 + 0) / 2) (by norm_num) (by norm_num)
      have : (2 + 0) / 2 = (1 : K) := by norm_num
      rw [this] at t2
      exact ⟨t, t1, t3, fun h => absurd hl (not_lt.2 h), fun _ => t2⟩
    · rw [if_neg hl]
      split
      · simp only [Nat.reduceEqDiff, if_false]
        obtain ⟨t, t1, t2, t3⟩ := pullUpLoop_inside f lim slack base 29 ((2 + 0) / 2) 2 ((2 + (2 + 0) / 2) / 2) (by norm_num) (by norm_num)
        have : (2 + 0) / 2 = (1 : K) := by norm_num
        rw [this] at t1
        exact ⟨t, by linarith, t3, fun _ => ⟨t1.le, t2⟩, fun h => absurd h hl⟩
      · exact ⟨1, one_pos, by rw [mul_one], fun _ => ⟨le_rfl, by norm_num⟩, fun h => absurd h hl⟩

/-- 'Pull up' never returns less than the current value: for a positive entry exactly if the limit is not negative or the loss at twice the value is below it; for a negative entry only if the value stays or these conditions fail; always for zero. -/
theorem C47_up_iff (f : K → K) (lim slack base : K) (hf : f base = 0) :
    (0 < base → (base ≤ pullUp f lim slack base ↔ 0 ≤ lim ∨ f (base * 2) < lim)) ∧
    (base < 0 → (base ≤ pullUp f lim slack base ↔ pullUp f lim slack base = base ∨ lim < 0 ∧ lim ≤ f (base * 2))) ∧
    pullUp f lim slack 0 = 0 := by
  obtain ⟨t, t0, te, h1, h2, h3⟩ := C47_up_factor f lim slack base hf
  refine ⟨fun hb => ?_, fun hb => ?_, ?_⟩
  · rw [te, le_mul_iff_one_le_right hb]
    constructor
    · intro ht
      by_contra hc
      rw [not_or, not_le] at hc
      exact absurd ht (not_le.2 (h3 hc.2 hc.1))
    · intro h
      by_cases hd : f (base * 2) < lim
      · linarith [h1 hd]
      · exact (h2 hd (h.resolve_right hd)).1
  · rw [te]
    constructor
    · intro ht
      have ht1 : t ≤ 1 := by
        by_contra hc
        nlinarith [mul_pos_of_neg_of_neg hb (show 1 - t < 0 by linarith [not_le.1 hc])]
      by_cases hd : f (base * 2) < lim
      · linarith [h1 hd]
      · by_cases hl : lim < 0
        · exact Or.inr ⟨hl, not_lt.1 hd⟩
        · left
          rw [le_antisymm ht1 (h2 hd (not_lt.1 hl)).1, mul_one]
    · rintro (h | h)
      · exact h.ge
      · have := h3 (not_lt.2 h.2) h.1
        nlinarith
  · have hb : ∀ (r : ℕ) (low high : K), (∀ v, pullUpBound f lim 0 r low high = .inl v → v = 0) := by
      intro r
      induction r with
      | zero => intro low high v h; simpa [pullUpBound] using h.symm
      | succ r ih =>
        intro low high v h
        unfold pullUpBound at h
        simp only [zero_mul] at h
        split_ifs at h
        · simpa using h.symm
        · exact ih _ _ v h
        · simpa using h.symm
    have hl : ∀ (r : ℕ) (low high md : K), pullUpLoop f lim slack 0 r low high md = 0 := by
      intro r
      induction r with
      | zero => intro low high md; simp [pullUpLoop]
      | succ r ih =>
        intro low high md
        unfold pullUpLoop
        simp only [zero_mul, ih, ite_self]
    unfold pullUp
    cases hx : pullUpBound f lim 0 30 0 2 with
    | inl v => exact hb _ _ _ v hx
    | inr p => exact hl _ _ _ _

/-- Concrete case: a quadratic response with a negative limit lowers the entry, with limit 1 the entry is raised. -/
example : pullUp (K := ℚ) (fun v => (v - 1) * (v - 1)) (-1) (1 / 10) 1 < 1 ∧ 1 < pullUp (K := ℚ) (fun v => (v - 1) * (v - 1)) (1 / 4) (1 / 10) 1 ∧
    pullUp (K := ℚ) (fun v => (v + 1) * (v + 1)) 2 (1 / 10) (-1) < -1 := by
  decide +kernel

/-! ## C83 -/

/-- A target within the limit is reached exactly, and the change of Q is below the limit.

What is missing: the other cases (`C83_to_refuted`, `C83_down_refuted`). -/
theorem C83_to_partial (f : K → K) (lim eps slack cur target : K) (h : f target < lim) :
    pullTo f lim eps slack cur target = target ∧ f (pullTo f lim eps slack cur target) < lim := by
  unfold pullTo
  rw [if_pos h]
  exact ⟨rfl, h⟩

/-- **Disagreement.** Pulling up to a target: when the change of Q exceeds the limit half way, the search moves further towards
the target, so the returned value exceeds the limit, although smaller pulls respect it. -/
theorem C83_to_refuted (f : K → K) (lim eps slack cur target : K) (hct : cur < target)
    (hf : ∀ v, (cur + target) / 2 ≤ v → v ≤ target → lim < f v) : lim < f (pullTo f lim eps slack cur target) := by
  have key : ∀ (r : ℕ) (low mid pv : K), (cur + target) / 2 ≤ mid → mid ≤ target →
      lim < f (pullToLoop f lim eps slack r low target mid pv) := by
    intro r
    induction r with
    | zero => intro low mid pv h1 h2; exact hf mid h1 h2
    | succ r ih =>
      intro low mid pv h1 h2
      unfold pullToLoop
      rw [if_pos (hf mid h1 h2)]
      simp only
      split
      · exact hf mid h1 h2
      · exact ih mid ((mid + target) / 2) ((mid + target) / 2) (by linarith) (by linarith)
  unfold pullTo
  rw [if_neg (not_lt.2 (hf target (by linarith) le_rfl).le), if_pos hct]
  exact key 31 cur _ 0 (by linarith) (by linarith)

/-- Concrete case: quadratic response, limit 1, from 0 to 4: the pull to 1 would respect the limit, the search returns a value
beyond 2 with a change above 4. -/
example : let r := pullTo (K := ℚ) (fun v => v * v) 1 (1 / 100000000) 100 0 4
    (1 : ℚ) * 1 ≤ 1 ∧ 2 ≤ r ∧ 4 < r * r := by decide +kernel

/-- **Disagreement.** Each evaluation of 'pull down' multiplies the already modified entry, so the search cannot move back up:
when the change of Q exceeds the limit at half the value and below, the returned value exceeds it as well. -/
theorem C83_down_refuted (f : K → K) (lim eps slack cur : K) (h0 : 0 < cur) (hf : ∀ v, 0 < v → v ≤ cur / 2 → lim < f v) :
    lim < f (pullDown f lim eps slack cur) :=
  hf _ (C47_down_partial f lim eps slack cur h0).1 (C47_down_partial f lim eps slack cur h0).2

/-- Concrete case: from 10 with response `(10 - v)^2` and limit 4: 9 would respect it, the search ends below 3. -/
example : let r := pullDown (K := ℚ) (fun v => (10 - v) * (10 - v)) 4 (1 / 100000000) 100 10
    (10 - 9 : ℚ) * (10 - 9) ≤ 4 ∧ r < 3 ∧ 49 < (10 - r) * (10 - r) := by decide +kernel

end pulls

/-! ## C48 -/

section qaux
variable {K : Type*} [Field K] [LinearOrder K] [IsStrictOrderedRing K] {m n k : ℕ}

/-- The squared distance between target and solution. -/
def targetDistance (W Wp Dw : Mat m k K) (H Hp Dh : Mat k n K) : K :=
  ∑ i, ∑ a, (W i a + Dw i a - Wp i a) ^ 2 + ∑ a, ∑ j, (H a j + Dh a j - Hp a j) ^ 2

theorem qAux_eq (soft : K) (W Wp Dw : Mat m k K) (H Hp Dh : Mat k n K) :
    qAux soft W Wp Dw H Hp Dh = targetDistance W Wp Dw H Hp Dh / soft ^ 2 := by
  unfold qAux targetDistance
  rw [← Finset.sum_div, ← Finset.sum_div, add_div]

theorem targetDistance_nonneg (W Wp Dw : Mat m k K) (H Hp Dh : Mat k n K) : 0 ≤ targetDistance W Wp Dw H Hp Dh :=
  add_nonneg (Finset.sum_nonneg fun _ _ => Finset.sum_nonneg fun _ _ => sq_nonneg _)
    (Finset.sum_nonneg fun _ _ => Finset.sum_nonneg fun _ _ => sq_nonneg _)

/-- Q(aux) is non-negative. -/
theorem C48_nonneg (soft : K) (W Wp Dw : Mat m k K) (H Hp Dh : Mat k n K) : 0 ≤ qAux soft W Wp Dw H Hp Dh := by
  rw [qAux_eq]
  exact div_nonneg (targetDistance_nonneg _ _ _ _ _ _) (sq_nonneg _)

/-- Q(aux) is zero exactly when the solution is the base solution plus the pull. -/
theorem C48_zero_iff (soft : K) (hs : 0 < soft) (W Wp Dw : Mat m k K) (H Hp Dh : Mat k n K) :
    qAux soft W Wp Dw H Hp Dh = 0 ↔ (∀ i a, Wp i a = W i a + Dw i a) ∧ (∀ a j, Hp a j = H a j + Dh a j) := by
  rw [qAux_eq, div_eq_zero_iff, or_iff_left (pow_ne_zero 2 hs.ne')]
  unfold targetDistance
  rw [add_eq_zero_iff_of_nonneg (Finset.sum_nonneg fun _ _ => Finset.sum_nonneg fun _ _ => sq_nonneg _)
    (Finset.sum_nonneg fun _ _ => Finset.sum_nonneg fun _ _ => sq_nonneg _),
    Finset.sum_eq_zero_iff_of_nonneg fun _ _ => Finset.sum_nonneg fun _ _ => sq_nonneg _,
    Finset.sum_eq_zero_iff_of_nonneg fun _ _ => Finset.sum_nonneg fun _ _ => sq_nonneg _]
  constructor
  · rintro ⟨h1, h2⟩
    refine ⟨fun i a => ?_, fun a j => ?_⟩
    · have := (Finset.sum_eq_zero_iff_of_nonneg fun _ _ => sq_nonneg _).1 (h1 i (Finset.mem_univ i)) a (Finset.mem_univ a)
      exact (sub_eq_zero.1 (pow_eq_zero_iff (two_ne_zero) |>.1 this)).symm
    · have := (Finset.sum_eq_zero_iff_of_nonneg fun _ _ => sq_nonneg _).1 (h2 a (Finset.mem_univ a)) j (Finset.mem_univ j)
      exact (sub_eq_zero.1 (pow_eq_zero_iff (two_ne_zero) |>.1 this)).symm
  · rintro ⟨h1, h2⟩
    exact ⟨fun i _ => Finset.sum_eq_zero fun a _ => by simp [h1], fun a _ => Finset.sum_eq_zero fun j _ => by simp [h2]⟩

/-- Q(aux) decreases as the softness grows, strictly unless it is zero. -/
theorem C48_softness (s s' : K) (hs : 0 < s) (h : s < s') (W Wp Dw : Mat m k K) (H Hp Dh : Mat k n K) :
    qAux s' W Wp Dw H Hp Dh ≤ qAux s W Wp Dw H Hp Dh ∧
    (qAux s W Wp Dw H Hp Dh ≠ 0 → qAux s' W Wp Dw H Hp Dh < qAux s W Wp Dw H Hp Dh) := by
  have h2 : s ^ 2 < s' ^ 2 := by nlinarith
  have h3 : 0 < s ^ 2 := by positivity
  have hd := targetDistance_nonneg W Wp Dw H Hp Dh
  rw [qAux_eq, qAux_eq]
  refine ⟨div_le_div_of_nonneg_left hd h3 h2.le, fun hne => ?_⟩
  have : 0 < targetDistance W Wp Dw H Hp Dh := by
    rcases hd.lt_or_eq with h | h
    · exact h
    · rw [← h] at hne
      simp at hne
  exact div_lt_div_of_pos_left this h3 h2

example : qAux (K := ℚ) (m := 1) (n := 1) (k := 1) 2 (fun _ _ => 3) (fun _ _ => 5) (fun _ _ => 0) (fun _ _ => 1) (fun _ _ => 4)
    (fun _ _ => 1) = 2 := by decide +kernel

end qaux

/-! ## C49 -/

section files
variable {L β C : Type*} [DecidableEq L]

/-- **Disagreement.** `save` never returns a path: it returns `None` or raises. -/
theorem C49_return_refuted (P : Platform L β) (empty : β) (pickle : SavedModel β → β) (metaText : β) (fs : L → Option (Node β))
    (sa : Option (SavedModel β)) (name dir : String) (pm : Bool) (path : String) :
    (cSave P empty pickle metaText fs sa name dir pm).2 ≠ .ret (some path) := by
  unfold cSave
  simp only
  split
  · simp
  · split
    · simp
    · split
      · simp
      · split
        · simp
        · split <;> simp

/-- **Disagreement.** After a successful `save(pickle_model=True)` the pickle file holds the inner SA solution: `load` returns an
SA object, never a constrained model. -/
theorem C49_load_refuted (P : Platform L β) (empty : β) (pickle : SavedModel β → β) (metaText : β)
    (unpickle : β → Unpickled (SavedModel β ⊕ C)) (hp : ∀ x, unpickle (pickle x) = .ok (.inl x)) (fs fs' : L → Option (Node β))
    (x : SavedModel β) (name dir : String) (hnn : ∀ p, P.norm (P.norm p) = P.norm p)
    (hnj : ∀ d q, P.res (P.norm (P.join d q)) = P.res (P.join d q))
    (haj : ∀ d q, P.isAbs d = true → P.isAbs (P.norm (P.join d q)) = true)
    (hne : P.res (P.join (P.norm dir) ("constrained_model-" ++ name ++ ".pkl")) ≠
      P.res (P.join (P.norm dir) ("constrained_model-" ++ name ++ "-metadata.json")))
    (hd : P.isAbs (P.norm dir) = true) (hex : fs (P.res (P.norm dir)) ≠ none)
    (h : cSave P empty pickle metaText fs (some x) name dir true = (fs', .ret none)) :
    cLoad P unpickle fs' (P.join (P.norm dir) ("constrained_model-" ++ name ++ ".pkl")) = .ret (some (.inl x)) := by
  unfold cSave at h
  have hex' : (fs (P.res (P.norm dir))).isNone = false := by
    cases hx : fs (P.res (P.norm dir)) with
    | none => exact absurd hx hex
    | some _ => rfl
  simp only [hd, hex', Bool.true_eq_false, Bool.false_eq_true, if_false] at h
  unfold saSave at h
  simp only [hnn, hd, hex', Bool.true_eq_false, Bool.false_eq_true, if_false, if_true] at h
  unfold writeFile at h
  by_cases ho : P.canOpen fs (P.res (P.join (P.norm dir) ("constrained_model-" ++ name ++ ".pkl"))) = true
  · simp only [ho, if_true] at h
    by_cases ho2 : P.canOpen (FS.set fs (P.res (P.join (P.norm dir) ("constrained_model-" ++ name ++ ".pkl"))) (pickle x))
        (P.res (P.join (P.norm dir) ("constrained_model-" ++ name ++ "-metadata.json"))) = true
    · simp only [ho2, if_true, Prod.mk.injEq, and_true] at h
      subst h
      unfold cLoad
      simp only [haj _ _ hd, Bool.true_eq_false, if_false, hnj]
      simp only [FS.set, if_neg hne, if_true, hp]
    · simp [ho2] at h
  · simp [ho] at h

/-- Non-trivial case: on a platform with plain paths, saving to an existing directory succeeds and the hypotheses of the theorem hold. -/
example : let P : Platform String String := ⟨id, fun p => p.toList.head? = some '/', fun d p => d ++ "/" ++ p, id, fun _ _ => true⟩
    (cSave P "" (fun x => "pickle " ++ x.metadata) "meta" (fun l => if l = "/data" then some .dir else none) (some ⟨"x", none, none, none, none⟩)
      "m" "/data" true).2 = .ret none ∧
    P.res (P.join (P.norm "/data") ("constrained_model-" ++ "m" ++ ".pkl")) ≠
      P.res (P.join (P.norm "/data") ("constrained_model-" ++ "m" ++ "-metadata.json")) ∧ P.isAbs (P.norm "/data") = true := by
  decide +kernel

/-- When `load` returns `None`: for a relative path, a path at which nothing exists, or a file whose content raises a `PickleError`. A
directory, and any other exception while unpickling, raises. -/
theorem C49_load_fails_partial (P : Platform L β) (unpickle : β → Unpickled (SavedModel β ⊕ C)) (fs : L → Option (Node β)) (path : String) :
    (cLoad P unpickle fs path = .ret none ↔ P.isAbs (P.norm path) = false ∨ fs (P.res (P.norm path)) = none ∨
      ∃ c, fs (P.res (P.norm path)) = some (.file c) ∧ unpickle c = .pickleError) ∧
    (cLoad P unpickle fs path = .raised ↔ P.isAbs (P.norm path) = true ∧ (fs (P.res (P.norm path)) = some .dir ∨
      ∃ c, fs (P.res (P.norm path)) = some (.file c) ∧ unpickle c = .other)) := by
  unfold cLoad
  dsimp only
  cases P.isAbs (P.norm path) with
  | false => simp
  | true =>
    cases fs (P.res (P.norm path)) with
    | none => simp
    | some x =>
      cases x with
      | dir => simp
      | file c => cases h : unpickle c <;> simp [h]

/-- Without a trained solution `save` raises. -/
theorem C49_untrained_refuted (P : Platform L β) (empty : β) (pickle : SavedModel β → β) (metaText : β) (fs : L → Option (Node β))
    (name dir : String) (pm : Bool) (hd : P.isAbs (P.norm dir) = true) (hex : fs (P.res (P.norm dir)) ≠ none) :
    cSave P empty pickle metaText fs none name dir pm = (fs, .raised) := by
  have hex' : (fs (P.res (P.norm dir))).isNone = false := by
    cases hx : fs (P.res (P.norm dir)) with
    | none => exact absurd hx hex
    | some _ => rfl
  unfold cSave
  simp only [hd, hex', Bool.true_eq_false, Bool.false_eq_true, if_false]

end files

/-! ## C82 -/

section loop
variable {K : Type*} [Field K] [LinearOrder K] [IsStrictOrderedRing K] {σ : Type*}

theorem le_lmax (l : List K) : ∀ a, a ≤ lmax a l ∧ ∀ x ∈ l, x ≤ lmax a l := by
  induction l with
  | nil => intro a; simp [lmax]
  | cons b l ih =>
    intro a
    obtain ⟨h1, h2⟩ := ih (max a b)
    refine ⟨(le_max_left a b).trans h1, fun x hx => ?_⟩
    rcases List.mem_cons.1 hx with rfl | hx
    · exact (le_max_right a _).trans h1
    · exact h2 x hx

theorem lmin_le (l : List K) : ∀ a, lmin a l ≤ a ∧ ∀ x ∈ l, lmin a l ≤ x := by
  induction l with
  | nil => intro a; simp [lmin]
  | cons b l ih =>
    intro a
    obtain ⟨h1, h2⟩ := ih (min a b)
    refine ⟨h1.trans (min_le_left a b), fun x hx => ?_⟩
    rcases List.mem_cons.1 hx with rfl | hx
    · exact h1.trans (min_le_right a _)
    · exact h2 x hx

theorem lmax_mem (l : List K) : ∀ a, lmax a l ∈ a :: l := by
  induction l with
  | nil => intro a; simp [lmax]
  | cons b l ih =>
    intro a
    have h := ih (max a b)
    rw [lmax, List.foldl_cons, ← lmax]
    rcases List.mem_cons.1 h with h | h
    · rw [h]
      rcases max_choice a b with h' | h' <;> simp [h']
    · exact List.mem_cons_of_mem _ (List.mem_cons_of_mem _ h)

theorem lmin_mem (l : List K) : ∀ a, lmin a l ∈ a :: l := by
  induction l with
  | nil => intro a; simp [lmin]
  | cons b l ih =>
    intro a
    have h := ih (min a b)
    rw [lmin, List.foldl_cons, ← lmin]
    rcases List.mem_cons.1 h with h | h
    · rw [h]
      rcases min_choice a b with h' | h' <;> simp [h']
    · exact List.mem_cons_of_mem _ (List.mem_cons_of_mem _ h)

/-- All values of the list lie within `delta` of each other. -/
def Within (delta : K) (l : List K) : Prop := ∀ x ∈ l, ∀ y ∈ l, x - y ≤ delta

theorem windowMet_iff (delta : K) (l : List K) (h : l ≠ []) : ∃ b, windowMet delta l = some b ∧ (b = true ↔ Within delta l) := by
  obtain ⟨a, l, rfl⟩ := List.exists_cons_of_ne_nil h
  refine ⟨_, rfl, ?_⟩
  rw [decide_eq_true_eq]
  constructor
  · intro h x hx y hy
    have hx' : x ≤ lmax a l := by
      rcases List.mem_cons.1 hx with rfl | hx
      · exact (le_lmax l x).1
      · exact (le_lmax l a).2 x hx
    have hy' : lmin a l ≤ y := by
      rcases List.mem_cons.1 hy with rfl | hy
      · exact (lmin_le l y).1
      · exact (lmin_le l a).2 y hy
    linarith
  · intro h
    exact h _ (lmax_mem l a) _ (lmin_mem l a)

/-- The states after `t` iterations. -/
def iterStates (step : σ → Option σ) : ℕ → σ → Option σ
  | 0, s => some s
  | t + 1, s => (step s).bind (iterStates step t)

/-- The values of `Qmain` recorded in the first `t` iterations. -/
def qTrace (step : σ → Option σ) (q : σ → σ → K) : ℕ → σ → List K
  | 0, _ => []
  | t + 1, s => match step s with
    | none => []
    | some s' => q s s' :: qTrace step q t s'

theorem cLoop_spec (step : σ → Option σ) (q : σ → σ → K) (convN : ℕ) (hN : 0 < convN) (delta : K) :
    ∀ (r : ℕ) (win : List K) (s s' : σ) (b : Bool) (t : ℕ), win.length ≤ convN → cLoop step q convN delta r win s = some (s', b, t) →
    t ≤ r ∧ iterStates step t s = some s' ∧ (qTrace step q t s).length = t ∧ (b = false → t = r) ∧
    (b = true → convN < win.length + t ∧ Within delta ((win ++ qTrace step q t s).drop (win.length + t - convN))) ∧
    (∀ t' < t, convN < win.length + t' → 0 < t' → ¬Within delta ((win ++ qTrace step q t' s).drop (win.length + t' - convN))) ∧
    (b = false → 0 < t → convN < win.length + t → ¬Within delta ((win ++ qTrace step q t s).drop (win.length + t - convN))) := by
  intro r
  induction r with
  | zero =>
    intro win s s' b t hw h
    simp only [cLoop, Option.some.injEq, Prod.mk.injEq] at h
    obtain ⟨rfl, rfl, rfl⟩ := h
    simp [iterStates, qTrace]
  | succ r ih =>
    intro win s s' b t hw h
    unfold cLoop at h
    rw [Option.bind_eq_some_iff] at h
    obtain ⟨s1, hs1, h⟩ := h
    have hlen : (win ++ [q s s1]).length = win.length + 1 := by simp
    by_cases hc : convN < (win ++ [q s s1]).length
    · rw [if_pos hc] at h
      have hwl : win.length = convN := by omega
      have htail : (win ++ [q s s1]).tail = (win ++ [q s s1]).drop 1 := by simp
      have hne : (win ++ [q s s1]).tail ≠ [] := by
        intro he
        have := congrArg List.length he
        rw [List.length_tail, hlen, List.length_nil] at this
        omega
      obtain ⟨b0, hb0, hiff⟩ := windowMet_iff delta _ hne
      rw [hb0] at h
      have h1 : (win ++ qTrace step q 1 s).drop (win.length + 1 - convN) = (win ++ [q s s1]).tail := by
        rw [htail]
        simp only [qTrace, hs1]
        congr 1
        omega
      cases b0 with
      | true =>
        simp only [Option.some.injEq, Prod.mk.injEq] at h
        obtain ⟨rfl, rfl, rfl⟩ := h
        refine ⟨by omega, by simp [iterStates, hs1], by simp [qTrace, hs1], by simp, fun _ => ⟨by omega, ?_⟩, ?_, by simp⟩
        · rw [h1]
          exact hiff.1 rfl
        · intro t' ht' _ h0
          omega
      | false =>
        simp only [Option.map_eq_some_iff, Prod.exists, Prod.mk.injEq] at h
        obtain ⟨x1, x2, x3, hx, rfl, rfl, rfl⟩ := h
        have hnot : ¬Within delta ((win ++ [q s s1]).tail) := fun hw' => by simpa using hiff.2 hw'
        have hl' : (win ++ [q s s1]).tail.length = convN := by simp; omega
        obtain ⟨i1, i2, i3, i4, i5, i6, i7⟩ := ih _ s1 x1 x2 x3 (by omega) hx
        have hdrop : ∀ t', (win ++ qTrace step q (t' + 1) s).drop (win.length + (t' + 1) - convN) =
            ((win ++ [q s s1]).tail ++ qTrace step q t' s1).drop ((win ++ [q s s1]).tail.length + t' - convN) := by
          intro t'
          have : win ++ qTrace step q (t' + 1) s = (win ++ [q s s1]) ++ qTrace step q t' s1 := by
            simp [qTrace, hs1]
          rw [this, hl', htail, ← List.drop_append_of_le_length (by simp), List.drop_drop]
          congr 1
          omega
        refine ⟨by omega, by simp [iterStates, hs1, i2], by simp [qTrace, hs1, i3], fun hb => by have := i4 hb; omega, fun hb => ?_, ?_, ?_⟩
        · obtain ⟨j1, j2⟩ := i5 hb
          rw [hdrop]
          exact ⟨by omega, j2⟩
        · intro t' ht' hc' h0
          obtain ⟨t'', rfl⟩ : ∃ t'', t' = t'' + 1 := ⟨t' - 1, by omega⟩
          rw [hdrop]
          rcases Nat.eq_zero_or_pos t'' with rfl | hpos
          · simp only [qTrace, List.append_nil, hl', Nat.add_zero, Nat.sub_self, List.drop_zero]
            exact hnot
          · exact i6 t'' (by omega) (by omega) hpos
        · intro hb _ _
          rw [hdrop]
          rcases Nat.eq_zero_or_pos x3 with rfl | hpos
          · simp only [qTrace, List.append_nil, hl', Nat.add_zero, Nat.sub_self, List.drop_zero]
            exact hnot
          · exact i7 hb hpos (by omega)
    · rw [if_neg hc] at h
      simp only [Option.map_eq_some_iff, Prod.exists, Prod.mk.injEq] at h
      obtain ⟨x1, x2, x3, hx, rfl, rfl, rfl⟩ := h
      obtain ⟨i1, i2, i3, i4, i5, i6, i7⟩ := ih _ s1 x1 x2 x3 (by omega) hx
      have hdrop : ∀ t', (win ++ qTrace step q (t' + 1) s).drop (win.length + (t' + 1) - convN) =
          ((win ++ [q s s1]) ++ qTrace step q t' s1).drop ((win ++ [q s s1]).length + t' - convN) := by
        intro t'
        have : win ++ qTrace step q (t' + 1) s = (win ++ [q s s1]) ++ qTrace step q t' s1 := by
          simp [qTrace, hs1]
        rw [this, hlen]
        congr 1
        omega
      refine ⟨by omega, by simp [iterStates, hs1, i2], by simp [qTrace, hs1, i3], fun hb => by have := i4 hb; omega, fun hb => ?_, ?_, ?_⟩
      · obtain ⟨j1, j2⟩ := i5 hb
        rw [hdrop]
        exact ⟨by omega, j2⟩
      · intro t' ht' hc' h0
        obtain ⟨t'', rfl⟩ : ∃ t'', t' = t'' + 1 := ⟨t' - 1, by omega⟩
        rw [hdrop]
        rcases Nat.eq_zero_or_pos t'' with rfl | hpos
        · omega
        · exact i6 t'' (by omega) (by omega) hpos
      · intro hb _ hc'
        rw [hdrop]
        rcases Nat.eq_zero_or_pos x3 with rfl | hpos
        · omega
        · exact i7 hb hpos (by omega)

/-- The last `convN` values recorded after `t` iterations. -/
def lastValues (step : σ → Option σ) (q : σ → σ → K) (convN t : ℕ) (s : σ) : List K :=
  (qTrace step q t s).drop (t - convN)

/-- Constrained training returns the state after `t ≤ max_iterations` updates. It reports convergence exactly when the last
`converge_n` recorded values of Q(main) lie within `converge_delta` of each other after more than `converge_n` iterations, it
stops at the first such iteration, and otherwise runs all iterations. -/
theorem C82_stop (step : σ → Option σ) (q : σ → σ → K) (convN : ℕ) (hN : 0 < convN) (delta : K) (maxIter : ℕ) (s s' : σ) (b : Bool)
    (t : ℕ) (h : cLoop step q convN delta maxIter [] s = some (s', b, t)) :
    t ≤ maxIter ∧ iterStates step t s = some s' ∧ (b = false → t = maxIter) ∧
    (b = true ↔ convN < t ∧ Within delta (lastValues step q convN t s)) ∧
    ∀ t' < t, convN < t' → ¬Within delta (lastValues step q convN t' s) := by
  obtain ⟨i1, i2, i3, i4, i5, i6, i7⟩ := cLoop_spec step q convN hN delta maxIter [] s s' b t (by simp) h
  simp only [List.length_nil, Nat.zero_add, List.nil_append] at i5 i6 i7
  refine ⟨i1, i2, i4, ⟨i5, fun hw => ?_⟩, fun t' ht' hc => i6 t' ht' hc (by omega)⟩
  cases b with
  | true => rfl
  | false => exact absurd hw.2 (i7 rfl (by omega) hw.1)

/-- Non-trivial case: values 8, 4, 2, 1, 1/2, …; two consecutive values within 1/2 after the fifth iteration. -/
example : cLoop (K := ℚ) (σ := ℚ) (fun s => some (s / 2)) (fun _ s' => s') 2 (1 / 2) 100 [] 16 = some (1 / 2, true, 5) := by
  decide +kernel

end loop

/-! ## C87 -/

/-- **Disagreement.** The plotted Q(main) series is the concatenation of Q(true) and Q(aux): it has twice as many values as the
x axis and its first half is Q(true), not the sum. -/
theorem C87_refuted {K : Type*} (qTrue qAux : List K) (hlen : qAux.length = qTrue.length) (hne : qTrue ≠ []) :
    (plotMain qTrue qAux).2.length = 2 * (plotMain qTrue qAux).1.length ∧
    (plotMain qTrue qAux).2.length ≠ (plotMain qTrue qAux).1.length ∧ (plotMain qTrue qAux).2.take qTrue.length = qTrue := by
  have : 0 < qTrue.length := List.length_pos_of_ne_nil hne
  simp only [plotMain, List.length_append, List.length_range, hlen, List.take_left, and_true]
  omega

example : (plotMain [3, 2] [1, (1 : ℚ)]).2 = [3, 2, 1, 1] := rfl

/-- The plotted series is the promised one, the sum entry by entry, only for an empty history. -/
theorem C87_correct_iff {K : Type*} [Add K] (qTrue qAux : List K) (hlen : qAux.length = qTrue.length) :
    (plotMain qTrue qAux).2 = List.zipWith (· + ·) qTrue qAux ↔ qTrue = [] := by
  constructor
  · intro h
    have := congrArg List.length h
    simp only [plotMain, List.length_append, List.length_zipWith, hlen, min_self] at this
    exact List.eq_nil_of_length_eq_zero (by omega)
  · rintro rfl
    have : qAux = [] := List.eq_nil_of_length_eq_zero (by simpa using hlen)
    subst this
    rfl

/-! ### The theorems applied to concrete constraints -/

/-- Case for `C41_add` and `C41_reject`: the first constraint of an entry is stored, the second one for the same entry is not. -/
example (l : CLabel) :
    dictGet (addConstraint (K := ℚ) 3 4 2 [] ⟨.zero, (0, 1), .feature⟩).1 l
      = (if l = cLabel (K := ℚ) ⟨.zero, (0, 1), .feature⟩ then some ⟨.zero, (0, 1), .feature⟩ else none) ∧
    (addConstraint (K := ℚ) 3 4 2 [(.feature 0 1, ⟨.zero, (0, 1), .feature⟩)] ⟨.base, (0, 1), .feature⟩).1
      = [(.feature 0 1, ⟨.zero, (0, 1), .feature⟩)] :=
  ⟨(C41_add (m := 3) (n := 4) (k := 2) [] _ ⟨.zero, (0, 1), .feature⟩ rfl l).2,
   C41_reject (m := 3) (n := 4) (k := 2) _ _ ⟨.base, (0, 1), .feature⟩ rfl⟩

/-- Case for `C43_below_partial`: the value 1/2 is raised to the lower limit 1. -/
example (E : CEnv 1 1 1 ℚ) : cDelta E (.limits 1 4) (fun _ => 0) (1 / 2) 0 + 1 / 2 = 1 :=
  (C43_below_partial E _ _ _ _ _ (by norm_num) (by norm_num)).1

/-- Case for `C44_profile` and `C44_contribution`: one profile entry and one contribution locked to zero, two iterations. -/
example (s' : Mat 2 2 ℚ × Mat 2 2 ℚ)
    (h : cStates (K := ℚ) (m := 2) (n := 2) (k := 2) ⟨fun i j => i.1 + j.1 + 1, fun _ _ => 1, fun _ _ => 1, fun _ _ => 1, 1 / 10 ^ 8, 100⟩
      (fun _ _ => (fun _ _ => 0, fun _ _ => 0)) (lsUpdate (fun i j => i.1 + j.1 + 1) (fun _ _ => 1) false)
      [⟨.zero, (0, 1), .feature⟩, ⟨.zero, (1, 0), .sample⟩] 2 (fun i a => i.1 + a.1 + 1, fun a j => a.1 + 2 * j.1 + 1) = some s') :
    s'.2 0 1 = 0 ∧ s'.1 1 0 = 0 := by
  constructor
  · exact C44_profile _ _ _ _ _ 0 1 ⟨.zero, (0, 1), .feature⟩ (by simp) (by decide +kernel)
      (by intro c hc _; simp at hc; rcases hc with rfl | rfl <;> rfl) 1 _ _ h
  · exact C44_contribution _ _ _ _ _ 1 0 ⟨.zero, (1, 0), .sample⟩ (by simp) (by decide +kernel)
      (by intro c hc _; simp at hc; rcases hc with rfl | rfl <;> rfl) 1 _ _ h

/-- Case for `C47_down_iff`, `C47_up_partial` and `C47_up_factor`. -/
example : pullDown (K := ℚ) (fun v => (v - 1) * (v - 1)) (1 / 4) (1 / 10 ^ 8) (1 / 10) 1 ≤ 1 ∧
    1 ≤ pullUp (K := ℚ) (fun v => (v - 1) * (v - 1)) (1 / 4) (1 / 10) 1 ∧
    ∃ t, 0 < t ∧ pullUp (K := ℚ) (fun v => (v - 1) * (v - 1)) (1 / 4) (1 / 10) 1 = 1 * t :=
  ⟨(C47_down_iff _ _ _ _ _ (by norm_num)).2 (by norm_num), C47_up_partial _ _ _ _ (by norm_num) (by norm_num) (by norm_num),
   (C47_up_factor _ _ _ _ (by norm_num)).imp fun t h => ⟨h.1, h.2.1⟩⟩

/-- Case for `C48_zero_iff`: a model one off its target has a positive penalty. -/
example : qAux (K := ℚ) (m := 1) (n := 1) (k := 1) 2 (fun _ _ => 3) (fun _ _ => 4) (fun _ _ => 1) (fun _ _ => 1) (fun _ _ => 4)
    (fun _ _ => 3) = 0 ∧ qAux (K := ℚ) (m := 1) (n := 1) (k := 1) 2 (fun _ _ => 3) (fun _ _ => 5) (fun _ _ => 1) (fun _ _ => 1)
    (fun _ _ => 4) (fun _ _ => 3) ≠ 0 :=
  ⟨(C48_zero_iff _ (by norm_num) _ _ _ _ _ _).2 ⟨fun _ _ => by norm_num, fun _ _ => by norm_num⟩,
   fun h => by have := ((C48_zero_iff _ (by norm_num) _ _ _ _ _ _).1 h).1 0 0; norm_num at this⟩

/-- Case for `C83_to_partial`: the target 3 has response 1/4 below the limit 1/2. -/
example : pullTo (K := ℚ) (fun v => (v - 5 / 2) * (v - 5 / 2)) (1 / 2) (1 / 10 ^ 8) 100 2 3 = 3 :=
  (C83_to_partial _ _ _ _ _ _ (by norm_num)).1

/-- Case for `C87_correct_iff`. -/
example : (plotMain [3, 2] [1, (1 : ℚ)]).2 ≠ List.zipWith (· + ·) [3, 2] [1, 1] :=
  fun h => by simpa using (C87_correct_iff [3, 2] [1, (1 : ℚ)] rfl).1 h

/-- Case for `C41_one_partial`: every stored entry of the run for `(1, 1)` of the contributions is the same one. -/
example (q : CLabel × Constraint ℚ) (hq : q ∈ cRunOps 3 4 2 [.add ⟨CKind.zero (K := ℚ), (0, 1), .feature⟩, .add ⟨.base, (1, 1), .sample⟩])
    (ht : q.2.target = .sample) (hi : q.2.index = (1, 1)) : q = (.sample 1 1, ⟨.base, (1, 1), .sample⟩) :=
  (C41_one_partial _ (.sample 1 1, ⟨.base, (1, 1), .sample⟩) q (List.Mem.tail _ (List.Mem.head _)) hq ht.symm hi.symm).symm

end Esat
