import Verif.Model.ConstraintLists
import Verif.Props.Constrained
import Mathlib.Data.List.TakeDrop
import Mathlib.Data.Nat.Digits.Lemmas
import Mathlib.Tactic.IntervalCases

/-!
# C197: names of constraints, listings
-/

namespace Esat

theorem digitChar_inj : ∀ a < 10, ∀ b < 10, digitChar a = digitChar b → a = b := by decide

theorem digitChar_ne : ∀ a < 10, digitChar a ≠ '-' ∧ digitChar a ≠ '|' := by decide

theorem natText_mem (n : ℕ) : natText n ≠ [] ∧ ∀ c ∈ natText n, c ≠ '-' ∧ c ≠ '|' := by
  unfold natText
  split_ifs with h
  · simp
  · refine ⟨?_, ?_⟩
    · simpa using Nat.digits_ne_nil_iff_ne_zero.2 h
    · intro c hc
      simp only [List.mem_map, List.mem_reverse] at hc
      obtain ⟨d, hd, rfl⟩ := hc
      exact digitChar_ne d (Nat.digits_lt_base (by norm_num) hd)

theorem map_digitChar_inj : ∀ (l l' : List ℕ), (∀ d ∈ l, d < 10) → (∀ d ∈ l', d < 10) → l.map digitChar = l'.map digitChar → l = l'
  | [], [], _, _, _ => rfl
  | [], _ :: _, _, _, h => by simp at h
  | _ :: _, [], _, _, h => by simp at h
  | a :: l, b :: l', h1, h2, h => by
    simp only [List.map_cons, List.cons.injEq] at h
    rw [digitChar_inj a (h1 a List.mem_cons_self) b (h2 b List.mem_cons_self) h.1,
      map_digitChar_inj l l' (fun d hd => h1 d (List.mem_cons_of_mem _ hd)) (fun d hd => h2 d (List.mem_cons_of_mem _ hd)) h.2]

theorem digits_text_ne_zero (b : ℕ) (h : b ≠ 0) : ((Nat.digits 10 b).reverse).map digitChar ≠ ['0'] := by
  intro hn
  have h1 : ((Nat.digits 10 b).reverse) = [0] := map_digitChar_inj _ [0]
    (fun d hd => Nat.digits_lt_base (by norm_num) (List.mem_reverse.1 hd)) (by simp) hn
  have h2 : Nat.digits 10 b = [0] := by simpa using congrArg List.reverse h1
  have h3 := Nat.ofDigits_digits 10 b
  rw [h2] at h3
  simp at h3
  exact h h3.symm

theorem natText_inj {a b : ℕ} (h : natText a = natText b) : a = b := by
  unfold natText at h
  split_ifs at h with h1 h2 h2
  · rw [h1, h2]
  · exact absurd h.symm (digits_text_ne_zero b h2)
  · exact absurd h (digits_text_ne_zero a h1)
  · have := map_digitChar_inj _ _ (fun d hd => Nat.digits_lt_base (by norm_num) (List.mem_reverse.1 hd))
      (fun d hd => Nat.digits_lt_base (by norm_num) (List.mem_reverse.1 hd)) h
    exact Nat.digits_inj_iff.1 (List.reverse_injective this)

theorem intText_inj {a b : ℤ} (h : intText a = intText b) : a = b := by
  cases a <;> cases b <;> simp only [intText] at h
  · rw [natText_inj h]
  · have := (natText_mem _).2 '-' (by rw [h]; simp)
    exact absurd rfl this.1
  · have := (natText_mem _).2 '-' (by rw [← h]; simp)
    exact absurd rfl this.1
  · simp only [List.cons.injEq, true_and] at h
    have := natText_inj h
    rw [show _ = _ from Nat.succ_injective this]

theorem intText_bar (a : ℤ) : '|' ∉ intText a := by
  cases a with
  | ofNat n => exact fun h => ((natText_mem n).2 _ h).2 rfl
  | negSucc n =>
    simp only [intText, List.mem_cons, not_or]
    exact ⟨by decide, fun h => ((natText_mem _).2 _ h).2 rfl⟩

theorem append_bar_inj : ∀ (a b x y : List Char), '|' ∉ a → '|' ∉ b → a ++ '|' :: x = b ++ '|' :: y → a = b ∧ x = y
  | [], [], _, _, _, _, h => ⟨rfl, by simpa using h⟩
  | [], c :: b, _, _, _, hb, h => by
    simp only [List.nil_append, List.cons_append, List.cons.injEq] at h
    exact absurd (h.1 ▸ List.mem_cons_self) hb
  | c :: a, [], _, _, ha, _, h => by
    simp only [List.nil_append, List.cons_append, List.cons.injEq] at h
    exact absurd (h.1 ▸ List.mem_cons_self) ha
  | c :: a, d :: b, x, y, ha, hb, h => by
    simp only [List.cons_append, List.cons.injEq] at h
    obtain ⟨h1, h2⟩ := append_bar_inj a b x y (fun hm => ha (List.mem_cons_of_mem _ hm)) (fun hm => hb (List.mem_cons_of_mem _ hm)) h.2
    exact ⟨by rw [h.1, h1], h2⟩

/-- **C197.** Different elements have different labels: no two of the texts `factor:I|feature:J`, `factor:I|sample:J` with any integers, and the empty text, are equal. -/
theorem C197_label_injective (l l' : CLabel) (h : labelText l = labelText l') : l = l' := by
  have key : ∀ (i i' j j' : ℤ) (s s' : List Char), "factor:".toList ++ (intText i ++ '|' :: s ++ intText j) = "factor:".toList ++ (intText i' ++ '|' :: s' ++ intText j') →
      i = i' ∧ s ++ intText j = s' ++ intText j' := by
    intro i i' j j' s s' h
    have h := List.append_cancel_left h
    rw [List.append_assoc, List.append_assoc, List.cons_append, List.cons_append] at h
    obtain ⟨h1, h2⟩ := append_bar_inj _ _ _ _ (intText_bar _) (intText_bar _) h
    exact ⟨intText_inj h1, h2⟩
  have hne : ∀ x y : List Char, "feature:".toList ++ x ≠ "sample:".toList ++ y := by
    intro x y h
    exact absurd (congrArg List.head? h) (by change some 'f' ≠ some 's'; decide)
  have hnil : ∀ x : List Char, "factor:".toList ++ x ≠ [] := by
    intro x h
    exact absurd (List.append_eq_nil_iff.1 h).1 (by decide)
  match l, l', h with
  | .feature i j, .feature i' j', h =>
    obtain ⟨h1, h2⟩ := key i i' j j' "feature:".toList "feature:".toList h
    rw [h1, intText_inj (List.append_cancel_left h2)]
  | .sample i j, .sample i' j', h =>
    obtain ⟨h1, h2⟩ := key i i' j j' "sample:".toList "sample:".toList h
    rw [h1, intText_inj (List.append_cancel_left h2)]
  | .feature i j, .sample i' j', h => exact absurd (key i i' j j' "feature:".toList "sample:".toList h).2 (hne _ _)
  | .sample i j, .feature i' j', h => exact absurd (key i i' j j' "sample:".toList "feature:".toList h).2.symm (hne _ _)
  | .feature _ _, .blank, h => exact absurd h (hnil _)
  | .sample _ _, .blank, h => exact absurd h (hnil _)
  | .blank, .feature _ _, h => exact absurd h.symm (hnil _)
  | .blank, .sample _ _, h => exact absurd h.symm (hnil _)
  | .blank, .blank, _ => rfl

theorem digitChar_read : ∀ d < 10, (digitChar d).toNat - '0'.toNat = d ∧ (digitChar d).isDigit = true := by decide

theorem read_digits : ∀ (l : List ℕ), (∀ d ∈ l, d < 10) →
    (l.reverse.map digitChar).foldl (fun a c => 10 * a + (c.toNat - '0'.toNat)) 0 = Nat.ofDigits 10 l
  | [], _ => rfl
  | d :: l, h => by
    rw [List.reverse_cons, List.map_append, List.foldl_append, read_digits l fun e he => h e (List.mem_cons_of_mem _ he)]
    simp only [List.map_cons, List.map_nil, List.foldl_cons, List.foldl_nil, Nat.ofDigits_cons, Nat.cast_id]
    rw [(digitChar_read d (h d List.mem_cons_self)).1, Nat.add_comm]

/-- **C197.** The text of an index is the decimal notation: digits only, whose value with place values of ten is the number, with no leading zero except for zero itself; a negative number has a minus sign before the notation of its absolute value. -/
theorem C197_text (n : ℕ) :
    (intText n ≠ [] ∧ (∀ c ∈ intText n, c.isDigit = true) ∧ (intText n).foldl (fun a c => 10 * a + (c.toNat - '0'.toNat)) 0 = n ∧
      (0 < n → (intText n).head? ≠ some '0')) ∧ (0 < n → intText (-n) = '-' :: intText n) := by
  have hlt : ∀ d ∈ Nat.digits 10 n, d < 10 := fun d hd => Nat.digits_lt_base (by norm_num) hd
  have hi : intText n = natText n := rfl
  refine ⟨⟨by rw [hi]; exact (natText_mem n).1, ?_, ?_, ?_⟩, ?_⟩
  · intro c hc
    rw [hi, natText] at hc
    split_ifs at hc with h0
    · rw [List.mem_singleton.1 hc]
      decide
    · obtain ⟨d, hd, rfl⟩ := List.mem_map.1 hc
      exact (digitChar_read d (hlt d (List.mem_reverse.1 hd))).2
  · rw [hi, natText]
    split_ifs with h0
    · rw [h0]
      rfl
    · rw [read_digits _ hlt, Nat.ofDigits_digits]
  · intro h0
    have h0 : n ≠ 0 := by omega
    rw [hi, natText, if_neg h0, List.head?_map, List.head?_reverse]
    have hne := Nat.digits_ne_nil_iff_ne_zero (b := 10).2 h0
    rw [List.getLast?_eq_getLast_of_ne_nil hne]
    intro h
    have := digitChar_inj _ (hlt _ (List.getLast_mem hne)) 0 (by norm_num) (Option.some.inj h)
    exact Nat.getLast_digit_ne_zero 10 h0 this
  · intro h0
    obtain ⟨k, rfl⟩ := Nat.exists_eq_succ_of_ne_zero (by omega : n ≠ 0)
    rfl

section
variable {K : Type*} {m n k : ℕ}

/-- The call on texts for a call on elements. -/
def textOp : COp K → CTextOp K
  | .add c => .add c
  | .remove l => .remove (labelText l)

theorem map_any (d : PyDict CLabel (Constraint K)) (l : CLabel) :
    (d.map fun p => (labelText p.1, p.2)).any (fun p => p.1 = labelText l) = d.any (fun p => p.1 = l) := by
  rw [List.any_map]
  congr 1
  funext p
  simp only [Function.comp_apply]
  by_cases h : p.1 = l
  · simp [h]
  · have : labelText p.1 ≠ labelText l := fun e => h (C197_label_injective _ _ e)
    simp [h, this]

theorem step_text (d : PyDict CLabel (Constraint K)) (o : COp K) :
    (cTextStep m n k (d.map fun p => (labelText p.1, p.2)) (textOp o)).1 = (cStep m n k d o).map fun p => (labelText p.1, p.2) := by
  cases o with
  | add c =>
    simp only [textOp, cTextStep, cStep, addConstraintText, addConstraint, map_any]
    split_ifs with h1 h2
    · rfl
    · rfl
    · unfold dictSet
      rw [map_any, if_neg h2, if_neg h2]
      simp
  | remove l =>
    simp only [textOp, cTextStep, cStep, dictPop, map_any]
    split_ifs with h1
    · simp only [Option.getD_some, List.filter_map]
      congr 1
      refine List.filter_congr fun p _ => ?_
      simp only [Function.comp_apply]
      by_cases h : p.1 = l
      · simp [h]
      · have : labelText p.1 ≠ labelText l := fun e => h (C197_label_injective _ _ e)
        simp [h, this]
    · rfl

theorem step_text_other (d : PyDict CLabel (Constraint K)) (op : CTextOp K) (h : ∀ o, textOp o ≠ op) :
    cTextStep m n k (d.map fun p => (labelText p.1, p.2)) op = (d.map fun p => (labelText p.1, p.2), none) := by
  cases op with
  | add c => exact absurd rfl (h (.add c))
  | remove t =>
    have hn : ∀ l, labelText l ≠ t := fun l e => h (.remove l) (by rw [textOp, e])
    have : (d.map fun p => (labelText p.1, p.2)).any (fun p => p.1 = t) = false := by
      rw [List.any_eq_false]
      intro p hp
      obtain ⟨q, -, rfl⟩ := List.mem_map.1 hp
      simp [hn q.1]
    simp [cTextStep, dictPop, this]

open Classical in
/-- **C197.** For any history of calls, with any texts given to `remove_constraint`: the calls with a text that is the label of no element change nothing, and the others do to the texts what the same calls do to the elements themselves, so that
all statements about these (C41, C42) hold for the texts. -/
theorem C197_refines (ops : List (CTextOp K)) :
    ∃ ops' : List (COp K), ops'.map textOp = ops.filter (fun op => ∃ o, textOp o = op) ∧
      cTextRun m n k ops = (cRunOps m n k ops').map fun p => (labelText p.1, p.2) := by
  induction ops using List.reverseRecOn with
  | nil => exact ⟨[], by simp, rfl⟩
  | append_singleton ops op ih =>
    obtain ⟨ops', h1, h3⟩ := ih
    have hrun : cTextRun m n k (ops ++ [op]) = (cTextStep m n k (cTextRun m n k ops) op).1 := by simp [cTextRun]
    rw [List.filter_append, ← h1, hrun, h3]
    by_cases ho : ∃ o, textOp o = op
    · obtain ⟨o, rfl⟩ := ho
      refine ⟨ops' ++ [o], by simp, ?_⟩
      rw [step_text]
      simp [cRunOps]
    · refine ⟨ops', ?_, ?_⟩
      · rw [List.filter_cons_of_neg (by simpa using ho)]
        simp
      · rw [step_text_other _ op (fun o hn => ho ⟨o, hn⟩)]

/-- **C197.** The listing has as many lines as it says, no label twice, the label of the constraint in each line, and each line can be used to remove exactly this constraint: afterwards the other lines are listed in the same order. -/
theorem C197_listing (ops : List (CTextOp K)) :
    let d := cTextRun m n k ops
    (listConstraints d).1 = (listConstraints d).2.length ∧ ((listConstraints d).2.map (·.1)).Nodup ∧
    (∀ line ∈ (listConstraints d).2, line.1 = labelText (cLabel line.2) ∧ cIndexOk m n k line.2 = true ∧
      (cTextStep m n k d (.remove line.1)).2 = some true ∧
      (listConstraints (cTextStep m n k d (.remove line.1)).1).2 = (listConstraints d).2.filter fun q => q.1 ≠ line.1) ∧
    ∀ t, (cTextStep m n k d (.remove t)).2 = none ↔ t ∉ (listConstraints d).2.map (·.1) := by
  obtain ⟨ops', -, h3⟩ := C197_refines (m := m) (n := n) (k := k) ops
  have hinv := cRunOps_inv (m := m) (n := n) (k := k) ops'
  intro d
  have hl : (listConstraints d).2 = d := by simp [listConstraints]
  have hd : d = (cRunOps m n k ops').map fun p => (labelText p.1, p.2) := h3
  have hany : ∀ t, d.any (fun p => p.1 = t) = true ↔ t ∈ d.map (·.1) := by
    intro t
    simp [List.any_eq_true]
  rw [hl]
  refine ⟨by simp [listConstraints], ?_, ?_, ?_⟩
  · rw [hd, List.map_map]
    have : ((fun x : List Char × Constraint K => x.1) ∘ fun p : CLabel × Constraint K => (labelText p.1, p.2)) = labelText ∘ (·.1) := rfl
    rw [this, ← List.map_map]
    exact hinv.nodup.map C197_label_injective
  · intro line hline
    have hline' := hline
    rw [hd] at hline'
    obtain ⟨p, hp, rfl⟩ := List.mem_map.1 hline'
    have hin : d.any (fun q => q.1 = labelText p.1) = true := (hany _).2 (List.mem_map.2 ⟨_, hline, rfl⟩)
    refine ⟨by rw [hinv.label p hp], hinv.ok p hp, ?_, ?_⟩
    · simp only [cTextStep, dictPop, hin, if_true]
    · simp only [cTextStep, dictPop, hin, if_true, listConstraints, Prod.mk.eta, List.map_id']
  · intro t
    by_cases h : d.any (fun p => p.1 = t) = true
    · simp only [cTextStep, dictPop, h, if_true]
      simp [(hany t).1 h]
    · have hm : t ∉ d.map (·.1) := fun hm => h ((hany t).2 hm)
      rw [Bool.not_eq_true] at h
      simp only [cTextStep, dictPop, h]
      exact ⟨fun _ => hm, fun _ => rfl⟩

/-- **C197.** `add_constraint` after any history: it answers true exactly if the indices are in range and no line of the listing has the label yet. Then the listing gets one more line, with this label and constraint, at the end; otherwise it stays
as it is. It never raises. -/
theorem C197_add (ops : List (CTextOp K)) (c : Constraint K) :
    let d := cTextRun m n k ops
    let r := cTextStep m n k d (.add c)
    (r.2 = some true ↔ cIndexOk m n k c = true ∧ labelText (cLabel c) ∉ (listConstraints d).2.map (·.1)) ∧
    (r.2 = some true → (listConstraints r.1).2 = (listConstraints d).2 ++ [(labelText (cLabel c), c)]) ∧
    (r.2 ≠ some true → r.2 = some false ∧ listConstraints r.1 = listConstraints d) := by
  intro d r
  have hl : ∀ e : PyDict (List Char) (Constraint K), (listConstraints e).2 = e := fun e => by simp [listConstraints]
  have hany : d.any (fun p => p.1 = labelText (cLabel c)) = true ↔ labelText (cLabel c) ∈ d.map (·.1) := by
    simp [List.any_eq_true]
  simp only [hl]
  have hr : r = ((addConstraintText m n k d c).1, some (addConstraintText m n k d c).2) := rfl
  by_cases h1 : cIndexOk m n k c = true
  · by_cases h2 : d.any (fun p => p.1 = labelText (cLabel c)) = true
    · have : addConstraintText m n k d c = (d, false) := by
        unfold addConstraintText
        rw [if_neg (by simp [h1]), if_pos h2]
      rw [hr, this]
      simp [hany.1 h2]
    · have : addConstraintText m n k d c = (d ++ [(labelText (cLabel c), c)], true) := by
        unfold addConstraintText dictSet
        rw [if_neg (by simp [h1]), if_neg h2, if_neg h2]
      rw [hr, this]
      have hm : labelText (cLabel c) ∉ d.map (·.1) := fun h => h2 (hany.2 h)
      exact ⟨⟨fun _ => ⟨h1, hm⟩, fun _ => rfl⟩, fun _ => rfl, fun h => absurd rfl h⟩
  · have : addConstraintText m n k d c = (d, false) := by
      unfold addConstraintText
      rw [if_pos (by simpa using h1)]
    rw [hr, this]
    simp [h1]

end

section
variable {T : Type*}

/-- **C197.** The expressions after any history: what is listed are some of the added expressions in the order in which they were added, numbered from zero without gaps; `remove_expression` with a listed number removes exactly this one and
numbers the later ones one lower. **Disagreement** with `remove_constraint`, which raises: every other number, also a negative one, is ignored without a message. -/
theorem C197_expressions (ops : List (ExprOp T)) :
    let l := exprRun ops
    List.Sublist l (ops.filterMap fun op => match op with | .add t => some t | .remove _ => none) ∧
    (∀ (i : ℕ) (t : T), (i, t) ∈ listExpressions l ↔ l[i]? = some t) ∧
    (∀ i : ℕ, i < l.length → exprRun (ops ++ [.remove i]) = l.take i ++ l.drop (i + 1)) ∧
    (∀ i : ℤ, i < 0 ∨ (l.length : ℤ) ≤ i → exprRun (ops ++ [.remove i]) = l) ∧
    ∀ t, exprRun (ops ++ [.add t]) = l ++ [t] := by
  have hstep : ∀ op, exprRun (ops ++ [op]) = exprStep (exprRun ops) op := by
    intro op
    simp [exprRun]
  refine ⟨?_, ?_, ?_, ?_, fun t => by rw [hstep]; rfl⟩
  · clear hstep
    induction ops using List.reverseRecOn with
    | nil => simp [exprRun]
    | append_singleton ops op ih =>
      have hs : exprRun (ops ++ [op]) = exprStep (exprRun ops) op := by simp [exprRun]
      rw [hs, List.filterMap_append]
      cases op with
      | add t => exact List.Sublist.append ih (by simp)
      | remove i =>
        have : List.Sublist (exprStep (exprRun ops) (.remove i)) (exprRun ops) := by
          unfold exprStep
          dsimp only
          split_ifs
          · exact List.eraseIdx_sublist _ _
          · exact List.Sublist.refl _
        simpa using this.trans ih
  · intro i t
    simp only [listExpressions, List.mem_map]
    constructor
    · rintro ⟨⟨t', i'⟩, hp, he⟩
      simp only [Prod.mk.injEq] at he
      obtain ⟨rfl, rfl⟩ := he
      exact List.mem_zipIdx_iff_getElem?.1 hp
    · intro h
      exact ⟨(t, i), List.mem_zipIdx_iff_getElem?.2 h, rfl⟩
  · intro i hi
    rw [hstep]
    unfold exprStep
    dsimp only
    rw [if_pos ⟨by omega, by exact_mod_cast hi⟩]
    simp [List.eraseIdx_eq_take_drop_succ]
  · intro i hi
    rw [hstep]
    unfold exprStep
    dsimp only
    rw [if_neg (by omega)]

end

/-- Concrete case. -/
example : labelText (.feature 12 (-3)) = "factor:12|feature:-3".toList ∧
    (cTextRun 3 4 2 [.add ⟨CKind.zero (K := ℚ), (0, 1), .feature⟩, .add ⟨.base, (1, 1), .sample⟩, .remove "factor:00|feature:1".toList,
      .remove "factor:0|feature:1".toList]).map (·.1) = ["factor:1|sample:1".toList] ∧
    exprRun [ExprOp.add 'a', .add 'b', .remove (-1), .remove 5, .add 'c', .remove 0] = ['b', 'c'] := by
  decide +kernel

end Esat
