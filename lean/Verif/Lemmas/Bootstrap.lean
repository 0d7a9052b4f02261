import Verif.Model.Bootstrap
import Verif.Lemmas.Correlation
import Mathlib.Data.List.FinRange
import Mathlib.Tactic.Ring
import Mathlib.Data.Nat.ModEq
import Mathlib.Algebra.Order.Group.Nat

/-!
# Lemmas about the bootstrap model
-/

namespace Esat

theorem popTo_eq (N rc : ℕ) (h : rc ≤ N) : ∀ (n : ℕ) (l : List ℕ), l.length = n → popTo N rc l = some (l.take (N - rc)) := by
  intro n
  induction n with
  | zero =>
    intro l hl
    have hl' := List.length_eq_zero_iff.1 hl
    subst hl'
    rw [popTo, dif_neg (by simp; omega)]
    simp
  | succ n ih =>
    intro l hl
    rw [popTo]
    have hne : l ≠ [] := by rintro rfl; simp at hl
    split
    · rename_i hgt
      rw [ih _ (by simp [hl]), List.dropLast_eq_take, List.take_take]
      congr 2
      omega
    · rename_i hgt
      rw [List.take_of_length_le (by omega)]

theorem indexBlocks_eq (N bs : ℕ) : ∀ n c, (∀ t < n, c + t * bs ≤ N) →
    ∃ bl, indexBlocks N bs n c = some bl ∧ bl.length = n ∧
      ∀ t < n, bl[t]? = some ((List.range' (c + t * bs) bs).take (N - (c + t * bs))) := by
  intro n
  induction n with
  | zero => intro c _; exact ⟨[], rfl, rfl, by simp⟩
  | succ n ih =>
    intro c h
    obtain ⟨bl, h1, h2, h3⟩ := ih (c + bs) (fun t ht => by
      have := h (t + 1) (by omega)
      rw [Nat.add_mul, Nat.one_mul] at this
      omega)
    have hc : c ≤ N := by simpa using h 0 (by omega)
    refine ⟨(List.range' c bs).take (N - c) :: bl, ?_, by simp [h2], ?_⟩
    · simp [indexBlocks, popTo_eq N c hc _ _ rfl, h1]
    · intro t ht
      cases t with
      | zero => simp
      | succ t =>
        rw [List.getElem?_cons_succ, h3 t (by omega), Nat.add_mul, Nat.one_mul, show c + bs + t * bs = c + (t * bs + bs) by omega]

/-- The index list so far: `rc` rows, position `p` lies in block `p / bs` at offset `p % bs`. -/
def IdxInv (N bs : ℕ) (start : ℕ → ℕ) (i : ℕ) (s : ResampleState) : Prop :=
  s.rc = min N (i * bs) ∧ s.idx.length = s.rc ∧ ∀ p < s.rc, s.idx[p]? = some (start (p / bs) + p % bs)

theorem IdxInv.step {N bs : ℕ} (hbs : 0 < bs) {start : ℕ → ℕ} {i : ℕ} {s : ResampleState} (h : IdxInv N bs start i s)
    (b : List ℕ) (hb : s.rc < N → b = List.range' (start i) bs) (bl : List (List ℕ)) :
    IdxInv N bs start (i + 1) ⟨bl, s.rc + (b.take (N - s.rc)).length, s.idx ++ b.take (N - s.rc)⟩ := by
  obtain ⟨h1, h2, h3⟩ := h
  by_cases hlt : s.rc < N
  · have hi : s.rc = i * bs := by omega
    have hb := hb hlt
    subst hb
    have hrc : s.rc + ((List.range' (start i) bs).take (N - s.rc)).length = min N ((i + 1) * bs) := by
      simp only [List.length_take, List.length_range', Nat.add_mul, Nat.one_mul]
      omega
    refine ⟨hrc, by simp [h2], ?_⟩
    intro p hp
    simp only at hp
    by_cases hpl : p < s.rc
    · rw [List.getElem?_append_left (by omega)]
      exact h3 p hpl
    · have hpl' : s.rc ≤ p := by omega
      rw [List.getElem?_append_right (by omega), h2, List.getElem?_take]
      simp only [List.length_take, List.length_range'] at hp
      rw [if_pos (by omega), List.getElem?_range' (by omega)]
      have hdiv : p / bs = i := by
        apply Nat.div_eq_of_lt_le
        · omega
        · rw [Nat.add_mul, Nat.one_mul]; omega
      have hmod : p % bs = p - s.rc := by
        have := Nat.div_add_mod p bs
        rw [hdiv] at this
        have h5 : bs * i = i * bs := Nat.mul_comm _ _
        omega
      rw [hdiv, hmod]
      simp
  · have hN : s.rc = N := by omega
    have h0 : N - s.rc = 0 := by omega
    rw [h0]
    simp only [List.take_zero, List.length_nil, Nat.add_zero, List.append_nil]
    refine ⟨?_, h2, h3⟩
    simp only [Nat.add_mul, Nat.one_mul]
    omega

theorem blockCount_spec (N bs : ℕ) (hbs : 0 < bs) (hN : 2 * bs ≤ N) :
    2 ≤ blockCount N bs ∧ (blockCount N bs - 1) * bs < N ∧ N ≤ blockCount N bs * bs := by
  unfold blockCount
  have h1 : 2 ≤ (N + bs - 1) / bs := (Nat.le_div_iff_mul_le hbs).2 (by omega)
  have h2 := Nat.div_add_mod (N + bs - 1) bs
  have h3 := Nat.mod_lt (N + bs - 1) hbs
  obtain ⟨M, hM⟩ : ∃ M, (N + bs - 1) / bs = M + 1 := ⟨(N + bs - 1) / bs - 1, by omega⟩
  rw [hM] at h2 h1 ⊢
  refine ⟨h1, ?_, ?_⟩
  · rw [Nat.add_sub_cancel]
    rw [Nat.mul_add, Nat.mul_one, Nat.mul_comm] at h2
    omega
  · rw [Nat.mul_add, Nat.mul_one, Nat.mul_comm] at h2
    rw [Nat.add_mul, Nat.one_mul]
    omega

/-- First row of block draw `t`. -/
def blockStart (N bs : ℕ) (overlapping : Bool) (r : ℕ → ℕ) (t : ℕ) : ℕ :=
  if overlapping then r t % (N - bs - 1) else (r t % (blockCount N bs - 1)) * bs

/-- Closed form of the index list. -/
theorem blockIndex_spec (N bs : ℕ) (ov : Bool) (r : ℕ → ℕ) (hbs : 0 < bs) (hN : 2 * bs ≤ N) (hov : ov = true → bs + 1 < N) :
    ∃ idx, blockIndex N bs ov r = some idx ∧ idx.length = N ∧
      ∀ p < N, idx[p]? = some (blockStart N bs ov r (p / bs) + p % bs) := by
  obtain ⟨hM, hM1, hM2⟩ := blockCount_spec N bs hbs hN
  have fin : ∀ s : ResampleState, IdxInv N bs (blockStart N bs ov r) (blockCount N bs) s →
      s.idx.length = N ∧ ∀ p < N, s.idx[p]? = some (blockStart N bs ov r (p / bs) + p % bs) := by
    intro s h
    obtain ⟨h1, h2, h3⟩ := h
    have : s.rc = N := by omega
    exact ⟨by omega, fun p hp => h3 p (by omega)⟩
  unfold blockIndex
  rw [if_neg (by omega), if_neg (by omega)]
  simp only
  cases ov with
  | true =>
    have key : ∀ i, ∃ s, loopM (fun i => overlapStep N bs (r i)) i ⟨[], 0, []⟩ = some s ∧
        IdxInv N bs (blockStart N bs true r) i s := by
      intro i
      induction i with
      | zero => exact ⟨_, rfl, by simp [IdxInv]⟩
      | succ i ih =>
        obtain ⟨s, hs, hI⟩ := ih
        have hst := hI.step hbs (List.range' (r i % (N - bs - 1)) bs) (fun _ => by simp [blockStart]) s.blocks
        refine ⟨_, ?_, hst⟩
        have hov := hov rfl
        have hrc : s.rc ≤ N := by have := hI.1; omega
        simp [loopM, hs, overlapStep, popTo_eq N s.rc hrc _ _ rfl, show N - bs - 1 ≠ 0 by omega]
    obtain ⟨s, hs, hI⟩ := key (blockCount N bs)
    exact ⟨s.idx, by simp [hs], fin s hI⟩
  | false =>
    obtain ⟨bl, hb1, hb2, hb3⟩ := indexBlocks_eq N bs (blockCount N bs) 0 (fun t ht => by
      have : t * bs ≤ (blockCount N bs - 1) * bs := Nat.mul_le_mul_right _ (by omega)
      omega)
    have key : ∀ i, ∃ s, loopM (fun i => resampleStep N (blockCount N bs) (r i)) i ⟨bl, 0, []⟩ = some s ∧
        IdxInv N bs (blockStart N bs false r) i s ∧ s.blocks.length = blockCount N bs ∧
        (s.rc < N → ∀ k < blockCount N bs - 1, s.blocks[k]? = some (List.range' (k * bs) bs)) := by
      intro i
      induction i with
      | zero =>
        refine ⟨_, rfl, by simp [IdxInv], hb2, fun _ k hk => ?_⟩
        simp only
        rw [hb3 k (by omega), List.take_of_length_le]
        · simp
        · simp only [List.length_range']
          have : (k + 1) * bs ≤ (blockCount N bs - 1) * bs := Nat.mul_le_mul_right _ (by omega)
          rw [Nat.add_mul, Nat.one_mul] at this
          omega
      | succ i ih =>
        obtain ⟨s, hs, hI, hl, hB⟩ := ih
        have hk : r i % (blockCount N bs - 1) < blockCount N bs - 1 := Nat.mod_lt _ (by omega)
        have hkl : r i % (blockCount N bs - 1) < s.blocks.length := by omega
        obtain ⟨b, hb⟩ : ∃ b, s.blocks[r i % (blockCount N bs - 1)]? = some b := ⟨_, List.getElem?_eq_getElem hkl⟩
        have hrc : s.rc ≤ N := by have := hI.1; omega
        have hbe : s.rc < N → b = List.range' (blockStart N bs false r i) bs := by
          intro hlt
          have := hB hlt _ hk
          rw [hb, Option.some.injEq] at this
          simpa [blockStart] using this
        have hst := hI.step hbs b hbe (s.blocks.set (r i % (blockCount N bs - 1)) (b.take (N - s.rc)))
        refine ⟨_, ?_, hst, by simp [hl], ?_⟩
        · simp [loopM, hs, resampleStep, hb, popTo_eq N s.rc hrc _ _ rfl, show ¬(blockCount N bs - 1 = 0) by omega]
        · intro hlt k hk'
          simp only [List.length_take] at hlt
          have hlt' : s.rc < N := by omega
          have hb' := hbe hlt'
          have hfull : b.take (N - s.rc) = b := by
            apply List.take_of_length_le
            omega
          simp only [hfull]
          rw [List.getElem?_set]
          split
          · rename_i heq
            rw [hb', ← heq]
            simp [blockStart]
          · exact hB hlt' k hk'
    obtain ⟨s, hs, hI, _, _⟩ := key (blockCount N bs)
    exact ⟨s.idx, by simp [hb1, hs], fin s hI⟩

theorem takeRows_spec {ρ : Type*} (A : List ρ) : ∀ (idx : List ℕ), (∀ i ∈ idx, i < A.length) →
    ∃ sel, takeRows A idx = some sel ∧ sel.length = idx.length ∧ ∀ p < idx.length, sel[p]? = (idx[p]?).bind fun i => A[i]? := by
  intro idx
  induction idx with
  | nil => intro _; exact ⟨[], rfl, rfl, by simp⟩
  | cons a idx ih =>
    intro h
    obtain ⟨sel, h1, h2, h3⟩ := ih fun i hi => h i (List.mem_cons_of_mem _ hi)
    have ha : a < A.length := h a List.mem_cons_self
    refine ⟨A[a] :: sel, ?_, by simp [h2], ?_⟩
    · unfold takeRows at h1 ⊢
      simp [List.mapM_cons, List.getElem?_eq_getElem ha, h1]
    · intro p hp
      cases p with
      | zero => simp [List.getElem?_eq_getElem ha]
      | succ p =>
        simp only [List.length_cons] at hp
        simpa using h3 p (by omega)

theorem writeBack_aux {ρ : Type*} (sel : List ρ) : ∀ (A : List ρ) (k : ℕ), k + sel.length ≤ A.length →
    ((sel.zipIdx k).foldl (fun a p => a.set p.2 p.1) A).length = A.length ∧
    ∀ p, ((sel.zipIdx k).foldl (fun a p => a.set p.2 p.1) A)[p]? =
      if k ≤ p ∧ p < k + sel.length then sel[p - k]? else A[p]? := by
  induction sel with
  | nil => intro A k _; simp
  | cons x sel ih =>
    intro A k h
    simp only [List.length_cons] at h
    rw [List.zipIdx_cons, List.foldl_cons]
    obtain ⟨h1, h2⟩ := ih (A.set k x) (k + 1) (by simp; omega)
    refine ⟨by simp [h1], fun p => ?_⟩
    rw [h2 p]
    simp only [List.length_cons]
    by_cases hpk : p = k
    · subst hpk
      rw [if_neg (by omega), if_pos (by omega), List.getElem?_set_self (by omega)]
      simp
    · by_cases hc : k + 1 ≤ p ∧ p < k + 1 + sel.length
      · rw [if_pos hc, if_pos (by omega), show p - k = (p - (k + 1)) + 1 by omega, List.getElem?_cons_succ]
      · rw [if_neg hc, if_neg (by omega), List.getElem?_set_ne (by omega)]

/-- Overwriting all rows leaves exactly the selection. -/
theorem writeBack_eq {ρ : Type*} (A sel : List ρ) (h : sel.length = A.length) : writeBack A sel = sel := by
  obtain ⟨h1, h2⟩ := writeBack_aux sel A 0 (by omega)
  apply List.ext_getElem?
  intro p
  unfold writeBack
  rw [h2 p]
  split
  · simp
  · rw [List.getElem?_eq_none (by omega), List.getElem?_eq_none (by omega)]

/-! ## Mapping -/

section
variable {K : Type*} [LinearOrder K] {k : ℕ}

/-- The best-so-far search over a list of candidates, starting from a number. -/
theorem mapFold_spec (r : Fin k → Option K) (i : Fin k) (x0 : K) (l : List (Fin k)) : ∀ (b : Fin k) (x : K),
    r b = some x → x0 ≤ x → (b = i ∨ x0 < x) →
    ∃ b' y, l.foldl (fun (b : Fin k × Option K) j => if nanGt (r j) b.2 then (j, r j) else b) (b, some x) = (b', some y) ∧
      r b' = some y ∧ x ≤ y ∧ (b' = i ∨ x0 < y) ∧ ∀ j ∈ l, ∀ z, r j = some z → z ≤ y := by
  induction l with
  | nil => intro b x h1 h2 h3; exact ⟨b, x, rfl, h1, le_rfl, h3, by simp⟩
  | cons j l ih =>
    intro b x h1 h2 h3
    rw [List.foldl_cons]
    cases hr : r j with
    | none =>
      obtain ⟨b', y, q1, q2, q3, q4, q5⟩ := ih b x h1 h2 h3
      refine ⟨b', y, by simpa [nanGt] using q1, q2, q3, q4, ?_⟩
      intro j' hj' z hz
      rcases List.mem_cons.1 hj' with rfl | h
      · rw [hr] at hz; simp at hz
      · exact q5 j' h z hz
    | some z0 =>
      by_cases hlt : x < z0
      · obtain ⟨b', y, q1, q2, q3, q4, q5⟩ := ih j z0 hr (h2.trans hlt.le) (.inr (h2.trans_lt hlt))
        refine ⟨b', y, by simpa [nanGt, hlt] using q1, q2, hlt.le.trans q3, q4, ?_⟩
        intro j' hj' z hz
        rcases List.mem_cons.1 hj' with rfl | h
        · rw [hr, Option.some.injEq] at hz; exact hz ▸ q3
        · exact q5 j' h z hz
      · obtain ⟨b', y, q1, q2, q3, q4, q5⟩ := ih b x h1 h2 h3
        refine ⟨b', y, by simpa [nanGt, hlt] using q1, q2, q3, q4, ?_⟩
        intro j' hj' z hz
        rcases List.mem_cons.1 hj' with rfl | h
        · rw [hr, Option.some.injEq] at hz; exact hz ▸ (not_lt.1 hlt).trans q3
        · exact q5 j' h z hz

theorem mapFold_nan (r : Fin k → Option K) (i : Fin k) (l : List (Fin k)) :
    l.foldl (fun (b : Fin k × Option K) j => if nanGt (r j) b.2 then (j, r j) else b) (i, none) = (i, none) := by
  induction l with
  | nil => rfl
  | cons j l ih =>
    rw [List.foldl_cons]
    have : nanGt (r j) (none : Option K) = false := by cases r j <;> rfl
    simp only [this, Bool.false_eq_true, if_false]
    exact ih

end

section
variable {k : ℕ} {L : Type*}

theorem tableFold (mp : Fin k → MapEntry k L) (l : List (Fin k)) (hl : l.Nodup) : ∀ t : MapTable k,
    (∀ a b, (l.foldl (tableStep mp) t).counts a b =
      t.counts a b + if a ∈ l ∧ (mp a).mapped = true ∧ (mp a).mtch = b then 1 else 0) ∧
    ∀ a, (l.foldl (tableStep mp) t).unmapped a = t.unmapped a + if a ∈ l ∧ (mp a).mapped = false then 1 else 0 := by
  induction l with
  | nil => intro t; simp
  | cons j l ih =>
    intro t
    rw [List.nodup_cons] at hl
    rw [List.foldl_cons]
    obtain ⟨h1, h2⟩ := ih hl.2 (tableStep mp t j)
    constructor
    · intro a b
      rw [h1 a b]
      by_cases ha : a = j
      · subst ha
        simp only [hl.1, false_and, if_false, List.mem_cons, true_or, true_and, tableStep]
        cases hm : (mp a).mapped
        · simp
        · by_cases hb : b = (mp a).mtch
          · simp [hb]
          · simp [hb, Ne.symm hb]
      · simp only [List.mem_cons, ha, false_or, tableStep]
        cases hm : (mp j).mapped <;> simp [ha]
    · intro a
      rw [h2 a]
      by_cases ha : a = j
      · subst ha
        simp only [hl.1, false_and, if_false, List.mem_cons, true_or, true_and, tableStep]
        cases hm : (mp a).mapped <;> simp
      · simp only [List.mem_cons, ha, false_or, tableStep]
        cases hm : (mp j).mapped <;> simp [ha]

theorem buildTable_aux (runs : List (Fin k → MapEntry k L)) : ∀ t : MapTable k,
    (∀ a b, (runs.foldl (fun t mp => (List.finRange k).foldl (tableStep mp) t) t).counts a b =
      t.counts a b + runs.countP fun mp => (mp a).mapped && decide ((mp a).mtch = b)) ∧
    ∀ a, (runs.foldl (fun t mp => (List.finRange k).foldl (tableStep mp) t) t).unmapped a =
      t.unmapped a + runs.countP fun mp => !(mp a).mapped := by
  induction runs with
  | nil => intro t; simp
  | cons mp runs ih =>
    intro t
    rw [List.foldl_cons]
    obtain ⟨h1, h2⟩ := ih ((List.finRange k).foldl (tableStep mp) t)
    obtain ⟨g1, g2⟩ := tableFold mp (List.finRange k) (List.nodup_finRange k) t
    constructor
    · intro a b
      rw [h1, g1, List.countP_cons]
      simp only [List.mem_finRange, true_and, Bool.and_eq_true, decide_eq_true_eq]
      omega
    · intro a
      rw [h2, g2, List.countP_cons]
      simp only [List.mem_finRange, true_and, Bool.not_eq_true']
      omega

end

end Esat
