import Verif.Props.Bootstrap
import Mathlib.Logic.Equiv.Fintype
import Mathlib.Data.Fintype.Pi
import Mathlib.Data.Fintype.BigOperators
import Mathlib.Algebra.BigOperators.Ring.Finset
import Mathlib.Data.List.Count
import Mathlib.Data.Finset.Card
import Mathlib.Order.Interval.Finset.Nat
import Mathlib.Algebra.Order.Field.Rat
import Mathlib.Tactic.NormNum
import Mathlib.Tactic.Push
import Mathlib.Tactic.Ring

/-!
# C170: how often a row is drawn by the block bootstrap

Counting over all sequences of draws, each being equally likely.
-/

namespace Esat

/-- A sequence of `M` draws from `h` values as a random source. -/
def drawsOf {M h : ℕ} (r : Fin M → Fin h) (i : ℕ) : ℕ := if hi : i < M then (r ⟨i, hi⟩).val else 0

theorem sum_coord {M h : ℕ} (t : Fin M) (g : Fin h → ℕ) : ∑ r : Fin M → Fin h, g (r t) = h ^ (M - 1) * ∑ s, g s := by
  rw [← (Equiv.piSplitAt t (fun _ => Fin h)).symm.sum_comp, Fintype.sum_prod_type]
  have : ∀ (s : Fin h) (y : (j : { j // j ≠ t }) → Fin h), g ((Equiv.piSplitAt t (fun _ => Fin h)).symm (s, y) t) = g s := by
    intro s y
    congr 1
    simp [Equiv.piSplitAt]
  simp only [this, Finset.sum_const, Finset.card_univ, smul_eq_mul]
  rw [← Finset.mul_sum]
  congr 1
  rw [Fintype.card_fun, Fintype.card_fin]
  congr 1
  simp [Fintype.card_subtype_compl]

theorem count_map_range (f : ℕ → ℕ) (j : ℕ) : ∀ N, ((List.range N).map f).count j = ∑ p ∈ Finset.range N, if f p = j then 1 else 0
  | 0 => rfl
  | N + 1 => by
    rw [List.range_succ, List.map_append, List.count_append, count_map_range f j N, Finset.sum_range_succ]
    simp [List.count_cons]

theorem count_eq_sum (l : List ℕ) (N : ℕ) (f : ℕ → ℕ) (hl : l.length = N) (h : ∀ p < N, l[p]? = some (f p)) (j : ℕ) :
    l.count j = ∑ p ∈ Finset.range N, if f p = j then 1 else 0 := by
  have : l = (List.range N).map f := by
    apply List.ext_getElem?
    intro p
    by_cases hp : p < N
    · rw [h p hp]
      simp [hp]
    · rw [List.getElem?_eq_none (by omega), List.getElem?_eq_none (by simp; omega)]
  rw [this, count_map_range]

/-- The number of rows of the resample equal to `j`, summed over all sequences of draws. -/
def totalDraws (N bs : ℕ) (ov : Bool) (M h j : ℕ) : ℕ := ∑ r : Fin M → Fin h, ((blockIndex N bs ov (drawsOf r)).getD []).count j

theorem totalDraws_eq (N bs : ℕ) (ov : Bool) (j : ℕ) (hbs : 0 < bs) (hN : 2 * bs ≤ N) (hov : ov = true → bs + 1 < N) :
    let M := blockCount N bs
    let h := if ov then N - bs - 1 else M - 1
    totalDraws N bs ov M h j = h ^ (M - 1) * ∑ p ∈ Finset.range N, ∑ s : Fin h, if (if ov then s.val else s.val * bs) + p % bs = j then 1 else 0 := by
  intro M h
  obtain ⟨hM, hM1, hM2⟩ := blockCount_spec N bs hbs hN
  have hcount : ∀ r : Fin M → Fin h, ((blockIndex N bs ov (drawsOf r)).getD []).count j =
      ∑ p ∈ Finset.range N, if blockStart N bs ov (drawsOf r) (p / bs) + p % bs = j then 1 else 0 := fun r => by
    obtain ⟨idx, e1, e2, e3⟩ := blockIndex_spec N bs ov (drawsOf r) hbs hN hov
    rw [e1, Option.getD_some]
    exact count_eq_sum idx N _ e2 e3 j
  unfold totalDraws
  simp only [hcount]
  rw [Finset.sum_comm, Finset.mul_sum]
  refine Finset.sum_congr rfl fun p hp => ?_
  have hp := Finset.mem_range.1 hp
  have ht : p / bs < M := by
    rw [Nat.div_lt_iff_lt_mul hbs]
    exact lt_of_lt_of_le hp hM2
  rw [← sum_coord ⟨p / bs, ht⟩]
  refine Finset.sum_congr rfl fun r _ => ?_
  have hb : blockStart N bs ov (drawsOf r) (p / bs) = if ov then (r ⟨p / bs, ht⟩).val else (r ⟨p / bs, ht⟩).val * bs := by
    have hlt := (r ⟨p / bs, ht⟩).isLt
    unfold blockStart drawsOf
    rw [dif_pos ht]
    cases ov with
    | true =>
      rw [if_pos rfl, if_pos rfl]
      exact Nat.mod_eq_of_lt hlt
    | false =>
      simp only [Bool.false_eq_true, if_false]
      congr 1
      exact Nat.mod_eq_of_lt hlt
  rw [hb]

theorem sum_fin_eq_one (h x : ℕ) (P : ℕ → Prop) [DecidablePred P] (hP : ∀ s, P s ↔ s = x) :
    (∑ s : Fin h, if P s.val then 1 else 0) = if x < h then 1 else 0 := by
  simp only [hP]
  split_ifs with hx
  · rw [Finset.sum_eq_single (⟨x, hx⟩ : Fin h)]
    · simp
    · intro b _ hb
      rw [if_neg (fun e => hb (Fin.ext e))]
    · simp
  · refine Finset.sum_eq_zero fun s _ => ?_
    rw [if_neg]
    have := s.isLt
    omega

theorem sum_mod (bs o : ℕ) (hbs : 0 < bs) (ho : o < bs) : ∀ N, (∑ p ∈ Finset.range N, if p % bs = o then 1 else 0) = (N + bs - 1 - o) / bs
  | 0 => by
    rw [Finset.sum_range_zero, eq_comm, Nat.div_eq_zero_iff]
    omega
  | N + 1 => by
    rw [Finset.sum_range_succ, sum_mod bs o hbs ho N]
    have hdm := Nat.div_add_mod N bs
    have hm := Nat.mod_lt N hbs
    set q := N / bs
    set t := N % bs
    have e1 : N + bs - 1 - o = bs * q + (t + bs - 1 - o) := by omega
    have e2 : N + 1 + bs - 1 - o = bs * q + (t + bs - o) := by omega
    rw [e1, e2, Nat.mul_add_div hbs, Nat.mul_add_div hbs]
    split_ifs with h
    · rw [h, show o + bs - 1 - o = bs - 1 by omega, show o + bs - o = bs by omega, Nat.div_self hbs, Nat.div_eq_of_lt (by omega)]
    · rcases Nat.lt_or_gt_of_ne h with h | h
      · rw [Nat.div_eq_of_lt (show t + bs - 1 - o < bs by omega), Nat.div_eq_of_lt (show t + bs - o < bs by omega)]
      · have a1 : (t + bs - 1 - o) / bs = 1 := by
          rw [Nat.div_eq_iff hbs]
          omega
        have a2 : (t + bs - o) / bs = 1 := by
          rw [Nat.div_eq_iff hbs]
          omega
        omega

/-- **C170.** Blocks without overlap, `M = ⌈N / block size⌉` blocks: a row before the last block is drawn `⌈(N - o) / block size⌉ / (M - 1)`
times on average, where `o` is its place in its block; the rows of the last block never. -/
theorem C170_blocks (N bs j : ℕ) (hbs : 0 < bs) (hN : 2 * bs ≤ N) :
    let M := (N + bs - 1) / bs
    ((∑ r : Fin M → Fin (M - 1), ((blockIndex N bs false (drawsOf r)).getD []).count j : ℕ) : ℚ) / (M - 1 : ℕ) ^ M =
      if j < bs * (M - 1) then (((N + bs - 1 - j % bs) / bs : ℕ) : ℚ) / (M - 1 : ℕ) else 0 := by
  intro M
  obtain ⟨hM, hM1, hM2⟩ := blockCount_spec N bs hbs hN
  have key := totalDraws_eq N bs false j hbs hN (by simp)
  simp only [Bool.false_eq_true, if_false] at key
  change totalDraws N bs false M (M - 1) j = (M - 1) ^ (M - 1) * ∑ p ∈ Finset.range N, ∑ s : Fin (M - 1), _ at key
  have hMdef : M = blockCount N bs := rfl
  have hin : ∀ p, (∑ s : Fin (M - 1), if s.val * bs + p % bs = j then 1 else 0) =
      (if p % bs = j % bs then 1 else 0) * (if j < bs * (M - 1) then 1 else 0) := fun p => by
    have hpm := Nat.mod_lt p hbs
    by_cases hp : p % bs = j % bs
    · rw [if_pos hp, one_mul, sum_fin_eq_one (M - 1) (j / bs) (fun s => s * bs + p % bs = j) (fun s => by
        rw [hp]
        have hdm := Nat.div_add_mod j bs
        constructor
        · intro e
          have : s * bs = j / bs * bs := by rw [Nat.mul_comm (j / bs)]; omega
          exact Nat.eq_of_mul_eq_mul_right hbs this
        · rintro rfl
          rw [Nat.mul_comm]
          exact hdm)]
      congr 1
      rw [eq_iff_iff, Nat.div_lt_iff_lt_mul hbs, Nat.mul_comm]
    · rw [if_neg hp, zero_mul]
      refine Finset.sum_eq_zero fun s _ => ?_
      rw [if_neg]
      intro e
      apply hp
      rw [← e, Nat.mul_comm, Nat.mul_add_mod, Nat.mod_mod]
  rw [show (∑ r : Fin M → Fin (M - 1), ((blockIndex N bs false (drawsOf r)).getD []).count j) = totalDraws N bs false M (M - 1) j from rfl,
    key]
  simp only [hin]
  rw [← Finset.sum_mul, sum_mod bs (j % bs) hbs (Nat.mod_lt _ hbs)]
  have hpos : ((M - 1 : ℕ) : ℚ) ≠ 0 := by
    have : 0 < M - 1 := by omega
    exact_mod_cast this.ne'
  have hpw : ((M - 1 : ℕ) : ℚ) ^ M = ((M - 1 : ℕ) : ℚ) ^ (M - 1) * ((M - 1 : ℕ) : ℚ) := by
    rw [← pow_succ, Nat.sub_add_cancel (by omega)]
  rw [hpw]
  split_ifs with hj
  · push_cast
    rw [mul_one, mul_div_mul_left _ _ (pow_ne_zero _ hpos)]
  · push_cast
    simp

/-- **C170.** Overlapping blocks with a block size that divides the number of rows: with `h = N - block size - 1` possible first rows, row
`j` is drawn `(N / block size) (min (block size) (j + 1) - (j + 1 - h)) / h` times on average (truncated subtractions). So the first row
comes up about `1 / block size` times, the rows in the middle `N / h` times. -/
theorem C170_overlap (N bs j : ℕ) (hbs : 0 < bs) (hN : 2 * bs ≤ N) (h2 : 2 < N) (hd : bs ∣ N) :
    let M := N / bs
    let h := N - bs - 1
    ((∑ r : Fin M → Fin h, ((blockIndex N bs true (drawsOf r)).getD []).count j : ℕ) : ℚ) / (h : ℚ) ^ M =
      ((M * (min bs (j + 1) - (j + 1 - h)) : ℕ) : ℚ) / h := by
  intro M h
  obtain ⟨hM, hM1, hM2⟩ := blockCount_spec N bs hbs hN
  have hMb : blockCount N bs = M := by
    obtain ⟨q, rfl⟩ := hd
    show (bs * q + bs - 1) / bs = bs * q / bs
    rw [Nat.mul_div_cancel_left _ hbs, show bs * q + bs - 1 = bs * q + (bs - 1) by omega, Nat.mul_add_div hbs, Nat.div_eq_of_lt (by omega),
      Nat.add_zero]
  have key := totalDraws_eq N bs true j hbs hN (fun _ => by omega)
  simp only [if_true, hMb] at key
  change totalDraws N bs true M h j = h ^ (M - 1) * ∑ p ∈ Finset.range N, ∑ s : Fin h, _ at key
  have hin : ∀ p, (∑ s : Fin h, if s.val + p % bs = j then 1 else 0) = if p % bs ≤ j ∧ j < p % bs + h then 1 else 0 := fun p => by
    by_cases hp : p % bs ≤ j
    · rw [sum_fin_eq_one h (j - p % bs) (fun s => s + p % bs = j) (fun s => by omega)]
      congr 1
      rw [eq_iff_iff]
      omega
    · rw [if_neg (by omega)]
      refine Finset.sum_eq_zero fun s _ => ?_
      rw [if_neg]
      omega
  have hsum : ∀ q, (∑ p ∈ Finset.range (bs * q), if p % bs ≤ j ∧ j < p % bs + h then 1 else 0) =
      q * (∑ o ∈ Finset.range bs, if o ≤ j ∧ j < o + h then 1 else 0) := fun q => by
    induction q with
    | zero => simp
    | succ q ih =>
      rw [Nat.mul_succ, Finset.sum_range_add, ih, Nat.succ_mul]
      congr 1
      refine Finset.sum_congr rfl fun o ho => ?_
      rw [Nat.mul_add_mod, Nat.mod_eq_of_lt (Finset.mem_range.1 ho)]
  have hcard : (∑ o ∈ Finset.range bs, if o ≤ j ∧ j < o + h then 1 else 0) = min bs (j + 1) - (j + 1 - h) := by
    rw [Finset.sum_boole]
    have : (Finset.range bs).filter (fun o => o ≤ j ∧ j < o + h) = Finset.Ico (j + 1 - h) (min bs (j + 1)) := by
      ext o
      simp only [Finset.mem_filter, Finset.mem_range, Finset.mem_Ico]
      omega
    rw [this, Nat.card_Ico]
    rfl
  rw [show (∑ r : Fin M → Fin h, ((blockIndex N bs true (drawsOf r)).getD []).count j) = totalDraws N bs true M h j from rfl, key]
  simp only [hin]
  have hNq : N = bs * M := (Nat.mul_div_cancel' hd).symm
  rw [show Finset.range N = Finset.range (bs * M) by rw [← hNq], hsum, hcard]
  have hpos : (h : ℚ) ≠ 0 := by
    have : 0 < h := by omega
    exact_mod_cast this.ne'
  have hM1 : 0 < M := by omega
  have hpw : (h : ℚ) ^ M = (h : ℚ) ^ (M - 1) * h := by
    rw [← pow_succ, Nat.sub_add_cancel (by omega)]
  rw [hpw]
  push_cast
  rw [mul_div_mul_left _ _ (pow_ne_zero _ hpos)]

/-- A hundred rows in blocks of ten: without overlap each of the first ninety rows comes up 10/9 times, with overlap the first row 10/89
times and row 50 100/89 times. -/
example : (let M := (100 + 10 - 1) / 10
    ((∑ r : Fin M → Fin (M - 1), ((blockIndex 100 10 false (drawsOf r)).getD []).count 37 : ℕ) : ℚ) / (M - 1 : ℕ) ^ M = 10 / 9) ∧
    (let M := 100 / 10
    let h := 100 - 10 - 1
    ((∑ r : Fin M → Fin h, ((blockIndex 100 10 true (drawsOf r)).getD []).count 0 : ℕ) : ℚ) / (h : ℚ) ^ M = 10 / 89 ∧
    ((∑ r : Fin M → Fin h, ((blockIndex 100 10 true (drawsOf r)).getD []).count 50 : ℕ) : ℚ) / (h : ℚ) ^ M = 100 / 89) := by
  refine ⟨?_, ?_, ?_⟩
  · exact (C170_blocks 100 10 37 (by norm_num) (by norm_num)).trans (by norm_num)
  · exact (C170_overlap 100 10 0 (by norm_num) (by norm_num) (by norm_num) (by norm_num)).trans (by norm_num)
  · exact (C170_overlap 100 10 50 (by norm_num) (by norm_num) (by norm_num) (by norm_num)).trans (by norm_num)

end Esat
