import Verif.Props.Ieee
import Verif.Props.LsNmf
import Mathlib.Tactic.FinCases

/-!
# C240: empty samples, empty features and dead factors in floating point

C01 and the theorems on training exclude a sample or feature whose data are all zero. Here it is shown what the code does with them: quotients `0 / 0` turn the solution and the loss into NaN within two iterations, whatever the
rounding, the order of summation and the other numbers are.
-/

namespace Esat
open Fl

variable {A : Arith} {m n k : ℕ}

theorem mul_zeroOrNan_right {x y : Fl} (hy : ZeroOrNan y) : ZeroOrNan (A.mul x y) := by
  rcases hy with rfl | ⟨s, rfl⟩
  · exact .inl (mul_nan_right _)
  · cases x with
    | nan => exact .inl rfl
    | inf t => exact .inl (by simp [Arith.mul, Arith.mulWith])
    | fin t y => exact .inr ⟨xor t s, by simp [Arith.mul, Arith.mulWith, Arith.round, A.rnd_zero]⟩

theorem mulEx_zeroOrNan {x y : Fl} (h : ZeroOrNan x ∨ ZeroOrNan y) : ZeroOrNan (Arith.mulWith Fl.fin x y) := by
  rcases h with (rfl | ⟨s, rfl⟩) | rfl | ⟨s, rfl⟩
  · cases y <;> exact .inl rfl
  · cases y with
    | nan => exact .inl rfl
    | inf t => exact .inl (by simp [Arith.mulWith])
    | fin t y => exact .inr ⟨xor s t, by simp [Arith.mulWith]⟩
  · cases x <;> exact .inl rfl
  · cases x with
    | nan => exact .inl rfl
    | inf t => exact .inl (by simp [Arith.mulWith])
    | fin t y => exact .inr ⟨xor t s, by simp [Arith.mulWith]⟩

theorem add_zeroOrNan {x y : Fl} (hx : ZeroOrNan x) (hy : ZeroOrNan y) : ZeroOrNan (A.add x y) := by
  rcases hx with rfl | ⟨s, rfl⟩
  · exact .inl (add_nan_left _)
  · rcases hy with rfl | ⟨t, rfl⟩
    · exact .inl (add_nan_right _)
    · by_cases h : s = t
      · exact .inr ⟨s, by simp [Arith.add, h, Arith.round, A.rnd_zero]⟩
      · exact .inr ⟨false, by simp [Arith.add, h]⟩

/-- A sum of products with a zero in each of them. -/
theorem dot_zeroOrNan {ι : Type} [DecidableEq ι] {x y : ι → Fl} {d : ℕ} {S : Finset ι} {s : Fl} (h : A.Dot x y d S s) (hz : ∀ i ∈ S, ZeroOrNan (x i) ∨ ZeroOrNan (y i)) : ZeroOrNan s := by
  induction h with
  | zero => exact .inr ⟨_, rfl⟩
  | term i => exact (hz i (by simp)).elim mul_zeroOrNan mul_zeroOrNan_right
  | fma i hi _ ih => exact add_zeroOrNan (mulEx_zeroOrNan (hz i (by simp))) (ih fun j hj => hz j (by simp [hj]))
  | add _ _ _ ih ih' => exact add_zeroOrNan (ih fun j hj => hz j (by simp [hj])) (ih' fun j hj => hz j (by simp [hj]))

theorem matMul_zeroOrNan {d : ℕ} {X : Mat m k Fl} {Y : Mat k n Fl} {Z : Mat m n Fl} (h : A.MatMul d X Y Z) {i : Fin m} {j : Fin n} (hz : ∀ a, ZeroOrNan (X i a) ∨ ZeroOrNan (Y a j)) : ZeroOrNan (Z i j) := by
  obtain ⟨_, _, h⟩ := h i j
  exact dot_zeroOrNan h fun a _ => hz a

/-- `0 / 0`. -/
theorem div_zero_zero {x y : Fl} (hx : ZeroOrNan x) (hy : ZeroOrNan y) : A.div x y = nan := by
  rcases hx with rfl | ⟨s, rfl⟩
  · exact div_nan_left _
  · rcases hy with rfl | ⟨t, rfl⟩
    · exact div_nan_right _
    · simp [Arith.div]

/-- `0 / x` is zero or NaN. -/
theorem div_zeroOrNan {x y : Fl} (hx : ZeroOrNan x) : ZeroOrNan (A.div x y) := by
  rcases hx with rfl | ⟨s, rfl⟩
  · exact .inl (div_nan_left _)
  · cases y with
    | nan => exact .inl rfl
    | inf t => exact .inr ⟨_, rfl⟩
    | fin t y =>
      by_cases h : y = 0
      · exact .inl (by simp [Arith.div, h])
      · exact .inr ⟨xor s t, by simp [Arith.div, h, Arith.round, A.rnd_zero]⟩

/-- A NaN of W stays. -/
theorem run_keeps_nan {d : ℕ} {V We : Mat m n Fl} : ∀ (bs : List Bool) {W W' : Mat m k Fl} {H H' : Mat k n Fl}, A.Run d V We bs W H W' H' → ∀ {i a}, W i a = nan → W' i a = nan
  | [], W, W', H, H', h, i, a, e => by obtain ⟨rfl, rfl⟩ := h; exact e
  | b :: bs, W, W', H, H', h, i, a, e => by
    obtain ⟨W₁, H₁, ⟨_, h2⟩, h3⟩ := h
    obtain ⟨_, _, _, _, _, _, e2⟩ := h2
    exact run_keeps_nan bs h3 (by rw [e2, e, mul_nan_left])

/-- What a NaN loss means for the convergence test (`lib.rs:371-374`). -/
theorem converges_nan (front delta : Fl) : A.converges front nan delta = false := by
  rw [Arith.converges, Arith.sub, Fl.neg, add_nan_right]
  cases delta <;> rfl

/-! ## A sample without data -/

/-- After one update with zero data the contributions of the sample are zero or NaN; so is the row of the model then. -/
theorem stepW_empty {d : ℕ} {V We : Mat m n Fl} {W W' : Mat m k Fl} {H : Mat k n Fl} (h : A.StepW d V We W H W') {i : Fin m} (hV : ∀ j, ZeroOrNan (V i j)) (a : Fin k) : ZeroOrNan (W' i a) := by
  obtain ⟨WH, num, den, _, h2, _, h4⟩ := h
  rw [h4]
  exact mul_zeroOrNan_right (div_zeroOrNan (matMul_zeroOrNan h2 fun j => .inl (mul_zeroOrNan_right (hV j))))

theorem stepW_empty_nan {d : ℕ} {V We : Mat m n Fl} {W W' : Mat m k Fl} {H : Mat k n Fl} (h : A.StepW d V We W H W') {i : Fin m} (hV : ∀ j, ZeroOrNan (V i j)) (hW : ∀ a, ZeroOrNan (W i a)) (a : Fin k) : W' i a = nan := by
  obtain ⟨WH, num, den, h1, h2, h3, h4⟩ := h
  have e1 : ∀ j, ZeroOrNan (WH i j) := fun j => matMul_zeroOrNan h1 fun b => .inl (hW b)
  rw [h4, div_zero_zero (matMul_zeroOrNan h2 fun j => .inl (mul_zeroOrNan_right (hV j))) (matMul_zeroOrNan h3 fun j => .inl (mul_zeroOrNan_right (e1 j))), mul_nan_right]

/-- **C240 (empty sample).** If the data of sample `i` are all zero (of either sign), its contributions are NaN from the second ls-nmf update on and the loss with them, so that training cannot converge any more; with the profiles
updated a third time, all contributions and profiles are NaN. This holds for all other data, weights and factors, held profiles or not, every rounding and order of summation. -/
theorem C240_sample {d : ℕ} {V U We : Mat m n Fl} {W W' : Mat m k Fl} {H H' : Mat k n Fl} (hn : 0 < n) (hk : 0 < k) (i : Fin m) (hV : ∀ j, V i j = fin false 0 ∨ V i j = fin true 0) (b₁ b₂ : Bool) (bs : List Bool)
    (h : A.Run d V We (b₁ :: b₂ :: bs) W H W' H') :
    (∀ a, W' i a = nan) ∧ (∀ q, A.QOf d V U W' H' q → q = nan ∧ ∀ front delta, A.converges front q delta = false) ∧ (∀ W'' H'', A.Update d V We false W' H' W'' H'' → (∀ r a, W'' r a = nan) ∧ ∀ a j, H'' a j = nan) := by
  have hV' : ∀ j, ZeroOrNan (V i j) := fun j => (hV j).elim (fun e => .inr ⟨_, e⟩) fun e => .inr ⟨_, e⟩
  obtain ⟨W₁, H₁, h1, W₂, H₂, h2, h3⟩ := h
  have e2 : ∀ a, W₂ i a = nan := stepW_empty_nan h2.2 hV' (stepW_empty h1.2 hV')
  have e : ∀ a, W' i a = nan := fun a => run_keeps_nan bs h3 (e2 a)
  refine ⟨e, fun q hq => ?_, fun W'' H'' hu => ?_⟩
  · obtain rfl := q_nan_of_w hn hq (e ⟨0, hk⟩)
    exact ⟨rfl, fun _ _ => converges_nan _ _⟩
  · have hH := stepH_nan_of_row hu.1 ⟨⟨0, hk⟩, e ⟨0, hk⟩⟩
    exact ⟨stepW_nan_of_col (j := ⟨0, hn⟩) hu.2 ⟨⟨0, hk⟩, hH _ _⟩, hH⟩

/-! ## A feature without data -/

theorem stepH_empty {d : ℕ} {V We : Mat m n Fl} {W : Mat m k Fl} {H H' : Mat k n Fl} (h : A.StepH d V We W H H') {j : Fin n} (hV : ∀ i, ZeroOrNan (V i j)) (a : Fin k) : ZeroOrNan (H' a j) := by
  obtain ⟨WH, num, den, _, h2, _, h4⟩ := h
  rw [h4]
  exact mul_zeroOrNan_right (div_zeroOrNan (matMul_zeroOrNan h2 fun i => .inr (mul_zeroOrNan_right (hV i))))

theorem stepH_empty_nan {d : ℕ} {V We : Mat m n Fl} {W : Mat m k Fl} {H H' : Mat k n Fl} (h : A.StepH d V We W H H') {j : Fin n} (hV : ∀ i, ZeroOrNan (V i j)) (hH : ∀ a, ZeroOrNan (H a j)) (a : Fin k) : H' a j = nan := by
  obtain ⟨WH, num, den, h1, h2, h3, h4⟩ := h
  have e1 : ∀ i, ZeroOrNan (WH i j) := fun i => matMul_zeroOrNan h1 fun b => .inr (hH b)
  rw [h4, div_zero_zero (matMul_zeroOrNan h2 fun i => .inr (mul_zeroOrNan_right (hV i))) (matMul_zeroOrNan h3 fun i => .inr (mul_zeroOrNan_right (e1 i))), mul_nan_right]

/-- **C240 (empty feature).** If the data of feature `j` are all zero, two ls-nmf updates of the profiles make all contributions NaN; they stay NaN, and so is the loss. -/
theorem C240_feature {d : ℕ} {V U We : Mat m n Fl} {W W' : Mat m k Fl} {H H' : Mat k n Fl} (hm : 0 < m) (hn : 0 < n) (hk : 0 < k) (j : Fin n) (hV : ∀ i, V i j = fin false 0 ∨ V i j = fin true 0) (bs : List Bool)
    (h : A.Run d V We (false :: false :: bs) W H W' H') :
    (∀ i a, W' i a = nan) ∧ ∀ q, A.QOf d V U W' H' q → q = nan ∧ ∀ front delta, A.converges front q delta = false := by
  have hV' : ∀ i, ZeroOrNan (V i j) := fun i => (hV i).elim (fun e => .inr ⟨_, e⟩) fun e => .inr ⟨_, e⟩
  obtain ⟨W₁, H₁, h1, W₂, H₂, h2, h3⟩ := h
  have e2 : ∀ a, H₂ a j = nan := stepH_empty_nan h2.1 hV' (stepH_empty h1.1 hV')
  have e : ∀ i a, W' i a = nan := fun i a => run_keeps_nan bs h3 (stepW_nan_of_col h2.2 ⟨⟨0, hk⟩, e2 _⟩ i a)
  refine ⟨e, fun q hq => ?_⟩
  obtain rfl := q_nan_of_w hn hq (e ⟨0, hm⟩ ⟨0, hk⟩)
  exact ⟨rfl, fun _ _ => converges_nan _ _⟩

/-! ## A factor that vanished -/

/-- **C240 (dead factor).** If all contributions of a factor are zero, one ls-nmf update of profiles and contributions makes its profile and all contributions of all factors NaN, and the loss from then on. -/
theorem C240_contributions {d : ℕ} {V U We : Mat m n Fl} {W W' : Mat m k Fl} {H H' : Mat k n Fl} (hm : 0 < m) (hn : 0 < n) (a : Fin k) (bs : List Bool) (hz : ∀ i, W i a = fin false 0 ∨ W i a = fin true 0)
    (h : A.Run d V We (false :: bs) W H W' H') : (∀ i c, W' i c = nan) ∧ ∀ q, A.QOf d V U W' H' q → q = nan ∧ ∀ front delta, A.converges front q delta = false := by
  obtain ⟨W₁, H₁, h1, h3⟩ := h
  have hW : ∀ i, ZeroOrNan (W i a) := fun i => (hz i).elim (fun e => .inr ⟨_, e⟩) fun e => .inr ⟨_, e⟩
  have e : ∀ j, H₁ a j = nan := by
    obtain ⟨WH, num, den, g1, g2, g3, g4⟩ := (show A.StepH d V We W H H₁ from h1.1)
    intro j
    rw [g4, div_zero_zero (matMul_zeroOrNan g2 fun i => .inl (hW i)) (matMul_zeroOrNan g3 fun i => .inl (hW i)), mul_nan_right]
  have e' : ∀ i c, W' i c = nan := fun i c => run_keeps_nan bs h3 (stepW_nan_of_col (j := ⟨0, hn⟩) h1.2 ⟨a, e _⟩ i c)
  refine ⟨e', fun q hq => ?_⟩
  obtain rfl := q_nan_of_w hn hq (e' ⟨0, hm⟩ a)
  exact ⟨rfl, fun _ _ => converges_nan _ _⟩

/-- **C240 (dead factor).** If the profile of a factor is all zero, one ls-nmf update, with the profiles held or not, makes the contributions of that factor NaN, and the loss from then on. -/
theorem C240_profile {d : ℕ} {V U We : Mat m n Fl} {W W' : Mat m k Fl} {H H' : Mat k n Fl} (hm : 0 < m) (hn : 0 < n) (a : Fin k) (b : Bool) (bs : List Bool) (hz : ∀ j, H a j = fin false 0 ∨ H a j = fin true 0)
    (h : A.Run d V We (b :: bs) W H W' H') : (∀ i, W' i a = nan) ∧ ∀ q, A.QOf d V U W' H' q → q = nan ∧ ∀ front delta, A.converges front q delta = false := by
  obtain ⟨W₁, H₁, h1, h3⟩ := h
  have hH : ∀ j, ZeroOrNan (H a j) := fun j => (hz j).elim (fun e => .inr ⟨_, e⟩) fun e => .inr ⟨_, e⟩
  have hH₁ : ∀ j, ZeroOrNan (H₁ a j) := by
    cases b
    · obtain ⟨WH, num, den, g1, g2, g3, g4⟩ := (show A.StepH d V We W H H₁ from h1.1)
      intro j
      rw [g4]
      exact mul_zeroOrNan (hH j)
    · have : H₁ = H := h1.1
      rw [this]
      exact hH
  have e : ∀ i, W' i a = nan := by
    refine fun i => run_keeps_nan bs h3 ?_
    obtain ⟨WH, num, den, g1, g2, g3, g4⟩ := h1.2
    rw [g4, div_zero_zero (matMul_zeroOrNan g2 fun j => .inr (hH₁ j)) (matMul_zeroOrNan g3 fun j => .inr (hH₁ j)), mul_nan_right]
  refine ⟨e, fun q hq => ?_⟩
  obtain rfl := q_nan_of_w hn hq (e ⟨0, hm⟩)
  exact ⟨rfl, fun _ _ => converges_nan _ _⟩

/-! ## Exact arithmetic -/

/-- **C240 (exact arithmetic).** From positive factors and weights and non-negative data, ls-nmf divides by no zero, however long it runs and whenever the profiles are held, exactly if no sample and no feature is empty. -/
theorem C240_exact {K : Type*} [Field K] [LinearOrder K] [IsStrictOrderedRing K] (hm : 0 < m) (hn : 0 < n) (hk : 0 < k) (V We : Mat m n K) (W : Mat m k K) (H : Mat k n K) (hV : ∀ i j, 0 ≤ V i j) (hWe : ∀ i j, 0 < We i j)
    (hW : ∀ i a, 0 < W i a) (hH : ∀ a j, 0 < H a j) :
    (∀ holds, (lsRun V We holds W H).isSome) ↔ (∀ i, ∃ j, V i j ≠ 0) ∧ ∀ j, ∃ i, V i j ≠ 0 := by
  constructor
  · intro h
    obtain ⟨⟨W₂, H₂⟩, h2⟩ := Option.isSome_iff_exists.1 (h [false, false])
    obtain ⟨⟨W₁, H₁⟩, h1, h2⟩ := lsRun_cons_eq_some.1 h2
    obtain ⟨⟨W₃, H₃⟩, h3, -⟩ := lsRun_cons_eq_some.1 h2
    obtain ⟨a1, a2⟩ := lsUpdate_eq_some.1 h1
    obtain ⟨b1, b2⟩ := lsUpdate_eq_some.1 h3
    dsimp only at b1 b2
    constructor
    · intro i
      by_contra hc
      push Not at hc
      have hz : ∀ a, W₁ i a = 0 := fun a => by
        rw [(lsStepW_eq_some.1 a2).2, lsWNum_apply]
        simp [hc]
      refine (lsStepW_eq_some.1 b2).1 i ⟨0, hk⟩ ?_
      rw [lsWDen_apply]
      simp [hz]
    · intro j
      by_contra hc
      push Not at hc
      rcases a1 with ⟨h0, -⟩ | ⟨-, a1⟩
      · cases h0
      rcases b1 with ⟨h0, -⟩ | ⟨-, b1⟩
      · cases h0
      have hz : ∀ a, H₁ a j = 0 := fun a => by
        rw [(lsStepH_eq_some.1 a1).2, lsHNum_apply]
        simp [hc]
      refine (lsStepH_eq_some.1 b1).1 ⟨0, hk⟩ j ?_
      rw [lsHDen_apply]
      simp [hz]
  · rintro ⟨h1, h2⟩ holds
    obtain ⟨W', H', h, -⟩ := C01_positive hm hn V We holds W H hV (fun i => (h1 i).imp fun j hj => lt_of_le_of_ne (hV i j) hj.symm)
      (fun j => (h2 j).imp fun i hi => lt_of_le_of_ne (hV i j) hi.symm) hWe hW hH
    rw [h]
    rfl

/-- Both sides occur. -/
example : (∀ holds, (lsRun (K := ℚ) (k := 2) ![![1, 0], ![0, 3]] (fun _ _ => 1) holds (fun _ _ => 1) (fun _ _ => 2)).isSome) ∧ ¬ ∀ holds, (lsRun (K := ℚ) (k := 2) ![![1, 2], ![0, 0]] (fun _ _ => 1) holds (fun _ _ => 1) (fun _ _ => 2)).isSome := by
  rw [C240_exact (by decide) (by decide) (by decide) _ _ _ _ (by decide +kernel) (by decide +kernel) (by decide +kernel) (by decide +kernel), C240_exact (by decide) (by decide) (by decide) _ _ _ _ (by decide +kernel) (by decide +kernel) (by decide +kernel) (by decide +kernel)]
  decide +kernel

/-! ## Cases -/

/-- Two samples of two features, the second sample without data, in single precision: such runs exist, and their loss is NaN. -/
example : ∃ W' H' : Mat 2 2 Fl, binary32.arith.Run 2 ![![fin false 1, fin false 2], ![fin false 0, fin false 0]] (fun _ _ => fin false 1) [false, true, false] (fun _ _ => fin false 1) (fun _ _ => fin false 1) W' H' ∧
    W' 1 0 = nan ∧ W' 1 1 = nan := by
  obtain ⟨W', H', h⟩ := run_exists (A := binary32.arith) (m := 2) (n := 2) (k := 2) (d := 2) (by decide) ![![fin false 1, fin false 2], ![fin false 0, fin false 0]] (fun _ _ => fin false 1) [false, true, false] (fun _ _ => fin false 1) (fun _ _ => fin false 1)
  have := (C240_sample (m := 2) (n := 2) (k := 2) (U := fun _ _ => fin false 1) (by decide) (by decide) 1 (by intro j; fin_cases j <;> exact .inl rfl) false true [false] h).1
  exact ⟨W', H', h, this 0, this 1⟩

/-- One feature without data. -/
example : ∃ W' H' : Mat 2 2 Fl, binary32.arith.Run 2 ![![fin false 1, fin false 0], ![fin false 3, fin false 0]] (fun _ _ => fin false 1) [false, false] (fun _ _ => fin false 1) (fun _ _ => fin false 1) W' H' ∧ ∀ i a, W' i a = nan := by
  obtain ⟨W', H', h⟩ := run_exists (A := binary32.arith) (m := 2) (n := 2) (k := 2) (d := 2) (by decide) ![![fin false 1, fin false 0], ![fin false 3, fin false 0]] (fun _ _ => fin false 1) [false, false] (fun _ _ => fin false 1) (fun _ _ => fin false 1)
  exact ⟨W', H', h, (C240_feature (m := 2) (n := 2) (k := 2) (U := fun _ _ => fin false 1) (by decide) (by decide) (by decide) 1 (by intro i; fin_cases i <;> exact .inl rfl) [] h).1⟩

/-- Full data, but the second factor contributes nothing. -/
example : ∃ W' H' : Mat 2 2 Fl, binary32.arith.Run 2 (fun _ _ => fin false 1) (fun _ _ => fin false 1) [false] ![![fin false 1, fin false 0], ![fin false 3, fin false 0]] (fun _ _ => fin false 1) W' H' ∧ W' 0 1 = nan := by
  obtain ⟨W', H', h⟩ := run_exists (A := binary32.arith) (m := 2) (n := 2) (k := 2) (d := 2) (by decide) (fun _ _ => fin false 1) (fun _ _ => fin false 1) [false] ![![fin false 1, fin false 0], ![fin false 3, fin false 0]] (fun _ _ => fin false 1)
  exact ⟨W', H', h, (C240_contributions (m := 2) (n := 2) (k := 2) (U := fun _ _ => fin false 1) (by decide) (by decide) 1 [] (by intro i; fin_cases i <;> exact .inl rfl) h).1 0 1⟩

/-- Full data, held profiles, but the profile of the second factor is zero. -/
example : ∃ W' H' : Mat 2 2 Fl, binary32.arith.Run 2 (fun _ _ => fin false 1) (fun _ _ => fin false 1) [true] (fun _ _ => fin false 1) ![![fin false 1, fin false 3], ![fin false 0, fin false 0]] W' H' ∧ W' 0 1 = nan := by
  obtain ⟨W', H', h⟩ := run_exists (A := binary32.arith) (m := 2) (n := 2) (k := 2) (d := 2) (by decide) (fun _ _ => fin false 1) (fun _ _ => fin false 1) [true] (fun _ _ => fin false 1) ![![fin false 1, fin false 3], ![fin false 0, fin false 0]]
  exact ⟨W', H', h, (C240_profile (m := 2) (n := 2) (k := 2) (U := fun _ _ => fin false 1) (by decide) (by decide) 1 true [] (by intro i; fin_cases i <;> exact .inl rfl) h).1 0⟩

end Esat
