import Verif.Model.FloatLoop
import Verif.Props.Ieee
import Verif.Spec.TrainLoop

/-!
# C179, C180: convergence of the training loops in floating point
-/

namespace Esat

open Fl

section c179
variable {A : Arith}

/-- `front - back` drops by less than `delta`: either both losses are finite and the rounded difference is below `delta`, or the new loss is
infinite and the old one is not. -/
def FlDrop (A : Arith) (front back : Fl) (delta : ℚ≥0) : Prop :=
  ∃ a, front = fin false a ∧ ((back = inf false) ∨
    ∃ b, back = fin false b ∧ (a ≤ b ∨ ∃ r, A.rnd (a - b) = some r ∧ r < delta))

/-- The test of the loops on losses, which have no sign bit (C141), and a positive finite tolerance. -/
theorem C179_test (front back : Fl) (hf : SignClear front) (hb : SignClear back) (delta : ℚ≥0) (hd : 0 < delta) :
    A.converges front back (fin false delta) = true ↔ FlDrop A front back delta := by
  unfold FlDrop Arith.converges Arith.sub
  rcases hf with rfl | rfl | ⟨a, rfl⟩ <;> rcases hb with rfl | rfl | ⟨b, rfl⟩
  · simp [Fl.neg, Arith.add, Fl.lt]
  · simp [Fl.neg, Arith.add, Fl.lt]
  · simp [Fl.neg, Arith.add, Fl.lt]
  · simp [Fl.neg, Arith.add, Fl.lt]
  · simp [Fl.neg, Arith.add, Fl.lt]
  · simp [Fl.neg, Arith.add, Fl.lt]
  · simp [Fl.neg, Arith.add, Fl.lt]
  · simp [Fl.neg, Arith.add, Fl.lt]
  · have hdne : delta ≠ 0 := hd.ne'
    simp only [Fl.neg, Arith.add, Bool.not_false, Bool.false_eq_true, if_false, fin.injEq, true_and, reduceCtorEq, false_or, exists_eq_left']
    by_cases hab : a = b
    · subst hab
      simp [Fl.lt, hd]
    · rw [if_neg hab]
      by_cases hlt : b < a
      · rw [if_pos hlt]
        unfold Arith.round
        have hnle : ¬a ≤ b := not_le.2 hlt
        cases hr : A.rnd (a - b) with
        | none => simp [Fl.lt, hnle]
        | some r => simp [Fl.lt, hnle]
      · rw [if_neg hlt]
        have hle : a ≤ b := not_lt.1 hlt
        unfold Arith.round
        cases hr : A.rnd (b - a) with
        | none => simp [Fl.lt, hle]
        | some r => simp [Fl.lt, hle, hdne]

theorem window_head (q : ℕ → Fl) (N i : ℕ) (hN : 1 ≤ N) :
    (((List.range i).map q).drop (i - (N - 1)) ++ [q i]) = ((List.range (i + 1)).map q).drop (i - (N - 1)) := by
  rw [List.range_succ, List.map_append, List.map_singleton, List.drop_append_of_le_length (by simp)]

theorem drop_headD (q : ℕ → Fl) (i j : ℕ) (h : j < i) : (((List.range i).map q).drop j).headD nan = q j := by
  rw [List.headD_eq_head?_getD, List.head?_drop, List.getElem?_map, List.getElem?_range h]
  rfl

theorem flIter_spec (q : ℕ → Fl) (cn : ℤ) (delta : Fl) :
    ∀ (fuel i : ℕ), (∀ j < i, ¬(effN cn ≤ j + 1 ∧ A.converges (q (j + 1 - effN cn)) (q j) delta = true)) →
      let res := A.flIter q cn delta fuel i (((List.range i).map q).drop (i - (effN cn - 1)))
      i ≤ res.1 ∧ res.1 ≤ i + fuel ∧
      (res.2 = true → i < res.1 ∧ effN cn ≤ res.1 ∧ A.converges (q (res.1 - effN cn)) (q (res.1 - 1)) delta = true) ∧
      (∀ j, j + 1 < res.1 ∨ (j + 1 = res.1 ∧ res.2 = false) → ¬(effN cn ≤ j + 1 ∧ A.converges (q (j + 1 - effN cn)) (q j) delta = true)) ∧
      (res.2 = false → res.1 = i + fuel) := by
  have hN : 1 ≤ effN cn := by unfold effN; omega
  intro fuel
  induction fuel with
  | zero =>
    intro i hbefore
    refine ⟨le_refl _, le_refl _, by simp [Arith.flIter], ?_, fun _ => rfl⟩
    intro j hj
    simp only [Arith.flIter] at hj
    exact hbefore j (by omega)
  | succ fuel ih =>
    intro i hbefore
    simp only [Arith.flIter]
    rw [window_head q (effN cn) i hN]
    have hlen : (((List.range (i + 1)).map q).drop (i - (effN cn - 1))).length = i + 1 - (i - (effN cn - 1)) := by simp
    have hfull : cn ≤ ((((List.range (i + 1)).map q).drop (i - (effN cn - 1))).length : ℤ) ↔ effN cn ≤ i + 1 := by
      rw [hlen]
      unfold effN
      omega
    have hhead : (((List.range (i + 1)).map q).drop (i - (effN cn - 1))).headD nan = q (i - (effN cn - 1)) :=
      drop_headD q (i + 1) _ (by omega)
    rw [hhead]
    by_cases hc : effN cn ≤ i + 1 ∧ A.converges (q (i + 1 - effN cn)) (q i) delta = true
    · have e : i - (effN cn - 1) = i + 1 - effN cn := by omega
      rw [e] at hfull ⊢
      rw [if_pos (by simp only [Bool.and_eq_true, decide_eq_true_eq]; exact ⟨hfull.2 hc.1, hc.2⟩)]
      refine ⟨by simp, by simp, fun _ => ⟨by simp, hc.1, by simpa using hc.2⟩, ?_, by simp⟩
      intro j hj
      simp only [Bool.true_eq_false, and_false, or_false] at hj
      exact hbefore j (by omega)
    · rw [if_neg]
      · have hw : (if decide (cn ≤ ((((List.range (i + 1)).map q).drop (i - (effN cn - 1))).length : ℤ)) = true
            then (((List.range (i + 1)).map q).drop (i - (effN cn - 1))).tail
            else ((List.range (i + 1)).map q).drop (i - (effN cn - 1)))
            = ((List.range (i + 1)).map q).drop (i + 1 - (effN cn - 1)) := by
          by_cases hf : effN cn ≤ i + 1
          · rw [if_pos (by simpa using hfull.2 hf), List.tail_drop]
            congr 1
            omega
          · rw [if_neg (by simpa using fun h => hf (hfull.1 h))]
            congr 1
            omega
        rw [hw]
        have := ih (i + 1) (fun j hj => by
          rcases Nat.lt_succ_iff_lt_or_eq.1 hj with h | rfl
          · exact hbefore j h
          · exact hc)
        obtain ⟨h1, h2, h3, h4, h5⟩ := this
        exact ⟨by omega, by omega, fun h => ⟨by have := (h3 h).1; omega, (h3 h).2⟩, h4, fun h => by rw [h5 h]; omega⟩
      · simp only [Bool.and_eq_true, decide_eq_true_eq]
        rintro ⟨hf, hcv⟩
        have hf' := hfull.1 hf
        refine hc ⟨hf', ?_⟩
        rw [show i + 1 - effN cn = i - (effN cn - 1) by omega]
        exact hcv

/-- The compiled loop stops after the first iteration at which the window is full and the test succeeds, and reports convergence exactly
then; otherwise it does all iterations. -/
theorem C179_compiled (q : ℕ → Fl) (hq : ∀ i, SignClear (q i)) (cn : ℤ) (delta : ℚ≥0) (hd : 0 < delta) (maxIter t : ℕ) (c : Bool)
    (h : A.flLoop q cn (fin false delta) maxIter = (t, c)) :
    t ≤ maxIter ∧ (c = false → t = maxIter) ∧
    (c = true → 0 < t ∧ effN cn ≤ t ∧ FlDrop A (q (t - effN cn)) (q (t - 1)) delta) ∧
    ∀ j, j + 1 < t ∨ (j + 1 = t ∧ c = false) → effN cn ≤ j + 1 → ¬FlDrop A (q (j + 1 - effN cn)) (q j) delta := by
  have hs := flIter_spec (A := A) q cn (fin false delta) maxIter 0 (by simp)
  simp only [Arith.flLoop, Int.toNat_natCast] at h
  simp only [List.range_zero, List.map_nil, List.drop_nil, zero_add] at hs
  rw [h] at hs
  obtain ⟨-, h2, h3, h4, h5⟩ := hs
  refine ⟨h2, h5, fun hc => ?_, fun j hj hN hdrop => ?_⟩
  · obtain ⟨a, b, e⟩ := h3 hc
    exact ⟨a, b, (C179_test _ _ (hq _) (hq _) delta hd).1 e⟩
  · exact h4 j hj ⟨hN, (C179_test _ _ (hq _) (hq _) delta hd).2 hdrop⟩

/-- **Disagreement** with what convergence should mean: if the loss overflows at iteration `i` and was finite `N - 1` iterations earlier, the
compiled loop stops at iteration `i` at the latest and reports convergence. -/
theorem C179_overflow (q : ℕ → Fl) (hq : ∀ i, SignClear (q i)) (cn : ℤ) (delta : ℚ≥0) (hd : 0 < delta) (maxIter t : ℕ) (c : Bool)
    (h : A.flLoop q cn (fin false delta) maxIter = (t, c)) (i : ℕ) (hi : i < maxIter) (hN : effN cn ≤ i + 1) (a : ℚ≥0)
    (hfin : q (i + 1 - effN cn) = fin false a) (hinf : q i = inf false) : c = true ∧ t ≤ i + 1 := by
  obtain ⟨h1, h2, h3, h4⟩ := C179_compiled q hq cn delta hd maxIter t c h
  have hdrop : FlDrop A (q (i + 1 - effN cn)) (q i) delta := ⟨a, hfin, .inl hinf⟩
  have ht : t ≤ i + 1 := by
    by_contra hlt
    exact h4 i (.inl (by omega)) hN hdrop
  refine ⟨?_, ht⟩
  by_contra hc
  simp only [Bool.not_eq_true] at hc
  have := h2 hc
  exact h4 i (.inr ⟨by omega, hc⟩) hN hdrop

/-- The same for the losses of any sequence of factors, as in a training run, for every rounding and every order of summation: the losses have no sign bit by themselves. -/
theorem C179_training {m n k : ℕ} {d : ℕ} {V U : Mat m n Fl} (W : ℕ → Mat m k Fl) (H : ℕ → Mat k n Fl) (q : ℕ → Fl)
    (hq : ∀ t, A.QOf d V U (W (t + 1)) (H (t + 1)) (q t))
    (cn : ℤ) (delta : ℚ≥0) (hd : 0 < delta) (maxIter t : ℕ) (c : Bool) (h : A.flLoop q cn (fin false delta) maxIter = (t, c)) :
    t ≤ maxIter ∧ (c = false → t = maxIter) ∧
    (c = true → 0 < t ∧ effN cn ≤ t ∧ FlDrop A (q (t - effN cn)) (q (t - 1)) delta) ∧
    ∀ j, j + 1 < t ∨ (j + 1 = t ∧ c = false) → effN cn ≤ j + 1 → ¬FlDrop A (q (j + 1 - effN cn)) (q j) delta :=
  C179_compiled q (fun t => C141_loss (hq t)) cn delta hd maxIter t c h

/-- If the losses are infinite from the start (a weighted residual beyond the range), the loop never reports convergence and does all
iterations. -/
theorem C179_infinite (q : ℕ → Fl) (hinf : ∀ i, q i = inf false) (cn : ℤ) (delta : ℚ≥0) (hd : 0 < delta) (maxIter : ℕ) :
    A.flLoop q cn (fin false delta) maxIter = (maxIter, false) := by
  cases h : A.flLoop q cn (fin false delta) maxIter with
  | mk t c =>
    obtain ⟨h1, h2, h3, -⟩ := C179_compiled q (fun i => by rw [hinf]; exact .inr (.inl rfl)) cn delta hd maxIter t c h
    cases c with
    | false => rw [h2 rfl]
    | true =>
      obtain ⟨-, -, a, ha, -⟩ := h3 rfl
      rw [hinf] at ha
      exact absurd ha (by simp)

theorem flPyIter_spec (q r : ℕ → Fl) (cn : ℕ) (hcn : 1 ≤ cn) (delta : Fl) :
    ∀ (fuel i : ℕ), (∀ j < i, q j ≠ nan ∧ r j ≠ nan ∧ ¬(cn ≤ j ∧ A.converges (q (j + 1 - cn)) (q j) delta = true)) →
      let res := A.flPyIter q r cn delta fuel i (((List.range i).map q).drop (i - cn))
      i ≤ res.1 ∧ res.1 ≤ i + fuel ∧
      (res.2 = true → cn < res.1 ∧ q (res.1 - 1) ≠ nan ∧ r (res.1 - 1) ≠ nan ∧ A.converges (q (res.1 - cn)) (q (res.1 - 1)) delta = true) ∧
      (∀ j, j + 1 < res.1 → q j ≠ nan ∧ r j ≠ nan ∧ ¬(cn ≤ j ∧ A.converges (q (j + 1 - cn)) (q j) delta = true)) ∧
      (res.2 = false → (res.1 = i + fuel ∧ ∀ j < res.1, q j ≠ nan ∧ r j ≠ nan ∧ ¬(cn ≤ j ∧ A.converges (q (j + 1 - cn)) (q j) delta = true)) ∨
        (0 < res.1 ∧ (q (res.1 - 1) = nan ∨ r (res.1 - 1) = nan))) := by
  intro fuel
  induction fuel with
  | zero =>
    intro i hbefore
    refine ⟨le_refl _, le_refl _, by simp [Arith.flPyIter], ?_, fun _ => .inl ⟨rfl, hbefore⟩⟩
    intro j hj
    simp only [Arith.flPyIter] at hj
    exact hbefore j (by omega)
  | succ fuel ih =>
    intro i hbefore
    have hw0 : ((List.range i).map q).drop (i - cn) ++ [q i] = ((List.range (i + 1)).map q).drop (i - cn) := by
      rw [List.range_succ, List.map_append, List.map_singleton, List.drop_append_of_le_length (by simp)]
    simp only [Arith.flPyIter]
    rw [hw0]
    have hlen : (((List.range (i + 1)).map q).drop (i - cn)).length = i + 1 - (i - cn) := by simp
    have hfull : (cn : ℤ) < ((((List.range (i + 1)).map q).drop (i - cn)).length : ℤ) ↔ cn ≤ i := by
      rw [hlen]
      omega
    by_cases hnan : q i = nan ∨ r i = nan
    · rw [if_pos hnan]
      refine ⟨by simp, by simp, by simp, ?_, fun _ => .inr ⟨by simp, by simpa using hnan⟩⟩
      intro j hj
      exact hbefore j (by simpa using hj)
    · rw [if_neg hnan]
      push Not at hnan
      have hnext : ¬(cn ≤ i ∧ A.converges (q (i + 1 - cn)) (q i) delta = true) →
          ∀ j < i + 1, q j ≠ nan ∧ r j ≠ nan ∧ ¬(cn ≤ j ∧ A.converges (q (j + 1 - cn)) (q j) delta = true) := by
        intro hc j hj
        rcases Nat.lt_succ_iff_lt_or_eq.1 hj with h | rfl
        · exact hbefore j h
        · exact ⟨hnan.1, hnan.2, hc⟩
      have hfin : ∀ w, w = ((List.range (i + 1)).map q).drop (i + 1 - cn) →
          ¬(cn ≤ i ∧ A.converges (q (i + 1 - cn)) (q i) delta = true) →
          let res := A.flPyIter q r cn delta fuel (i + 1) w
          i ≤ res.1 ∧ res.1 ≤ i + (fuel + 1) ∧
          (res.2 = true → cn < res.1 ∧ q (res.1 - 1) ≠ nan ∧ r (res.1 - 1) ≠ nan ∧ A.converges (q (res.1 - cn)) (q (res.1 - 1)) delta = true) ∧
          (∀ j, j + 1 < res.1 → q j ≠ nan ∧ r j ≠ nan ∧ ¬(cn ≤ j ∧ A.converges (q (j + 1 - cn)) (q j) delta = true)) ∧
          (res.2 = false → (res.1 = i + (fuel + 1) ∧
            ∀ j < res.1, q j ≠ nan ∧ r j ≠ nan ∧ ¬(cn ≤ j ∧ A.converges (q (j + 1 - cn)) (q j) delta = true)) ∨
            (0 < res.1 ∧ (q (res.1 - 1) = nan ∨ r (res.1 - 1) = nan))) := by
        rintro w rfl hc
        obtain ⟨h1, h2, h3, h4, h5⟩ := ih (i + 1) (hnext hc)
        refine ⟨by omega, by omega, h3, h4, fun h => ?_⟩
        rcases h5 h with ⟨e, h'⟩ | h'
        · exact .inl ⟨by rw [e]; omega, h'⟩
        · exact .inr h'
      by_cases hf : cn ≤ i
      · rw [if_pos (hfull.2 hf), List.tail_drop, show i - cn + 1 = i + 1 - cn by omega, drop_headD q (i + 1) _ (by omega)]
        by_cases hc : A.converges (q (i + 1 - cn)) (q i) delta = true
        · rw [if_pos hc]
          refine ⟨by simp, by simp, fun _ => ⟨by simp; omega, by simpa using hnan.1, by simpa using hnan.2, by simpa using hc⟩, ?_, by simp⟩
          intro j hj
          exact hbefore j (by simpa using hj)
        · rw [if_neg hc]
          exact hfin _ rfl fun h => hc h.2
      · rw [if_neg (fun h => hf (hfull.1 h))]
        exact hfin _ (by congr 1; omega) fun h => hf h.1

/-- The Python loop: it stops at the first iteration with a NaN loss, not converged, or at the first iteration after the window is full at
which the test succeeds, converged; otherwise it does all iterations. An infinite loss does not stop it. -/
theorem C179_python (q r : ℕ → Fl) (hq : ∀ i, SignClear (q i)) (cn : ℕ) (hcn : 1 ≤ cn) (delta : ℚ≥0) (hd : 0 < delta) (maxIter t : ℕ)
    (c : Bool) (h : A.flPyLoop q r cn (fin false delta) maxIter = (t, c)) :
    t ≤ maxIter ∧
    (c = true → cn < t ∧ q (t - 1) ≠ nan ∧ r (t - 1) ≠ nan ∧ FlDrop A (q (t - cn)) (q (t - 1)) delta) ∧
    (c = false → t = maxIter ∨ 0 < t ∧ (q (t - 1) = nan ∨ r (t - 1) = nan)) ∧
    ∀ j, j + 1 < t → q j ≠ nan ∧ r j ≠ nan ∧ (cn ≤ j → ¬FlDrop A (q (j + 1 - cn)) (q j) delta) := by
  have hs := flPyIter_spec (A := A) q r cn hcn (fin false delta) maxIter 0 (by simp)
  simp only [Arith.flPyLoop, Int.toNat_natCast] at h
  simp only [List.range_zero, List.map_nil, List.drop_nil, zero_add] at hs
  rw [h] at hs
  obtain ⟨-, h2, h3, h4, h5⟩ := hs
  refine ⟨h2, fun hc => ?_, fun hc => ?_, fun j hj => ?_⟩
  · obtain ⟨a, b, b', e⟩ := h3 hc
    exact ⟨a, b, b', (C179_test _ _ (hq _) (hq _) delta hd).1 e⟩
  · rcases h5 hc with ⟨e, -⟩ | h'
    · exact .inl e
    · exact .inr h'
  · obtain ⟨a, b, e⟩ := h4 j hj
    exact ⟨a, b, fun hn hdrop => e ⟨hn, (C179_test _ _ (hq _) (hq _) delta hd).2 hdrop⟩⟩

/-- Concrete case (single precision, window 3, tolerance 1/8): losses 8, 4, 2, 1, ∞, ... converge at the fifth iteration although the fifth
loss is infinite; losses that are infinite throughout never converge; with a loss of NaN at the third iteration the compiled loop goes on
to the end and the Python loop stops. -/
example :
    let q : ℕ → Fl := fun i => if i < 4 then fin false (8 / 2 ^ i) else inf false
    let p : ℕ → Fl := fun i => if i = 2 then nan else fin false (8 / 2 ^ i)
    binary32.arith.flLoop q 3 (fin false (1 / 8)) 9 = (5, true) ∧
    binary32.arith.flLoop (fun _ => inf false) 3 (fin false (1 / 8)) 9 = (9, false) ∧
    binary32.arith.flLoop p 3 (fin false (1 / 8)) 6 = (6, false) ∧
    binary32.arith.flPyLoop p p 3 (fin false (1 / 8)) 6 = (3, false) ∧
    binary32.arith.flPyLoop q q 3 (fin false (1 / 8)) 9 = (5, true) := by
  refine ⟨by decide +kernel, C179_infinite _ (fun _ => rfl) 3 (1 / 8) (by norm_num) 9, by decide +kernel, by decide +kernel, by decide +kernel⟩

end c179

/-! ### C180 -/

section c180
variable (F : Format)

theorem rne_nat (n : ℕ) : Format.rne (n : ℚ≥0) = n := by
  unfold Format.rne
  rw [Nat.floor_natCast, if_pos (by exact lt_add_one _)]

theorem rne_mono {x y : ℚ≥0} (h : x ≤ y) : Format.rne x ≤ Format.rne y := by
  have hx1 : (⌊x⌋₊ : ℚ≥0) ≤ x := Nat.floor_le zero_le
  have hx2 : x < ⌊x⌋₊ + 1 := Nat.lt_floor_add_one x
  have hy1 : (⌊y⌋₊ : ℚ≥0) ≤ y := Nat.floor_le zero_le
  have hf : ⌊x⌋₊ ≤ ⌊y⌋₊ := Nat.floor_mono h
  rcases hf.lt_or_eq with hlt | heq
  · have a1 : Format.rne x ≤ ⌊x⌋₊ + 1 := by
      unfold Format.rne
      split_ifs <;> omega
    have a2 : ⌊y⌋₊ ≤ Format.rne y := by
      unfold Format.rne
      split_ifs <;> omega
    omega
  · unfold Format.rne
    rw [← heq]
    have h2 : 2 * x ≤ 2 * y := mul_le_mul_right h 2
    split_ifs with h1 h3 h4 h5 h6 h7 h8 h9 h10 h11 h12 h13 <;> first
      | omega
      | (exfalso
         simp only [not_lt, ← NNRat.coe_le_coe, ← NNRat.coe_lt_coe] at *
         push_cast at *
         linarith)

theorem ulp_pos (e : ℤ) : 0 < F.ulp e := zpow_pos two_pos _

theorem ulp_dvd {e e' : ℤ} (h : e ≤ e') : ∃ k : ℕ, F.ulp e' = (2 ^ k : ℕ) * F.ulp e := by
  refine ⟨(max e' F.emin - max e F.emin).toNat, ?_⟩
  have hm : max e F.emin ≤ max e' F.emin := max_le_max h le_rfl
  unfold Format.ulp
  push_cast
  rw [← zpow_natCast, ← zpow_add₀ two_ne_zero]
  congr 1
  rw [Int.toNat_of_nonneg (by omega)]
  ring

theorem nearest_self_iff (x : ℚ≥0) : F.nearest x = x ↔ ∃ n : ℕ, x = n * F.ulp (Int.log 2 x) := by
  have hu := (ulp_pos F (Int.log 2 x)).ne'
  unfold Format.nearest
  constructor
  · intro h
    exact ⟨_, h.symm⟩
  · rintro ⟨n, hn⟩
    have hz : x / F.ulp (Int.log 2 x) = n := by
      rw [div_eq_iff hu]
      exact hn
    rw [hz, rne_nat]
    exact hn.symm

/-- Every number of the format is a multiple of the unit at any lower exponent. -/
theorem multiple_lower {x : ℚ≥0} (hx : F.nearest x = x) {e : ℤ} (he : e ≤ Int.log 2 x) : ∃ n : ℕ, x = n * F.ulp e := by
  obtain ⟨n, hn⟩ := (nearest_self_iff F x).1 hx
  obtain ⟨k, hk⟩ := ulp_dvd F he
  refine ⟨n * 2 ^ k, ?_⟩
  rw [hk] at hn
  rw [hn]
  push_cast
  ring

/-- A number of the format, without overflow. -/
def InFormat (x : ℚ≥0) : Prop := F.rnd x = some x

theorem inFormat_iff (x : ℚ≥0) : InFormat F x ↔ F.nearest x = x ∧ x < 2 ^ (F.emax + 1) := by
  unfold InFormat Format.rnd
  by_cases h : 2 ^ (F.emax + 1) ≤ F.nearest x
  · rw [if_pos h]
    simp only [reduceCtorEq, false_iff, not_and, not_lt]
    intro e
    rwa [e] at h
  · rw [if_neg h]
    simp only [Option.some.injEq]
    constructor
    · intro e
      rw [e] at h
      exact ⟨e, not_le.1 h⟩
    · exact fun h => h.1

/-- The difference of two losses that are within a factor of two of each other is exact. -/
theorem C180_difference (a b : ℚ≥0) (ha : InFormat F a) (hb : InFormat F b) (hba : b ≤ a) (hab : a ≤ 2 * b) : InFormat F (a - b) := by
  rw [inFormat_iff] at ha hb ⊢
  have hxb : a - b ≤ b := by
    rw [tsub_le_iff_right, ← two_mul]
    exact hab
  rcases eq_or_lt_of_le (zero_le (a := a - b)) with h0 | hx0
  · rw [← h0]
    exact ⟨by simp [Format.nearest, Format.rne], zpow_pos two_pos _⟩
  have hlog1 : Int.log 2 (a - b) ≤ Int.log 2 b := Int.log_mono_right hx0 hxb
  have hb0 : 0 < b := lt_of_lt_of_le hx0 hxb
  have hlog2 : Int.log 2 b ≤ Int.log 2 a := Int.log_mono_right hb0 hba
  obtain ⟨p, hp⟩ := multiple_lower F ha.1 (hlog1.trans hlog2)
  obtain ⟨r, hr⟩ := multiple_lower F hb.1 hlog1
  refine ⟨(nearest_self_iff F _).2 ⟨p - r, ?_⟩, lt_of_le_of_lt hxb hb.2⟩
  have hu := ulp_pos F (Int.log 2 (a - b))
  have hrp : r ≤ p := by
    have : (r : ℚ≥0) * F.ulp (Int.log 2 (a - b)) ≤ p * F.ulp (Int.log 2 (a - b)) := by
      rw [← hr, ← hp]
      exact hba
    exact_mod_cast le_of_mul_le_mul_right this hu
  rw [tsub_eq_iff_eq_add_of_le hba]
  have e : (p : ℚ≥0) = ((p - r : ℕ) : ℚ≥0) + r := by
    rw [← Nat.cast_add, Nat.sub_add_cancel hrp]
  calc a = p * F.ulp (Int.log 2 (a - b)) := hp
    _ = ((p - r : ℕ) : ℚ≥0) * F.ulp (Int.log 2 (a - b)) + r * F.ulp (Int.log 2 (a - b)) := by rw [e]; ring
    _ = ((p - r : ℕ) : ℚ≥0) * F.ulp (Int.log 2 (a - b)) + b := by rw [← hr]

/-- Rounding is monotone. -/
theorem nearest_mono (hp : 1 ≤ F.prec) {x y : ℚ≥0} (h : x ≤ y) : F.nearest x ≤ F.nearest y := by
  rcases eq_or_lt_of_le (zero_le (a := x)) with h0 | hx0
  · have : F.nearest x = 0 := by
      rw [← h0]
      simp [Format.nearest, Format.rne]
    rw [this]
    exact zero_le
  have hy0 : 0 < y := lt_of_lt_of_le hx0 h
  have hlog : Int.log 2 x ≤ Int.log 2 y := Int.log_mono_right hx0 h
  by_cases hsame : max (Int.log 2 x) F.emin = max (Int.log 2 y) F.emin
  · have hu : F.ulp (Int.log 2 x) = F.ulp (Int.log 2 y) := by
      unfold Format.ulp
      rw [hsame]
    unfold Format.nearest
    rw [hu]
    have : Format.rne (x / F.ulp (Int.log 2 y)) ≤ Format.rne (y / F.ulp (Int.log 2 y)) :=
      rne_mono (div_le_div_of_nonneg_right h (zero_le))
    exact mul_le_mul_left (by exact_mod_cast this) _
  · have hmm : max (Int.log 2 x) F.emin < max (Int.log 2 y) F.emin := lt_of_le_of_ne (max_le_max hlog le_rfl) hsame
    have hyE : F.emin < Int.log 2 y := by
      by_contra hc
      rw [max_eq_right (not_lt.1 hc)] at hmm
      exact absurd hmm (not_lt.2 (le_max_right _ _))
    rw [max_eq_left hyE.le] at hmm
    -- the power of two between them
    have hx2 : F.nearest x ≤ 2 ^ Int.log 2 y := by
      have hxlt : x < 2 ^ (max (Int.log 2 x) F.emin + 1) := by
        have h1 : x < 2 ^ (Int.log 2 x + 1) := by
          have := Int.lt_zpow_succ_log_self (b := 2) (by norm_num) x
          exact_mod_cast this
        exact lt_of_lt_of_le h1 (zpow_le_zpow_right₀ (by norm_num) (by have := le_max_left (Int.log 2 x) F.emin; omega))
      have he : (2 : ℚ≥0) ^ (max (Int.log 2 x) F.emin + 1) = (2 ^ F.prec : ℕ) * F.ulp (Int.log 2 x) := by
        unfold Format.ulp
        push_cast
        rw [← zpow_natCast, ← zpow_add₀ two_ne_zero]
        congr 1
        ring
      have hr : Format.rne (x / F.ulp (Int.log 2 x)) ≤ 2 ^ F.prec := by
        rw [← rne_nat (2 ^ F.prec)]
        apply rne_mono
        rw [div_le_iff₀ (ulp_pos F _), ← he]
        exact hxlt.le
      have : F.nearest x ≤ 2 ^ (max (Int.log 2 x) F.emin + 1) := by
        rw [he]
        unfold Format.nearest
        exact mul_le_mul_left (by exact_mod_cast hr) _
      exact this.trans (zpow_le_zpow_right₀ (by norm_num) (by omega))
    have hy2 : 2 ^ Int.log 2 y ≤ F.nearest y := by
      have he : (2 : ℚ≥0) ^ (Int.log 2 y) = (2 ^ (F.prec - 1) : ℕ) * F.ulp (Int.log 2 y) := by
        unfold Format.ulp
        rw [max_eq_left hyE.le]
        push_cast
        rw [← zpow_natCast, ← zpow_add₀ two_ne_zero]
        congr 1
        rw [Nat.cast_sub hp]
        push_cast
        ring
      have hylog : (2 : ℚ≥0) ^ Int.log 2 y ≤ y := by
        have := Int.zpow_log_le_self (b := 2) (by norm_num) hy0
        exact_mod_cast this
      have hr : 2 ^ (F.prec - 1) ≤ Format.rne (y / F.ulp (Int.log 2 y)) := by
        rw [← rne_nat (2 ^ (F.prec - 1))]
        apply rne_mono
        rw [le_div_iff₀ (ulp_pos F _), ← he]
        exact hylog
      conv_lhs => rw [he]
      unfold Format.nearest
      exact mul_le_mul_left (by exact_mod_cast hr) _
    exact hx2.trans hy2

/-- For finite losses and a tolerance that are numbers of the format: if the test succeeds, the exact drop is below the tolerance; if it
fails although the exact drop is below the tolerance, the drop was rounded up to the tolerance. -/
theorem C180_sound (hp : 1 ≤ F.prec) (a b delta : ℚ≥0) (ha : InFormat F a) (hd : InFormat F delta) (hd0 : 0 < delta) :
    (F.arith.converges (fin false a) (fin false b) (fin false delta) = true → (a : ℚ) - b < delta) ∧
    ((a : ℚ) - b < delta → F.arith.converges (fin false a) (fin false b) (fin false delta) = false → F.rnd (a - b) = some delta) := by
  have hsc : ∀ x, SignClear (fin false x) := fun x => .inr (.inr ⟨x, rfl⟩)
  have ht := C179_test (A := F.arith) (fin false a) (fin false b) (hsc a) (hsc b) delta hd0
  have hdrop : FlDrop F.arith (fin false a) (fin false b) delta ↔ a ≤ b ∨ ∃ r, F.rnd (a - b) = some r ∧ r < delta := by
    unfold FlDrop
    simp only [fin.injEq, true_and, reduceCtorEq, false_or, exists_eq_left']
    rfl
  rw [hdrop] at ht
  rw [inFormat_iff] at ha hd
  have hcast : b ≤ a → (((a - b : ℚ≥0) : ℚ) = a - b) := fun h => NNRat.coe_sub h
  -- the difference does not overflow
  have hrnd : F.rnd (a - b) = some (F.nearest (a - b)) := by
    have h1 : F.nearest (a - b) ≤ a := by
      have := nearest_mono F hp (tsub_le_self : a - b ≤ a)
      rwa [ha.1] at this
    rw [Format.rnd, if_neg (not_le.2 (lt_of_le_of_lt h1 ha.2))]
  have hd0' : (0 : ℚ) < delta := by exact_mod_cast hd0
  constructor
  · intro h
    rcases ht.1 h with hle | ⟨r, hr, hlt⟩
    · have : (a : ℚ) ≤ b := by exact_mod_cast hle
      linarith
    · rcases le_total a b with hle | hle
      · have : (a : ℚ) ≤ b := by exact_mod_cast hle
        linarith
      · rw [hrnd] at hr
        obtain rfl := Option.some.inj hr
        have hlt' : a - b < delta := by
          by_contra hc
          have := nearest_mono F hp (not_lt.1 hc)
          rw [hd.1] at this
          exact absurd hlt (not_lt.2 this)
        rw [← hcast hle]
        exact_mod_cast hlt'
  · intro h hf
    have hn : ¬(a ≤ b ∨ ∃ r, F.rnd (a - b) = some r ∧ r < delta) := fun h' => by
      rw [ht.2 h'] at hf
      simp at hf
    push Not at hn
    have hge := hn.2 _ hrnd
    rw [hrnd]
    congr 1
    refine le_antisymm ?_ hge
    have hlt' : a - b ≤ delta := by
      rw [← hcast hn.1.le] at h
      exact_mod_cast h.le
    have := nearest_mono F hp hlt'
    rwa [hd.1] at this

/-- Near convergence the test is exact: if the earlier loss is at most twice the current one, the test in floating point says exactly
whether the drop is below the tolerance. -/
theorem C180_exact (a b delta : ℚ≥0) (ha : InFormat F a) (hb : InFormat F b) (hab : a ≤ 2 * b) (hd0 : 0 < delta) :
    F.arith.converges (fin false a) (fin false b) (fin false delta) = true ↔ (a : ℚ) - b < delta := by
  have hsc : ∀ x, SignClear (fin false x) := fun x => .inr (.inr ⟨x, rfl⟩)
  rw [C179_test (A := F.arith) (fin false a) (fin false b) (hsc a) (hsc b) delta hd0]
  have hdrop : FlDrop F.arith (fin false a) (fin false b) delta ↔ a ≤ b ∨ ∃ r, F.rnd (a - b) = some r ∧ r < delta := by
    unfold FlDrop
    simp only [fin.injEq, true_and, reduceCtorEq, false_or, exists_eq_left']
    rfl
  rw [hdrop]
  have hd0' : (0 : ℚ) < delta := by exact_mod_cast hd0
  rcases le_total a b with hle | hle
  · have : (a : ℚ) ≤ b := by exact_mod_cast hle
    constructor
    · intro _
      linarith
    · intro _
      exact .inl hle
  · have hx : F.rnd (a - b) = some (a - b) := C180_difference F a b ha hb hle hab
    rw [hx, ← NNRat.coe_sub hle]
    constructor
    · rintro (h | ⟨r, hr, hlt⟩)
      · have : a - b = 0 := tsub_eq_zero_of_le h
        rw [this]
        simpa using hd0'
      · obtain rfl := Option.some.inj hr
        exact_mod_cast hlt
    · intro h
      exact .inr ⟨_, rfl, by exact_mod_cast h⟩

/-- Consequence for large losses: if the distance of neighbouring numbers at the current loss is at least the tolerance, the loop has
converged in the sense of the test only when the loss did not drop at all. -/
theorem C180_coarse (a b delta : ℚ≥0) (ha : InFormat F a) (hb : InFormat F b) (hb0 : 0 < b) (hab : a ≤ 2 * b) (hd0 : 0 < delta)
    (hu : delta ≤ F.ulp (Int.log 2 b)) :
    F.arith.converges (fin false a) (fin false b) (fin false delta) = true ↔ a ≤ b := by
  rw [C180_exact F a b delta ha hb hab hd0]
  have hd0' : (0 : ℚ) < delta := by exact_mod_cast hd0
  constructor
  · intro h
    by_contra hc
    push Not at hc
    rw [inFormat_iff] at ha hb
    obtain ⟨p, hp⟩ := multiple_lower F ha.1 (Int.log_mono_right hb0 hc.le)
    obtain ⟨r, hr⟩ := multiple_lower F hb.1 le_rfl
    have hpr : r + 1 ≤ p := by
      by_contra hlt
      have hpr : p ≤ r := by omega
      have : a ≤ b := by
        rw [hp]
        conv_rhs => rw [hr]
        exact mul_le_mul_left (by exact_mod_cast hpr) _
      exact absurd hc (not_lt.2 this)
    have h1 : b + F.ulp (Int.log 2 b) ≤ a := by
      calc b + F.ulp (Int.log 2 b) = (r + 1 : ℕ) * F.ulp (Int.log 2 b) := by
            conv_lhs => rw [show b + F.ulp (Int.log 2 b) = b + 1 * F.ulp (Int.log 2 b) by ring]
            conv_lhs => lhs; rw [hr]
            push_cast
            ring
        _ ≤ p * F.ulp (Int.log 2 b) := mul_le_mul_left (by exact_mod_cast hpr) _
        _ = a := hp.symm
    have h2 : (b : ℚ) + (F.ulp (Int.log 2 b) : ℚ≥0) ≤ a := by exact_mod_cast h1
    have h3 : (delta : ℚ) ≤ (F.ulp (Int.log 2 b) : ℚ≥0) := by exact_mod_cast hu
    linarith
  · intro h
    have : (a : ℚ) ≤ b := by exact_mod_cast h
    linarith

/-- Concrete case in single precision: losses of 20000000 and 19999998 (numbers of the format, neighbours at distance 2) and a tolerance of
1/10 rounded; the drop is exact and the test fails, for equal losses it succeeds. -/
example : InFormat binary32 20000000 ∧ InFormat binary32 19999998 ∧ binary32.rnd (20000000 - 19999998) = some 2 ∧
    ¬InFormat binary32 19999999 ∧ ¬InFormat binary32 (1 / 10) ∧ InFormat binary32 (13421773 / 134217728) ∧
    (20000000 : ℚ≥0) ≤ 2 * 19999998 ∧ (13421773 / 134217728 : ℚ≥0) ≤ binary32.ulp (Int.log 2 (19999998 : ℚ≥0)) ∧
    binary32.arith.converges (fin false 20000000) (fin false 19999998) (fin false (13421773 / 134217728)) = false ∧
    binary32.arith.converges (fin false 20000000) (fin false 20000000) (fin false (13421773 / 134217728)) = true := by
  unfold InFormat
  decide +kernel

end c180

end Esat
