import Verif.Lemmas.LsNmf
import Verif.Model.Metrics
import Mathlib.Data.Fin.VecNotation
import Mathlib.Tactic.FinCases

/-!
# Properties C01, C02, C03, C05, C06: the LS-NMF update

Spec used by the statements: `WLoss` (weighted sum of squared residuals) and entrywise (strict) positivity.
-/

namespace Esat


/-! ## Spec -/

/-- Every entry is `≥ 0`. -/
def AllNonneg {K : Type*} [Zero K] [LE K] {m n : ℕ} (A : Mat m n K) : Prop := ∀ i j, 0 ≤ A i j

/-- Every entry is `> 0`. -/
def AllPos {K : Type*} [Zero K] [LT K] {m n : ℕ} (A : Mat m n K) : Prop := ∀ i j, 0 < A i j

/-- The weighted loss `Σ We (V - W H)²`. -/
def WLoss {K : Type*} [Field K] {m n k : ℕ} (V We : Mat m n K)
    (W : Mat m k K) (H : Mat k n K) : K :=
  ∑ i, ∑ j, We i j * (V i j - (W ⬝ H) i j) ^ 2

/-- Rows and columns relabelled: entry `(i, j)` of the result is entry `(r i, c j)` of `A`. -/
def relabel {K : Type*} {m n : ℕ} (r : Fin m → Fin m) (c : Fin n → Fin n) (A : Mat m n K) : Mat m n K :=
  fun i j => A (r i) (c j)

/-- Small concrete data used by the non-vacuity examples: a 3×2 data set with a zero cell. -/
def exV : Mat 3 2 ℚ := ![![1, 2], ![0, 3], ![4, 1]]
/-- Example uncertainties. -/
def exU : Mat 3 2 ℚ := ![![1, 1/2], ![2, 1], ![1, 3]]
/-- Example weights `1/U²`. -/
def exWe : Mat 3 2 ℚ := ![![1, 4], ![1/4, 1], ![1, 1/9]]
/-- Example contributions (2 factors). -/
def exW : Mat 3 2 ℚ := ![![1, 2], ![1, 1], ![3, 1]]
/-- Example profiles (2 factors). -/
def exH : Mat 2 2 ℚ := ![![1, 1], ![2, 1]]

section
variable {K : Type*} [Field K] [LinearOrder K] [IsStrictOrderedRing K] {m n k : ℕ}

theorem wl_eq_WLoss (V We : Mat m n K) (W : Mat m k K) (H : Mat k n K) :
    wl V We W H = WLoss V We W H := by
  unfold wl WLoss
  simp only [mmul]

/-! ## C01 -/

/-- **C01 (non-negativity).** Any sequence of LS-NMF updates, started from non-negative data, weights and factors,
produces non-negative factors as long as it stays free of `nan`/`inf`. -/
theorem C01_nonneg (V We : Mat m n K) (holds : List Bool)
    (W W' : Mat m k K) (H H' : Mat k n K)
    (hV : AllNonneg V) (hWe : AllNonneg We) (hW : AllNonneg W) (hH : AllNonneg H)
    (h : lsRun V We holds W H = some (W', H')) : AllNonneg W' ∧ AllNonneg H' := by
  induction holds generalizing W H with
  | nil =>
    obtain ⟨rfl, rfl⟩ : W = W' ∧ H = H' := by simpa [lsRun] using h
    exact ⟨hW, hH⟩
  | cons b bs ih =>
    obtain ⟨⟨W1, H1⟩, h1, h2⟩ := lsRun_cons_eq_some.1 h
    obtain ⟨p1, p2⟩ := lsUpdate_nonneg hV hWe hW hH h1
    exact ih W1 H1 p1 p2 h2

/-- **C01 (positivity, no division by zero).** Started from strictly positive weights and factors and non-negative data
without an all-zero row or column, every sequence of updates is defined at every step (no denominator is ever zero) and
all entries stay strictly positive. -/
theorem C01_positive (hm : 0 < m) (hn : 0 < n) (V We : Mat m n K) (holds : List Bool)
    (W : Mat m k K) (H : Mat k n K)
    (hV : AllNonneg V) (hrow : ∀ i, ∃ j, 0 < V i j) (hcol : ∀ j, ∃ i, 0 < V i j)
    (hWe : AllPos We) (hW : AllPos W) (hH : AllPos H) :
    ∃ W' H', lsRun V We holds W H = some (W', H') ∧ AllPos W' ∧ AllPos H' := by
  induction holds generalizing W H with
  | nil => exact ⟨W, H, rfl, hW, hH⟩
  | cons b bs ih =>
    obtain ⟨W1, H1, h1, p1, p2⟩ := lsUpdate_pos hm hn hV hrow hcol hWe hW hH b
    obtain ⟨W', H', h2, p3, p4⟩ := ih W1 H1 p1 p2
    exact ⟨W', H', lsRun_cons_eq_some.2 ⟨_, h1, h2⟩, p3, p4⟩

/-- Non-vacuity of `C01_positive` and (through its conclusion) of `C01_nonneg`. -/
example (holds : List Bool) : ∃ W' H', lsRun exV exWe holds exW exH = some (W', H') ∧ AllPos W' ∧ AllPos H' :=
  C01_positive (by norm_num) (by norm_num) exV exWe holds exW exH
    (by intro i j; fin_cases i <;> fin_cases j <;> simp [exV])
    (by intro i; refine ⟨1, ?_⟩; fin_cases i <;> simp [exV])
    (by intro j; refine ⟨0, ?_⟩; fin_cases j <;> simp [exV])
    (by intro i j; fin_cases i <;> fin_cases j <;> simp [exWe])
    (by intro i j; fin_cases i <;> fin_cases j <;> simp [exW])
    (by intro i j; fin_cases i <;> fin_cases j <;> simp [exH])

/-! ## C02 -/

/-- **C02 (one update).** An LS-NMF update never increases the weighted loss, for either value of `hold_h`. -/
theorem C02_update_le (V We : Mat m n K) (hold : Bool)
    (W W' : Mat m k K) (H H' : Mat k n K)
    (hV : AllNonneg V) (hWe : AllNonneg We) (hW : AllNonneg W) (hH : AllNonneg H)
    (h : lsUpdate V We hold W H = some (W', H')) : WLoss V We W' H' ≤ WLoss V We W H := by
  obtain ⟨h1, h2⟩ := lsUpdate_eq_some.1 h
  rw [← wl_eq_WLoss, ← wl_eq_WLoss]
  rcases h1 with ⟨_, rfl⟩ | ⟨_, h1⟩
  · exact lsStepW_le hWe hW hH h2
  · exact (lsStepW_le hWe hW (lsStepH_nonneg hV hWe hW hH h1) h2).trans (lsStepH_le hWe hW hH h1)

/-- **C02 (strictness).** An update that does not strictly lower the loss leaves both factors exactly unchanged. -/
theorem C02_stall_iff_fixed (V We : Mat m n K) (hold : Bool)
    (W W' : Mat m k K) (H H' : Mat k n K)
    (hV : AllNonneg V) (hWe : AllNonneg We) (hW : AllNonneg W) (hH : AllNonneg H)
    (h : lsUpdate V We hold W H = some (W', H')) :
    WLoss V We W' H' = WLoss V We W H ↔ W' = W ∧ H' = H := by
  refine ⟨fun he => ?_, fun ⟨h1, h2⟩ => by rw [h1, h2]⟩
  obtain ⟨h1, h2⟩ := lsUpdate_eq_some.1 h
  rw [← wl_eq_WLoss, ← wl_eq_WLoss] at he
  rcases h1 with ⟨_, rfl⟩ | ⟨_, h1⟩
  · exact ⟨lsStepW_stall hWe hW hH h2 he.ge, rfl⟩
  · have hH' := lsStepH_nonneg hV hWe hW hH h1
    have l1 := lsStepW_le hWe hW hH' h2
    have l2 := lsStepH_le hWe hW hH h1
    have hHH : H' = H := lsStepH_stall hWe hW hH h1 (by linarith)
    exact ⟨lsStepW_stall hWe hW hH' h2 (by linarith), hHH⟩

/-- Here the loss falls, so that the factors change. -/
example : ∃ W' H', lsUpdate exV exWe false exW exH = some (W', H') ∧ (WLoss exV exWe W' H' = WLoss exV exWe exW exH ↔ W' = exW ∧ H' = exH) ∧
    W' ≠ exW := by
  obtain ⟨⟨W', H'⟩, h⟩ := Option.isSome_iff_exists.1 (show (lsUpdate exV exWe false exW exH).isSome = true by decide +kernel)
  refine ⟨W', H', h, C02_stall_iff_fixed _ _ _ _ _ _ _
    (by intro i j; fin_cases i <;> fin_cases j <;> simp [exV])
    (by intro i j; fin_cases i <;> fin_cases j <;> simp [exWe])
    (by intro i j; fin_cases i <;> fin_cases j <;> simp [exW])
    (by intro i j; fin_cases i <;> fin_cases j <;> simp [exH]) h, ?_⟩
  have : (lsUpdate exV exWe false exW exH).all (fun p => decide (p.1 0 0 ≠ exW 0 0)) = true := by decide +kernel
  rw [h] at this
  exact fun e => by simp [e] at this

theorem lsTrace_pairwise (V We : Mat m n K) (holds : List Bool)
    (W : Mat m k K) (H : Mat k n K)
    (hV : AllNonneg V) (hWe : AllNonneg We) (hW : AllNonneg W) (hH : AllNonneg H) :
    (WLoss V We W H :: lsTrace V We (WLoss V We) holds W H).Pairwise (fun a b => b ≤ a) := by
  induction holds generalizing W H with
  | nil => simp [lsTrace]
  | cons b bs ih =>
    unfold lsTrace
    cases hu : lsUpdate V We b W H with
    | none => simp
    | some p =>
      obtain ⟨W1, H1⟩ := p
      obtain ⟨p1, p2⟩ := lsUpdate_nonneg hV hWe hW hH hu
      have hle := C02_update_le V We b W W1 H H1 hV hWe hW hH hu
      have := ih W1 H1 p1 p2
      refine List.pairwise_cons.2 ⟨fun x hx => ?_, this⟩
      rcases List.mem_cons.1 hx with rfl | hx
      · exact hle
      · exact ((List.pairwise_cons.1 this).1 x hx).trans hle

/-- Loss in the form computed by the code, `q_loss` with uncertainties `U`, equals the weighted loss with the weights
`1/U²` the constructor derives. -/
theorem qLoss_eq_WLoss (V U : Mat m n K) (W : Mat m k K) (H : Mat k n K) :
    qLoss V U W H = WLoss V (weights U) W H := by
  simp only [qLoss, WLoss, weights, if_true]
  refine Finset.sum_congr rfl fun i _ => Finset.sum_congr rfl fun j _ => ?_
  rw [div_mul_div_comm, one_div, ← pow_two, ← pow_two, div_eq_inv_mul]

/-- **C02.** The sequence of Q values recorded during training (initial value first), computed from the uncertainties `U`
while the updates use the weights `1/U²`, is non-increasing between *any* two positions, for every mixture of `hold_h`
flags and every number of iterations. -/
theorem C02_recorded_losses_nonincreasing (V U : Mat m n K) (holds : List Bool)
    (W : Mat m k K) (H : Mat k n K)
    (hV : AllNonneg V) (hW : AllNonneg W) (hH : AllNonneg H) :
    (qLoss V U W H :: lsTrace V (weights U) (fun W H => qLoss V U W H) holds W H).Pairwise (fun a b => b ≤ a) := by
  have := lsTrace_pairwise V (weights U) holds W H hV (fun i j => by unfold weights; positivity) hW hH
  simpa only [qLoss_eq_WLoss] using this

example : (qLoss exV exWe exW exH :: lsTrace exV (weights exWe) (fun W H => qLoss exV exWe W H) [false, true, false] exW exH).Pairwise (fun a b => b ≤ a) :=
  C02_recorded_losses_nonincreasing _ _ _ _ _
    (by intro i j; fin_cases i <;> fin_cases j <;> simp [exV])
    (by intro i j; fin_cases i <;> fin_cases j <;> simp [exW])
    (by intro i j; fin_cases i <;> fin_cases j <;> simp [exH])

/-- With strictly positive inputs the recorded list has one entry per update, so `C02_recorded_losses_nonincreasing`
speaks about every update performed. -/
theorem C02_every_update_recorded (hm : 0 < m) (hn : 0 < n) {α : Type*} (V We : Mat m n K)
    (loss : Mat m k K → Mat k n K → α) (holds : List Bool)
    (W : Mat m k K) (H : Mat k n K)
    (hV : AllNonneg V) (hrow : ∀ i, ∃ j, 0 < V i j) (hcol : ∀ j, ∃ i, 0 < V i j)
    (hWe : AllPos We) (hW : AllPos W) (hH : AllPos H) :
    (lsTrace V We loss holds W H).length = holds.length := by
  induction holds generalizing W H with
  | nil => rfl
  | cons b bs ih =>
    obtain ⟨W1, H1, h1, p1, p2⟩ := lsUpdate_pos hm hn hV hrow hcol hWe hW hH b
    simp only [lsTrace, h1, List.length_cons]
    rw [ih W1 H1 p1 p2]

/-- Non-vacuity: on the example data one (unheld) update really lowers the loss (from 93.25), the update being defined. -/
example : ∃ W' H', lsUpdate exV exWe false exW exH = some (W', H') ∧ WLoss exV exWe W' H' ≤ WLoss exV exWe exW exH := by
  obtain ⟨W', H', h, _, _⟩ := lsUpdate_pos (V := exV) (We := exWe) (W := exW) (H := exH) (by norm_num) (by norm_num)
    (by intro i j; fin_cases i <;> fin_cases j <;> simp [exV])
    (by intro i; refine ⟨1, ?_⟩; fin_cases i <;> simp [exV])
    (by intro j; refine ⟨0, ?_⟩; fin_cases j <;> simp [exV])
    (by intro i j; fin_cases i <;> fin_cases j <;> simp [exWe])
    (by intro i j; fin_cases i <;> fin_cases j <;> simp [exW])
    (by intro i j; fin_cases i <;> fin_cases j <;> simp [exH]) false
  exact ⟨W', H', h, C02_update_le exV exWe false exW W' exH H'
    (by intro i j; fin_cases i <;> fin_cases j <;> simp [exV])
    (by intro i j; fin_cases i <;> fin_cases j <;> simp [exWe])
    (by intro i j; fin_cases i <;> fin_cases j <;> simp [exW])
    (by intro i j; fin_cases i <;> fin_cases j <;> simp [exH]) h⟩

/-! ## C03 -/

/-- **C03 (zeros are permanent).** No hypotheses on signs at all. -/
theorem C03_zero_stays_zero (V We : Mat m n K) (holds : List Bool)
    (W W' : Mat m k K) (H H' : Mat k n K)
    (h : lsRun V We holds W H = some (W', H')) :
    (∀ i a, W i a = 0 → W' i a = 0) ∧ (∀ a j, H a j = 0 → H' a j = 0) := by
  induction holds generalizing W H with
  | nil =>
    obtain ⟨rfl, rfl⟩ : W = W' ∧ H = H' := by simpa [lsRun] using h
    exact ⟨fun _ _ h => h, fun _ _ h => h⟩
  | cons b bs ih =>
    obtain ⟨⟨W1, H1⟩, h1, h2⟩ := lsRun_cons_eq_some.1 h
    obtain ⟨u1, u2⟩ := lsUpdate_eq_some.1 h1
    obtain ⟨q1, q2⟩ := ih W1 H1 h2
    refine ⟨fun i a h0 => q1 i a ?_, fun a j h0 => q2 a j ?_⟩
    · rw [(lsStepW_eq_some.1 u2).2, h0, zero_mul]
    · rcases u1 with ⟨_, rfl⟩ | ⟨_, u1⟩
      · exact h0
      · rw [(lsStepH_eq_some.1 u1).2, h0, zero_mul]

/-- A zero next to other entries. -/
example : ∃ W' H', lsRun (K := ℚ) ![![1, 2], ![3, 4]] ![![1, 1], ![1, 1]] [false, true] ![![1, 0], ![1, 1]] ![![1, 1], ![0, 1]] = some (W', H') ∧
    W' 0 1 = 0 ∧ H' 1 0 = 0 := by
  obtain ⟨⟨W', H'⟩, h⟩ := Option.isSome_iff_exists.1 (show (lsRun (K := ℚ) ![![1, 2], ![3, 4]] ![![1, 1], ![1, 1]] [false, true] ![![1, 0], ![1, 1]]
    ![![1, 1], ![0, 1]]).isSome = true by decide +kernel)
  have := C03_zero_stays_zero _ _ _ _ _ _ _ h
  exact ⟨W', H', h, this.1 0 1 rfl, this.2 1 0 rfl⟩

/-- Support of the H step: with positive data and weights and no all-zero factor column in W, exactly the zero entries
stay zero. -/
theorem lsStepH_support (V We : Mat m n K)
    (W : Mat m k K) (H H' : Mat k n K)
    (hV : AllPos V) (hWe : AllPos We) (hW : AllNonneg W) (hH : AllNonneg H) (hWcol : ∀ a, ∃ i, 0 < W i a)
    (h : lsStepH V We W H = some H') : ∀ a j, 0 < H a j → 0 < H' a j := by
  intro a j hp
  obtain ⟨h0, h1⟩ := lsStepH_eq_some.1 h
  rw [h1]
  refine mul_pos hp (div_pos ?_ ?_)
  · rw [lsHNum_apply]
    obtain ⟨i0, hi0⟩ := hWcol a
    exact Finset.sum_pos' (fun i _ => mul_nonneg (hW i a) (mul_nonneg (hWe i j).le (hV i j).le))
      ⟨i0, Finset.mem_univ _, mul_pos hi0 (mul_pos (hWe i0 j) (hV i0 j))⟩
  · exact lt_of_le_of_ne (lsHDen_nonneg (fun i j => (hWe i j).le) hW hH a j) (h0 a j).symm

theorem lsStepW_support (V We : Mat m n K)
    (W W' : Mat m k K) (H : Mat k n K)
    (hV : AllPos V) (hWe : AllPos We) (hW : AllNonneg W) (hH : AllNonneg H) (hHrow : ∀ a, ∃ j, 0 < H a j)
    (h : lsStepW V We W H = some W') : ∀ i a, 0 < W i a → 0 < W' i a := fun i a hp =>
  lsStepH_support (tr V) (tr We) (tr H) (tr W) (tr W') (fun i j => hV j i) (fun i j => hWe j i) (fun i j => hH j i) (fun i j => hW j i)
    hHrow (lsStepW_iff_transpose.1 h) a i hp

/-- **C03 (support is preserved).** With strictly positive data and weights, non-negative factors none of which is
entirely zero, the zero pattern of the result is *exactly* that of the start. -/
theorem C03_support_preserved (V We : Mat m n K) (holds : List Bool)
    (W W' : Mat m k K) (H H' : Mat k n K)
    (hV : AllPos V) (hWe : AllPos We) (hW : AllNonneg W) (hH : AllNonneg H)
    (hWcol : ∀ a, ∃ i, 0 < W i a) (hHrow : ∀ a, ∃ j, 0 < H a j)
    (h : lsRun V We holds W H = some (W', H')) :
    (∀ i a, W' i a = 0 ↔ W i a = 0) ∧ (∀ a j, H' a j = 0 ↔ H a j = 0) := by
  have key : (∀ i a, 0 < W i a → 0 < W' i a) ∧ (∀ a j, 0 < H a j → 0 < H' a j) := by
    induction holds generalizing W H with
    | nil =>
      obtain ⟨rfl, rfl⟩ : W = W' ∧ H = H' := by simpa [lsRun] using h
      exact ⟨fun _ _ h => h, fun _ _ h => h⟩
    | cons b bs ih =>
      obtain ⟨⟨W1, H1⟩, h1, h2⟩ := lsRun_cons_eq_some.1 h
      obtain ⟨p1, p2⟩ := lsUpdate_nonneg (fun i j => (hV i j).le) (fun i j => (hWe i j).le) hW hH h1
      obtain ⟨u1, u2⟩ := lsUpdate_eq_some.1 h1
      have sH : ∀ a j, 0 < H a j → 0 < H1 a j := by
        rcases u1 with ⟨_, rfl⟩ | ⟨_, u1⟩
        · exact fun _ _ h => h
        · exact lsStepH_support V We W H H1 hV hWe hW hH hWcol u1
      have hHrow1 : ∀ a, ∃ j, 0 < H1 a j := fun a => (hHrow a).imp fun j hj => sH a j hj
      have sW := lsStepW_support V We W W1 H1 hV hWe hW p2 hHrow1 u2
      obtain ⟨q1, q2⟩ := ih W1 H1 p1 p2 (fun a => (hWcol a).imp fun i hi => sW i a hi) hHrow1 h2
      exact ⟨fun i a hp => q1 i a (sW i a hp), fun a j hp => q2 a j (sH a j hp)⟩
  obtain ⟨z1, z2⟩ := C03_zero_stays_zero V We holds W W' H H' h
  constructor
  · intro i a
    refine ⟨fun h0 => ?_, z1 i a⟩
    by_contra hne
    exact (key.1 i a (lt_of_le_of_ne (hW i a) (Ne.symm hne))).ne' h0
  · intro a j
    refine ⟨fun h0 => ?_, z2 a j⟩
    by_contra hne
    exact (key.2 a j (lt_of_le_of_ne (hH a j) (Ne.symm hne))).ne' h0

/-- Non-vacuity of C03: a 2×2 problem with two factors, a zero in `W` and a zero in `H`, whose update is defined. -/
example : ∃ W' H', lsRun (K := ℚ) ![![1, 2], ![3, 4]] ![![1, 1], ![1, 1]] [false] ![![1, 0], ![1, 1]] ![![1, 1], ![0, 1]] = some (W', H')
    ∧ W' 0 1 = 0 ∧ H' 1 0 = 0 ∧ W' 1 1 ≠ 0 := by
  have hs : (lsRun (K := ℚ) ![![1, 2], ![3, 4]] ![![1, 1], ![1, 1]] [false] ![![1, 0], ![1, 1]] ![![1, 1], ![0, 1]]).isSome = true := by
    decide +kernel
  obtain ⟨⟨W', H'⟩, h⟩ := Option.isSome_iff_exists.1 hs
  have := C03_support_preserved _ _ _ _ _ _ _
    (by intro i j; fin_cases i <;> fin_cases j <;> simp)
    (by intro i j; fin_cases i <;> fin_cases j <;> simp)
    (by intro i j; fin_cases i <;> fin_cases j <;> simp)
    (by intro i j; fin_cases i <;> fin_cases j <;> simp)
    (by intro a; refine ⟨1, ?_⟩; fin_cases a <;> simp)
    (by intro a; refine ⟨1, ?_⟩; fin_cases a <;> simp) h
  refine ⟨W', H', h, (this.1 0 1).2 rfl, (this.2 1 0).2 rfl, fun h0 => ?_⟩
  have := (this.1 1 1).1 h0
  simp at this

/-! ## C05 -/

/-- One-step form of `C05_permutation`. -/
theorem perm_stepEquiv (π : Equiv.Perm (Fin m)) (ρ : Equiv.Perm (Fin n)) (σ : Equiv.Perm (Fin k))
    (V We : Mat m n K) :
    StepEquiv V We (relabel π ρ V) (relabel π ρ We) (fun W : Mat m k K => relabel π σ W)
      (fun H : Mat k n K => relabel σ ρ H) := by
  have key : ∀ {m n k : ℕ} (π : Equiv.Perm (Fin m)) (ρ : Equiv.Perm (Fin n)) (σ : Equiv.Perm (Fin k))
      (V We : Mat m n K) (W : Mat m k K) (H : Mat k n K),
      lsStepH (relabel π ρ V) (relabel π ρ We) (relabel π σ W) (relabel σ ρ H)
        = (lsStepH V We W H).map (fun X => relabel σ ρ X) := by
    intro m n k π ρ σ V We W H
    have := lsStepH_equivariant (V := V) (We := We) (W := W) (H := H) (V' := relabel π ρ V)
      (We' := relabel π ρ We) (W' := relabel π σ W) (H' := relabel σ ρ H) σ ρ (fun _ => 1) (fun _ => 1)
      (fun _ => one_ne_zero)
      (fun a j => by
        rw [lsHNum_apply, lsHNum_apply, one_mul]
        exact Equiv.sum_comp π (fun i => W i (σ a) * (We i (ρ j) * V i (ρ j))))
      (fun a j => by
        rw [lsHDen_apply, lsHDen_apply, one_mul]
        rw [← Equiv.sum_comp π (fun i => W i (σ a) * (We i (ρ j) * ∑ b, W i b * H b (ρ j)))]
        refine Finset.sum_congr rfl fun i _ => ?_
        rw [← Equiv.sum_comp σ (fun b => W (π i) b * H b (ρ j))]; rfl)
      (fun a j => by simp [relabel])
    rw [this]
    congr 1
    funext X a j; simp [relabel]
  refine ⟨key π ρ σ V We, fun W H => ?_⟩
  have := key ρ π σ (tr V) (tr We) (tr H) (tr W)
  rw [lsStepW_eq_transpose, lsStepW_eq_transpose]
  change lsStepH (tr (relabel π ρ V)) (tr (relabel π ρ We)) (tr (relabel σ ρ H)) (tr (relabel π σ W)) = _ at this
  rw [this, Option.map_map, Option.map_map]
  rfl

/-- **C05 (relabelling).** Permuting factors (`σ`), samples (`π`) and features (`ρ`) of the inputs permutes the result of
every run in the same way – including whether the run is defined. -/
theorem C05_permutation (π : Equiv.Perm (Fin m)) (ρ : Equiv.Perm (Fin n)) (σ : Equiv.Perm (Fin k))
    (V We : Mat m n K) (holds : List Bool) (W : Mat m k K) (H : Mat k n K) :
    lsRun (relabel π ρ V) (relabel π ρ We) holds (relabel π σ W) (relabel σ ρ H)
      = (lsRun V We holds W H).map (fun p => (relabel π σ p.1, relabel σ ρ p.2)) :=
  (perm_stepEquiv π ρ σ V We).run holds W H

/-- One-step form of `C05_scaling`. -/
theorem scaling_stepEquiv (c : Fin k → K) (hc : ∀ a, c a ≠ 0) (V We : Mat m n K) :
    StepEquiv V We V We (fun W : Mat m k K => fun i a => W i a * c a) (fun H : Mat k n K => fun a j => H a j / c a) := by
  have key : ∀ {m n : ℕ} (c : Fin k → K) (_ : ∀ a, c a ≠ 0) (V We : Mat m n K)
      (W : Mat m k K) (H : Mat k n K),
      lsStepH V We (fun i a => W i a * c a) (fun a j => H a j / c a)
        = (lsStepH V We W H).map (fun X => fun a j => X a j / c a) := by
    intro m n c hc V We W H
    have := lsStepH_equivariant (V := V) (We := We) (W := W) (H := H) (V' := V)
      (We' := We) (W' := fun i a => W i a * c a) (H' := fun a j => H a j / c a) (Equiv.refl _) (Equiv.refl _)
      c (fun a => (c a)⁻¹) hc
      (fun a j => by
        rw [lsHNum_apply, lsHNum_apply, Finset.mul_sum]
        exact Finset.sum_congr rfl fun i _ => by simp only [Equiv.refl_apply]; ring)
      (fun a j => by
        rw [lsHDen_apply, lsHDen_apply, Finset.mul_sum]
        refine Finset.sum_congr rfl fun i _ => ?_
        have : ∀ b, W i b * c b * (H b j / c b) = W i b * H b j := fun b => by
          have := hc b; field_simp
        simp only [this, Equiv.refl_apply]; ring)
      (fun a j => by simp only [Equiv.refl_apply]; rw [div_eq_inv_mul])
    rw [this]
    congr 1
    funext X a j
    simp only [Equiv.refl_apply]; rw [div_eq_inv_mul]
  refine ⟨key c hc V We, fun W H => ?_⟩
  have := key (fun a => (c a)⁻¹) (fun a => inv_ne_zero (hc a)) (tr V) (tr We) (tr H) (tr W)
  rw [lsStepW_eq_transpose, lsStepW_eq_transpose]
  have e1 : (fun i a => (tr H) i a * (c a)⁻¹) = (tr fun a j => H a j / c a) := by
    funext j a; simp [tr, div_eq_mul_inv]
  have e2 : (fun a i => (tr W) a i / (c a)⁻¹) = (tr fun i a => W i a * c a) := by
    funext j a; simp [tr]
  rw [e1, e2] at this
  rw [this, Option.map_map, Option.map_map]
  congr 1
  funext X
  ext i a
  simp [tr]

/-- **C05 (factor scaling).** Multiplying factor `a` of `W` by `c a ≠ 0` and dividing factor `a` of `H` by it is carried
through every run unchanged. -/
theorem C05_scaling (c : Fin k → K) (hc : ∀ a, c a ≠ 0)
    (V We : Mat m n K) (holds : List Bool) (W : Mat m k K) (H : Mat k n K) :
    lsRun V We holds (fun i a => W i a * c a) (fun a j => H a j / c a)
      = (lsRun V We holds W H).map (fun p => ((fun i a => p.1 i a * c a), (fun a j => p.2 a j / c a))) :=
  (scaling_stepEquiv c hc V We).run holds W H

/-- **C05 (units).** A change of measurement unit of the data (`V`, and with it the contributions, multiplied by `t`),
together with any common rescaling of the weights by `w` (e.g. `1/t²` when the uncertainties change unit as well), changes
the contributions by `t` and nothing else. -/
theorem C05_units (t w : K) (ht : t ≠ 0) (hw : w ≠ 0)
    (V We : Mat m n K) (holds : List Bool) (W : Mat m k K) (H : Mat k n K) :
    lsRun (fun i j => t * V i j) (fun i j => w * We i j) holds (fun i a => t * W i a) H
      = (lsRun V We holds W H).map (fun p => ((fun i a => t * p.1 i a), p.2)) := by
  refine StepEquiv.run (fW := fun W => fun i a => t * W i a) (fH := fun H => H) ⟨?_, ?_⟩ holds W H
  · intro W H
    have := lsStepH_equivariant (V := V) (We := We) (W := W) (H := H) (V' := fun i j => t * V i j)
      (We' := fun i j => w * We i j) (W' := fun i a => t * W i a) (H' := H) (Equiv.refl _) (Equiv.refl _)
      (fun _ => t * w * t) (fun a => 1) (fun _ => mul_ne_zero (mul_ne_zero ht hw) ht)
      (fun a j => by
        rw [lsHNum_apply, lsHNum_apply, Finset.mul_sum]
        exact Finset.sum_congr rfl fun i _ => by simp only [Equiv.refl_apply]; ring)
      (fun a j => by
        rw [lsHDen_apply, lsHDen_apply, Finset.mul_sum]
        refine Finset.sum_congr rfl fun i _ => ?_
        have : ∑ b, t * W i b * H b j = t * ∑ b, W i b * H b j := by
          rw [Finset.mul_sum]; exact Finset.sum_congr rfl fun b _ => by ring
        simp only [this, Equiv.refl_apply]; ring)
      (fun a j => by simp)
    rw [this]
    congr 1
    funext X a j; simp
  · intro W H
    rw [lsStepW_eq_transpose, lsStepW_eq_transpose, Option.map_map]
    have := lsStepH_equivariant (V := (tr V)) (We := (tr We)) (W := (tr H)) (H := (tr W))
      (V' := tr fun i j => t * V i j)
      (We' := tr fun i j => w * We i j) (W' := (tr H)) (H' := tr fun i a => t * W i a)
      (Equiv.refl _) (Equiv.refl _)
      (fun _ => w * t) (fun a => t) (fun _ => (mul_ne_zero hw ht))
      (fun a j => by
        rw [lsHNum_apply, lsHNum_apply, Finset.mul_sum]
        exact Finset.sum_congr rfl fun i _ => by simp only [Equiv.refl_apply, tr]; ring)
      (fun a j => by
        rw [lsHDen_apply, lsHDen_apply, Finset.mul_sum]
        refine Finset.sum_congr rfl fun i _ => ?_
        have : ∑ b, (tr H) i b * (tr fun i a => t * W i a) b j = t * ∑ b, (tr H) i b * (tr W) b j := by
          rw [Finset.mul_sum]; exact Finset.sum_congr rfl fun b _ => by simp [tr]; ring
        rw [this]; simp [tr]; ring)
      (fun a j => by simp [tr])
    rw [this, Option.map_map]
    rfl

/-- Micrograms instead of milligrams. -/
example : (lsRun (fun i j => 1000 * exV i j) (fun i j => 1 / 10 ^ 6 * exWe i j) [false, false] (fun i a => 1000 * exW i a) exH).isSome = true := by
  rw [C05_units 1000 (1 / 10 ^ 6) (by norm_num) (by norm_num), Option.isSome_map]
  decide +kernel

theorem qLoss_permutation (π : Equiv.Perm (Fin m)) (ρ : Equiv.Perm (Fin n)) (σ : Equiv.Perm (Fin k))
    (V U : Mat m n K) (W : Mat m k K) (H : Mat k n K) :
    qLoss (relabel π ρ V) (relabel π ρ U) (relabel π σ W) (relabel σ ρ H) = qLoss V U W H := by
  simp only [qLoss, if_true, mmul, relabel]
  rw [← Equiv.sum_comp π (fun i => ∑ j, (V i j - ∑ a, W i a * H a j) / U i j * ((V i j - ∑ a, W i a * H a j) / U i j))]
  refine Finset.sum_congr rfl fun i _ => ?_
  rw [← Equiv.sum_comp ρ (fun j => (V (π i) j - ∑ a, W (π i) a * H a j) / U (π i) j *
    ((V (π i) j - ∑ a, W (π i) a * H a j) / U (π i) j))]
  refine Finset.sum_congr rfl fun j _ => ?_
  rw [Equiv.sum_comp σ (fun a => W (π i) a * H a (ρ j))]

theorem qLoss_scaling (c : Fin k → K) (hc : ∀ a, c a ≠ 0)
    (V U : Mat m n K) (W : Mat m k K) (H : Mat k n K) :
    qLoss V U (fun i a => W i a * c a) (fun a j => H a j / c a) = qLoss V U W H := by
  simp only [qLoss, if_true, mmul]
  have : ∀ i j b, W i b * c b * (H b j / c b) = W i b * H b j := fun i j b => by
    have := hc b; field_simp
  simp only [this]

/-- **C05 (losses).** The relabelled run records exactly the same loss values at every iteration. -/
theorem C05_recorded_losses_permutation (π : Equiv.Perm (Fin m)) (ρ : Equiv.Perm (Fin n)) (σ : Equiv.Perm (Fin k))
    (V U : Mat m n K) (holds : List Bool) (W : Mat m k K) (H : Mat k n K) :
    lsTrace (relabel π ρ V) (weights (relabel π ρ U)) (fun W H => qLoss (relabel π ρ V) (relabel π ρ U) W H) holds
        (relabel π σ W) (relabel σ ρ H)
      = lsTrace V (weights U) (fun W H => qLoss V U W H) holds W H :=
  (perm_stepEquiv π ρ σ V (weights U)).trace _ _ (fun W H => qLoss_permutation π ρ σ V U W H) holds W H

/-- **C05 (losses).** The rescaled run records exactly the same loss values at every iteration. -/
theorem C05_recorded_losses_scaling (c : Fin k → K) (hc : ∀ a, c a ≠ 0)
    (V U : Mat m n K) (holds : List Bool) (W : Mat m k K) (H : Mat k n K) :
    lsTrace V (weights U) (fun W H => qLoss V U W H) holds (fun i a => W i a * c a) (fun a j => H a j / c a)
      = lsTrace V (weights U) (fun W H => qLoss V U W H) holds W H :=
  (scaling_stepEquiv c hc V (weights U)).trace _ _ (fun W H => qLoss_scaling c hc V U W H) holds W H

/-- Non-vacuity of C05: the run of the example data with its factors swapped and rescaled is defined. -/
example : (lsRun exV exWe [false, true, false] (fun i a => exW i a * (if a = 0 then 2 else 5))
    (fun a j => exH a j / (if a = 0 then 2 else 5))).isSome = true := by
  rw [C05_scaling (fun a => if a = 0 then 2 else 5) (by intro a; split <;> norm_num)]
  simp only [Option.isSome_map]
  decide +kernel

/-! ## C06 -/

/-- **C06 (exact factorisations are fixed points).** If `V = W H` and the update is defined, nothing moves, and Q is 0. -/
theorem C06_exact_is_fixed (V We : Mat m n K) (hold : Bool)
    (W W' : Mat m k K) (H H' : Mat k n K) (hV : ∀ i j, V i j = ∑ a, W i a * H a j)
    (hdef : lsUpdate V We hold W H = some (W', H')) :
    W' = W ∧ H' = H ∧ qLoss V We W' H' = 0 := by
  have hV : V = W ⬝ H := funext fun i => funext fun j => hV i j
  subst hV
  obtain ⟨h1, h2⟩ := lsUpdate_eq_some.1 hdef
  have hH : H' = H := by
    rcases h1 with ⟨_, h1⟩ | ⟨_, h1⟩
    · exact h1
    · obtain ⟨h0, h3⟩ := lsStepH_eq_some.1 h1
      funext a j
      have : lsHNum (W ⬝ H) We W a j = lsHDen We W H a j := rfl
      rw [h3, this, div_self (h0 a j), mul_one]
  subst hH
  have hW : W' = W := by
    obtain ⟨h0, h3⟩ := lsStepW_eq_some.1 h2
    funext a j
    have : lsWNum (W ⬝ H') We H' a j = lsWDen We W H' a j := rfl
    rw [h3, this, div_self (h0 a j), mul_one]
  subst hW
  exact ⟨rfl, rfl, by simp [qLoss]⟩

/-- **C06 (fixed points are stationary).** If an update leaves factors without zero entries unchanged, the first-order
change of the loss vanishes in every direction of `H` and of `W`: moving `H` by `D` (or `W` by `E`) changes the loss by
exactly `Σ We (W D)²` (resp. `Σ We (E H)²`), with no linear term. Hence `H` minimises the loss for this `W` and `W` for
this `H`. -/
theorem C06_fixed_is_stationary (V We : Mat m n K)
    (W : Mat m k K) (H : Mat k n K) (hW : NoZero W) (hH : NoZero H)
    (h : lsUpdate V We false W H = some (W, H)) :
    (∀ D : Mat k n K, WLoss V We W (H + D) = WLoss V We W H + ∑ i, ∑ j, We i j * ((W ⬝ D) i j) ^ 2) ∧
    (∀ E : Mat m k K, WLoss V We (W + E) H = WLoss V We W H + ∑ i, ∑ j, We i j * ((E ⬝ H) i j) ^ 2) := by
  obtain ⟨h1, h2⟩ := lsUpdate_eq_some.1 h
  have h1 : lsStepH V We W H = some H := by
    rcases h1 with ⟨h, _⟩ | ⟨_, h⟩
    · cases h
    · exact h
  obtain ⟨dH, eH⟩ := lsStepH_eq_some.1 h1
  obtain ⟨dW, eW⟩ := lsStepW_eq_some.1 h2
  have gH : ∀ a j, ∑ i, W i a * (We i j * (V i j - (W ⬝ H) i j)) = 0 := by
    intro a j
    have h3 : lsHNum V We W a j / lsHDen We W H a j = 1 := by
      have := eH a j
      have h4 : H a j * 1 = H a j * (lsHNum V We W a j / lsHDen We W H a j) := by rw [mul_one]; exact this
      exact (mul_left_cancel₀ (hH a j) h4).symm
    have h5 := (div_eq_one_iff_eq (dH a j)).1 h3
    rw [lsHNum_apply, lsHDen_apply] at h5
    simp only [mul_sub, Finset.sum_sub_distrib, mmul]
    rw [h5, sub_self]
  have gW : ∀ i a, ∑ j, (We i j * (V i j - (W ⬝ H) i j)) * H a j = 0 := by
    intro a j
    have h3 : lsWNum V We H a j / lsWDen We W H a j = 1 := by
      have := eW a j
      have h4 : W a j * 1 = W a j * (lsWNum V We H a j / lsWDen We W H a j) := by rw [mul_one]; exact this
      exact (mul_left_cancel₀ (hW a j) h4).symm
    have h5 := (div_eq_one_iff_eq (dW a j)).1 h3
    rw [lsWNum_apply, lsWDen_apply] at h5
    simp only [mul_sub, sub_mul, Finset.sum_sub_distrib, mmul]
    rw [h5, sub_self]
  constructor
  · intro D
    have cross : ∑ i, ∑ j, (We i j * (V i j - (W ⬝ H) i j)) * (W ⬝ D) i j = 0 := by
      have : ∀ i j, (We i j * (V i j - (W ⬝ H) i j)) * (W ⬝ D) i j
          = ∑ a, D a j * (W i a * (We i j * (V i j - (W ⬝ H) i j))) := fun i j => by
        rw [show (W ⬝ D) i j = ∑ a, W i a * D a j from rfl, Finset.mul_sum]
        exact Finset.sum_congr rfl fun a _ => by ring
      simp only [this]
      rw [Finset.sum_comm]
      refine Finset.sum_eq_zero fun j _ => ?_
      rw [Finset.sum_comm]
      refine Finset.sum_eq_zero fun a _ => ?_
      rw [← Finset.mul_sum, gH, mul_zero]
    have e : ∀ i j, We i j * (V i j - (W ⬝ (H + D)) i j) ^ 2
        = We i j * (V i j - (W ⬝ H) i j) ^ 2 + We i j * ((W ⬝ D) i j) ^ 2
          - 2 * ((We i j * (V i j - (W ⬝ H) i j)) * (W ⬝ D) i j) := fun i j => by
      rw [show (W ⬝ (H + D)) i j = (W ⬝ H) i j + (W ⬝ D) i j by
        simp [mmul, mul_add, Finset.sum_add_distrib]]; ring
    simp only [WLoss, e, Finset.sum_sub_distrib, Finset.sum_add_distrib, ← Finset.mul_sum]
    rw [cross]; ring
  · intro E
    have cross : ∑ i, ∑ j, (We i j * (V i j - (W ⬝ H) i j)) * (E ⬝ H) i j = 0 := by
      refine Finset.sum_eq_zero fun i _ => ?_
      have : ∀ j, (We i j * (V i j - (W ⬝ H) i j)) * (E ⬝ H) i j
          = ∑ a, E i a * ((We i j * (V i j - (W ⬝ H) i j)) * H a j) := fun j => by
        rw [show (E ⬝ H) i j = ∑ a, E i a * H a j from rfl, Finset.mul_sum]
        exact Finset.sum_congr rfl fun a _ => by ring
      simp only [this]
      rw [Finset.sum_comm]
      refine Finset.sum_eq_zero fun a _ => ?_
      rw [← Finset.mul_sum, gW, mul_zero]
    have e : ∀ i j, We i j * (V i j - ((W + E) ⬝ H) i j) ^ 2
        = We i j * (V i j - (W ⬝ H) i j) ^ 2 + We i j * ((E ⬝ H) i j) ^ 2
          - 2 * ((We i j * (V i j - (W ⬝ H) i j)) * (E ⬝ H) i j) := fun i j => by
      rw [show ((W + E) ⬝ H) i j = (W ⬝ H) i j + (E ⬝ H) i j by
        simp [mmul, add_mul, Finset.sum_add_distrib]]; ring
    simp only [WLoss, e, Finset.sum_sub_distrib, Finset.sum_add_distrib, ← Finset.mul_sum]
    rw [cross]; ring

/-- **C06 (consequence).** At such a fixed point with non-negative weights, neither factor can be improved on its own. -/
theorem C06_fixed_is_coordinatewise_minimum (V We : Mat m n K) (hWe : AllNonneg We)
    (W : Mat m k K) (H : Mat k n K) (hW : NoZero W) (hH : NoZero H)
    (h : lsUpdate V We false W H = some (W, H)) :
    (∀ H₂, WLoss V We W H ≤ WLoss V We W H₂) ∧ (∀ W₂, WLoss V We W H ≤ WLoss V We W₂ H) := by
  obtain ⟨h1, h2⟩ := C06_fixed_is_stationary V We W H hW hH h
  have nn : ∀ X : Mat m n K, 0 ≤ ∑ i, ∑ j, We i j * (X i j) ^ 2 := fun X =>
    Finset.sum_nonneg fun i _ => Finset.sum_nonneg fun j _ => mul_nonneg (hWe i j) (sq_nonneg _)
  constructor
  · intro H₂
    have := h1 (H₂ - H)
    rw [add_sub_cancel] at this
    rw [this]; exact le_add_of_nonneg_right (nn _)
  · intro W₂
    have := h2 (W₂ - W)
    rw [add_sub_cancel] at this
    rw [this]; exact le_add_of_nonneg_right (nn _)

/-- Non-vacuity of C06: for `V = W H` with the example factors and positive weights the update is defined. -/
example : ∃ W' H', lsUpdate (exW ⬝ exH) exWe false exW exH = some (W', H') ∧ W' = exW ∧ H' = exH := by
  have hs : (lsUpdate (exW ⬝ exH) exWe false exW exH).isSome = true := by decide +kernel
  obtain ⟨⟨W', H'⟩, h⟩ := Option.isSome_iff_exists.1 hs
  obtain ⟨h1, h2, _⟩ := C06_exact_is_fixed _ exWe false exW W' exH H' (fun _ _ => rfl) h
  exact ⟨W', H', h, h1, h2⟩

/-- Non-vacuity of the converse: its hypotheses hold for the same data. -/
example : (∀ H₂, WLoss (exW ⬝ exH) exWe exW exH ≤ WLoss (exW ⬝ exH) exWe exW H₂) ∧
    (∀ W₂, WLoss (exW ⬝ exH) exWe exW exH ≤ WLoss (exW ⬝ exH) exWe W₂ exH) := by
  have hs : (lsUpdate (exW ⬝ exH) exWe false exW exH).isSome = true := by decide +kernel
  obtain ⟨⟨W', H'⟩, h⟩ := Option.isSome_iff_exists.1 hs
  obtain ⟨rfl, rfl, _⟩ := C06_exact_is_fixed _ exWe false exW W' exH H' (fun _ _ => rfl) h
  exact C06_fixed_is_coordinatewise_minimum _ exWe (by intro i j; fin_cases i <;> fin_cases j <;> simp [exWe])
    exW exH (by decide +kernel) (by decide +kernel) h

end

/-- At an exact factorisation every change of the profiles alone raises the loss by a sum of squares. -/
example (D : Mat 2 2 ℚ) : WLoss (exW ⬝ exH) exWe exW (exH + D) = WLoss (exW ⬝ exH) exWe exW exH + ∑ i, ∑ j, exWe i j * ((exW ⬝ D) i j) ^ 2 := by
  obtain ⟨⟨W', H'⟩, h⟩ := Option.isSome_iff_exists.1 (show (lsUpdate (exW ⬝ exH) exWe false exW exH).isSome = true by decide +kernel)
  obtain ⟨rfl, rfl, _⟩ := C06_exact_is_fixed _ exWe false exW W' exH H' (fun _ _ => rfl) h
  exact (C06_fixed_is_stationary _ exWe exW exH (by decide +kernel) (by decide +kernel) h).1 D

end Esat
