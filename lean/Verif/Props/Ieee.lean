import Mathlib.Tactic.Linarith
import Mathlib.Tactic.Positivity
import Mathlib.Tactic.FieldSimp
import Mathlib.Tactic.Ring
import Mathlib.Tactic.NormNum
import Mathlib.Data.Fin.VecNotation
import Mathlib.Algebra.Order.BigOperators.Ring.Finset
import Verif.Model.Ieee
import Verif.Model.LsNmf

/-!
# The update formulas in floating point arithmetic

C139: signs, C140: zeros, C141: the loss, C142: ws-nmf, C143: NaN, C144: underflow, C145: accuracy, C146: the loss may increase.
-/

namespace Esat

open Fl

/-! ## Signs -/

/-- Not a number with sign bit: NaN, `+∞`, or a finite number with sign `+` (in particular not `-0`). -/
def SignClear (x : Fl) : Prop := x = nan ∨ x = inf false ∨ ∃ y, x = fin false y

/-- Not below zero (NaN and `-0` are not below zero). -/
def NotNeg (x : Fl) : Prop := x.lt (fin false 0) = false

theorem signClear_notNeg {x : Fl} (h : SignClear x) : NotNeg x := by
  rcases h with rfl | rfl | ⟨y, rfl⟩ <;> simp [NotNeg, lt]

theorem notNeg_iff {x : Fl} : NotNeg x ↔ SignClear x ∨ x = fin true 0 := by
  cases x with
  | nan => simp [NotNeg, lt, SignClear]
  | inf s => cases s <;> simp [NotNeg, lt, SignClear]
  | fin s x => cases s <;> simp [NotNeg, lt, SignClear]

variable {A : Arith}

theorem round_signClear (x : ℚ≥0) : SignClear (A.round false x) := by
  unfold Arith.round
  split
  · exact .inr (.inl rfl)
  · exact .inr (.inr ⟨_, rfl⟩)

theorem add_signClear {x y : Fl} (hx : SignClear x) (hy : SignClear y) : SignClear (A.add x y) := by
  rcases hx with rfl | rfl | ⟨a, rfl⟩ <;> rcases hy with rfl | rfl | ⟨b, rfl⟩ <;>
    simp only [Arith.add, if_true] <;> first | exact round_signClear _ | simp [SignClear]

theorem mul_signClear {x y : Fl} (hx : SignClear x) (hy : SignClear y) : SignClear (A.mul x y) := by
  rcases hx with rfl | rfl | ⟨a, rfl⟩ <;> rcases hy with rfl | rfl | ⟨b, rfl⟩ <;>
    simp only [Arith.mul, Arith.mulWith, Bool.xor_self] <;>
    first | exact round_signClear _ | (split <;> simp [SignClear]) | simp [SignClear]

theorem mulEx_signClear {x y : Fl} (hx : SignClear x) (hy : SignClear y) :
    SignClear (Arith.mulWith Fl.fin x y) := by
  rcases hx with rfl | rfl | ⟨a, rfl⟩ <;> rcases hy with rfl | rfl | ⟨b, rfl⟩ <;>
    simp only [Arith.mulWith, Bool.xor_self] <;>
    first | (split <;> simp [SignClear]) | simp [SignClear]

theorem div_signClear {x y : Fl} (hx : SignClear x) (hy : SignClear y) : SignClear (A.div x y) := by
  rcases hx with rfl | rfl | ⟨a, rfl⟩ <;> rcases hy with rfl | rfl | ⟨b, rfl⟩ <;>
    simp only [Arith.div, Bool.xor_self]
  case inr.inr.inr.inr =>
    split
    · split <;> simp [SignClear]
    · exact round_signClear _
  all_goals simp [SignClear]

theorem dot_signClear {ι : Type} [DecidableEq ι] {x y : ι → Fl} {d : ℕ} {S : Finset ι} {s : Fl}
    (h : A.Dot x y d S s) (hx : ∀ i ∈ S, SignClear (x i)) (hy : ∀ i ∈ S, SignClear (y i)) : SignClear s := by
  induction h with
  | zero => exact .inr (.inr ⟨_, rfl⟩)
  | term i => exact mul_signClear (hx i (by simp)) (hy i (by simp))
  | fma i hi _ ih =>
    exact add_signClear (mulEx_signClear (hx i (by simp)) (hy i (by simp)))
      (ih (fun j hj => hx j (by simp [hj])) (fun j hj => hy j (by simp [hj])))
  | add _ _ _ ih ih' =>
    exact add_signClear (ih (fun j hj => hx j (by simp [hj])) (fun j hj => hy j (by simp [hj])))
      (ih' (fun j hj => hx j (by simp [hj])) (fun j hj => hy j (by simp [hj])))

/-- Every entry is sign clear. -/
def MSC {m n : ℕ} (X : Mat m n Fl) : Prop := ∀ i j, SignClear (X i j)

variable {m n k : ℕ}

theorem matMul_signClear {d : ℕ} {X : Mat m k Fl} {Y : Mat k n Fl} {Z : Mat m n Fl} (h : A.MatMul d X Y Z)
    (hX : MSC X) (hY : MSC Y) : MSC Z := fun i j => by
  obtain ⟨d', -, h⟩ := h i j
  exact dot_signClear h (fun a _ => hX i a) (fun a _ => hY a j)

theorem stepH_signClear {d : ℕ} {V We : Mat m n Fl} {W : Mat m k Fl} {H H' : Mat k n Fl} (h : A.StepH d V We W H H')
    (hV : MSC V) (hWe : MSC We) (hW : MSC W) (hH : MSC H) : MSC H' := by
  obtain ⟨WH, num, den, h1, h2, h3, h4⟩ := h
  have a1 : MSC WH := matMul_signClear h1 hW hH
  have hWt : MSC (tr W) := fun i j => hW j i
  have a2 : MSC num := matMul_signClear h2 hWt fun i j => mul_signClear (hWe i j) (hV i j)
  have a3 : MSC den := matMul_signClear h3 hWt fun i j => mul_signClear (hWe i j) (a1 i j)
  intro a j
  rw [h4]
  exact mul_signClear (hH a j) (div_signClear (a2 a j) (a3 a j))

theorem stepW_signClear {d : ℕ} {V We : Mat m n Fl} {W W' : Mat m k Fl} {H : Mat k n Fl} (h : A.StepW d V We W H W')
    (hV : MSC V) (hWe : MSC We) (hW : MSC W) (hH : MSC H) : MSC W' := by
  obtain ⟨WH, num, den, h1, h2, h3, h4⟩ := h
  have a1 : MSC WH := matMul_signClear h1 hW hH
  have hHt : MSC (tr H) := fun i j => hH j i
  have a2 : MSC num := matMul_signClear h2 (fun i j => mul_signClear (hWe i j) (hV i j)) hHt
  have a3 : MSC den := matMul_signClear h3 (fun i j => mul_signClear (hWe i j) (a1 i j)) hHt
  intro a j
  rw [h4]
  exact mul_signClear (hW a j) (div_signClear (a2 a j) (a3 a j))

theorem run_signClear {d : ℕ} {V We : Mat m n Fl} (hV : MSC V) (hWe : MSC We) :
    ∀ (bs : List Bool) {W W' : Mat m k Fl} {H H' : Mat k n Fl}, A.Run d V We bs W H W' H' → MSC W → MSC H →
      MSC W' ∧ MSC H'
  | [], W, W', H, H', h, hW, hH => by obtain ⟨rfl, rfl⟩ := h; exact ⟨hW, hH⟩
  | b :: bs, W, W', H, H', h, hW, hH => by
    obtain ⟨W₁, H₁, ⟨h1, h2⟩, h3⟩ := h
    have b1 : MSC H₁ := by
      cases b
      · exact stepH_signClear h1 hV hWe hW hH
      · have h1' : H₁ = H := h1
        rw [h1']; exact hH
    exact run_signClear hV hWe bs h3 (stepW_signClear h2 hV hWe hW b1) b1

/-- **C139.** Let the data, weights and start factors have no entry with a sign bit.  Then for every rounding, every order of
the summations and every number of ls-nmf updates with H held or not, no entry of W or H is below zero or `-0`;
entries may be `+∞` or NaN. -/
theorem C139_sign {d : ℕ} {V We : Mat m n Fl} {W W' : Mat m k Fl} {H H' : Mat k n Fl} (bs : List Bool)
    (hV : ∀ i j, SignClear (V i j)) (hWe : ∀ i j, SignClear (We i j))
    (hW : ∀ i a, SignClear (W i a)) (hH : ∀ a j, SignClear (H a j)) (h : A.Run d V We bs W H W' H') :
    (∀ i a, (W' i a).lt (fin false 0) = false ∧ W' i a ≠ fin true 0) ∧
    (∀ a j, (H' a j).lt (fin false 0) = false ∧ H' a j ≠ fin true 0) := by
  have key : ∀ x : Fl, SignClear x → x.lt (fin false 0) = false ∧ x ≠ fin true 0 := by
    intro x hx
    refine ⟨signClear_notNeg hx, ?_⟩
    rcases hx with rfl | rfl | ⟨y, rfl⟩ <;> simp
  obtain ⟨a, b⟩ := run_signClear hV hWe bs h hW hH
  exact ⟨fun i j => key _ (a i j), fun i j => key _ (b i j)⟩

/-! ## Zeros -/

/-- `+0`, `-0` or NaN. -/
def ZeroOrNan (x : Fl) : Prop := x = nan ∨ ∃ s, x = fin s 0

theorem mul_zeroOrNan {x y : Fl} (hx : ZeroOrNan x) : ZeroOrNan (A.mul x y) := by
  rcases hx with rfl | ⟨s, rfl⟩
  · exact .inl rfl
  · cases y with
    | nan => exact .inl rfl
    | inf t => exact .inl (by simp [Arith.mul, Arith.mulWith])
    | fin t y => exact .inr ⟨xor s t, by simp [Arith.mul, Arith.mulWith, Arith.round, A.rnd_zero]⟩

theorem run_zero {d : ℕ} {V We : Mat m n Fl} :
    ∀ (bs : List Bool) {W W' : Mat m k Fl} {H H' : Mat k n Fl}, A.Run d V We bs W H W' H' →
      (∀ i a, ZeroOrNan (W i a) → ZeroOrNan (W' i a)) ∧ (∀ a j, ZeroOrNan (H a j) → ZeroOrNan (H' a j))
  | [], W, W', H, H', h => by obtain ⟨rfl, rfl⟩ := h; exact ⟨fun _ _ => id, fun _ _ => id⟩
  | b :: bs, W, W', H, H', h => by
    obtain ⟨W₁, H₁, ⟨h1, h2⟩, h3⟩ := h
    obtain ⟨c1, c2⟩ := run_zero bs h3
    obtain ⟨_, _, _, _, _, _, e2⟩ := h2
    refine ⟨fun i a hz => c1 i a (by rw [e2]; exact mul_zeroOrNan hz), fun a j hz => c2 a j ?_⟩
    cases b
    · obtain ⟨_, _, _, _, _, _, e1⟩ := h1
      rw [e1]; exact mul_zeroOrNan hz
    · have h1' : H₁ = H := h1
      rw [h1']; exact hz

/-- **C140.** In floating point arithmetic an entry of W or H that is zero stays zero under any number of ls-nmf updates, or
becomes NaN; it never becomes another number. -/
theorem C140_zero {d : ℕ} {V We : Mat m n Fl} {W W' : Mat m k Fl} {H H' : Mat k n Fl} (bs : List Bool)
    (h : A.Run d V We bs W H W' H') :
    (∀ i a s, W i a = fin s 0 → W' i a = nan ∨ W' i a = fin true 0 ∨ W' i a = fin false 0) ∧
    (∀ a j s, H a j = fin s 0 → H' a j = nan ∨ H' a j = fin true 0 ∨ H' a j = fin false 0) := by
  have key : ∀ x : Fl, ZeroOrNan x → x = nan ∨ x = fin true 0 ∨ x = fin false 0 := by
    rintro x (rfl | ⟨_ | _, rfl⟩) <;> simp
  obtain ⟨a, b⟩ := run_zero bs h
  exact ⟨fun i j s e => key _ (a i j (.inr ⟨s, e⟩)), fun i j s e => key _ (b i j (.inr ⟨s, e⟩))⟩

/-! ## The loss -/

theorem mulSelf_signClear (x : Fl) : SignClear (A.mul x x) := by
  cases x with
  | nan => exact .inl rfl
  | inf s => exact .inr (.inl (by simp [Arith.mul, Arith.mulWith]))
  | fin s x => simpa [Arith.mul, Arith.mulWith] using round_signClear (x * x)

theorem mulExSelf_signClear (x : Fl) : SignClear (Arith.mulWith Fl.fin x x) := by
  cases x with
  | nan => exact .inl rfl
  | inf s => exact .inr (.inl (by simp [Arith.mulWith]))
  | fin s x => exact .inr (.inr ⟨x * x, by simp [Arith.mulWith]⟩)

theorem dotSelf_signClear {ι : Type} [DecidableEq ι] {x : ι → Fl} {d : ℕ} {S : Finset ι} {s : Fl}
    (h : A.Dot x x d S s) : SignClear s := by
  induction h with
  | zero => exact .inr (.inr ⟨_, rfl⟩)
  | term i => exact mulSelf_signClear _
  | fma i hi _ ih => exact add_signClear (mulExSelf_signClear _) ih
  | add _ _ _ ih ih' => exact add_signClear ih ih'

/-- **C141.** The loss computed by the compiled loops is never negative and never `-0`, for every data, uncertainty and
factors, finite or not; it may be `+∞` or NaN. -/
theorem C141_loss {d : ℕ} {V U : Mat m n Fl} {W : Mat m k Fl} {H : Mat k n Fl} {q : Fl} (h : A.QOf d V U W H q) :
    q = nan ∨ q = inf false ∨ ∃ y, q = fin false y := by
  obtain ⟨_, _, _, h⟩ := h
  exact dotSelf_signClear h

/-! ## ws-nmf -/

theorem sqrt_notNeg (x : Fl) : NotNeg (A.sqrtF x) := by
  rw [notNeg_iff]
  cases x with
  | nan => exact .inl (.inl rfl)
  | inf s => cases s <;> simp [Arith.sqrtF, SignClear]
  | fin s x =>
    unfold Arith.sqrtF
    dsimp only
    split
    · cases s <;> simp [SignClear]
    · cases s <;> simp [SignClear]

theorem mul_notNeg {x y : Fl} (hx : NotNeg x) (hy : NotNeg y) : NotNeg (A.mul x y) := by
  rw [notNeg_iff] at *
  rcases hx with hx | rfl
  · rcases hy with hy | rfl
    · exact .inl (mul_signClear hx hy)
    · rcases hx with rfl | rfl | ⟨a, rfl⟩
      · exact .inl (.inl rfl)
      · exact .inl (.inl (by simp [Arith.mul, Arith.mulWith]))
      · exact .inr (by simp [Arith.mul, Arith.mulWith, Arith.round, A.rnd_zero])
  · cases y with
    | nan => exact .inl (.inl rfl)
    | inf t => exact .inl (.inl (by simp [Arith.mul, Arith.mulWith]))
    | fin t y =>
      cases t
      · exact .inr (by simp [Arith.mul, Arith.mulWith, Arith.round, A.rnd_zero])
      · exact .inl (.inr (.inr ⟨0, by simp [Arith.mul, Arith.mulWith, Arith.round, A.rnd_zero]⟩))

/-- **C142.** The ws-nmf update of a column of H never produces a negative entry from a column without negative entries, in
floating point arithmetic and for all data, weights and W (also negative, infinite or NaN ones). -/
theorem C142_ws {d : ℕ} {eps : ℚ≥0} {W : Mat m k Fl} {v : Fin m → Fl} {P N : Mat k k Fl} {h h' : Fin k → Fl}
    (hstep : A.WsColumn d eps W v P N h h') (hh : ∀ a, (h a).lt (fin false 0) = false) :
    ∀ a, (h' a).lt (fin false 0) = false := by
  obtain ⟨_, _, _, _, _, _, _, _, e⟩ := hstep
  intro a
  rw [e]
  exact mul_notNeg (hh a) (sqrt_notNeg _)

/-- The positive and negative part of W used by the ws-nmf update have no entry with a sign bit, whatever W is: with
non-negative data all numerators and denominators of the update are sign clear. -/
theorem C142_parts (W : Mat m k Fl) (i : Fin m) (a : Fin k) :
    SignClear (A.wPos W i a) ∧ SignClear (A.wNeg W i a) := by
  have h2 : SignClear (fin false 2) := .inr (.inr ⟨2, rfl⟩)
  refine ⟨div_signClear ?_ h2, div_signClear ?_ h2⟩
  · cases W i a with
    | nan => exact .inl rfl
    | inf s => cases s <;> simp [Fl.abs, Arith.add, SignClear]
    | fin s x =>
      cases s
      · exact round_signClear _
      · simp [Fl.abs, Arith.add, SignClear]
  · cases W i a with
    | nan => exact .inl rfl
    | inf s => cases s <;> simp [Fl.abs, Fl.neg, Arith.sub, Arith.add, SignClear]
    | fin s x =>
      cases s
      · simp [Fl.abs, Fl.neg, Arith.sub, Arith.add, SignClear]
      · exact round_signClear _

/-! ## NaN -/

theorem add_nan_left (y : Fl) : A.add nan y = nan := by cases y <;> rfl
theorem add_nan_right (x : Fl) : A.add x nan = nan := by cases x <;> rfl
theorem mul_nan_left (y : Fl) : A.mul nan y = nan := by cases y <;> rfl
theorem mul_nan_right (x : Fl) : A.mul x nan = nan := by cases x <;> rfl
theorem div_nan_left (y : Fl) : A.div nan y = nan := by cases y <;> rfl
theorem div_nan_right (x : Fl) : A.div x nan = nan := by cases x <;> rfl
theorem fma_nan_left (y z : Fl) : A.fma nan y z = nan := by
  have : Arith.mulWith Fl.fin nan y = nan := by cases y <;> rfl
  rw [Arith.fma, this, add_nan_left]
theorem fma_nan_mid (x z : Fl) : A.fma x nan z = nan := by
  have : Arith.mulWith Fl.fin x nan = nan := by cases x <;> rfl
  rw [Arith.fma, this, add_nan_left]

theorem dot_nan {ι : Type} [DecidableEq ι] {x y : ι → Fl} {d : ℕ} {S : Finset ι} {s : Fl} (h : A.Dot x y d S s)
    {i : ι} (hi : i ∈ S) (hn : x i = nan ∨ y i = nan) : s = nan := by
  induction h with
  | zero => simp at hi
  | term j =>
    rw [Finset.mem_singleton] at hi
    subst hi
    rcases hn with e | e <;> rw [e]
    · exact mul_nan_left _
    · exact mul_nan_right _
  | fma j hj _ ih =>
    rcases Finset.mem_insert.mp hi with rfl | h
    · rcases hn with e | e <;> rw [e]
      · exact fma_nan_left _ _
      · exact fma_nan_mid _ _
    · rw [ih h, Arith.fma, add_nan_right]
  | add _ _ _ ih ih' =>
    rcases Finset.mem_union.mp hi with h | h
    · rw [ih h, add_nan_left]
    · rw [ih' h, add_nan_right]

theorem matMul_nan {d : ℕ} {X : Mat m k Fl} {Y : Mat k n Fl} {Z : Mat m n Fl} (h : A.MatMul d X Y Z)
    {i : Fin m} {j : Fin n} (a : Fin k) (hn : X i a = nan ∨ Y a j = nan) : Z i j = nan := by
  obtain ⟨_, _, h⟩ := h i j
  exact dot_nan h (Finset.mem_univ a) hn

/-- A NaN in a column of the profiles makes all of W NaN. -/
theorem stepW_nan_of_col {d : ℕ} {V We : Mat m n Fl} {W W' : Mat m k Fl} {H : Mat k n Fl}
    (h : A.StepW d V We W H W') {j : Fin n} (hj : ∃ a, H a j = nan) : ∀ i a, W' i a = nan := by
  obtain ⟨a0, ha0⟩ := hj
  obtain ⟨WH, num, den, h1, h2, h3, h4⟩ := h
  intro i a
  have e1 : WH i j = nan := matMul_nan h1 a0 (.inr ha0)
  have e2 : den i a = nan := matMul_nan h3 j (.inl (by rw [e1, mul_nan_right]))
  rw [h4, e2, div_nan_right, mul_nan_right]

/-- A NaN in a row of W makes all of H NaN. -/
theorem stepH_nan_of_row {d : ℕ} {V We : Mat m n Fl} {W : Mat m k Fl} {H H' : Mat k n Fl}
    (h : A.StepH d V We W H H') {i : Fin m} (hi : ∃ a, W i a = nan) : ∀ a j, H' a j = nan := by
  obtain ⟨a0, ha0⟩ := hi
  obtain ⟨WH, num, den, h1, h2, h3, h4⟩ := h
  intro a j
  have e1 : WH i j = nan := matMul_nan h1 a0 (.inl ha0)
  have e2 : den a j = nan := matMul_nan h3 i (.inr (by rw [e1, mul_nan_right]))
  rw [h4, e2, div_nan_right, mul_nan_right]

/-- Some entry of the data, the weights or a factor is NaN. -/
def AnyNan (V We : Mat m n Fl) (W : Mat m k Fl) (H : Mat k n Fl) : Prop :=
  (∃ i j, V i j = nan) ∨ (∃ i j, We i j = nan) ∨ (∃ i a, W i a = nan) ∨ ∃ a j, H a j = nan

theorem update_nan (hm : 0 < m) (hn : 0 < n) (hk : 0 < k) {d : ℕ} {V We : Mat m n Fl} {W W' : Mat m k Fl} {H H' : Mat k n Fl}
    (h : A.Update d V We false W H W' H') (hnan : AnyNan V We W H) :
    (∀ i a, W' i a = nan) ∧ ∃ j, ∀ a, H' a j = nan := by
  obtain ⟨h1, h2⟩ := h
  have hH : A.StepH d V We W H H' := h1
  have key : ∃ j, ∀ a, H' a j = nan := by
    have hcol : ∀ i j, V i j = nan ∨ We i j = nan → ∀ a, H' a j = nan := by
      obtain ⟨WH, num, den, _, g2, _, g4⟩ := hH
      intro i j hij a
      have e : A.mul (We i j) (V i j) = nan := by
        rcases hij with e | e <;> rw [e]
        · exact mul_nan_right _
        · exact mul_nan_left _
      have : num a j = nan := matMul_nan g2 i (.inr e)
      rw [g4, this, div_nan_left, mul_nan_right]
    rcases hnan with ⟨i, j, e⟩ | ⟨i, j, e⟩ | ⟨i, a, e⟩ | ⟨a, j, e⟩
    · exact ⟨j, hcol i j (.inl e)⟩
    · exact ⟨j, hcol i j (.inr e)⟩
    · exact ⟨⟨0, hn⟩, fun b => stepH_nan_of_row hH ⟨a, e⟩ b _⟩
    · refine ⟨j, fun b => ?_⟩
      obtain ⟨WH, num, den, g1, _, g3, g4⟩ := hH
      have e1 : WH ⟨0, hm⟩ j = nan := matMul_nan g1 a (.inr e)
      have : den b j = nan := matMul_nan g3 ⟨0, hm⟩ (.inr (by rw [e1, mul_nan_right]))
      rw [g4, this, div_nan_right, mul_nan_right]
  obtain ⟨j, hj⟩ := key
  exact ⟨stepW_nan_of_col h2 ⟨⟨0, hk⟩, hj ⟨0, hk⟩⟩, j, hj⟩

/-- **C143.** One NaN anywhere in the data, the weights or the factors spoils everything: for every rounding and order of
summation all of W is NaN after one ls-nmf update, and all of H too after a second one. -/
theorem C143_spoilt (hm : 0 < m) (hn : 0 < n) (hk : 0 < k) {d : ℕ} {V We : Mat m n Fl}
    {W W₁ W₂ : Mat m k Fl} {H H₁ H₂ : Mat k n Fl} (hnan : AnyNan V We W H)
    (h₁ : A.Update d V We false W H W₁ H₁) (h₂ : A.Update d V We false W₁ H₁ W₂ H₂) :
    (∀ i a, W₁ i a = nan) ∧ (∀ i a, W₂ i a = nan) ∧ (∀ a j, H₂ a j = nan) := by
  obtain ⟨a1, j, a2⟩ := update_nan hm hn hk h₁ hnan
  have a3 : AnyNan V We W₁ H₁ := .inr (.inr (.inl ⟨⟨0, hm⟩, ⟨0, hk⟩, a1 _ _⟩))
  refine ⟨a1, (update_nan hm hn hk h₂ a3).1, ?_⟩
  exact stepH_nan_of_row h₂.1 ⟨⟨0, hk⟩, a1 ⟨0, hm⟩ _⟩

theorem run_all_nan (hm : 0 < m) (hn : 0 < n) (hk : 0 < k) {d : ℕ} {V We : Mat m n Fl} :
    ∀ (bs : List Bool) {W W' : Mat m k Fl} {H H' : Mat k n Fl}, A.Run d V We bs W H W' H' →
      (∀ i a, W i a = nan) → ∀ i a, W' i a = nan
  | [], W, W', H, H', h, hW => by obtain ⟨rfl, rfl⟩ := h; exact hW
  | b :: bs, W, W', H, H', h, hW => by
    obtain ⟨W₁, H₁, ⟨_, h2⟩, h3⟩ := h
    refine run_all_nan hm hn hk bs h3 fun i a => ?_
    obtain ⟨_, _, _, _, _, _, e2⟩ := h2
    rw [e2, hW, mul_nan_left]

theorem q_nan_of_w {d : ℕ} {V U : Mat m n Fl} {W : Mat m k Fl} {H : Mat k n Fl} {q : Fl} (hn : 0 < n)
    (h : A.QOf d V U W H q) {i : Fin m} {a : Fin k} (e : W i a = nan) : q = nan := by
  obtain ⟨WH, h1, d', h2⟩ := h
  have e1 : WH i ⟨0, hn⟩ = nan := matMul_nan h1 a (.inl e)
  refine dot_nan h2 (Finset.mem_univ (i, ⟨0, hn⟩)) (.inl ?_)
  simp only [Arith.resid, e1]
  rw [Arith.sub, Fl.neg, add_nan_right, div_nan_left]

/-- **C143.** With a NaN in the data, the weights or the factors the loss is NaN after every iteration of the compiled loop,
however long it runs, and the test for convergence is never met, whatever the limit. -/
theorem C143_never_converges (hm : 0 < m) (hn : 0 < n) (hk : 0 < k) {d : ℕ} {V U We : Mat m n Fl}
    {W W' : Mat m k Fl} {H H' : Mat k n Fl} (hnan : AnyNan V We W H) (bs : List Bool)
    (h : A.Run d V We (false :: bs) W H W' H') {q : Fl} (hq : A.QOf d V U W' H' q) :
    q = nan ∧ ∀ front delta, A.converges front q delta = false := by
  obtain ⟨W₁, H₁, h1, h2⟩ := h
  have a1 := (update_nan hm hn hk h1 hnan).1
  have a2 := run_all_nan hm hn hk bs h2 a1
  have e : q = nan := q_nan_of_w hn hq (a2 ⟨0, hm⟩ ⟨0, hk⟩)
  refine ⟨e, fun front delta => ?_⟩
  rw [e, Arith.converges, Arith.sub, Fl.neg, add_nan_right]
  cases delta <;> rfl

/-- **C143.** With H held, a NaN in row `i` of the data, the weights or W spoils row `i` of W; every other row `r` of W is the
result of the same formulas without row `i`: the new row depends on the data, weights and W of row `r` only. -/
theorem C143_held_row {d : ℕ} {V We : Mat m n Fl} {W W' : Mat m k Fl} {H H' : Mat k n Fl}
    (h : A.Update d V We true W H W' H') (i : Fin m)
    (hnan : (∃ j, V i j = nan) ∨ (∃ j, We i j = nan) ∨ ∃ a, W i a = nan) (hn : 0 < n) :
    (∀ a, W' i a = nan) ∧ H' = H ∧
    ∀ r, A.Update (m := 1) d (fun _ => V r) (fun _ => We r) true (fun _ => W r) H (fun _ => W' r) H := by
  obtain ⟨h1, h2⟩ := h
  have hH : H' = H := h1
  subst hH
  refine ⟨fun a => ?_, rfl, fun r => ⟨rfl, ?_⟩⟩
  · obtain ⟨WH, num, den, g1, g2, g3, g4⟩ := h2
    have hcol : ∀ j, V i j = nan ∨ We i j = nan → W' i a = nan := by
      intro j hij
      have e : A.mul (We i j) (V i j) = nan := by
        rcases hij with e | e <;> rw [e]
        · exact mul_nan_right _
        · exact mul_nan_left _
      have : num i a = nan := matMul_nan g2 j (.inl e)
      rw [g4, this, div_nan_left, mul_nan_right]
    rcases hnan with ⟨j, e⟩ | ⟨j, e⟩ | ⟨b, e⟩
    · exact hcol j (.inl e)
    · exact hcol j (.inr e)
    · have e1 : WH i ⟨0, hn⟩ = nan := matMul_nan g1 b (.inl e)
      have : den i a = nan := matMul_nan g3 ⟨0, hn⟩ (.inl (by rw [e1, mul_nan_right]))
      rw [g4, this, div_nan_right, mul_nan_right]
  · obtain ⟨WH, num, den, g1, g2, g3, g4⟩ := h2
    exact ⟨fun _ => WH r, fun _ => num r, fun _ => den r, fun _ j => g1 r j, fun _ a => g2 r a, fun _ a => g3 r a,
      fun _ a => g4 r a⟩


/-! ## Underflow and overflow -/

/-- Some evaluation of every sum exists, with as many roundings as there are terms. -/
theorem dot_exists {ι : Type} [DecidableEq ι] (x y : ι → Fl) (S : Finset ι) : ∃ s, A.Dot x y S.card S s := by
  induction S using Finset.induction_on with
  | empty => exact ⟨_, .zero⟩
  | insert i S hi ih =>
    obtain ⟨s, h⟩ := ih
    rw [Finset.card_insert_of_notMem hi]
    exact ⟨_, .fma i hi h⟩

theorem matMul_exists {d : ℕ} (hd : k ≤ d) (X : Mat m k Fl) (Y : Mat k n Fl) : ∃ Z, A.MatMul d X Y Z := by
  have h : ∀ i j, ∃ s, A.Dot (X i) (fun a => Y a j) k Finset.univ s := fun i j => by
    simpa using dot_exists (A := A) (X i) (fun a => Y a j) Finset.univ
  choose Z hZ using h
  exact ⟨Z, fun i j => ⟨k, hd, hZ i j⟩⟩

/-- For all inputs and every arithmetic the runs that the theorems speak about exist. -/
theorem run_exists {d : ℕ} (hd : max m (max n k) ≤ d) (V We : Mat m n Fl) :
    ∀ (bs : List Bool) (W : Mat m k Fl) (H : Mat k n Fl), ∃ W' H', A.Run d V We bs W H W' H'
  | [], W, H => ⟨W, H, rfl, rfl⟩
  | b :: bs, W, H => by
    have hm : m ≤ d := le_trans (le_max_left _ _) hd
    have hn : n ≤ d := le_trans (le_trans (le_max_left _ _) (le_max_right _ _)) hd
    have hk : k ≤ d := le_trans (le_trans (le_max_right _ _) (le_max_right _ _)) hd
    have hH : ∃ H₁, if b then H₁ = H else A.StepH d V We W H H₁ := by
      cases b
      · obtain ⟨WH, h1⟩ := matMul_exists (A := A) hk W H
        obtain ⟨num, h2⟩ := matMul_exists (A := A) hm (tr W) (fun i j => A.mul (We i j) (V i j))
        obtain ⟨den, h3⟩ := matMul_exists (A := A) hm (tr W) (fun i j => A.mul (We i j) (WH i j))
        exact ⟨_, WH, num, den, h1, h2, h3, fun _ _ => rfl⟩
      · exact ⟨H, rfl⟩
    obtain ⟨H₁, hH₁⟩ := hH
    obtain ⟨WH, h1⟩ := matMul_exists (A := A) hk W H₁
    obtain ⟨num, h2⟩ := matMul_exists (A := A) hn (fun i j => A.mul (We i j) (V i j)) (tr H₁)
    obtain ⟨den, h3⟩ := matMul_exists (A := A) hn (fun i j => A.mul (We i j) (WH i j)) (tr H₁)
    obtain ⟨W', H', h⟩ := run_exists hd V We bs (fun i a => A.mul (W i a) (A.div (num i a) (den i a))) H₁
    exact ⟨W', H', _, H₁, ⟨hH₁, WH, num, den, h1, h2, h3, fun _ _ => rfl⟩, h⟩

/-- One-by-one matrices are multiplied by one product. -/
theorem matMul_one (X Y : Mat 1 1 Fl) : A.MatMul 1 X Y (fun _ _ => A.mul (X 0 0) (Y 0 0)) := by
  intro i j
  have hi : i = 0 := Subsingleton.elim _ _
  have hj : j = 0 := Subsingleton.elim _ _
  subst hi hj
  exact ⟨1, le_rfl, Arith.Dot.term (A := A) (x := X 0) (y := fun a => Y a 0) (0 : Fin 1)⟩

/-- **C144.** Strictly positive, finite single precision data, weights and factors for which one ls-nmf update gives `W = NaN`
and `H = +∞`: with factors of `2^-100` the product `WH` underflows to zero. -/
theorem C144_underflow : ∃ W' H' : Mat 1 1 Fl,
    binary32.arith.Update 1 (fun _ _ => fin false 1) (fun _ _ => fin false 1) false
      (fun _ _ => fin false (1 / 2 ^ 100)) (fun _ _ => fin false (1 / 2 ^ 100)) W' H' ∧
    W' 0 0 = nan ∧ H' 0 0 = inf false := by
  refine ⟨fun _ _ => nan, fun _ _ => inf false, ⟨?_, ?_⟩, rfl, rfl⟩
  · refine ⟨_, _, _, matMul_one _ _, matMul_one _ _, matMul_one _ _, fun _ _ => ?_⟩
    simp only [tr]
    decide +kernel
  · refine ⟨_, _, _, matMul_one _ _, matMul_one _ _, matMul_one _ _, fun _ _ => ?_⟩
    simp only [tr]
    decide +kernel

/-- **C144.** An uncertainty of `2^-70` overflows as well: the weight `1 / U²` is `+∞` in single precision (`sa.py:79`), and
one update gives `W = NaN`, for positive finite data and factors. -/
theorem C144_overflow :
    binary32.arith.div (fin false 1) (binary32.arith.mul (fin false (1 / 2 ^ 70)) (fin false (1 / 2 ^ 70))) = inf false ∧
    ∃ W' H' : Mat 1 1 Fl,
    binary32.arith.Update 1 (fun _ _ => fin false 1) (fun _ _ => inf false) false
      (fun _ _ => fin false 1) (fun _ _ => fin false 1) W' H' ∧
    W' 0 0 = nan ∧ H' 0 0 = nan := by
  refine ⟨by decide +kernel, fun _ _ => nan, fun _ _ => nan, ⟨?_, ?_⟩, rfl, rfl⟩
  · refine ⟨_, _, _, matMul_one _ _, matMul_one _ _, matMul_one _ _, fun _ _ => ?_⟩
    simp only [tr]
    decide +kernel
  · refine ⟨_, _, _, matMul_one _ _, matMul_one _ _, matMul_one _ _, fun _ _ => ?_⟩
    simp only [tr]
    decide +kernel

/-! ## Accuracy -/

/-- `x` and `y` agree up to the factor `c ^ p`. -/
def Rel (c : ℚ≥0) (p : ℕ) (x y : ℚ≥0) : Prop := x ≤ y * c ^ p ∧ y ≤ x * c ^ p

/-- The rounding is accurate on `[lo, hi]` up to the factor `c` and does not overflow there. -/
structure Accurate (A : Arith) (c lo hi : ℚ≥0) : Prop where
  one_le : 1 ≤ c
  rnd : ∀ x, lo ≤ x → x ≤ hi → ∃ y, A.rnd x = some y ∧ x ≤ y * c ∧ y ≤ x * c

theorem rel_refl {c : ℚ≥0} (hc : 1 ≤ c) (p : ℕ) (x : ℚ≥0) : Rel c p x x := by
  have : x ≤ x * c ^ p := le_mul_of_one_le_right zero_le (one_le_pow₀ hc)
  exact ⟨this, this⟩

theorem rel_mono {c : ℚ≥0} (hc : 1 ≤ c) {p q : ℕ} (h : p ≤ q) {x y : ℚ≥0} (hr : Rel c p x y) : Rel c q x y := by
  have hp : c ^ p ≤ c ^ q := pow_le_pow_right₀ hc h
  exact ⟨hr.1.trans (mul_le_mul_right hp _), hr.2.trans (mul_le_mul_right hp _)⟩

theorem rel_trans {c : ℚ≥0} {p q : ℕ} {x y z : ℚ≥0} (h : Rel c p x y) (h' : Rel c q y z) : Rel c (p + q) x z := by
  constructor
  · calc x ≤ y * c ^ p := h.1
      _ ≤ (z * c ^ q) * c ^ p := mul_le_mul_left h'.1 _
      _ = z * c ^ (p + q) := by rw [pow_add]; ring
  · calc z ≤ y * c ^ q := h'.2
      _ ≤ (x * c ^ p) * c ^ q := mul_le_mul_left h.2 _
      _ = x * c ^ (p + q) := by rw [pow_add]; ring

theorem rel_mul {c : ℚ≥0} {p q : ℕ} {x y x' y' : ℚ≥0} (h : Rel c p x y) (h' : Rel c q x' y') :
    Rel c (p + q) (x * x') (y * y') := by
  constructor
  · calc x * x' ≤ (y * c ^ p) * (y' * c ^ q) := mul_le_mul' h.1 h'.1
      _ = y * y' * c ^ (p + q) := by rw [pow_add]; ring
  · calc y * y' ≤ (x * c ^ p) * (x' * c ^ q) := mul_le_mul' h.2 h'.2
      _ = x * x' * c ^ (p + q) := by rw [pow_add]; ring

theorem rel_add {c : ℚ≥0} {p : ℕ} {x y x' y' : ℚ≥0} (h : Rel c p x y) (h' : Rel c p x' y') :
    Rel c p (x + x') (y + y') := by
  constructor
  · rw [add_mul]; exact add_le_add h.1 h'.1
  · rw [add_mul]; exact add_le_add h.2 h'.2

theorem rel_inv {c : ℚ≥0} {p : ℕ} {x y : ℚ≥0} (hx : x ≠ 0) (h : Rel c p x y) : y ≠ 0 ∧ Rel c p x⁻¹ y⁻¹ := by
  have hy : y ≠ 0 := by
    rintro rfl
    have := h.1
    rw [zero_mul] at this
    exact hx (le_antisymm this zero_le)
  have hx0 : 0 < x := pos_iff_ne_zero.mpr hx
  have hy0 : 0 < y := pos_iff_ne_zero.mpr hy
  refine ⟨hy, ?_, ?_⟩
  · rw [inv_le_iff_one_le_mul₀ hx0, mul_right_comm, mul_comm (y⁻¹), ← div_eq_mul_inv, div_mul_eq_mul_div, one_le_div hy0]
    exact h.2
  · rw [inv_le_iff_one_le_mul₀ hy0, mul_right_comm, mul_comm (x⁻¹), ← div_eq_mul_inv, div_mul_eq_mul_div, one_le_div hx0]
    exact h.1

theorem rel_div {c : ℚ≥0} {p q : ℕ} {x y x' y' : ℚ≥0} (h : Rel c p x y) (hx' : x' ≠ 0) (h' : Rel c q x' y') :
    y' ≠ 0 ∧ Rel c (p + q) (x / x') (y / y') := by
  obtain ⟨h1, h2⟩ := rel_inv hx' h'
  rw [div_eq_mul_inv, div_eq_mul_inv]
  exact ⟨h1, rel_mul h h2⟩

/-- Zero, or not so small that rounding errors could push it below the accurate range. -/
def Low (c lo : ℚ≥0) (P : ℕ) (x : ℚ≥0) : Prop := x = 0 ∨ lo * c ^ P ≤ x

/-- Not so large that rounding errors could push it above the accurate range. -/
def High (c hi : ℚ≥0) (P : ℕ) (x : ℚ≥0) : Prop := x * c ^ P ≤ hi

variable {c lo hi : ℚ≥0} {P : ℕ}

theorem round_rel (hA : Accurate A c lo hi) {p : ℕ} (hp : p ≤ P) {x x' : ℚ≥0} (h : Rel c p x x') (hl : Low c lo P x)
    (hh : High c hi P x) (s : Bool) : ∃ y, A.round s x' = fin s y ∧ Rel c (p + 1) x y := by
  rcases hl with rfl | hl
  · have : x' = 0 := le_antisymm (by simpa using h.2) zero_le
    subst this
    refine ⟨0, by simp [Arith.round, A.rnd_zero], rel_refl hA.one_le _ _⟩
  · have hc0 : (0 : ℚ≥0) < c ^ P := pow_pos (lt_of_lt_of_le one_pos hA.one_le) _
    have hpP : c ^ p ≤ c ^ P := pow_le_pow_right₀ hA.one_le hp
    have h1 : lo ≤ x' := by
      have : lo * c ^ P ≤ x' * c ^ P := hl.trans (h.1.trans (mul_le_mul_right hpP _))
      exact le_of_mul_le_mul_right this hc0
    have h2 : x' ≤ hi := h.2.trans ((mul_le_mul_right hpP _).trans hh)
    obtain ⟨y, e, r1, r2⟩ := hA.rnd x' h1 h2
    refine ⟨y, by simp [Arith.round, e], rel_trans h ⟨by simpa using r1, by simpa using r2⟩⟩

theorem low_sum {ι : Type} (S : Finset ι) {t : ι → ℚ≥0} (h : ∀ i ∈ S, Low c lo P (t i)) : Low c lo P (∑ i ∈ S, t i) := by
  by_cases h0 : ∀ i ∈ S, t i = 0
  · exact .inl (Finset.sum_eq_zero h0)
  · push Not at h0
    obtain ⟨i, hi, hne⟩ := h0
    rcases h i hi with e | e
    · exact absurd e hne
    · exact .inr (e.trans (Finset.single_le_sum (f := t) (fun _ _ => zero_le) hi))

theorem high_mono {x y : ℚ≥0} (h : x ≤ y) (hy : High c hi P y) : High c hi P x :=
  (mul_le_mul_left h _).trans hy

theorem dot_rel (hA : Accurate A c lo hi) {ι : Type} [DecidableEq ι] {x y : ι → Fl} {a b t : ι → ℚ≥0} {p : ℕ}
    (hx : ∀ i, x i = fin false (a i)) (hy : ∀ i, y i = fin false (b i)) (hr : ∀ i, Rel c p (t i) (a i * b i))
    (hl : ∀ i, Low c lo P (t i)) {d : ℕ} {S : Finset ι} {s : Fl} (h : A.Dot x y d S s)
    (hh : High c hi P (∑ i ∈ S, t i)) (hP : p + d ≤ P) :
    ∃ z, s = fin false z ∧ Rel c (p + d) (∑ i ∈ S, t i) z := by
  induction h with
  | zero => exact ⟨0, rfl, by simpa using rel_refl hA.one_le _ _⟩
  | term i =>
    rw [Finset.sum_singleton] at hh ⊢
    obtain ⟨z, e, r⟩ := round_rel hA (P := P) (by omega) (hr i) (hl i) hh false
    exact ⟨z, by simp [hx, hy, Arith.mul, Arith.mulWith, e], r⟩
  | @fma d S s i hi _ ih =>
    rw [Finset.sum_insert hi] at hh ⊢
    obtain ⟨z, e, r⟩ := ih (high_mono (le_add_of_nonneg_left zero_le) hh) (by omega)
    have r' : Rel c (p + d) (t i + ∑ j ∈ S, t j) (a i * b i + z) :=
      rel_add (rel_mono hA.one_le (by omega) (hr i)) r
    have hlow : Low c lo P (t i + ∑ j ∈ S, t j) := by
      rw [← Finset.sum_insert hi]
      exact low_sum _ fun j _ => hl j
    obtain ⟨z', e', r''⟩ := round_rel hA (P := P) (by omega) r' hlow hh false
    exact ⟨z', by simp [hx, hy, Arith.fma, Arith.mulWith, e, Arith.add, e'], r''⟩
  | @add d d' S T s s' hST _ _ ih ih' =>
    rw [Finset.sum_union hST] at hh ⊢
    have hm1 := le_max_left d d'
    have hm2 := le_max_right d d'
    obtain ⟨z, e, r⟩ := ih (high_mono (le_add_of_nonneg_right zero_le) hh) (by omega)
    obtain ⟨z', e', r'⟩ := ih' (high_mono (le_add_of_nonneg_left zero_le) hh) (by omega)
    have r2 : Rel c (p + max d d') (∑ j ∈ S, t j + ∑ j ∈ T, t j) (z + z') :=
      rel_add (rel_mono hA.one_le (by omega) r) (rel_mono hA.one_le (by omega) r')
    have hlow : Low c lo P (∑ j ∈ S, t j + ∑ j ∈ T, t j) := by
      rw [← Finset.sum_union hST]
      exact low_sum _ fun j _ => hl j
    obtain ⟨z2, e2, r''⟩ := round_rel hA (P := P) (by omega) r2 hlow hh false
    exact ⟨z2, by simp [e, e', Arith.add, e2], r''⟩

theorem mul_rel (hA : Accurate A c lo hi) {p q : ℕ} {x y x' y' : ℚ≥0} (h : Rel c p x x') (h' : Rel c q y y')
    (hl : Low c lo P (x * y)) (hh : High c hi P (x * y)) (hp : p + q ≤ P) :
    ∃ z, A.mul (fin false x') (fin false y') = fin false z ∧ Rel c (p + q + 1) (x * y) z := by
  simpa [Arith.mul, Arith.mulWith] using round_rel hA hp (rel_mul h h') hl hh false

theorem div_rel (hA : Accurate A c lo hi) {p q : ℕ} {x y x' y' : ℚ≥0} (h : Rel c p x x') (h' : Rel c q y y')
    (hy : y ≠ 0) (hl : Low c lo P (x / y)) (hh : High c hi P (x / y)) (hp : p + q ≤ P) :
    ∃ z, A.div (fin false x') (fin false y') = fin false z ∧ Rel c (p + q + 1) (x / y) z := by
  obtain ⟨hy', hr⟩ := rel_div h hy h'
  simpa [Arith.div, hy'] using round_rel hA hp hr hl hh false

/-- The exact ls-nmf update of H: each entry times `Σᵢ wᵢₐ·weᵢⱼ·vᵢⱼ / Σᵢ wᵢₐ·weᵢⱼ·(WH)ᵢⱼ`. -/
def exactH (v we : Mat m n ℚ≥0) (w : Mat m k ℚ≥0) (h : Mat k n ℚ≥0) : Mat k n ℚ≥0 := fun a j =>
  h a j * ((∑ i, w i a * (we i j * v i j)) / ∑ i, w i a * (we i j * ∑ b, w i b * h b j))

/-- The exact ls-nmf update of W: each entry times `Σⱼ weᵢⱼ·vᵢⱼ·hₐⱼ / Σⱼ weᵢⱼ·(WH)ᵢⱼ·hₐⱼ`. -/
def exactW (v we : Mat m n ℚ≥0) (w : Mat m k ℚ≥0) (h : Mat k n ℚ≥0) : Mat m k ℚ≥0 := fun i a =>
  w i a * ((∑ j, (we i j * v i j) * h a j) / ∑ j, (we i j * ∑ b, w i b * h b j) * h a j)

/-- Every number that the exact update of H computes is zero or stays within the accurate range even after `P` roundings,
and no denominator is zero. -/
structure InRangeH (c lo hi : ℚ≥0) (P : ℕ) (v we : Mat m n ℚ≥0) (w : Mat m k ℚ≥0) (h : Mat k n ℚ≥0) : Prop where
  wev : ∀ i j, Low c lo P (we i j * v i j) ∧ High c hi P (we i j * v i j)
  whT : ∀ i j a, Low c lo P (w i a * h a j)
  wh : ∀ i j, High c hi P (∑ a, w i a * h a j)
  wewh : ∀ i j, Low c lo P (we i j * ∑ a, w i a * h a j) ∧ High c hi P (we i j * ∑ a, w i a * h a j)
  numT : ∀ i j a, Low c lo P (w i a * (we i j * v i j))
  num : ∀ a j, High c hi P (∑ i, w i a * (we i j * v i j))
  denT : ∀ i j a, Low c lo P (w i a * (we i j * ∑ b, w i b * h b j))
  den : ∀ a j, High c hi P (∑ i, w i a * (we i j * ∑ b, w i b * h b j))
  ne : ∀ a j, ∑ i, w i a * (we i j * ∑ b, w i b * h b j) ≠ 0
  quot : ∀ a j, Low c lo P ((∑ i, w i a * (we i j * v i j)) / ∑ i, w i a * (we i j * ∑ b, w i b * h b j)) ∧
    High c hi P ((∑ i, w i a * (we i j * v i j)) / ∑ i, w i a * (we i j * ∑ b, w i b * h b j))
  res : ∀ a j, Low c lo P (exactH v we w h a j) ∧ High c hi P (exactH v we w h a j)

/-- The H half step on computed factors `w'`, `h'` that agree with `w`, `h` up to `p` and `q` roundings. -/
theorem stepH_rel (hA : Accurate A c lo hi) {d p q : ℕ} {v we : Mat m n ℚ≥0} {w w' : Mat m k ℚ≥0} {h h' : Mat k n ℚ≥0}
    (hw : ∀ i a, Rel c p (w i a) (w' i a)) (hh : ∀ a j, Rel c q (h a j) (h' a j))
    (hr : InRangeH c lo hi P v we w h) (hP : 3 * p + 2 * q + 3 * d + 4 ≤ P) {H' : Mat k n Fl}
    (hs : A.StepH d (fun i j => fin false (v i j)) (fun i j => fin false (we i j)) (fun i a => fin false (w' i a))
      (fun a j => fin false (h' a j)) H') (a : Fin k) (j : Fin n) :
    ∃ z, H' a j = fin false z ∧ Rel c (3 * p + 2 * q + 3 * d + 4) (exactH v we w h a j) z := by
  obtain ⟨WH, num, den, h1, h2, h3, h4⟩ := hs
  have c1 := hA.one_le
  -- We * V
  have hwev : ∀ i j, ∃ z, A.mul (fin false (we i j)) (fin false (v i j)) = fin false z ∧
      Rel c 1 (we i j * v i j) z := fun i j => by
    simpa using mul_rel hA (rel_refl c1 0 (we i j)) (rel_refl c1 0 (v i j)) (hr.wev i j).1 (hr.wev i j).2 (by omega)
  choose wev ewev rwev using hwev
  -- WH
  have hwh : ∀ i j, ∃ z, WH i j = fin false z ∧ Rel c (p + q + d) (∑ b, w i b * h b j) z := fun i j => by
    obtain ⟨d', hd', hdot⟩ := h1 i j
    obtain ⟨z, e, r⟩ := dot_rel (P := P) hA (fun _ => rfl) (fun _ => rfl) (fun b => rel_mul (hw i b) (hh b j))
      (fun b => hr.whT i j b) hdot (hr.wh i j) (by omega)
    exact ⟨z, e, rel_mono c1 (by omega) r⟩
  choose wh ewh rwh using hwh
  -- We * WH
  have hwewh : ∀ i j, ∃ z, A.mul (fin false (we i j)) (WH i j) = fin false z ∧
      Rel c (p + q + d + 1) (we i j * ∑ b, w i b * h b j) z := fun i j => by
    rw [ewh]
    simpa using mul_rel hA (rel_refl c1 0 (we i j)) (rwh i j) (hr.wewh i j).1 (hr.wewh i j).2 (by omega)
  choose wewh ewewh rwewh using hwewh
  -- numerator
  have hnum : ∃ z, num a j = fin false z ∧ Rel c (p + 1 + d) (∑ i, w i a * (we i j * v i j)) z := by
    obtain ⟨d', hd', hdot⟩ := h2 a j
    obtain ⟨z, e, r⟩ := dot_rel (P := P) hA (fun _ => rfl) (fun i => ewev i j) (fun i => rel_mul (hw i a) (rwev i j))
      (fun i => hr.numT i j a) hdot (hr.num a j) (by omega)
    exact ⟨z, e, rel_mono c1 (by omega) r⟩
  obtain ⟨nu, enu, rnu⟩ := hnum
  -- denominator
  have hden : ∃ z, den a j = fin false z ∧
      Rel c (p + (p + q + d + 1) + d) (∑ i, w i a * (we i j * ∑ b, w i b * h b j)) z := by
    obtain ⟨d', hd', hdot⟩ := h3 a j
    obtain ⟨z, e, r⟩ := dot_rel (P := P) hA (fun _ => rfl) (fun i => ewewh i j) (fun i => rel_mul (hw i a) (rwewh i j))
      (fun i => hr.denT i j a) hdot (hr.den a j) (by omega)
    exact ⟨z, e, rel_mono c1 (by omega) r⟩
  obtain ⟨de, ede, rde⟩ := hden
  obtain ⟨qu, equ, rqu⟩ := div_rel (P := P) hA rnu rde (hr.ne a j) (hr.quot a j).1 (hr.quot a j).2 (by omega)
  obtain ⟨z, e, r⟩ := mul_rel (P := P) hA (hh a j) rqu (hr.res a j).1 (hr.res a j).2 (by omega)
  refine ⟨z, by rw [h4, enu, ede, equ, e], rel_mono c1 (by omega) r⟩

theorem mulWith_comm (f : Bool → ℚ≥0 → Fl) (x y : Fl) : Arith.mulWith f x y = Arith.mulWith f y x := by
  cases x <;> cases y <;> simp [Arith.mulWith, Bool.xor_comm, mul_comm]

theorem dot_comm {ι : Type} [DecidableEq ι] {x y : ι → Fl} {d : ℕ} {S : Finset ι} {s : Fl} (h : A.Dot x y d S s) :
    A.Dot y x d S s := by
  induction h with
  | zero => exact .zero
  | term i =>
    have : A.mul (x i) (y i) = A.mul (y i) (x i) := mulWith_comm _ _ _
    rw [this]; exact .term i
  | @fma d S s i hi _ ih =>
    have : A.fma (x i) (y i) s = A.fma (y i) (x i) s := by rw [Arith.fma, mulWith_comm, ← Arith.fma]
    rw [this]; exact .fma i hi ih
  | add hd _ _ ih ih' => exact .add hd ih ih'

theorem matMul_tr {d : ℕ} {X : Mat m k Fl} {Y : Mat k n Fl} {Z : Mat m n Fl} (h : A.MatMul d X Y Z) :
    A.MatMul d (tr Y) (tr X) (tr Z) := fun i j => by
  obtain ⟨d', hd, h⟩ := h j i
  exact ⟨d', hd, dot_comm h⟩

/-- The W half step is the H half step of the transposed problem. -/
theorem stepW_tr {d : ℕ} {V We : Mat m n Fl} {W W' : Mat m k Fl} {H : Mat k n Fl} (h : A.StepW d V We W H W') :
    A.StepH d (tr V) (tr We) (tr H) (tr W) (tr W') := by
  obtain ⟨WH, num, den, h1, h2, h3, h4⟩ := h
  exact ⟨tr WH, tr num, tr den, matMul_tr h1, matMul_tr h2, matMul_tr h3, fun a i => h4 i a⟩

theorem exactH_tr (v we : Mat m n ℚ≥0) (w : Mat m k ℚ≥0) (h : Mat k n ℚ≥0) (i : Fin m) (a : Fin k) :
    exactH (tr v) (tr we) (tr h) (tr w) a i = exactW v we w h i a := by
  have e1 : ∀ j, ∑ b, h b j * w i b = ∑ b, w i b * h b j := fun j => Finset.sum_congr rfl fun b _ => mul_comm _ _
  simp only [exactH, exactW, tr, e1]
  simp only [mul_comm]

/-- **C145.** Let the rounding be accurate up to the factor `c` on `[lo, hi]` (for `float32` see `C145_format`), let the
numbers that the exact update computes stay within this range up to the accumulated roundings and let no denominator be
zero.  Then for every order of summation with at most `d` roundings per term the computed ls-nmf update is finite and
agrees entry by entry with the exact one: H up to the factor `c ^ (3d + 4)` and W up to `c ^ (12d + 16)`.  The update has no
subtraction, so the bound is independent of the condition of the problem. -/
theorem C145_accuracy (hA : Accurate A c lo hi) {d : ℕ} {v we : Mat m n ℚ≥0} {w : Mat m k ℚ≥0} {h : Mat k n ℚ≥0}
    (hH : InRangeH c lo hi (12 * d + 16) v we w h)
    (hW : InRangeH c lo hi (12 * d + 16) (tr v) (tr we) (tr (exactH v we w h)) (tr w))
    {W' : Mat m k Fl} {H' : Mat k n Fl}
    (hu : A.Update d (fun i j => fin false (v i j)) (fun i j => fin false (we i j)) false
      (fun i a => fin false (w i a)) (fun a j => fin false (h a j)) W' H') :
    (∀ a j, ∃ z, H' a j = fin false z ∧ Rel c (3 * d + 4) (exactH v we w h a j) z) ∧
    ∀ i a, ∃ z, W' i a = fin false z ∧ Rel c (12 * d + 16) (exactW v we w (exactH v we w h) i a) z := by
  obtain ⟨h1, h2⟩ := hu
  have c1 := hA.one_le
  have key := stepH_rel (P := 12 * d + 16) hA (p := 0) (q := 0) (fun i a => rel_refl c1 0 (w i a))
    (fun a j => rel_refl c1 0 (h a j)) hH (by omega) h1
  simp only [mul_zero, zero_add] at key
  refine ⟨key, fun i a => ?_⟩
  choose z ez rz using key
  have eH : H' = fun a j => fin false (z a j) := funext fun a => funext fun j => ez a j
  rw [eH] at h2
  have := stepH_rel (P := 12 * d + 16) hA (p := 3 * d + 4) (q := 0)
    (w := tr (exactH v we w h)) (w' := tr z) (h := tr w) (h' := tr w)
    (fun j a => rz a j) (fun a i => rel_refl c1 0 (w i a)) hW (by omega) (stepW_tr h2) a i
  obtain ⟨y, ey, ry⟩ := this
  rw [exactH_tr] at ry
  exact ⟨y, ey, rel_mono c1 (by omega) ry⟩

theorem rne_near (z : ℚ≥0) : 2 * (Format.rne z : ℚ≥0) ≤ 2 * z + 1 ∧ 2 * z ≤ 2 * (Format.rne z : ℚ≥0) + 1 := by
  have h1 : (⌊z⌋₊ : ℚ≥0) ≤ z := Nat.floor_le zero_le
  have h2 : z < ⌊z⌋₊ + 1 := Nat.lt_floor_add_one z
  have key : ∀ f : ℕ, (f : ℚ≥0) ≤ z → z < f + 1 → ∀ r : ℕ,
      r = (if 2 * z < 2 * f + 1 then f else if 2 * (f : ℚ≥0) + 1 < 2 * z then f + 1 else if f % 2 = 0 then f else f + 1) →
      2 * (r : ℚ≥0) ≤ 2 * z + 1 ∧ 2 * z ≤ 2 * (r : ℚ≥0) + 1 := by
    intro f h1 h2 r hr
    split_ifs at hr <;> subst hr <;> simp only [not_lt, ← NNRat.coe_le_coe, ← NNRat.coe_lt_coe] at * <;> push_cast at * <;>
      constructor <;> linarith
  exact key _ h1 h2 _ rfl

theorem format_aux {x y u M : ℚ≥0} (hM : 3 ≤ M) (hx : 0 < x) (hu : u * (M + 1) ≤ 2 * x) (n1 : 2 * y ≤ 2 * x + u)
    (n2 : 2 * x ≤ 2 * y + u) : y < 2 * x ∧ x * M ≤ y * (M + 1) ∧ y * M ≤ x * (M + 1) := by
  have hy0 : (0 : ℚ) ≤ y := y.2
  have hu0 : (0 : ℚ) ≤ u := u.2
  simp only [← NNRat.coe_le_coe, ← NNRat.coe_lt_coe] at *
  push_cast at *
  have h4 : (0 : ℚ) ≤ u * (M - 3) := mul_nonneg hu0 (by linarith)
  have h5 : (0 : ℚ) ≤ (2 * y + u - 2 * x) * (M + 1) := mul_nonneg (by linarith) (by linarith)
  have h6 : (0 : ℚ) ≤ (2 * x + u - 2 * y) * M := mul_nonneg (by linarith) (by linarith)
  refine ⟨by nlinarith, by nlinarith, by nlinarith⟩

/-- **C145.** Rounding to nearest in a binary format with `p ≥ 2` bits is accurate up to the factor `2^p / (2^p - 1)` in
the whole normal range up to `2^emax`. -/
theorem C145_format (F : Format) (hp : 2 ≤ F.prec) :
    Accurate F.arith (2 ^ F.prec / (2 ^ F.prec - 1 : ℕ)) (2 ^ F.emin) (2 ^ F.emax) := by
  obtain ⟨M, hM⟩ : ∃ M : ℕ, 2 ^ F.prec = M + 1 := ⟨2 ^ F.prec - 1, by have := Nat.one_le_two_pow (n := F.prec); omega⟩
  have hN4 : 4 ≤ 2 ^ F.prec := by
    calc 4 = 2 ^ 2 := rfl
      _ ≤ 2 ^ F.prec := Nat.pow_le_pow_right (by norm_num) hp
  have hM3 : (3 : ℚ≥0) ≤ M := by
    have : 3 ≤ M := by omega
    exact_mod_cast this
  have hc : (2 ^ F.prec / (2 ^ F.prec - 1 : ℕ) : ℚ≥0) = (M + 1) / M := by
    have e1 : (2 : ℚ≥0) ^ F.prec = M + 1 := by exact_mod_cast hM
    rw [e1, hM, Nat.add_sub_cancel]
  have hM0 : (0 : ℚ≥0) < M := lt_of_lt_of_le (by norm_num) hM3
  rw [hc]
  refine ⟨by rw [one_le_div hM0]; exact le_add_of_nonneg_right zero_le, fun x hlo hhi => ?_⟩
  have hx0 : 0 < x := lt_of_lt_of_le (zpow_pos two_pos _) hlo
  have he : F.emin ≤ Int.log 2 x := by
    rw [← Int.zpow_le_iff_le_log (by norm_num) hx0]
    exact_mod_cast hlo
  have hlog : (2 : ℚ≥0) ^ Int.log 2 x ≤ x := by
    have := Int.zpow_log_le_self (b := 2) (by norm_num) hx0
    exact_mod_cast this
  set u := F.ulp (Int.log 2 x) with hu
  have hu0 : 0 < u := zpow_pos two_pos _
  have huN : u * (M + 1) ≤ 2 * x := by
    have e1 : (M + 1 : ℚ≥0) = 2 ^ (F.prec : ℤ) := by rw [zpow_natCast]; exact_mod_cast hM.symm
    have e2 : u * (M + 1) = 2 ^ Int.log 2 x * 2 := by
      rw [e1, hu, Format.ulp, max_eq_left he, ← zpow_add₀ two_ne_zero, ← zpow_add_one₀ two_ne_zero]
      congr 1
      ring
    rw [e2, mul_comm]
    exact mul_le_mul_right hlog _
  set y := F.nearest x with hy
  have hyz : y = (Format.rne (x / u) : ℚ≥0) * u := rfl
  obtain ⟨r1, r2⟩ := rne_near (x / u)
  have hxu : x / u * u = x := div_mul_cancel₀ x hu0.ne'
  have n1 : 2 * y ≤ 2 * x + u := by
    have := mul_le_mul_left r1 u
    rw [add_mul, one_mul, mul_assoc, mul_assoc, hxu, ← hyz] at this
    exact this
  have n2 : 2 * x ≤ 2 * y + u := by
    have := mul_le_mul_left r2 u
    rw [add_mul, one_mul, mul_assoc, mul_assoc, hxu, ← hyz] at this
    exact this
  obtain ⟨k1, k2, k3⟩ := format_aux hM3 hx0 huN n1 n2
  refine ⟨y, ?_, ?_, ?_⟩
  · have h2 : y < 2 ^ (F.emax + 1) := by
      rw [zpow_add_one₀ two_ne_zero, mul_comm]
      exact lt_of_lt_of_le k1 (mul_le_mul_right hhi _)
    show F.rnd x = some y
    rw [Format.rnd, if_neg (not_le.mpr h2)]
  · rwa [← mul_div_assoc, le_div_iff₀ hM0]
  · rwa [← mul_div_assoc, le_div_iff₀ hM0]

/-- **C145.** Single precision: the factor is `2^24 / (2^24 - 1)`, the range `2^-126 .. 2^127`. -/
theorem C145_binary32 : Accurate binary32.arith (16777216 / 16777215) (2 ^ (-126 : ℤ)) (2 ^ (127 : ℤ)) := by
  have h := C145_format binary32 (by decide)
  have e : (2 ^ binary32.prec / (2 ^ binary32.prec - 1 : ℕ) : ℚ≥0) = 16777216 / 16777215 := by
    norm_num [binary32]
  rw [e] at h
  exact h

/-- **C145.** The exact update that the computed one is compared with is the update of the exact model
(`Model/LsNmf.lean`), for which the other theorems about ls-nmf are proved. -/
theorem C145_exact (v we : Mat m n ℚ≥0) (w : Mat m k ℚ≥0) (h : Mat k n ℚ≥0) (hH : ∀ a j, ∑ i, w i a * (we i j * ∑ b, w i b * h b j) ≠ 0)
    (hW : ∀ i a, ∑ j, (we i j * ∑ b, w i b * exactH v we w h b j) * exactH v we w h a j ≠ 0) :
    lsUpdate (fun i j => (v i j : ℚ)) (fun i j => (we i j : ℚ)) false (fun i a => (w i a : ℚ)) (fun a j => (h a j : ℚ)) =
      some (fun i a => (exactW v we w (exactH v we w h) i a : ℚ), fun a j => (exactH v we w h a j : ℚ)) := by
  have hden : ∀ a j, lsHDen (fun i j => (we i j : ℚ)) (fun i a => (w i a : ℚ)) (fun a j => (h a j : ℚ)) a j =
      ((∑ i, w i a * (we i j * ∑ b, w i b * h b j) : ℚ≥0) : ℚ) := fun a j => by
    simp [lsHDen, mmul, tr, emul, NNRat.cast_sum]
  have n1 : NoZero (lsHDen (fun i j => (we i j : ℚ)) (fun i a => (w i a : ℚ)) (fun a j => (h a j : ℚ))) := by
    intro a j
    rw [hden]
    exact_mod_cast hH a j
  have e1 : lsStepH (fun i j => (v i j : ℚ)) (fun i j => (we i j : ℚ)) (fun i a => (w i a : ℚ)) (fun a j => (h a j : ℚ)) =
      some (fun a j => (exactH v we w h a j : ℚ)) := by
    rw [lsStepH, if_pos n1]
    refine congrArg some (funext fun a => funext fun j => ?_)
    simp only [emul, ediv, hden]
    simp [exactH, lsHNum, mmul, tr, emul, NNRat.cast_sum]
  have hdenW : ∀ i a, lsWDen (fun i j => (we i j : ℚ)) (fun i a => (w i a : ℚ)) (fun a j => (exactH v we w h a j : ℚ)) i a =
      ((∑ j, (we i j * ∑ b, w i b * exactH v we w h b j) * exactH v we w h a j : ℚ≥0) : ℚ) := fun i a => by
    simp [lsWDen, mmul, tr, emul, NNRat.cast_sum]
  have n2 : NoZero (lsWDen (fun i j => (we i j : ℚ)) (fun i a => (w i a : ℚ)) (fun a j => (exactH v we w h a j : ℚ))) := by
    intro i a
    rw [hdenW]
    exact_mod_cast hW i a
  have e2 : lsStepW (fun i j => (v i j : ℚ)) (fun i j => (we i j : ℚ)) (fun i a => (w i a : ℚ))
      (fun a j => (exactH v we w h a j : ℚ)) = some (fun i a => (exactW v we w (exactH v we w h) i a : ℚ)) := by
    rw [lsStepW, if_pos n2]
    refine congrArg some (funext fun i => funext fun a => ?_)
    simp only [emul, ediv, hdenW]
    simp [exactW, lsWNum, mmul, tr, emul, NNRat.cast_sum]
  simp [lsUpdate, e1, e2]

/-- One by one matrices: the loss is one product. -/
theorem q_one (V U W H : Mat 1 1 Fl) : A.QOf 1 V U W H
    (A.mul (A.resid V U (fun _ _ => A.mul (W 0 0) (H 0 0)) 0 0) (A.resid V U (fun _ _ => A.mul (W 0 0) (H 0 0)) 0 0)) :=
  ⟨_, matMul_one W H, 1, Arith.Dot.term (A := A) (x := fun p : Fin 1 × Fin 1 => A.resid V U _ p.1 p.2)
    (y := fun p => A.resid V U _ p.1 p.2) ((0, 0) : Fin 1 × Fin 1)⟩

/-- The update of one-by-one factors with one rounding per operation. -/
def oneStep (A : Arith) (v we : Fl) (p : Fl × Fl) : Fl × Fl :=
  let wev := A.mul we v
  let h := A.mul p.2 (A.div (A.mul p.1 wev) (A.mul p.1 (A.mul we (A.mul p.1 p.2))))
  (A.mul p.1 (A.div (A.mul wev h) (A.mul (A.mul we (A.mul p.1 h)) h)), h)

theorem oneStep_update (v we : Fl) (p : Fl × Fl) : A.Update (m := 1) (n := 1) (k := 1) 1 (fun _ _ => v) (fun _ _ => we) false
    (fun _ _ => p.1) (fun _ _ => p.2) (fun _ _ => (oneStep A v we p).1) (fun _ _ => (oneStep A v we p).2) :=
  ⟨⟨_, _, _, matMul_one _ _, matMul_one _ _, matMul_one _ _, fun _ _ => rfl⟩,
    ⟨_, _, _, matMul_one _ _, matMul_one _ _, matMul_one _ _, fun _ _ => rfl⟩⟩

/-- **C146.** In exact arithmetic the loss never increases (C02).  In single precision it can: for `V = U = 1`, `W = 21`,
`H = 3` the loss after the second update is four times the loss after the first one (`2^-46` after `2^-48`). -/
theorem C146_increase : ∃ W₁ H₁ W₂ H₂ : Mat 1 1 Fl, ∃ q₁ q₂ : Fl,
    binary32.arith.Run 1 (fun _ _ => fin false 1) (fun _ _ => fin false 1) [false] (fun _ _ => fin false 21)
      (fun _ _ => fin false 3) W₁ H₁ ∧
    binary32.arith.Run 1 (fun _ _ => fin false 1) (fun _ _ => fin false 1) [false] W₁ H₁ W₂ H₂ ∧
    binary32.arith.QOf 1 (fun _ _ => fin false 1) (fun _ _ => fin false 1) W₁ H₁ q₁ ∧
    binary32.arith.QOf 1 (fun _ _ => fin false 1) (fun _ _ => fin false 1) W₂ H₂ q₂ ∧
    q₁ = fin false (1 / 2 ^ 48) ∧ q₂ = fin false (1 / 2 ^ 46) := by
  refine ⟨_, _, _, _, _, _, ⟨_, _, oneStep_update _ _ (fin false 21, fin false 3), rfl, rfl⟩,
    ⟨_, _, oneStep_update _ _ (oneStep binary32.arith (fin false 1) (fin false 1) (fin false 21, fin false 3)), rfl, rfl⟩,
    q_one _ _ _ _, q_one _ _ _ _, by decide +kernel, by decide +kernel⟩

/-! ## The hypotheses can be met -/

/-- Runs of any length exist for single precision data without sign bits (C139, C140), also with a NaN in the data (C143). -/
example (bs : List Bool) (x : Fl) : ∃ W' H' : Mat 2 2 Fl, binary32.arith.Run 2
    (fun i j => if i = 0 ∧ j = 1 then x else fin false 3) (fun _ _ => fin false 1) bs
    (fun i a => if i = a then fin false 0 else fin false 2) (fun _ _ => fin false (1 / 2)) W' H' :=
  run_exists (by decide) _ _ bs _ _

/-- Losses of single precision data with a missing value exist (C141, C143). -/
example : ∃ q : Fl, binary32.arith.QOf (m := 2) (n := 2) (k := 1) 4 (fun i j => if i = j then nan else fin true 3)
    (fun _ _ => fin false 1) (fun _ _ => fin false 1) (fun _ _ => fin true 1) q := by
  obtain ⟨WH, h⟩ := matMul_exists (A := binary32.arith) (d := 4) (by decide) (fun (_ : Fin 2) (_ : Fin 1) => fin false 1)
    (fun (_ : Fin 1) (_ : Fin 2) => fin true 1)
  obtain ⟨q, hq⟩ := dot_exists (A := binary32.arith) (fun p : Fin 2 × Fin 2 =>
    binary32.arith.resid (fun i j => if i = j then nan else fin true 3) (fun _ _ => fin false 1) WH p.1 p.2)
    (fun p => binary32.arith.resid (fun i j => if i = j then nan else fin true 3) (fun _ _ => fin false 1) WH p.1 p.2)
    Finset.univ
  exact ⟨q, WH, h, _, hq⟩

/-- Two samples, two features and two factors in single precision that meet the range conditions of C145, with a zero in the
data and in the start profiles. -/
example :
    let v : Mat 2 2 ℚ≥0 := ![![6, 5], ![0, 7]]
    let we : Mat 2 2 ℚ≥0 := ![![1, 1 / 4], ![2, 1]]
    let w : Mat 2 2 ℚ≥0 := ![![1, 2], ![3, 1]]
    let h : Mat 2 2 ℚ≥0 := ![![1 / 2, 0], ![1, 3]]
    InRangeH (16777216 / 16777215) (2 ^ (-126 : ℤ)) (2 ^ (127 : ℤ)) (12 * 2 + 16) v we w h ∧
    InRangeH (16777216 / 16777215) (2 ^ (-126 : ℤ)) (2 ^ (127 : ℤ)) (12 * 2 + 16) (tr v) (tr we) (tr (exactH v we w h)) (tr w) ∧
    exactH v we w h 0 0 ≠ h 0 0 := by
  refine ⟨⟨?_, ?_, ?_, ?_, ?_, ?_, ?_, ?_, ?_, ?_, ?_⟩, ⟨?_, ?_, ?_, ?_, ?_, ?_, ?_, ?_, ?_, ?_, ?_⟩, ?_⟩ <;>
    (try unfold Low) <;> (try unfold High) <;> decide +kernel

end Esat
