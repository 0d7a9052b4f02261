import Mathlib.Algebra.Field.Defs
import Mathlib.Order.Basic
import Mathlib.Data.Int.Order.Basic

/-!
Specification of a training run, independent of the loops' bookkeeping: the sequence of factors obtained by applying
updates, the loss of each of them, and the documented stopping criterion on that loss sequence.
-/

namespace Esat

/-- The factors after `t` updates when update `i` uses flag `flags i`. -/
def traj {σ : Type*} (step : Bool → σ → σ) (flags : ℕ → Bool) (s : σ) : ℕ → σ
  | 0 => s
  | i + 1 => step (flags i) (traj step flags s i)

/-- The loss recorded by iteration `i`. -/
def lossAt {σ L : Type*} (step : Bool → σ → σ) (loss : σ → L) (flags : ℕ → Bool) (s : σ) (i : ℕ) : L :=
  loss (traj step flags s (i + 1))

/-- The documented criterion at iteration `i`: at least `N` losses are recorded, and the loss recorded `N-1` iterations
earlier exceeds the current one by less than `delta` (both being numbers). -/
def Crit {K : Type*} [Field K] [LinearOrder K] (ℓ : ℕ → Option K) (N : ℕ) (delta : K) (i : ℕ) : Prop :=
  N ≤ i + 1 ∧ ∃ a b, ℓ (i + 1 - N) = some a ∧ ℓ i = some b ∧ a - b < delta

/-- Window size actually used by the loops: `converge_n`, but at least one. -/
def effN (n : ℤ) : ℕ := (max n 1).toNat

end Esat
