import Verif.Model.Constrained
import Mathlib.Tactic.SplitIfs

/-!
# Indices of an axis
-/

namespace Esat

/-- The position `x` of an axis of length `r` has the number `i`: counted from the front, or from the end with a negative number. -/
def PyAddr (r : ℕ) (i : ℤ) (x : Fin r) : Prop := i = (x.1 : ℤ) ∨ i = (x.1 : ℤ) - r

theorem axisIndex_eq_some {r : ℕ} {i : ℤ} {x : Fin r} : axisIndex r i = some x ↔ PyAddr r i x := by
  unfold axisIndex PyAddr
  have hx := x.2
  split_ifs with h1 h2
  · simp only [Option.some.injEq, Fin.ext_iff]
    omega
  · simp only [Option.some.injEq, Fin.ext_iff]
    omega
  · simp only [reduceCtorEq, false_iff]
    omega

theorem axisIndex_isSome {r : ℕ} {i : ℤ} : (axisIndex r i).isSome ↔ -(r : ℤ) ≤ i ∧ i < r := by
  unfold axisIndex
  split_ifs with h1 h2
  · simp only [Option.isSome_some, true_iff]
    omega
  · simp only [Option.isSome_some, true_iff]
    omega
  · simp only [Option.isSome_none, Bool.false_eq_true, false_iff]
    omega

theorem axisIndex_val {r : ℕ} (x : Fin r) : axisIndex r (x.1 : ℤ) = some x := axisIndex_eq_some.2 (.inl rfl)

theorem axisIndex_nat {r i : ℕ} (h : i < r) : axisIndex r (i : ℤ) = some ⟨i, h⟩ := axisIndex_val (⟨i, h⟩ : Fin r)

theorem axisIndex_of_nonneg {r : ℕ} {i : ℤ} (h : 0 ≤ i) (x : Fin r) : axisIndex r i = some x ↔ i = x.1 := by
  rw [axisIndex_eq_some, PyAddr]
  have := x.2
  omega

end Esat
