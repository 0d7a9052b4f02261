import Verif.Model.Utils
import Verif.Model.Quantile
import Mathlib.Data.Rat.Floor

/-!
# Model of the report of `memory_estimate` (`esat/utils.py:81-130`)

The numbers are exact; `np.round` of an integer is that integer.
-/

namespace Esat

/-- The returned dictionary, and whether the warning was logged; a text is a number and a unit. -/
structure MemReport where
  /-- `logger.warning` -/
  warned : Bool
  /-- `max_cores` -/
  maxCores : ℤ
  /-- `max_bytes` -/
  maxBytes : ℕ
  /-- `available_memory_bytes` -/
  availableEntry : ℚ
  /-- `available_string` and `estimate` -/
  texts : (ℚ × String) × (ℚ × String)
  deriving DecidableEq

/-- `available_string`. -/
def MemReport.available (r : MemReport) : ℚ × String := r.texts.1

/-- `estimate`. -/
def MemReport.estimate (r : MemReport) : ℚ × String := r.texts.2

/-- The two texts (`utils.py:111-122`). -/
def memTexts (available bytes : ℕ) : (ℚ × String) × (ℚ × String) :=
  if (bytes : ℚ) / 1024 ^ 3 > 1 then (((available : ℚ) / 1024 ^ 3, "GB"), (roundTo 4 ((bytes : ℚ) / 1024 ^ 3), "GB"))
  else if (bytes : ℚ) / 1024 ^ 2 > 1 then (((available : ℚ) / 1024 ^ 2, "GB"), (roundTo 4 ((bytes : ℚ) / 1024 ^ 2), "MB"))
  else if (bytes : ℚ) / 1024 > 1 then (((available : ℚ) / 1024, "GB"), (roundTo 4 ((bytes : ℚ) / 1024), "KB"))
  else (((available : ℚ), "GB"), (roundTo 4 (bytes : ℚ), "Bytes"))

/-- `memory_estimate` (`utils.py:81-130`) for the available memory and the number of cores. -/
def memReport (available features samples factors : ℕ) (cores : ℤ) : MemReport :=
  let bytes := maxBytes features samples factors
  ⟨decide (bytes > available), maxCores available bytes cores, bytes, (available : ℚ) / 1024 ^ 3, memTexts available bytes⟩

end Esat
