import Mathlib.Data.List.Basic

/-!
# Python dictionaries

Insertion order is kept (Python 3.7 and later); assigning to an existing key keeps its position.
-/

namespace Esat

/-- A Python dictionary: pairs in insertion order. -/
abbrev PyDict (κ β : Type*) := List (κ × β)

variable {κ β : Type*} [DecidableEq κ]

/-- `d[key] = v`. -/
def dictSet (d : PyDict κ β) (key : κ) (v : β) : PyDict κ β :=
  if d.any (fun p => p.1 = key) then d.map fun p => if p.1 = key then (key, v) else p else d ++ [(key, v)]

/-- `d[key]`; `none` = `KeyError`. -/
def dictGet (d : PyDict κ β) (key : κ) : Option β := (d.find? fun p => p.1 = key).map (·.2)

/-- `d.pop(key)`; `none` = `KeyError`. -/
def dictPop (d : PyDict κ β) (key : κ) : Option (PyDict κ β) :=
  if d.any (fun p => p.1 = key) then some (d.filter fun p => p.1 ≠ key) else none

end Esat
