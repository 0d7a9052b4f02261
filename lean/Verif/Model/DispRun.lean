import Verif.Model.Displacement

/-!
# Model of `Displacement.run` (`esat/error/displacement.py:70-117`)

The object keeps its result dictionaries and its tables between calls of `run`; the searches, the dictionaries, the compiled table and the tallies are
those of `Model/Displacement.lean`.
-/

namespace Esat

section run
variable {K : Type*} [Field K] [LinearOrder K] {m k n : ℕ}

/-- The attributes of a displacement object that `run` changes (`displacement.py:86-91`). -/
structure DispState (k n : ℕ) (K : Type*) where
  /-- `increase_results` -/
  inc : PyDict (Fin k) (PyDict (Fin n) (List (LevelOut K)))
  /-- `decrease_results` -/
  dec : PyDict (Fin k) (PyDict (Fin n) (List (LevelOut K)))
  /-- `count_table`, `swap_table` -/
  tables : SwapTables
  /-- `compiled_results`; `none` before the first run or after a `KeyError` -/
  rows : Option (List (DispRow k n K))

/-- A new object (`displacement.py:86-91`). -/
def DispState.new : DispState k n K := ⟨[], [], ⟨fun _ _ => 0, fun _ _ => 0⟩, none⟩

/-- `parallel`, with the orders in which the increasing and the decreasing tasks finish. -/
inductive DispMode (k n : ℕ)
  /-- `parallel=False` -/
  | seq
  /-- `parallel=True` -/
  | par (d1 d2 : List (Fin k × Fin n))

/-- The increasing and decreasing displacements of one run (`displacement.py:110-115`). -/
def dispResults (out : Fin k → Fin n → List (LevelOut K)) (features : List (Fin n)) (done : Option (List (Fin k × Fin n)))
    (prev : PyDict (Fin k) (PyDict (Fin n) (List (LevelOut K)))) : PyDict (Fin k) (PyDict (Fin n) (List (LevelOut K))) :=
  match done with
  | none => seqResults out features prev
  | some d => parResults out d prev

/-- `Displacement.run` (`displacement.py:100-117`): the displacements, then `_compile_results` (563-627); a `KeyError` in the table ends it before
the tallies. -/
def dispRun (E : DispEnv m k n K) (floor : K) (features : List (Fin n)) (dQmax : List K) (st : DispState k n K) (mode : DispMode k n) :
    DispState k n K :=
  let d := match mode with
    | .seq => (none, none)
    | .par d1 d2 => (some d1, some d2)
  let inc := dispResults (incEntry E dQmax) features d.1 st.inc
  let dec := dispResults (decEntry E dQmax) features d.2 st.dec
  match compileRows E floor features dQmax.length inc dec with
  | none => ⟨inc, dec, st.tables, none⟩
  | some rows => ⟨inc, dec, tallyBoth LevelOut.swap inc dec st.tables, some rows⟩

end run

end Esat
