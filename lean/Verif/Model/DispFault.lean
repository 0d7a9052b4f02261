import Verif.Model.DispRun

/-!
# Displacement with exceptions (`esat/error/displacement.py:100-117`)

`Model/DispRun.lean` describes runs in which every training returns. Here the displacement of a factor and a feature may end with an exception, in the process itself or in a worker. What the exception is and where in the task it is raised makes no
difference. Progress output is left out, as is an exception outside of the tasks.
-/

namespace Esat

section fault
variable {K : Type*} [Field K] [LinearOrder K] {m k n : ℕ}

/-- A call of `run`: its mode, and the tasks that raise an exception while increasing and while decreasing. -/
structure DispFault (k n : ℕ) where
  /-- sequential, or the orders in which the tasks finish -/
  mode : DispMode k n
  /-- the increasing tasks that raise -/
  incRaises : Fin k → Fin n → Bool
  /-- the decreasing tasks that raise -/
  decRaises : Fin k → Fin n → Bool

/-- `_increase_disp` and `_decrease_disp` (`displacement.py:253-332`, `425-487`): the results of a factor are stored when all its features are done (332, 487), so an exception loses those of its own factor and of the later ones. The flag is
false after an exception. -/
def seqFaulty {L : Type*} (raises : Fin k → Fin n → Bool) (out : Fin k → Fin n → L) (features : List (Fin n)) :
    List (Fin k) → PyDict (Fin k) (PyDict (Fin n) L) → PyDict (Fin k) (PyDict (Fin n) L) × Bool
  | [], d => (d, true)
  | a :: as, d =>
    if features.any (raises a) then (d, false)
    else seqFaulty raises out features as (dictSet d a (features.foldl (fun e j => dictSet e j (out a j)) []))

/-- One direction of a run. In parallel mode (`displacement.py:334-350`, `489-506`) `imap_unordered` raises the exception of a worker in the process that collects the results, which stores them only after the last. -/
def halfFaulty {L : Type*} (raises : Fin k → Fin n → Bool) (out : Fin k → Fin n → L) (features : List (Fin n))
    (done : Option (List (Fin k × Fin n))) (prev : PyDict (Fin k) (PyDict (Fin n) L)) : PyDict (Fin k) (PyDict (Fin n) L) × Bool :=
  match done with
  | none => seqFaulty raises out features (List.finRange k) prev
  | some d => if d.any (fun p => raises p.1 p.2) then (prev, false) else (parResults out d prev, true)

/-- `Displacement.run` (`displacement.py:100-117`) with exceptions; the flag says that it returned. -/
def dispRunFaulty (E : DispEnv m k n K) (floor : K) (features : List (Fin n)) (dQmax : List K) (st : DispState k n K) (run : DispFault k n) :
    DispState k n K × Bool :=
  let d := match run.mode with
    | .seq => (none, none)
    | .par d1 d2 => (some d1, some d2)
  let inc := halfFaulty run.incRaises (incEntry E dQmax) features d.1 st.inc
  if inc.2 then
    let dec := halfFaulty run.decRaises (decEntry E dQmax) features d.2 st.dec
    if dec.2 then
      match compileRows E floor features dQmax.length inc.1 dec.1 with
      | none => (⟨inc.1, dec.1, st.tables, none⟩, false)
      | some rows => (⟨inc.1, dec.1, tallyBoth LevelOut.swap inc.1 dec.1 st.tables, some rows⟩, true)
    else (⟨inc.1, dec.1, st.tables, st.rows⟩, false)
  else (⟨inc.1, st.dec, st.tables, st.rows⟩, false)

end fault

end Esat
