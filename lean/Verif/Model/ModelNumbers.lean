import Verif.Model.DispRun
import Verif.Model.BsRun

/-!
# Model numbers in the error estimates

`SA.train` hands `model_i` to the compiled code (`esat/model/sa.py:398-416`), which takes it as a signed byte (`rust/lib.rs:206,540`). The displacement
numbers its tasks (`esat/error/displacement.py:354,410,510,550`) or uses the batch number (319, 474), the bootstrap the number of the run
(`esat/error/bootstrap.py:447,480`). `Model/DispRun.lean` and `Model/BsRun.lean` leave the number out; here it is added. Progress output is left out.
-/

namespace Esat

/-- The values of a signed byte. -/
def numberFits (i : ℤ) : Bool := decide (-128 ≤ i ∧ i ≤ 127)

/-- `SA.train(model_i=i)` of a model whose training gives `r`. If the compiled code is loaded (`sa.py:127-140,398`), any other number is an
`OverflowError` in the conversion of the arguments, which `except RuntimeError` (`sa.py:424`) does not catch (`none`). The Python loop uses the
number in texts only (`sa.py:431,455`). -/
def trainNumbered {R : Type*} (compiled : Bool) (i : ℤ) (r : R) : Option R :=
  if compiled && !numberFits i then none else some r

section disp
variable {K : Type*} [Field K] [LinearOrder K] {m k n : ℕ}

/-- The number of a task (`displacement.py:354,510`): `factor_i*len(self.features) + feature_j + 1`. -/
def dispNumber (features : List (Fin n)) (a : Fin k) (j : Fin n) : ℤ := (a.1 : ℤ) * features.length + j.1 + 1

/-- The displacements of one factor and feature: one training for each level, after its search (`displacement.py:404-410,545-550`, sequential
313-320, 468-475). `out` are the results without exceptions. -/
def dispTask {L : Type*} (compiled : Bool) (number : ℤ) (out : List L) : Option (List L) := out.mapM (trainNumbered compiled number)

/-- `_run_all_increase_disp` and `_run_all_decrease_disp` (`displacement.py:334-350`, `489-506`): an exception in a worker reaches the caller before
anything is stored (`none`). -/
def parNumbered {L : Type*} (compiled : Bool) (out : Fin k → Fin n → List L) (features : List (Fin n)) (done : List (Fin k × Fin n))
    (prev : PyDict (Fin k) (PyDict (Fin n) (List L))) : Option (PyDict (Fin k) (PyDict (Fin n) (List L))) :=
  (done.mapM fun p => (dispTask compiled (dispNumber features p.1 p.2) (out p.1 p.2)).map fun r => (p, r)).map fun rs =>
    rs.foldl (fun d r => dictSet2 d r.1.1 r.1.2 r.2) prev

/-- `_increase_disp` and `_decrease_disp` (`displacement.py:253-332`, `425-487`): a factor is stored when its features are done; the flag is false
after an exception. -/
def seqNumbered {L : Type*} (compiled : Bool) (batch : ℤ) (out : Fin k → Fin n → List L) (features : List (Fin n)) :
    List (Fin k) → PyDict (Fin k) (PyDict (Fin n) (List L)) → PyDict (Fin k) (PyDict (Fin n) (List L)) × Bool
  | [], d => (d, true)
  | a :: as, d =>
    match features.mapM fun j => (dispTask compiled batch (out a j)).map fun r => (j, r) with
    | none => (d, false)
    | some rs => seqNumbered compiled batch out features as (dictSet d a (rs.foldl (fun e r => dictSet e r.1 r.2) []))

/-- One direction of a run, sequential or with the order in which the tasks finish. -/
def halfNumbered {L : Type*} (compiled : Bool) (batch : ℤ) (out : Fin k → Fin n → List L) (features : List (Fin n))
    (done : Option (List (Fin k × Fin n))) (prev : PyDict (Fin k) (PyDict (Fin n) (List L))) :
    PyDict (Fin k) (PyDict (Fin n) (List L)) × Bool :=
  match done with
  | none => seqNumbered compiled batch out features (List.finRange k) prev
  | some d =>
    match parNumbered compiled out features d prev with
    | none => (prev, false)
    | some r => (r, true)

/-- `Displacement.run(batch)` (`displacement.py:100-117`); the flag says that it returned. -/
def dispRunNumbered (compiled : Bool) (E : DispEnv m k n K) (floor : K) (features : List (Fin n)) (dQmax : List K) (batch : ℤ)
    (st : DispState k n K) (mode : DispMode k n) : DispState k n K × Bool :=
  let d := match mode with
    | .seq => (none, none)
    | .par d1 d2 => (some d1, some d2)
  let inc := halfNumbered compiled batch (incEntry E dQmax) features d.1 st.inc
  if inc.2 then
    let dec := halfNumbered compiled batch (decEntry E dQmax) features d.2 st.dec
    if dec.2 then
      match compileRows E floor features dQmax.length inc.1 dec.1 with
      | none => (⟨inc.1, dec.1, st.tables, none⟩, false)
      | some rows => (⟨inc.1, dec.1, tallyBoth LevelOut.swap inc.1 dec.1 st.tables, some rows⟩, true)
    else (⟨inc.1, dec.1, st.tables, st.rows⟩, false)
  else (⟨inc.1, st.dec, st.tables, st.rows⟩, false)

/-- The displacement stage of BS-DISP with its default `parallel=False` (`bs_disp.py:183-196`): a new displacement object, itself parallel, for each
bootstrap run; the flag is false after an exception. `env b` and `mode b` belong to run `b`. -/
def bsDispNumbered (compiled : Bool) (env : ℕ → DispEnv m k n K) (floor : K) (features : List (Fin n)) (dQmax : List K)
    (mode : ℕ → DispMode k n) : List ℕ → PyDict ℕ (DispState k n K) → PyDict ℕ (DispState k n K) × Bool
  | [], d => (d, true)
  | b :: bs, d =>
    let r := dispRunNumbered compiled (env b) floor features dQmax (b : ℤ) .new (mode b)
    if r.2 then bsDispNumbered compiled env floor features dQmax mode bs (dictSet d b r.1) else (d, false)

end disp

section bootstrap
variable {G S D I M P Q : Type*}

/-- One bootstrap run with its number (`bootstrap.py:426-453`, `457-487`). -/
def bsOneNumbered (compiled : Bool) (E : BsEnv G S D I M P Q) (a : BsArgs) (i : ℕ) (seed : S) : Option (BsEntry I M Q) :=
  (E.resample a.block a.overlapping seed).bind fun d =>
    ((E.train (if a.reuseSeed then E.baseSeed else seed) (if a.keepH then some E.baseH else none) d.1).bind
      (trainNumbered compiled i)).map fun m => ⟨m, d.2, E.mapping m⟩

/-- The loop with `parallel=False` (`bootstrap.py:420-455`). -/
def bsSequentialNumbered (compiled : Bool) (E : BsEnv G S D I M P Q) (a : BsArgs) :
    ℕ → ℕ → BsObj G (BsEntry I M Q) → BsObj G (BsEntry I M Q) × Bool
  | 0, _, o => (o, true)
  | n + 1, i, o =>
    let s := E.draw o.rng
    match bsOneNumbered compiled E a i s.1 with
    | none => (⟨s.2, o.results⟩, false)
    | some r => bsSequentialNumbered compiled E a n (i + 1) ⟨s.2, dictSet o.results i r⟩

/-- `parallel=True` (`bootstrap.py:401-419`). -/
def bsParallelNumbered (compiled : Bool) (E : BsEnv G S D I M P Q) (a : BsArgs) (pool : ℤ) (n : ℕ)
    (sched : List (ℕ × S) → List (ℕ × S)) (o : BsObj G (BsEntry I M Q)) : BsObj G (BsEntry I M Q) × Bool :=
  let t := bsTasks E.draw n 1 o.rng
  if poolStarts pool then
    match (sched t.1).mapM fun t => (bsOneNumbered compiled E a t.1 t.2).map fun r => (t.1, r) with
    | none => (⟨t.2, o.results⟩, false)
    | some rs => (⟨t.2, rs.foldl (fun d r => dictSet d r.1 r.2) o.results⟩, true)
  else (⟨t.2, o.results⟩, false)

end bootstrap

end Esat
