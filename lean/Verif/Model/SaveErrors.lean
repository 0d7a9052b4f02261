import Verif.Model.SaveLoad
import Verif.Model.PyDict
import Mathlib.Data.Nat.Notation

/-!
# Model of the other `save` and `load` methods

`BatchSA` (`esat/model/batch_sa.py:392-471`), `Displacement` (`esat/error/displacement.py:629-723`), `Bootstrap`
(`esat/error/bootstrap.py:734-828`), `BSDISP` (`esat/error/bs_disp.py:403-480`), `Simulator` (`eval/simulator.py:517-592`),
and the JSON encoding (`esat/utils.py:14-28`). The file system and the platform are those of `Model/SaveLoad.lean`. The text
that a method computes is a parameter (`β`), `none` when computing it raises (an attribute is still `None`), which happens
after the file was opened.
-/

namespace Esat

section files
variable {L β α : Type*} [DecidableEq L]

/-- `BatchSA.load` (`batch_sa.py:444-471`), `Displacement.load` (`displacement.py:695-723`), `Bootstrap.load`
(`bootstrap.py:801-828`), `BSDISP.load` (`bs_disp.py:452-480`) and `Simulator.load` (`simulator.py:562-592`) have the same
text. -/
def objLoad (P : Platform L β) (unpickle : β → Unpickled α) (fs : L → Option (Node β)) (path : String) :
    Outcome (Option α) :=
  let p := P.norm path
  if P.isAbs p = false then .ret none
  else match fs (P.res p) with
    | none => .ret none
    | some .dir => .raised
    | some (.file c) => match unpickle c with
      | .ok x => .ret (some x)
      | .pickleError => .ret none
      | .other => .raised

/-- The loop over the models (`batch_sa.py:429-433`): `false` = an exception of `SA.save` leaves the method; the return value
of `SA.save` is ignored. -/
def batchSaveLoop (P : Platform L β) (empty : β) (pickle : SavedModel β → β) (name d : String) (pm hasHeader : Bool) :
    List (Option (SavedModel β)) → ℕ → (L → Option (Node β)) → (L → Option (Node β)) × Bool
  | [], _, fs => (fs, true)
  | none :: rest, i, fs => batchSaveLoop P empty pickle name d pm hasHeader rest (i + 1) fs
  | some x :: rest, i, fs =>
    match saSave P empty pickle fs x (name ++ "-model-" ++ toString i) d pm hasHeader with
    | (fs', .ret _) => batchSaveLoop P empty pickle name d pm hasHeader rest (i + 1) fs'
    | (fs', .raised) => (fs', false)

/-- `BatchSA.save` (`batch_sa.py:392-441`); `batch` is the whole object, `results` its models. -/
def batchSave (P : Platform L β) (empty : β) (pickleBatch : α → β) (pickle : SavedModel β → β) (fs : L → Option (Node β))
    (batch : α) (results : List (Option (SavedModel β))) (name dir : String) (pm pb hasHeader : Bool) :
    (L → Option (Node β)) × Outcome (Option String) :=
  let d := P.norm dir
  if P.isAbs d = false then (fs, .ret none)
  else if (fs (P.res d)).isNone then (fs, .ret none)
  else if pb then
    let path := P.join d (name ++ ".pkl")
    match writeFile P empty fs path (some (pickleBatch batch)) with
    | (fs', true) => (fs', .ret (some path))
    | (fs', false) => (fs', .raised)
  else
    match batchSaveLoop P empty pickle name d pm hasHeader results 0 fs with
    | (fs', true) => (fs', .ret (some d))
    | (fs', false) => (fs', .raised)

/-- The texts of `Displacement.save(pickle_result=False)`. -/
structure DispFiles (β : Type*) where
  /-- metadata -/
  metadata : β
  /-- increase results -/
  increase : β
  /-- decrease results -/
  decrease : β
  /-- swap table -/
  swap : β
  /-- `compiled_results`, `None` before `run` -/
  compiled : Option β

/-- The five files (`displacement.py:659-688`). -/
def dispFiles (P : Platform L β) (d name : String) (x : DispFiles β) : List (String × Option β) :=
  [(P.join d (name ++ "-metadata.json"), some x.metadata),
   (P.join d (name ++ "-increase-disp.json"), some x.increase),
   (P.join d (name ++ "-decrease-disp.json"), some x.decrease),
   (P.join d (name ++ "-swaptable.csv"), some x.swap),
   (P.join d (name ++ "-results.csv"), x.compiled)]

/-- `Displacement.save` (`displacement.py:629-692`). -/
def dispSave (P : Platform L β) (empty : β) (pickle : α → β) (texts : α → DispFiles β) (fs : L → Option (Node β)) (x : α)
    (name dir : String) (pickleResult : Bool) : (L → Option (Node β)) × Outcome (Option String) :=
  let d := P.norm dir
  if P.isAbs d = false then (fs, .ret none)
  else if (fs (P.res d)).isNone then (fs, .ret none)
  else if pickleResult then
    match writeFile P empty fs (P.join d (name ++ ".pkl")) (some (pickle x)) with
    | (fs', true) => (fs', .ret (some (P.join d (name ++ ".pkl"))))
    | (fs', false) => (fs', .raised)
  else
    match writeFiles P empty fs (dispFiles P d name (texts x)) with
    | (fs', true) => (fs', .ret (some d))
    | (fs', false) => (fs', .raised)

/-- The texts of `Bootstrap.save(pickle_result=False)`. -/
structure BsFiles (β : Type*) where
  /-- metadata -/
  metadata : β
  /-- results -/
  results : β
  /-- `mapping_df`, `None` before `run` -/
  mapping : Option β
  /-- `q_results`, `None` before `run` -/
  qtable : Option β
  /-- factor tables -/
  ftables : β
  /-- profiles -/
  profiles : β
  /-- contributions -/
  contributions : β

/-- The seven files (`bootstrap.py:765-793`). -/
def bsFiles (P : Platform L β) (d name : String) (x : BsFiles β) : List (String × Option β) :=
  [(P.join d (name ++ "-metadata.json"), some x.metadata),
   (P.join d (name ++ "-results.json"), some x.results),
   (P.join d (name ++ "-mapping.csv"), x.mapping),
   (P.join d (name ++ "-qtable.csv"), x.qtable),
   (P.join d (name ++ "-ftables.json"), some x.ftables),
   (P.join d (name ++ "-profiles.json"), some x.profiles),
   (P.join d (name ++ "-contributions.json"), some x.contributions)]

/-- `Bootstrap.save` (`bootstrap.py:734-798`): `return file_path` is inside the branch that writes text files, so the pickle
branch ends without a return value. -/
def bsSave (P : Platform L β) (empty : β) (pickle : α → β) (texts : α → BsFiles β) (fs : L → Option (Node β)) (x : α)
    (name dir : String) (pickleResult : Bool) : (L → Option (Node β)) × Outcome (Option String) :=
  let d := P.norm dir
  if P.isAbs d = false then (fs, .ret none)
  else if (fs (P.res d)).isNone then (fs, .ret none)
  else if pickleResult then
    match writeFile P empty fs (P.join d (name ++ ".pkl")) (some (pickle x)) with
    | (fs', true) => (fs', .ret none)
    | (fs', false) => (fs', .raised)
  else
    match writeFiles P empty fs (bsFiles P d name (texts x)) with
    | (fs', true) => (fs', .ret (some d))
    | (fs', false) => (fs', .raised)

/-- What `BSDISP.save` reads of the object: its metadata, the bootstrap (`None` before `run`), the displacement runs and the
compiled results. -/
structure BsDispFiles (β B D : Type*) where
  /-- metadata -/
  metadata : β
  /-- `self.bootstrap` -/
  bootstrap : Option B
  /-- `self.disp_results` -/
  runs : PyDict ℕ D
  /-- `compiled_results`, `None` before `run` -/
  compiled : Option β

/-- The loop over the displacement runs (`bs_disp.py:436-438`). -/
def bsdispLoop {D : Type*} (P : Platform L β) (empty : β) (pickle : D → β) (texts : D → DispFiles β) (name d : String) :
    PyDict ℕ D → (L → Option (Node β)) → (L → Option (Node β)) × Bool
  | [], fs => (fs, true)
  | (k, x) :: rest, fs =>
    match dispSave P empty pickle texts fs x (name ++ "-" ++ toString k) d false with
    | (fs', .ret _) => bsdispLoop P empty pickle texts name d rest fs'
    | (fs', .raised) => (fs', false)

/-- `BSDISP.save` (`bs_disp.py:403-449`): `file_path` is the name of the pickle file in both branches. -/
def bsdispSave {B D : Type*} (P : Platform L β) (empty : β) (pickle : α → β) (pickleB : B → β) (textsB : B → BsFiles β)
    (pickleD : D → β) (textsD : D → DispFiles β) (texts : α → BsDispFiles β B D) (fs : L → Option (Node β)) (x : α)
    (name dir : String) (pickleResult : Bool) : (L → Option (Node β)) × Outcome (Option String) :=
  let d := P.norm dir
  if P.isAbs d = false then (fs, .ret none)
  else if (fs (P.res d)).isNone then (fs, .ret none)
  else
    let path := P.join d (name ++ ".pkl")
    if pickleResult then
      match writeFile P empty fs path (some (pickle x)) with
      | (fs', true) => (fs', .ret (some path))
      | (fs', false) => (fs', .raised)
    else
      match writeFile P empty fs (P.join d (name ++ "-metadata.json")) (some (texts x).metadata) with
      | (fs1, false) => (fs1, .raised)
      | (fs1, true) => match (texts x).bootstrap with
        | none => (fs1, .raised)
        | some b => match bsSave P empty pickleB textsB fs1 b name d false with
          | (fs2, .raised) => (fs2, .raised)
          | (fs2, .ret _) => match bsdispLoop P empty pickleD textsD name d (texts x).runs fs2 with
            | (fs3, false) => (fs3, .raised)
            | (fs3, true) => match writeFile P empty fs3 (P.join d (name ++ "-results.csv")) (texts x).compiled with
              | (fs4, true) => (fs4, .ret (some path))
              | (fs4, false) => (fs4, .raised)

/-- `Simulator.save` (`simulator.py:517-559`): the pickle file has a fixed name; the four tables. -/
def simSave (P : Platform L β) (empty : β) (pickle : α → β) (tables : α → β × β × β × β) (fs : L → Option (Node β)) (x : α)
    (name dir : String) : (L → Option (Node β)) × Outcome Bool :=
  let d := P.norm dir
  if P.isAbs d = false then (fs, .ret false)
  else if (fs (P.res d)).isNone then (fs, .ret false)
  else
    match writeFiles P empty fs
      [(P.join d "esat_simulator.pkl", some (pickle x)),
       (P.join d (name ++ "_data.csv"), some (tables x).1),
       (P.join d (name ++ "_uncertainty.csv"), some (tables x).2.1),
       (P.join d (name ++ "_profiles.csv"), some (tables x).2.2.1),
       (P.join d (name ++ "_contributions.csv"), some (tables x).2.2.2)] with
    | (fs', true) => (fs', .ret true)
    | (fs', false) => (fs', .raised)

end files

/-! ## JSON encoding -/

/-- Python values as `json.dump` sees them. -/
inductive PyVal (K : Type*)
  /-- `None` -/
  | none
  /-- `True`, `False` -/
  | bool (b : Bool)
  /-- `int`, `float` -/
  | num (x : K)
  /-- `str` -/
  | str (s : String)
  /-- `list`, `tuple` -/
  | list (l : List (PyVal K))
  /-- `dict` with string keys (number keys are written as strings) -/
  | dict (l : List (String × PyVal K))
  /-- `np.generic`: a numpy number -/
  | npNum (x : K)
  /-- `np.generic`: a numpy truth value -/
  | npBool (b : Bool)
  /-- anything else: `set`, `np.ndarray`, `SA`, `pandas` objects, … -/
  | object

/-- JSON values. -/
inductive JsonVal (K : Type*)
  /-- `null` -/
  | null
  /-- `true`, `false` -/
  | bool (b : Bool)
  /-- number -/
  | num (x : K)
  /-- string -/
  | str (s : String)
  /-- array -/
  | arr (l : List (JsonVal K))
  /-- object -/
  | obj (l : List (String × JsonVal K))

/-- `np_encoder` (`utils.py:14-28`): `object.item()` for numpy values, otherwise the function ends without a return value. -/
def npEncoder {K : Type*} : PyVal K → PyVal K
  | .npNum x => .num x
  | .npBool b => .bool b
  | _ => .none

/-- How a value without parts is written; a second call of `default` does not happen in this code base (a value that is still
not standard would make `json.dump` raise, here `null`). -/
def jsonAtom {K : Type*} : PyVal K → JsonVal K
  | .bool b => .bool b
  | .num x => .num x
  | .str s => .str s
  | _ => .null

mutual
/-- `json.dump(v, file, default=np_encoder)`: the standard types are written, for the others `default` is called and its result
is written (here always a standard type). -/
def jsonDump {K : Type*} : PyVal K → JsonVal K
  | .none => jsonAtom .none
  | .bool b => jsonAtom (.bool b)
  | .num x => jsonAtom (.num x)
  | .str s => jsonAtom (.str s)
  | .list l => .arr (jsonDumpList l)
  | .dict l => .obj (jsonDumpPairs l)
  | .npNum x => jsonAtom (npEncoder (.npNum x))
  | .npBool b => jsonAtom (npEncoder (.npBool b))
  | .object => jsonAtom (npEncoder .object)

/-- Elements of a list. -/
def jsonDumpList {K : Type*} : List (PyVal K) → List (JsonVal K)
  | [] => []
  | v :: l => jsonDump v :: jsonDumpList l

/-- Entries of a dictionary. -/
def jsonDumpPairs {K : Type*} : List (String × PyVal K) → List (String × JsonVal K)
  | [] => []
  | (key, v) :: l => (key, jsonDump v) :: jsonDumpPairs l
end

end Esat
