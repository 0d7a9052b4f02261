import Mathlib.Tactic.TypeStar

/-!
# Model of `SA.save` and `SA.load` (`esat/model/sa.py:478-586`)

The file system is a map from locations to contents; `res` resolves a path string to a location. `pathlib.Path(p)` may
rewrite the string (`norm`) but not what it refers to. Opening a file for writing may fail in ways the code does not
control (permissions, the "directory" being a regular file, ...): `canOpen` decides it. Pickling is a parameter.
-/

namespace Esat

/-- Contents of a location. -/
inductive Node (β : Type*)
  /-- a directory -/
  | dir
  /-- a regular file -/
  | file (content : β)

/-- How a call ends. -/
inductive Outcome (α : Type*)
  /-- normal return -/
  | ret (x : α)
  /-- an exception leaves the method -/
  | raised
  deriving DecidableEq

/-- Everything about the platform the two methods rely on. -/
structure Platform (L β : Type*) where
  /-- `str(pathlib.Path(p))` -/
  norm : String → String
  /-- `Path.is_absolute` -/
  isAbs : String → Bool
  /-- `os.path.join` -/
  join : String → String → String
  /-- what a path string refers to -/
  res : String → L
  /-- whether `open(path, "w")` succeeds -/
  canOpen : (L → Option (Node β)) → L → Bool

/-- The parts of a model that `save` writes as text; `none` = attribute is `None`. -/
structure SavedModel (β : Type*) where
  /-- encoded metadata -/
  metadata : β
  /-- encoded profiles -/
  H : Option β
  /-- encoded contributions -/
  W : Option β
  /-- encoded reconstruction -/
  WH : Option β
  /-- encoded residuals (from `V - WH`) -/
  residuals : Option β

variable {L β : Type*} [DecidableEq L]

/-- Assignment to one location. -/
def FS.set (fs : L → Option (Node β)) (l : L) (c : β) : L → Option (Node β) :=
  fun l' => if l' = l then some (.file c) else fs l'

/-- Opening `path` for writing and then writing `content`; `none` as content means the write itself raises after the file
was created (empty). -/
def writeFile (P : Platform L β) (empty : β) (fs : L → Option (Node β)) (path : String) (content : Option β) :
    (L → Option (Node β)) × Bool :=
  if P.canOpen fs (P.res path) then
    match content with
    | some c => (FS.set fs (P.res path) c, true)
    | none => (FS.set fs (P.res path) empty, false)
  else (fs, false)

/-- Writing a list of files in order; the first failure is an exception (`false`). -/
def writeFiles (P : Platform L β) (empty : β) (fs : L → Option (Node β)) :
    List (String × Option β) → (L → Option (Node β)) × Bool
  | [] => (fs, true)
  | (p, c) :: rest =>
    match writeFile P empty fs p c with
    | (fs', true) => writeFiles P empty fs' rest
    | (fs', false) => (fs', false)

/-- The five text files of `save(pickle_model=False)` in the order they are written (`sa.py:524-549`). `np.savetxt` raises
for a `None` array (0-d) and, when it is given a header of `None`, for every array (`len(None)`): the contribution file is
written with `factor_header`, which is `None` when no header was passed (`sa.py:508-512,538`). -/
def csvFiles (P : Platform L β) (dir name : String) (x : SavedModel β) (hasHeader : Bool) : List (String × Option β) :=
  [(P.join dir (name ++ "-metadata.json"), some x.metadata),
   (P.join dir (name ++ "-profile.csv"), x.H),
   (P.join dir (name ++ "-contribution.csv"), if hasHeader then x.W else none),
   (P.join dir (name ++ "-vprime.csv"), x.WH),
   (P.join dir (name ++ "-residuals.csv"), x.residuals)]

/-- `SA.save` (`sa.py:478-555`). -/
def saSave (P : Platform L β) (empty : β) (pickle : SavedModel β → β) (fs : L → Option (Node β)) (x : SavedModel β)
    (name dir : String) (pickleModel hasHeader : Bool) : (L → Option (Node β)) × Outcome (Option String) :=
  let d := P.norm dir
  if P.isAbs d = false then (fs, .ret none)
  else if (fs (P.res d)).isNone then (fs, .ret none)
  else if pickleModel then
    let path := P.join d (name ++ ".pkl")
    match writeFile P empty fs path (some (pickle x)) with
    | (fs', true) => (fs', .ret (some path))
    | (fs', false) => (fs', .raised)
  else
    match writeFiles P empty fs (csvFiles P d name x hasHeader) with
    | (fs', true) => (fs', .ret (some d))
    | (fs', false) => (fs', .raised)

/-- How unpickling a byte string ends. -/
inductive Unpickled (α : Type*)
  /-- an object -/
  | ok (x : α)
  /-- `pickle.PickleError` (caught, `sa.py:581`) -/
  | pickleError
  /-- any other exception, e.g. `EOFError`, `ModuleNotFoundError` -/
  | other

/-- `SA.load` (`sa.py:557-586`). -/
def saLoad (P : Platform L β) (unpickle : β → Unpickled (SavedModel β)) (fs : L → Option (Node β)) (path : String) :
    Outcome (Option (SavedModel β)) :=
  let p := P.norm path
  if P.isAbs p = false then .ret none
  else match fs (P.res p) with
    | none => .ret none
    | some .dir => .raised
    | some (.file c) => match unpickle c with
      | .ok x => .ret (some x)
      | .pickleError => .ret none
      | .other => .raised

end Esat
