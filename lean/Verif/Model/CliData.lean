import Verif.Model.SaveErrors
import Verif.Model.Constrained
import Mathlib.Data.List.Basic
import Mathlib.Data.List.Infix

/-!
# Model of reading data files, of the simulator commands and of the settings of a constrained run

`DataHandler._check_paths`, `_read_data` (`esat/data/datahandler.py:259-280,343-388`) with the values that the command line passes on
(`esat/cli/esat_cli.py:36-38,78,361,379,399,417,441,473,747,939`, `esat/configs.py:42-46`); `get_sim` and the commands that use it
(`esat_cli.py:41-52,210-288,423-483`); the settings of `run_constrained` (`esat_cli.py:937-975`, `configs.py:98-117`). The csv and Excel readers of pandas are represented by the table in the file and
the choice of the index column; column names of one file are distinct.
-/

namespace Esat

/-! ### Data files -/

/-- The argument `index_col`. -/
inductive IndexArg
  /-- `None` -/
  | none
  /-- a position counted from the left (negative positions are not modelled) -/
  | pos (i : ℕ)
  /-- a text, as in every configuration file -/
  | str (s : String)
  deriving DecidableEq

/-- `if index_col:` (`datahandler.py:362,367`). -/
def IndexArg.truthy : IndexArg → Bool
  | .none => false
  | .pos i => decide (i ≠ 0)
  | .str s => decide (s ≠ "")

/-- A table in a file: the header and the columns below it. -/
structure Table (C : Type*) where
  /-- header -/
  cols : List String
  /-- content of a column -/
  col : String → List C

/-- A data frame: its columns and the column that became the index (`none` = numbered rows). -/
structure Frame (C : Type*) where
  /-- columns -/
  cols : List String
  /-- content of a column -/
  col : String → List C
  /-- index values -/
  index : Option (List C)

/-- The column pandas takes as index for `index_col`: a number is a position, a text is a name; `raised` = `ValueError`, `IndexError`. -/
def indexName (cols : List String) : IndexArg → Outcome (Option String)
  | .none => .ret none
  | .pos i =>
    match cols[i]? with
    | some c => .ret (some c)
    | none => .raised
  | .str s => if s ∈ cols then .ret (some s) else .raised

/-- `pd.read_csv`, `pd.read_excel` with that argument. -/
def pandasRead {C : Type*} (t : Table C) (ix : IndexArg) : Outcome (Frame C) :=
  match indexName t.cols ix with
  | .ret none => .ret ⟨t.cols, t.col, none⟩
  | .ret (some c) => .ret ⟨t.cols.filter (· ≠ c), t.col, some (t.col c)⟩
  | .raised => .raised

/-- `filepath.split(".")[-1]` (`datahandler.py:360`): the text behind the last dot, the whole text without a dot. -/
def fileExt (path : String) : String := String.ofList (path.toList.reverse.takeWhile (· ≠ '.')).reverse

/-- `_read_data` (`datahandler.py:343-374`): `none` = the function returns `None`. -/
def dhReadData {C : Type*} (path : String) (t : Table C) (ix : IndexArg) : Outcome (Option (Frame C)) :=
  if fileExt path ∈ ["csv", "txt", "xls", "xlsx"] then
    match pandasRead t (if ix.truthy then ix else .none) with
    | .ret f => .ret (some f)
    | .raised => .raised
  else .ret none

/-- How the constructor of the data handler ends. -/
inductive Opened (C : Type*)
  /-- `sys.exit()` in `_check_paths` -/
  | exit
  /-- an exception -/
  | raised
  /-- both frames are read and `features` is set -/
  | ok (input uncertainty : Frame C) (features : List String)

/-- `_check_paths` and the first part of `_load_data` (`datahandler.py:259-280,384-387`); `None.columns` raises. `files` are the tables
of the existing files. -/
def openData {C : Type*} (files : String → Option (Table C)) (inPath unPath : String) (ix : IndexArg) : Opened C :=
  match files inPath, files unPath with
  | some t, some u =>
    match dhReadData inPath t ix, dhReadData unPath u ix with
    | .ret (some f), .ret (some g) => .ok f g f.cols
    | _, _ => .raised
  | _, _ => .exit

/-- `index_col` as the command line passes it on: the text in the file `run_config.toml`, which `setup` writes as `0`
(`configs.py:42-46`, `esat_cli.py:78,361,379,399,417,441,473,747,939`). -/
def cliIndexArg (value : String) : IndexArg := .str value

/-! ### Simulator commands -/

section sim
variable {L β G D R B : Type*} [DecidableEq L]

/-- A simulator that has generated data: the state of its random number generator, the data, and the comparison with a batch. -/
structure SimObj (G D R : Type*) where
  /-- state of `rng` -/
  rng : G
  /-- `syn_data_df`, `syn_uncertainty_df` -/
  data : D
  /-- `batch_sa`, `factor_compare` -/
  compared : Option R

/-- `get_data` (`eval/simulator.py:298-310`): every call draws new noise, outliers and uncertainties; `gen` is `_generate_data` as a function
of the generator. -/
def simGetData (gen : G → D × G) (s : SimObj G D R) : SimObj G D R := { s with rng := (gen s.rng).2, data := (gen s.rng).1 }

/-- Everything the commands depend on. -/
structure SimEnv (L β G D R B : Type*) where
  /-- platform -/
  P : Platform L β
  /-- empty file -/
  empty : β
  /-- pickling -/
  pickle : SimObj G D R → β
  /-- reading a pickle -/
  unpickle : β → Unpickled (SimObj G D R)
  /-- the four tables of `Simulator.save` -/
  tables : D → β × β × β × β
  /-- `_generate_data` -/
  gen : G → D × G
  /-- the generator after the constructor and the updates of the contributions (`esat_cli.py:45-48`) -/
  g0 : G
  /-- `FactorCompare` with a batch -/
  cmp : D → B → R

/-- `get_sim` (`esat_cli.py:41-52`). -/
def getSim (E : SimEnv L β G D R B) (fs : L → Option (Node β)) (path : String) :
    (L → Option (Node β)) × Outcome (Option (SimObj G D R)) :=
  if (fs (E.P.res (E.P.join path "esat_simulator.pkl"))).isSome then
    (fs, objLoad E.P E.unpickle fs (E.P.join path "esat_simulator.pkl"))
  else
    let s : SimObj G D R := ⟨(E.gen E.g0).2, (E.gen E.g0).1, none⟩
    match simSave E.P E.empty E.pickle (fun x => E.tables x.data) fs s "synthetic" path with
    | (fs', .ret _) => (fs', .ret (some s))
    | (fs', .raised) => (fs', .raised)

/-- The commands that use the simulator. -/
inductive SimCmd (B : Type*)
  /-- `simulator generate` -/
  | generate
  /-- `estimate` -/
  | estimate
  /-- `run` -/
  | run
  /-- `simulator compare`; `none` = the batch could not be loaded -/
  | compare (batch : Option B)
  /-- `simulator plot` -/
  | plot

/-- A command (`esat_cli.py:210-288,423-483`): the data handed to the model or estimator, and the comparison that is plotted. What `run`
writes into the directory `output` is left out. -/
def simCmd (E : SimEnv L β G D R B) (fs : L → Option (Node β)) (path : String) :
    SimCmd B → (L → Option (Node β)) × Outcome (Option D × Option R)
  | .generate =>
    match getSim E fs path with
    | (fs', .ret _) => (fs', .ret (none, none))
    | (fs', .raised) => (fs', .raised)
  | .estimate | .run =>
    match getSim E fs path with
    | (fs', .ret (some s)) => (fs', .ret (some (simGetData E.gen s).data, none))
    | (fs', _) => (fs', .raised)
  | .compare b =>
    match getSim E fs path, b with
    | (fs', .ret (some s)), some b =>
      match simSave E.P E.empty E.pickle (fun x => E.tables x.data) fs' { s with compared := some (E.cmp s.data b) } "synthetic" path with
      | (fs'', .ret _) => (fs'', .ret (none, none))
      | (fs'', .raised) => (fs'', .raised)
    | (fs', _), _ => (fs', .raised)
  | .plot =>
    match getSim E fs path with
    | (fs', .ret (some s)) => (fs', .ret (none, s.compared))
    | (fs', _) => (fs', .raised)

/-- One step in the life of a project directory. -/
inductive SimStep (L β B : Type*)
  /-- a command -/
  | cmd (c : SimCmd B)
  /-- something else that changes files -/
  | other (f : (L → Option (Node β)) → (L → Option (Node β)))

/-- The file system after a history. -/
def simHistory (E : SimEnv L β G D R B) (path : String) (fs : L → Option (Node β)) (h : List (SimStep L β B)) : L → Option (Node β) :=
  h.foldl (fun fs s => match s with
    | .cmd c => (simCmd E fs path c).1
    | .other f => f fs) fs

end sim

/-! ### Settings of a constrained run -/

/-- The constraints of the new model after the section `constraints` (`esat_cli.py:953-960`): entries with the index `[-1, -1]` are left
out, the others are passed to `add_constraint`, whose result is ignored. -/
def configConstraints {K : Type*} (m n k : ℕ) (entries : List (Constraint K)) : PyDict CLabel (Constraint K) :=
  entries.foldl (fun d c => if c.index = (-1, -1) then d else (addConstraint m n k d c).1) []

/-- `label in expression`. -/
def textIn (label expression : String) : Bool := decide (label.toList <:+: expression.toList)

/-- Whether an expression is passed on (`esat_cli.py:963-968`). -/
def configExpression (expression : String) : Bool :=
  !(["factor:-1", "feature:-1", "sample:-1"].any fun l => textIn l expression)

/-- The loop settings (`esat_cli.py:970-972`): from the configuration, or from the batch. -/
def configLoop {K : Type*} [Zero K] [LT K] [DecidableLT K] (maxIter convN : ℤ) (delta : K) (batchIter batchN : ℤ) (batchDelta : K) :
    ℤ × K × ℤ :=
  (if maxIter ≠ -1 then maxIter else batchIter, if 0 < delta then delta else batchDelta, if convN ≠ -1 then convN else batchN)

/-- The entries of the section `constraints` written by `setup_constrained` (`configs.py:105-112`): the indices. -/
def defaultConstraints : List (ℤ × ℤ) := List.replicate 6 (-1, -1)

/-- The section `expressions` written by `setup_constrained` (`configs.py:113-117`). -/
def defaultExpressions : List String :=
  ["(0.66*[factor:-1|feature:-1])-(4.2*[factor:-1|feature:-1])=0,250",
   "(0.35*[factor:-1|feature:-1])-(2.0*[factor:-1|feature:-1])-(3.7*[factor:-1|feature:-1])=0,250",
   "(3.2*[factor:-1|feature:-1])+(1.2*[factor:-1|feature:-1])+(0.1*[factor:-1|feature:-1])+(20.0*[factor:-1|feature:-1])-(10.7*[factor:-1|feature:-1])=0,250"]

end Esat
