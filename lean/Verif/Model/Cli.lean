import Verif.Model.SaveLoad
import Mathlib.Data.Nat.Notation
import Mathlib.Data.Int.Notation

/-!
# Model of the command line interface (`esat/cli/esat_cli.py`) and its configuration files (`esat/configs.py`)

Only the glue written in `esat_cli.py` is modelled: which flags select which method, which files a stage writes and reads,
how values from a configuration file reach the constructors, and which index values the plotting commands accept. The
numerical work behind the commands is modelled elsewhere. `click` (argument parsing) and `configparser` are trusted: flags
are booleans, values read from a configuration file are strings.

File access uses the `Platform` of `Model/SaveLoad`. The second, textual `save` that follows each pickling
(`esat_cli.py:482-483`) writes other files and is left out.
-/

namespace Esat

/-- The three error estimation methods. -/
inductive ErrMethod
  | disp
  | bs
  | bsdisp
  deriving DecidableEq

/-- `get_error_model` (`esat_cli.py:86-99`): which stored result is loaded for the three flags. -/
def getErrorModel (disp bs bsdisp : Bool) : Option ErrMethod :=
  if disp then some .disp else if bs then some .bs else if bsdisp then some .bsdisp else none

/-- `error_summary` and `error_results` (`esat_cli.py:855-873,885-903`): both begin with
`if not all((disp, bs, bsdisp)): return`. The value is the method whose results are shown. -/
def errorShown (disp bs bsdisp : Bool) : Option ErrMethod :=
  if !(disp && bs && bsdisp) then none else getErrorModel disp bs bsdisp

/-- `run_error` (`esat_cli.py:731-836`): the methods that are run, in order. -/
def runErrorMethods (disp bs bsdisp : Bool) : List ErrMethod :=
  if !(disp || bs || bsdisp) then []
  else (if disp then [.disp] else []) ++ (if bs then [.bs] else []) ++ (if bsdisp then [.bsdisp] else [])

/-! ### Files -/

variable {L β α : Type*} [DecidableEq L]

/-- Name of the pickle of an error method (`esat_cli.py:90,93,96` and `:778,797,834`). -/
def errFile (m : ErrMethod) (name : String) : String :=
  match m with
  | .disp => "disp-" ++ name
  | .bs => "bs-" ++ name
  | .bsdisp => "bsdisp-" ++ name

/-- The pickling branch shared by `BatchSA.save`, `Displacement.save`, `Bootstrap.save` and `BSDISP.save`
(`batch_sa.py:420-429`, `displacement.py:650-660`, `bootstrap.py:755-765`, `bs_disp.py:424-432`) and, through `SA.save`, by
`ConstrainedModel.save`. -/
def pickleSave (P : Platform L β) (pickle : α → β) (fs : L → Option (Node β)) (x : α) (name dir : String) :
    (L → Option (Node β)) × Outcome (Option String) :=
  let d := P.norm dir
  if P.isAbs d = false then (fs, .ret none)
  else if (fs (P.res d)).isNone then (fs, .ret none)
  else
    let path := P.join d (name ++ ".pkl")
    if P.canOpen fs (P.res path) then (FS.set fs (P.res path) (pickle x), .ret (some path)) else (fs, .raised)

/-- The `load` methods of the same classes (e.g. `batch_sa.py:444-472`). -/
def pickleLoad (P : Platform L β) (unpickle : β → Unpickled α) (fs : L → Option (Node β)) (path : String) :
    Outcome (Option α) :=
  let p := P.norm path
  if P.isAbs p = false then .ret none
  else match fs (P.res p) with
    | none => .ret none
    | some .dir => .raised
    | some (.file c) => match unpickle c with
      | .ok x => .ret (some x)
      | .pickleError => .ret none
      | .other => .raised

/-- `if not os.path.exists(d): os.mkdir(d)` (e.g. `esat_cli.py:479-480`). -/
def ensureDir (P : Platform L β) (fs : L → Option (Node β)) (d : String) : L → Option (Node β) :=
  if (fs (P.res d)).isNone then fun l => if l = P.res d then some .dir else fs l else fs

/-- The file part of `run` (`esat_cli.py:478-481`): the batch is stored below the directory named in the configuration. -/
def cliRunSave (P : Platform L β) (pickle : α → β) (fs : L → Option (Node β)) (cfgDir name : String) (batch : α) :
    (L → Option (Node β)) × Outcome (Option String) :=
  let out := P.join cfgDir "output"
  pickleSave P pickle (ensureDir P fs out) batch name out

/-- Path read by `get_batchsa`, used by the solution and batch analysis commands (`esat_cli.py:71`); the directory is the
one in the configuration. -/
def batchPathAnalysis (P : Platform L β) (cfgDir name : String) : String :=
  P.join (P.join cfgDir "output") (name ++ ".pkl")

/-- Path read by `run_error` and `run_constrained` (`esat_cli.py:748,941`); the directory is the command line argument. -/
def batchPathRun (P : Platform L β) (argDir name : String) : String :=
  P.join (P.join argDir "output") (name ++ ".pkl")

/-- The file part of `run_error` for one method (`esat_cli.py:750-752,778,797,834`). -/
def cliErrorSave (P : Platform L β) (pickle : α → β) (fs : L → Option (Node β)) (m : ErrMethod) (argDir name : String)
    (x : α) : (L → Option (Node β)) × Outcome (Option String) :=
  let d := P.join argDir "error"
  pickleSave P pickle (ensureDir P fs d) x (errFile m name) d

/-- Path read by `get_error_model` (`esat_cli.py:88-97`). -/
def errorPath (P : Platform L β) (m : ErrMethod) (argDir name : String) : String :=
  P.join (P.join argDir "error") (errFile m name ++ ".pkl")

/-- The file part of `run_constrained` (`esat_cli.py:978-980`) with the prefix added by `ConstrainedModel.save`
(`constrained.py:1164`). -/
def cliConstrainedSave (P : Platform L β) (pickle : α → β) (fs : L → Option (Node β)) (argDir name : String) (x : α) :
    (L → Option (Node β)) × Outcome (Option String) :=
  let d := P.join argDir "constrained"
  pickleSave P pickle (ensureDir P fs d) x ("constrained_model-" ++ name) d

/-- Path read by `get_constrained_model` (`esat_cli.py:104-106`). -/
def constrainedPathAnalysis (P : Platform L β) (argDir name : String) : String :=
  P.join (P.join argDir "constrained") ("constrained_model-" ++ name ++ ".pkl")

/-- Path read by `run_error` when the error configuration names a constrained model (`esat_cli.py:755-756`). -/
def constrainedPathError (P : Platform L β) (argDir name : String) : String :=
  P.join (P.join argDir "constrained") ("constrained_" ++ name ++ ".pkl")

/-- `run_error` with a constrained configuration (`esat_cli.py:754-760`): `c_solution.constrained_model` raises when the
load returned `None`. -/
def errorOnConstrained (P : Platform L β) (unpickle : β → Unpickled α) (fs : L → Option (Node β)) (argDir name : String) :
    Outcome α :=
  match pickleLoad P unpickle fs (constrainedPathError P argDir name) with
  | .ret (some x) => .ret x
  | .ret none => .raised
  | .raised => .raised

/-! ### BS-DISP from the command line -/

/-- The value passed as `bootstrap` to `BSDISP`: `None`, the command line flag `False`, or a `Bootstrap` object. -/
inductive BsArg (B : Type*)
  | none
  | flagFalse
  | boot (b : B)

/-- The choice in `run_error` (`esat_cli.py:810-818`). At this point the name `bs` holds the object made by the BS stage if
`--bs` was given and otherwise still the flag `False`; it is never `None`. `output` is the configured file,
`loaded p` is `none` if the file does not exist and otherwise the result of `Bootstrap.load`. -/
def bsdispArg {B : Type*} (bsRun : Option B) (output : String) (loaded : String → Option (Option B)) : BsArg B :=
  if output ≠ "" then
    match loaded output with
    | some (some b) => .boot b
    | some none => .none
    | none => .none
  else
    match bsRun with
    | some b => .boot b
    | none => .flagFalse

/-- `BSDISP.__init__` (`bs_disp.py:86-93`): `bootstrap_n if bootstrap is None else bootstrap.bootstrap_n`. The value is the
number of bootstrap runs used, `.raised` the `AttributeError` for a boolean. -/
def bsdispInit {B : Type*} (runsOf : B → ℕ) (cfgN : ℕ) : BsArg B → Outcome ℕ
  | .none => .ret cfgN
  | .flagFalse => .raised
  | .boot b => .ret (runsOf b)

/-- The `[disp]` and `[bsdisp]` sections of the error configuration (`configs.py:67-87`): the listed features. -/
structure ErrConfig where
  /-- `[disp] features` -/
  dispFeatures : List Int
  /-- `[bsdisp] features` -/
  bsdispFeatures : List Int

/-- Features of the BS-DISP stage (`esat_cli.py:805-806`): read from `e_config["disp"]`. -/
def bsdispStageFeatures (c : ErrConfig) : Option (List Int) :=
  if c.dispFeatures.length ≥ 1 then some c.dispFeatures else none

/-! ### Values from a configuration file -/

/-- `bool(s)` for a string. -/
def pyBoolStr (s : String) : Bool := s ≠ ""

/-- The boolean settings of `BatchSA` as they arrive from `**config["parameters"]` (`esat_cli.py:475`,
`batch_sa.py:105,115-119`): `init_norm` goes through `bool`, `parallel` and `verbose` are compared with `"true"`. -/
structure CfgBools where
  initNorm : Bool
  parallel : Bool
  verbose : Bool

/-- See `CfgBools`. -/
def batchBools (initNorm parallel verbose : String) : CfgBools :=
  { initNorm := pyBoolStr initNorm
    parallel := parallel.toLower = "true"
    verbose := verbose.toLower = "true" }

/-- `Simulator(**sim_parameters)` (`esat_cli.py:45`, `simulator.py:98`): `outliers` is kept as given and later tested with
`if self.outliers`. -/
def simOutliers (outliers : String) : Bool := pyBoolStr outliers

/-! ### Plot commands -/

/-- The test at the beginning of `ModelAnalysis.plot_factor_profile`, `plot_g_space`, `plot_factor_surface` and
`ConstrainedModel.plot_profile_contributions` (`analysis.py:424,731,734,867`, `constrained.py:893`): the row of `H` that is
shown, `none` if only a message is logged. -/
def shownFactor (factors : ℕ) (idx : Int) : Option ℕ :=
  if idx > factors ∨ idx < 1 then none else some (idx - 1).toNat

/-- The default of `--factor_idx` in the plot commands (`esat_cli.py:579,680,1062`) and of `-x` (`:618`, `:1093`). -/
def cliDefaultFactor : Int := 0

/-- `DataHandler` as far as the analysis commands depend on it: the constructor reads the data but leaves `input_data_df`
as `None` (`datahandler.py:90,107-111`); `get_data` fills it through `_set_dataset` (`datahandler.py:121`). -/
structure DhState (D : Type*) where
  /-- raw data -/
  inputData : D
  /-- `input_data_df` -/
  inputDf : Option D

/-- The constructor. -/
def dhNew {D : Type*} (d : D) : DhState D := { inputData := d, inputDf := none }

/-- `get_data`; `process` is the selection of the usable features and rows. -/
def dhGetData {D : Type*} (process : D → D) (s : DhState D) : DhState D := { s with inputDf := some (process s.inputData) }

/-- `get_model_analysis` (`esat_cli.py:76-83`): the handler is created and passed on as is. -/
def cliAnalysisDh {D : Type*} (d : D) : DhState D := dhNew d

/-- Every analysis that begins by using `dh.input_data_df`: `calculate_statistics` (`analysis.py:144`),
`plot_estimated_observed` and `plot_estimated_timeseries` (through `aggregate_factors_for_plotting`, `analysis.py:69`),
`plot_factor_profile` (`analysis.py:450`) and `plot_factor_contributions` (`analysis.py:772`). Arithmetic or attribute access
on `None` raises. -/
def useInputDf {D R : Type*} (k : D → R) (s : DhState D) : Outcome R :=
  match s.inputDf with
  | none => .raised
  | some d => .ret (k d)

/-- `Group.add_command` of click: a mapping from command names to callbacks; a later registration replaces an earlier one.
`cmds` are the decorated functions in source order. -/
def cliLookup {F : Type*} (cmds : List (String × F)) (name : String) : Option F :=
  (cmds.reverse.find? (fun c => c.1 = name)).map Prod.snd

/-- The commands of the group `analysis_constrained` with the methods they call (`esat_cli.py:995-1126`). -/
def constrainedCommands : List (String × String) :=
  [("summary", "display_results"), ("plot-q", "plot_Q"), ("eval-constraints", "evaluate_constraints"),
   ("eval-expressions", "evaluate_expressions"), ("plot-contributions", "plot_profile_contributions"),
   ("plot-fingerprints", "plot_factor_fingerprints"), ("plot-gspace", "plot_g_space"),
   ("plot-contributions", "plot_factor_contributions")]

end Esat
