import Verif.Model.CliData

/-!
# Model of the commands that write configuration files

`setup`, `simulator setup`, `setup_error`, `setup_constrained` and `get_config` (`esat/cli/esat_cli.py:55-66,142-165,176-207,705-720,906-922`)
with the configurations of `esat/configs.py`. The configurations are objects of the module: `new_config = run_config` names the same object, so
what one command sets is still set when the next command of the same process runs (the commands are functions that can also be called
from Python, and `click` runs several of them in one process in a test runner or a script).

Only the entries that the commands set are modelled; all others are the constants of `configs.py`. The content of a file is the configuration
itself: writing a file and reading it back is taken to be the identity (configparser removes blanks at the ends of a value when it reads).
`accepts` says which values configparser takes: a value with a single `%` is refused with a `ValueError`. Both are modelled in `Model/ConfigText.lean`.
-/

namespace Esat

/-- The entries of `run_config` that commands set (`configs.py:37-46`). -/
structure RunConf where
  /-- `project.directory` -/
  directory : String
  /-- `data.input_path` -/
  input : String
  /-- `data.uncertainty_path` -/
  uncertainty : String
  deriving DecidableEq

/-- A configuration file. -/
inductive ConfFile
  /-- `run_config.toml` -/
  | run (c : RunConf)
  /-- `sim_config.toml` (`configs.py:5-12`): the directory, the two data files -/
  | sim (directory input uncertainty : String)
  /-- `error_config.toml`: `project_config` (`configs.py:67-72`) -/
  | error (projectConfig : String)
  /-- `constrained_config.toml`: `project_config` (`configs.py:94-97`) -/
  | constrained (projectConfig : String)
  /-- a file that was opened for writing and not written -/
  | empty
  deriving DecidableEq

/-- The configurations of a process. -/
structure SetupProc where
  /-- `run_config` -/
  run : RunConf
  /-- `sim_config["project"]["directory"]` -/
  simDir : String
  /-- `error_config["project"]["project_config"]` -/
  errProject : String
  /-- `constrained_config["project"]["project_config"]` -/
  conProject : String
  deriving DecidableEq

/-- After the import of `configs.py` (`configs.py:6-12,38-46,68-72,95-97`). -/
def SetupProc.fresh : SetupProc := ⟨⟨".", "", ""⟩, ".", "", ""⟩

/-- The commands. -/
inductive SetupCmd
  /-- `setup` -/
  | run (dir : String)
  /-- `simulator setup` -/
  | sim (dir : String)
  /-- `setup-error` -/
  | error (dir : String)
  /-- `setup-constrained` -/
  | constrained (dir : String)
  deriving DecidableEq

/-- How a command ends. -/
inductive SetupEnd
  /-- the file is written -/
  | done
  /-- the directory cannot be made: a message (`esat_cli.py:156-158,190-192`) -/
  | message
  /-- an exception -/
  | raised
  /-- `click` refuses the argument: the path does not exist (`esat_cli.py:706,907`) -/
  | usage
  deriving DecidableEq

/-- How `os.mkdir` ends. -/
inductive MkdirEnd
  /-- the directory is made -/
  | made
  /-- `FileNotFoundError` -/
  | notFound
  /-- another exception -/
  | raised
  deriving DecidableEq

/-- What the commands depend on. -/
structure SetupEnv (L : Type*) where
  /-- platform -/
  P : Platform L ConfFile
  /-- `os.mkdir` of a path that does not exist -/
  mkdir : (L → Option (Node ConfFile)) → L → MkdirEnd
  /-- whether configparser accepts a value -/
  accepts : String → Bool

variable {L : Type*} [DecidableEq L]

/-- The directory part of `setup` and `simulator setup` (`esat_cli.py:153-158,187-192`); `done` = the command goes on. -/
def setupDir (E : SetupEnv L) (fs : L → Option (Node ConfFile)) (dir : String) : (L → Option (Node ConfFile)) × SetupEnd :=
  if (fs (E.P.res dir)).isNone then
    match E.mkdir fs (E.P.res dir) with
    | .made => (fun l => if l = E.P.res dir then some .dir else fs l, .done)
    | .notFound => (fs, .message)
    | .raised => (fs, .raised)
  else (fs, .done)

/-- `with open(file, 'w') as configfile: config.write(configfile)`. -/
def setupWrite (E : SetupEnv L) (fs : L → Option (Node ConfFile)) (dir name : String) (c : ConfFile) :
    (L → Option (Node ConfFile)) × Bool :=
  writeFile E.P .empty fs (E.P.join dir name) (some c)

/-- A command in a process. -/
def setupCmd (E : SetupEnv L) (p : SetupProc) (fs : L → Option (Node ConfFile)) :
    SetupCmd → SetupProc × (L → Option (Node ConfFile)) × SetupEnd
  -- `esat_cli.py:142-165`
  | .run d =>
    match setupDir E fs d with
    | (fs, .done) =>
      if E.accepts d then
        let p := { p with run := { p.run with directory := d } }
        match setupWrite E fs d "run_config.toml" (.run p.run) with
        | (fs, true) => (p, fs, .done)
        | (fs, false) => (p, fs, .raised)
      else (p, fs, .raised)
    | (fs, e) => (p, fs, e)
  -- `esat_cli.py:176-207`
  | .sim d =>
    match setupDir E fs d with
    | (fs, .done) =>
      if E.accepts d then
        let p := { p with simDir := d }
        match setupWrite E fs d "sim_config.toml" (.sim p.simDir "synthetic_data.csv" "synthetic_uncertainty.csv") with
        | (fs, true) =>
          let p := { p with run := ⟨d, "synthetic_data.csv", "synthetic_uncertainty.csv"⟩ }
          match setupWrite E fs d "run_config.toml" (.run p.run) with
          | (fs, true) => (p, fs, .done)
          | (fs, false) => (p, fs, .raised)
        | (fs, false) => (p, fs, .raised)
      else (p, fs, .raised)
    | (fs, e) => (p, fs, e)
  -- `esat_cli.py:705-720`
  | .error d =>
    if (fs (E.P.res d)).isNone then (p, fs, .usage)
    else if E.accepts (E.P.join d "run_config.toml") then
      let p := { p with errProject := E.P.join d "run_config.toml" }
      match setupWrite E fs d "error_config.toml" (.error p.errProject) with
      | (fs, true) => (p, fs, .done)
      | (fs, false) => (p, fs, .raised)
    else (p, fs, .raised)
  -- `esat_cli.py:906-922`
  | .constrained d =>
    if (fs (E.P.res d)).isNone then (p, fs, .usage)
    else if E.accepts (E.P.join d "run_config.toml") then
      let p := { p with conProject := E.P.join d "run_config.toml" }
      match setupWrite E fs d "constrained_config.toml" (.constrained p.conProject) with
      | (fs, true) => (p, fs, .done)
      | (fs, false) => (p, fs, .raised)
    else (p, fs, .raised)

/-- Commands one after the other in one process, with how each one ends; what was done before an exception stays. -/
def setupRun (E : SetupEnv L) : SetupProc → (L → Option (Node ConfFile)) → List SetupCmd →
    SetupProc × (L → Option (Node ConfFile)) × List SetupEnd
  | p, fs, [] => (p, fs, [])
  | p, fs, c :: cs =>
    let r := setupCmd E p fs c
    let s := setupRun E r.1 r.2.1 cs
    (s.1, s.2.1, r.2.2 :: s.2.2)

/-- Every command in a process of its own. -/
def setupSeparate (E : SetupEnv L) : (L → Option (Node ConfFile)) → List SetupCmd → (L → Option (Node ConfFile)) × List SetupEnd
  | fs, [] => (fs, [])
  | fs, c :: cs =>
    let r := setupCmd E .fresh fs c
    let s := setupSeparate E r.2.1 cs
    (s.1, r.2.2 :: s.2)

/-- `get_config` (`esat_cli.py:55-66`): `none` = no section. `config.read` skips a file that cannot be opened. -/
def getConfig (E : SetupEnv L) (fs : L → Option (Node ConfFile)) (dir : String) (error constrained sim : Bool) : Option ConfFile :=
  let name := if error then "error_config.toml" else if constrained then "constrained_config.toml"
    else if sim then "sim_config.toml" else "run_config.toml"
  match fs (E.P.res (E.P.join dir name)) with
  | some (.file .empty) => none
  | some (.file c) => some c
  | _ => none

/-- The constructor of the data handler in the commands of `analysis-input` and, without `sim_config.toml`, in `run` and `estimate`
(`esat_cli.py:359-361,378-379,398-399,416-417,433-441,464-473`): `config["data"]` raises without the section; the paths are used as they are, and
`index_col` is the text `0` (`configs.py:45`). `files` are the tables of the existing data files. Another configuration under the name `run_config.toml` is
not modelled (`raised`). -/
def inputFromConfig {C : Type*} (E : SetupEnv L) (fs : L → Option (Node ConfFile)) (dir : String) (files : String → Option (Table C)) :
    Opened C :=
  match getConfig E fs dir false false false with
  | some (.run c) => openData files c.input c.uncertainty (cliIndexArg "0")
  | _ => .raised

end Esat
