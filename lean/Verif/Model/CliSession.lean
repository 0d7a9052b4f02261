import Verif.Model.Cli
import Verif.Model.SaveErrors
import Verif.Model.Constrained

/-!
# Model of sessions with the command line

Sequences of the commands of `esat/cli/esat_cli.py` (`setup`, `simulator`, `run`, `run-error`, `run-constrained` and the views of errors and of constrained
models) together with what a user does to the files in between. A file holds a text or a pickled object; of an object only its class is kept, which decides the
attributes it has. What the commands compute is arbitrary (arguments of the actions; `none` = an exception). The `save` methods are those of `Model/SaveLoad.lean`,
`Model/SaveErrors.lean` and `Model/Constrained.lean`. `os.mkdir` inside an existing project directory succeeds.
-/

namespace Esat

/-- The classes whose objects the package pickles; `other` stands for every other object a file may hold. -/
inductive PyObj
  /-- `SA` -/
  | sa
  /-- `BatchSA` -/
  | batch
  /-- `Displacement` -/
  | disp
  /-- `Bootstrap` -/
  | boot
  /-- `BSDISP` -/
  | bsdisp
  /-- `Simulator` -/
  | sim
  /-- `ConstrainedModel` -/
  | constrained
  /-- without any of the attributes below -/
  | other
  deriving DecidableEq

/-- The public methods of the classes (`sa.py:58-586`, `batch_sa.py:72-471`, `displacement.py:55-723`, `bootstrap.py:61-828`, `bs_disp.py:65-480`,
`simulator.py:72-592`, `constrained.py:138-1216`) and the attributes that the commands read from loaded objects. -/
def PyObj.attrs : PyObj → List String
  | .sa => ["initialize", "summary", "train", "save", "load"]
  | .batch => ["details", "train", "save", "load", "best_model", "results"]
  | .disp => ["run", "summary", "plot_results", "plot_profile", "plot_contribution", "save", "load"]
  | .boot => ["map_factors", "map_contributions", "run", "summary", "show_mapping_table", "show_q_table", "show_factor_results", "plot_factor",
      "plot_contribution", "plot_results", "save", "load"]
  | .bsdisp => ["run", "summary", "plot_results", "plot_profile", "plot_contribution", "save", "load"]
  | .sim => ["generate_profiles", "update_contribution", "get_data", "compare", "plot_synthetic_contributions", "plot_comparison",
      "plot_profile_comparison", "save", "load"]
  | .constrained => ["add_constraint", "remove_constraint", "list_constraints", "add_expression", "list_expressions", "remove_expression", "train",
      "display_results", "plot_Q", "evaluate_constraints", "evaluate_expressions", "plot_profile_contributions", "plot_profile", "plot_contributions",
      "plot_factor_fingerprints", "plot_g_space", "plot_factor_contributions", "save", "load", "constrained_model"]
  | .other => []

/-- The content of a file. -/
inductive Blob
  /-- what `pickle.dump` writes -/
  | pickled (o : PyObj)
  /-- anything else -/
  | text (s : String)
  deriving DecidableEq

/-- `pickle.load`; `readText` tells what happens for a file that `pickle.dump` did not write. -/
def unpickleBlob (readText : String → Unpickled PyObj) : Blob → Unpickled PyObj
  | .pickled o => .ok o
  | .text s => readText s

/-- The texts of a model as contents of files. -/
def SavedModel.blobs (x : SavedModel String) : SavedModel Blob :=
  ⟨.text x.metadata, x.H.map .text, x.W.map .text, x.WH.map .text, x.residuals.map .text⟩

/-- The texts of a displacement. -/
def DispFiles.blobs (x : DispFiles String) : DispFiles Blob :=
  ⟨.text x.metadata, .text x.increase, .text x.decrease, .text x.swap, x.compiled.map .text⟩

/-- The texts of a bootstrap. -/
def BsFiles.blobs (x : BsFiles String) : BsFiles Blob :=
  ⟨.text x.metadata, .text x.results, x.mapping.map .text, x.qtable.map .text, .text x.ftables, .text x.profiles, .text x.contributions⟩

/-- The texts of a BS-DISP. -/
def BsDispFiles.blobs (x : BsDispFiles String (BsFiles String) (DispFiles String)) : BsDispFiles Blob (BsFiles String) (DispFiles String) :=
  ⟨.text x.metadata, x.bootstrap, x.runs, x.compiled.map .text⟩

section
variable {L : Type*} [DecidableEq L]

/-- An attribute of a loaded object; `None` has none of them. -/
def loadedAttr (r : Outcome (Option PyObj)) (a : String) : Outcome PyObj :=
  match r with
  | .ret (some o) => if a ∈ o.attrs then .ret o else .raised
  | _ => .raised

/-- A command of the group `analysis-constrained` (`esat_cli.py:102-106,986-1126`): the object whose method runs and the method. -/
def constrainedView (P : Platform L Blob) (readText : String → Unpickled PyObj) (fs : L → Option (Node Blob)) (dir name cmd : String) :
    Outcome (PyObj × String) :=
  match cliLookup constrainedCommands cmd with
  | none => .raised
  | some method =>
    match loadedAttr (objLoad P (unpickleBlob readText) fs (constrainedPathAnalysis P dir name)) method with
    | .ret o => .ret (o, method)
    | .raised => .raised

/-- `analysis-error summary` and `error-results` (`esat_cli.py:846-903`): nothing is shown without all flags; `method` is `summary` or `plot_results`. -/
def errorView (P : Platform L Blob) (readText : String → Unpickled PyObj) (fs : L → Option (Node Blob)) (dir name : String) (disp bs bsdisp : Bool)
    (method : String) : Outcome (Option PyObj) :=
  match errorShown disp bs bsdisp with
  | none => .ret none
  | some m =>
    match loadedAttr (objLoad P (unpickleBlob readText) fs (errorPath P m dir name)) method with
    | .ret o => .ret (some o)
    | .raised => .raised

/-- What `run-error` reads and computes. -/
structure ErrorRun where
  /-- the project directory -/
  dir : String
  /-- `project.name` -/
  name : String
  /-- `--disp` -/
  disp : Bool
  /-- `--bs` -/
  bs : Bool
  /-- `--bsdisp` -/
  bsdisp : Bool
  /-- the configurations and the data can be read -/
  ready : Bool
  /-- `constrained_config` of the error configuration -/
  constrainedConfig : String
  /-- the chosen model of the batch exists -/
  chosen : Bool
  /-- the displacement after `run` -/
  dispOut : Option (DispFiles String)
  /-- the bootstrap after `run` -/
  bsOut : Option (BsFiles String)
  /-- the BS-DISP after `run` -/
  bsdispOut : Option (BsDispFiles String (BsFiles String) (DispFiles String))

/-- Saving twice, first as a pickle and then as texts; the return values are not used. -/
def saveTwice (f : (L → Option (Node Blob)) → Bool → (L → Option (Node Blob)) × Outcome (Option String)) (fs : L → Option (Node Blob)) :
    (L → Option (Node Blob)) × Outcome Unit :=
  match f fs true with
  | (fs1, .raised) => (fs1, .raised)
  | (fs1, .ret _) =>
    match f fs1 false with
    | (fs2, .raised) => (fs2, .raised)
    | (fs2, .ret _) => (fs2, .ret ())

/-- One method after another; an exception ends the command. -/
def andThen (r : (L → Option (Node Blob)) × Outcome Unit) (f : (L → Option (Node Blob)) → (L → Option (Node Blob)) × Outcome Unit) :
    (L → Option (Node Blob)) × Outcome Unit :=
  match r with
  | (fs, .ret _) => f fs
  | (fs, .raised) => (fs, .raised)

/-- One of the three methods (`esat_cli.py:765-836`): skipped without its flag, otherwise run and saved. -/
def errorStage {α : Type*} (flag : Bool) (out : Option α)
    (save : α → (L → Option (Node Blob)) → Bool → (L → Option (Node Blob)) × Outcome (Option String)) (fs : L → Option (Node Blob)) :
    (L → Option (Node Blob)) × Outcome Unit :=
  if flag then
    match out with
    | none => (fs, .raised)
    | some x => saveTwice (save x) fs
  else (fs, .ret ())

/-- The model that `run-error` works on can be obtained (`esat_cli.py:754-763`). -/
def errorModel (P : Platform L Blob) (readText : String → Unpickled PyObj) (fs : L → Option (Node Blob)) (r : ErrorRun)
    (loadedBatch : Outcome (Option PyObj)) : Bool :=
  if r.constrainedConfig ≠ "" then
    match loadedAttr (objLoad P (unpickleBlob readText) fs (constrainedPathError P r.dir r.name)) "constrained_model" with
    | .ret _ => true
    | .raised => false
  else
    match loadedAttr loadedBatch "results" with
    | .ret _ => r.chosen
    | .raised => false

/-- `run-error` (`esat_cli.py:723-836`). -/
def cliRunError (P : Platform L Blob) (readText : String → Unpickled PyObj) (fs : L → Option (Node Blob)) (r : ErrorRun) :
    (L → Option (Node Blob)) × Outcome Unit :=
  if !(r.disp || r.bs || r.bsdisp) then (fs, .ret ())
  else if r.ready then
    let d := P.join r.dir "error"
    match objLoad P (unpickleBlob readText) fs (batchPathRun P r.dir r.name) with
    | .raised => (fs, .raised)
    | b =>
      let fs0 := ensureDir P fs d
      if errorModel P readText fs0 r b then
        andThen (andThen
          (errorStage r.disp r.dispOut (fun x fs pk =>
            dispSave P (.text "") (fun _ => .pickled .disp) DispFiles.blobs fs x (errFile .disp r.name) d pk) fs0)
          (errorStage r.bs r.bsOut (fun x fs pk =>
            bsSave P (.text "") (fun _ => .pickled .boot) BsFiles.blobs fs x (errFile .bs r.name) d pk)))
          (errorStage r.bsdisp r.bsdispOut (fun x fs pk =>
            bsdispSave P (.text "") (fun _ => .pickled .bsdisp) (fun _ => .pickled .boot) BsFiles.blobs (fun _ => .pickled .disp) DispFiles.blobs
              BsDispFiles.blobs fs x (errFile .bsdisp r.name) d pk))
      else (fs0, .raised)
  else (fs, .raised)

/-- `run` (`esat_cli.py:451-483`): `out` are the models of the trained batch. -/
def cliRun (P : Platform L Blob) (fs : L → Option (Node Blob)) (cfgDir name : String) (out : Option (List (Option (SavedModel String)))) :
    (L → Option (Node Blob)) × Outcome Unit :=
  match out with
  | none => (fs, .raised)
  | some results =>
    let d := P.join cfgDir "output"
    saveTwice (fun fs pb => batchSave P (.text "") (fun _ : Unit => .pickled .batch) (fun _ => .pickled .sa) fs ()
      (results.map fun r => r.map SavedModel.blobs) name d false pb true) (ensureDir P fs d)

/-- `run-constrained` (`esat_cli.py:925-983`): `out` is the result of the training, `none` = an exception, `some none` = no constrained model; the texts are
those of the solution and of the metadata. -/
def cliRunConstrained (P : Platform L Blob) (readText : String → Unpickled PyObj) (fs : L → Option (Node Blob)) (dir name : String)
    (out : Option (Option (SavedModel String × String))) : (L → Option (Node Blob)) × Outcome Unit :=
  match loadedAttr (objLoad P (unpickleBlob readText) fs (batchPathRun P dir name)) "results", out with
  | .raised, _ => (fs, .raised)
  | .ret _, none => (fs, .raised)
  | .ret _, some none => (fs, .ret ())
  | .ret _, some (some (x, metaText)) =>
    let d := P.join dir "constrained"
    saveTwice (fun fs pk => cSave P (.text "") (fun _ => .pickled .sa) (.text metaText) fs (some x.blobs) name d pk) (ensureDir P fs d)

/-- What happens in a session: the commands that write files, and what a user does to files. -/
inductive CliAct
  /-- a configuration command, an editor or another program writes a text -/
  | write (path text : String)
  /-- a directory is made -/
  | mkdir (path : String)
  /-- a file or an empty directory is removed -/
  | delete (path : String)
  /-- a file is copied -/
  | copy (src dst : String)
  /-- `simulator generate`, `simulator compare`, and `run` with a simulator: the simulator is saved (`esat_cli.py:41-52,262`) -/
  | simulator (dir : String) (tables : String × String × String × String)
  /-- `run` -/
  | run (cfgDir name : String) (out : Option (List (Option (SavedModel String))))
  /-- `run-error` -/
  | runError (r : ErrorRun)
  /-- `run-constrained` -/
  | runConstrained (dir name : String) (out : Option (Option (SavedModel String × String)))

/-- The files after an action. -/
def cliAct (P : Platform L Blob) (readText : String → Unpickled PyObj) (fs : L → Option (Node Blob)) : CliAct → L → Option (Node Blob)
  | .write p s => (writeFile P (.text "") fs p (some (.text s))).1
  | .mkdir p => ensureDir P fs p
  | .delete p => fun l => if l = P.res p then none else fs l
  | .copy p q => match fs (P.res p) with
    | some (.file c) => (writeFile P (.text "") fs q (some c)).1
    | _ => fs
  | .simulator d t =>
    (simSave P (.text "") (fun _ : Unit => .pickled .sim) (fun _ => (.text t.1, .text t.2.1, .text t.2.2.1, .text t.2.2.2)) fs () "synthetic" d).1
  | .run d n out => (cliRun P fs d n out).1
  | .runError r => (cliRunError P readText fs r).1
  | .runConstrained d n out => (cliRunConstrained P readText fs d n out).1

/-- A session. -/
def cliSession (P : Platform L Blob) (readText : String → Unpickled PyObj) (fs : L → Option (Node Blob)) (as : List CliAct) :
    L → Option (Node Blob) :=
  as.foldl (cliAct P readText) fs

end

end Esat
