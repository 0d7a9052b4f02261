import Verif.Model.Pipeline
import Verif.Model.Simulator
import Verif.Model.Training
import Verif.Model.Batch
import Verif.Model.Float32

/-!
# Model of the example program (`esat/main.py`)

`generate_data` (7-51), `workflow` (58-73) and the lines that call them (76-82, 84-95): synthetic data, `DataHandler.load_dataframe`, `get_data`, `BatchSA`, `train`. The parts are those of the other model files; here
they are put together. Values of the tables are rational (every double is); the arrays of `get_data` are in single precision; the models are over the reals, without rounding. The random numbers are inputs.
Not modelled: the block length computed by `load_dataframe`, the memory profiler, the time limit, output.
-/

namespace Esat

section tables
variable {m n f : ℕ}

/-- `syn_columns` (`simulator.py:95`): `Feature 1`, `Feature 2`, … -/
def featureName (j : ℕ) : String := "Feature " ++ (j + 1).repr

/-- The columns of the frames (`simulator.py:272,275`); the dates are the index. -/
def simColumns (n : ℕ) : List String := (List.finRange n).map fun j => featureName j.1

/-- One row of a frame by column label. -/
def simRow (x : Fin n → ℚ) : FRow ℚ := fun c => .num (((List.finRange n).find? fun j => featureName j.1 = c).map x)

/-- `syn_data_df` and `syn_uncertainty_df` (`simulator.py:272-277`), row by row. -/
def simRows (V U : Mat m n ℚ) : List (FRow ℚ × FRow ℚ) := (List.finRange m).map fun i => (simRow (V i), simRow (U i))

/-- The outlier settings of `generate_data` (`main.py:17-19`). -/
def exampleCfg : OutlierCfg ℚ := ⟨true, 1 / 10, 5 / 4⟩

/-- `rng.random(...) * float(contribution_max)` with `contribution_max = 2` (`main.py:20`, `simulator.py:112`). -/
def exampleContributions (r : Mat m f ℚ) : Mat m f ℚ := fun i a => r i a * 2

/-- `generate_data` (`main.py:7-51`): `r` are the draws of the contributions, `sel` those of the profiles, `d` those of `_generate_data`. -/
def exampleData (r : Mat m f ℚ) (sel : Fin n → List (Fin f × ℚ)) (d : DataDraws m n ℚ) : Option (Mat m n ℚ × Mat m n ℚ) :=
  (generateProfiles f n none sel).bind fun H =>
    let g := generateData exampleCfg (exampleContributions r) H d
    if h : ∀ i j, (g i j).isSome then some (fun i j => ((g i j).get (h i j)).1, fun i j => ((g i j).get (h i j)).2) else none

/-- `load_dataframe(...)` and `get_data()` (`main.py:80-81`); `none` = an exception. -/
def exampleArrays (parse : String → Option ℚ) (V U : Mat m n ℚ) : Option (List (List (Option ℚ)) × List (List (Option ℚ))) :=
  (loadDataframe (simColumns n) (simColumns n) (simRows V U)).bind fun h => getData float32 parse (1 / 2 ^ 1022) h

end tables

section batch
variable {m n k : ℕ}

/-- The arrays as real numbers. -/
noncomputable def realRows (rows : List (List (Option ℚ))) : List (List (Option ℝ)) := rows.map fun r => r.map fun x => x.map fun q : ℚ => (q : ℝ)

/-- `np.sqrt`, NaN for negative numbers. -/
noncomputable def rootOf (x : ℝ) : Option ℝ := if x < 0 then none else some (Real.sqrt x)

/-- The objects of the batch. -/
abbrev ModelR (m n k : ℕ) := SA m n k ℝ (Option (FinalResults m n))

/-- `self.V` as numbers. -/
def dataOf (s : ModelR m n k) : Mat m n ℝ := fun i j => (s.V i j).getD 0

/-- `self.U` as numbers. -/
def uncOf (s : ModelR m n k) : Mat m n ℝ := fun i j => (((asShape m n s.U).map fun u => u i j).join).getD 0

/-- The call of the compiled function (`sa.py:401-421`): for "ls-nmf" and factors of the right shapes without NaN it is `lsTrain`; `other` stands for the remaining cases. Spoilt factors are NaN. -/
noncomputable def compiledRun (k : ℕ) (V U : Mat m n ℝ) (cfg : LoopCfg ℝ) (clock : ℕ → Bool)
    (other : Alg → DMat (Option ℝ) → DMat (PEntry ℝ) → Option (DMat (Option ℝ) × DMat (PEntry ℝ))) (alg : Alg) (W : DMat (Option ℝ)) (H : DMat (PEntry ℝ)) :
    Option (DMat (Option ℝ) × DMat (PEntry ℝ)) :=
  match alg, asShape m k W, asShape k n H with
  | .ls, some W', some H' =>
    let h : Mat k n (Option ℝ) := fun a j => PEntry.num? (H' a j)
    if anyNaN W' || anyNaN h then other .ls W H
    else
      let r := (lsTrain V U cfg clock false 0 (fun i a => (W' i a).getD 0) (fun a j => (h a j).getD 0)).factors
      some (⟨m, k, fun i a => r.1.map fun w => w i a⟩, ⟨k, n, fun a j => r.2.map fun h => ((h a j : ℝ) : WithTop ℝ)⟩)
  | alg, _, _ => other alg W H

/-- The settings of the training (`main.py:62-64`); `hold_h` and `delay_h` are passed by the batch. -/
noncomputable def exampleLoop (hold : Bool) (delay : ℤ) : LoopCfg ℝ := ⟨20000, 1 / 10, 25, hold, delay⟩

/-- Q as an attribute of a model. -/
def lossAttr (f : FinalResults m n → ℝ) (s : ModelR m n k) : QV ℝ :=
  match s.results with
  | none => .unset
  | some none => .nan
  | some (some r) => .val (f r)

/-- What `BatchSA` of `workflow` (`main.py:67-72`) uses of `SA`: construction with the arrays of `get_data` and `method="ls-nmf"`, `initialize` with `init_method="col_means"` and the draws belonging to the seed (`batch_sa.py:221-247`),
`train` with the compiled function, whose model number is a signed byte (`batch_sa.py:475-496`, `sa.py:401-425`), with `robust_alpha = 4`. -/
noncomputable def exampleEnv {α G : Type*} (D : List (List (Option ℚ)) × List (List (Option ℚ))) (draw : G → ℕ × G) (draws : ℕ → InitDraws m n k ℝ) (clock : ℕ → Bool)
    (wsU : Mat k n (Option ℝ) → Mat m k (Option ℝ)) (other : Alg → DMat (Option ℝ) → DMat (PEntry ℝ) → Option (DMat (Option ℝ) × DMat (PEntry ℝ))) :
    BatchEnv (ModelR m n k) α ℝ G where
  draw := draw
  init := fun seed _ _ =>
    ((modelOf m n k (realRows D.1, realRows D.2) "ls-nmf" : ModelR m n k).initialize rootOf wsU (defaultArgs (draws seed))).toOption
  train := i8Train fun _ hold delay s =>
    ((s.train (fun s => s.initialize rootOf wsU (defaultArgs (draws 0))) true (compiledRun k (dataOf s) (uncOf s) (exampleLoop hold delay) clock other)
      (finishOf k (dataOf s) (uncOf s) 4)).toOption).map Prod.fst
  qRobust := lossAttr FinalResults.Qrobust
  qTrue := lossAttr FinalResults.Qtrue

/-- The settings of the batch (`main.py:67-72`). -/
def exampleBatch (α : Type*) (models : ℕ) : BatchCfg α := ⟨models, none, none, false, -1, true, true⟩

end batch

end Esat
