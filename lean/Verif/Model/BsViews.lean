import Verif.Model.ErrorSummary

/-!
# Model of the figures of a bootstrap

`Bootstrap._compile_results`, `summary`, `show_mapping_table`, `show_factor_results`, `plot_factor`, `plot_contribution`, `plot_results`
(`esat/error/bootstrap.py:490-496,570-595,609-732`), called in any order on one object. `base_H` is the profile matrix of the base model and
`show_factor_results` changes it in place (`Model/ErrorSummary.lean`, `showFactor`). A figure is the numbers it is given; the table of the statistics is in
`Model/Quantile.lean`, the table of Q values is left out. NaN is `none`.
-/

namespace Esat

variable {K : Type*} [Field K] [LinearOrder K] {k m n : ℕ}

/-- What `_compile_results` leaves (`bootstrap.py:490-568`): the mapping table and, by factor and run, the profiles and the contributions. -/
structure BsCompiled (k n : ℕ) (K : Type*) where
  /-- `mapping_df` -/
  mapping : MapTable k
  /-- `bs_profiles` -/
  profiles : Fin k → List (Fin n → Option K)
  /-- `bs_factor_contributions` -/
  contributions : Fin k → List (Fin n → K)

/-- `_compile_results` of the runs (`bootstrap.py:490-528,555-568`): each run has the mapping of its factors and its matrices. `eps = 1e-8`. -/
def bsCompileRuns (rnd : K → K) (eps : K) (table : MapTable k) (runs : List (Mat m k K × Mat k n K)) : BsCompiled k n K :=
  ⟨table, fun i => runs.map fun r j => bsProfile rnd eps r.2 i j, fun i => runs.map fun r j => bsContribution rnd eps r.1 r.2 i j⟩

/-- The bootstrap object as the views use it. -/
structure BsViewObj (m k n : ℕ) (K : Type*) where
  /-- `base_W` -/
  W : Mat m k K
  /-- `base_H`, the matrix of the base model itself -/
  H : Mat k n K
  /-- the results; `none` before `run` -/
  compiled : Option (BsCompiled k n K)

/-- The calls. -/
inductive BsView
  /-- `show_mapping_table` -/
  | mapping
  /-- `show_factor_results` -/
  | factor (f : ℤ)
  /-- `plot_factor` -/
  | profile (f : ℤ)
  /-- `plot_contribution` -/
  | contribution (f : ℤ)

/-- A figure. -/
inductive BsFigure (k n : ℕ) (K : Type*)
  /-- the mapping table: per row the counts, then the column `Unmapped` -/
  | mapping (counts : Fin k → Fin k → ℕ) (unmapped : Fin k → ℕ)
  /-- the statistics of a factor; the numbers are in `Model/Quantile.lean` -/
  | factor (f : Fin k)
  /-- one box per feature and the markers of the base model -/
  | boxes (title : ℤ) (box : Fin n → List (Option K)) (base : Fin n → Option K)

/-- How a call ends. -/
inductive BsShown (k n : ℕ) (K : Type*)
  /-- a message: no such factor -/
  | message
  /-- an exception -/
  | raised
  /-- a figure -/
  | shown (f : BsFigure k n K)

/-- One call: the object afterwards and how the call ends. `cut = 1e-5` and `floor = 1e-4`. Of an array without runs no column can be taken
(`f_data[:, i]`, `c_data[:, i]` raise). -/
def bsView (cut floor : K) (s : BsViewObj m k n K) : BsView → BsViewObj m k n K × BsShown k n K
  -- `bootstrap.py:586-595`: `None.columns` before `run`
  | .mapping =>
    match s.compiled with
    | none => (s, .raised)
    | some c => (s, .shown (.mapping c.mapping.counts c.mapping.unmapped))
  -- `bootstrap.py:609-647`: `self.factor_tables[factor]` is read before the profile is changed
  | .factor f =>
    match plotFactor k f, s.compiled with
    | none, _ => (s, .message)
    | some _, none => (s, .raised)
    | some i, some _ => ({ s with H := showFactor cut s.H f }, .shown (.factor i))
  -- `bootstrap.py:649-681`
  | .profile f =>
    match plotFactor k f, s.compiled with
    | none, _ => (s, .message)
    | some _, none => (s, .raised)
    | some i, some c =>
      if c.profiles i = [] ∧ 0 < n then (s, .raised)
      else (s, .shown (.boxes f (fun j => (c.profiles i).map fun r => (r j).map (100 * ·))
        fun j => if ∑ b, s.H b j = 0 then none else some (100 * (s.H i j / ∑ b, s.H b j))))
  -- `bootstrap.py:683-719`
  | .contribution f =>
    match plotFactor k f, s.compiled with
    | none, _ => (s, .message)
    | some _, none => (s, .raised)
    | some i, some c =>
      if c.contributions i = [] ∧ 0 < n then (s, .raised)
      else (s, .shown (.boxes f (fun j => (c.contributions i).map fun r => some (floorAt floor (r j)))
        fun j => some (floorAt floor (∑ t, s.W t i * s.H i j))))

/-- Calls one after the other (`plot_results`, `bootstrap.py:721-732`, is `plot_factor` and then `plot_contribution`; `summary`, `bootstrap.py:570-584`, is the
mapping table, the table of Q values and `show_factor_results` of the factors `1 … k`). An exception leaves the object as it is. -/
def bsViews (cut floor : K) : BsViewObj m k n K → List BsView → BsViewObj m k n K × List (BsShown k n K)
  | s, [] => (s, [])
  | s, v :: vs => ((bsViews cut floor (bsView cut floor s v).1 vs).1, (bsView cut floor s v).2 :: (bsViews cut floor (bsView cut floor s v).1 vs).2)

/-- `summary` without the table of Q values. -/
def bsSummaryViews (k : ℕ) : List BsView := .mapping :: (List.range k).map fun (i : ℕ) => .factor ((i : ℤ) + 1)

end Esat
