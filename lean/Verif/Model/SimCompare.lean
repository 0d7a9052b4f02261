import Verif.Model.FactorCompare
import Mathlib.Algebra.Order.Floor.Ring

/-!
# Model of the comparison in the simulator and of reading PMF5 output

`Simulator.compare`, `plot_comparison`, `plot_profile_comparison` (`eval/simulator.py:312-515`): which figures are shown and what is in them;
`FactorCompare.load_pmf_output` (`eval/factor_comparison.py:93-200`), the table `WH` of `_parse_sa_output` (232-237). Factors are numbered from
zero: the number in the name `Factor i` less one. Layout and colours of the figures are left out, except that a colour is looked up in a list of
100.
-/

namespace Esat

/-! ### `Simulator.compare` -/

/-- The two attributes that `compare` sets. -/
structure CmpState (B C : Type*) where
  /-- `batch_sa` -/
  batch : Option B
  /-- `factor_compare` -/
  cmp : Option C

/-- A call of `compare`. -/
inductive CmpCall (B : Type*)
  /-- without `selected_model` -/
  | search (b : B)
  /-- with `selected_model` -/
  | select (b : B) (i : ℕ)

/-- The steps of `compare`. -/
structure CmpEnv (B C : Type*) where
  /-- `FactorCompare(…)`, `none` = exception -/
  construct : B → Option C
  /-- `factor_compare.compare()`: the new state of the object, false = exception -/
  run : C → C × Bool
  /-- `factor_compare.best_model` -/
  best : C → Option ℕ
  /-- `batch_sa.best_model` -/
  batchBest : B → Option ℕ
  /-- `print_results(model=…)` works -/
  printable : C → Option ℕ → Bool

/-- `compare` (`simulator.py:331-356`); the flag is false after an exception. -/
def simCompare {B C : Type*} (E : CmpEnv B C) (call : CmpCall B) (s : CmpState B C) : CmpState B C × Bool :=
  match call with
  | .search b =>
    match E.construct b with
    | none => (⟨some b, s.cmp⟩, false)
    | some c =>
      (⟨some b, some (E.run c).1⟩,
        if (E.run c).2 then if E.best (E.run c).1 = E.batchBest b then true else E.printable (E.run c).1 (E.batchBest b) else false)
  | .select b i =>
    match s.cmp with
    | none => (⟨some b, none⟩, false)
    | some c => (⟨some b, some c⟩, E.printable c (some i))

/-- Several calls, whether or not they raise. -/
def simCalls {B C : Type*} (E : CmpEnv B C) (calls : List (CmpCall B)) (s : CmpState B C) : CmpState B C :=
  calls.foldl (fun s c => (simCompare E c s).1) s

/-! ### The figures -/

section fig
variable {K : Type*} [Field K] [LinearOrder K] [FloorRing K]

/-- What the figures use of a finished comparison. -/
structure CmpView (K : Type*) where
  /-- `base_k` -/
  baseK : Bool
  /-- `best_model` -/
  best : Option ℕ
  /-- `model_results`: for each factor the entry of `factor_map` and of `best_factor_r` -/
  results : ℕ → Option (List (ℕ × K))

/-- What the figures use of a batch: for each result the number of factors, `none` = no result. -/
abbrev BatchView := List (Option ℕ)

/-- One figure: model number, synthetic factor, model factor, squared correlation. -/
structure SimPanel (K : Type*) where
  /-- `model_i` -/
  model : ℕ
  /-- `syn_i` -/
  syn : ℕ
  /-- `mod_i` -/
  mod : ℕ
  /-- `i_r2` -/
  r : K
  deriving DecidableEq

/-- The loop over the factors (`simulator.py:422-460`, `475-513`), from factor `i` on: each figure is shown before the next one is built. With
`profile` a colour is looked up: `r_color_map[int(100 * i_r2)]`. -/
def simPanels (profile : Bool) (baseK : Bool) (m synSize size : ℕ) : ℕ → List (ℕ × K) → List (SimPanel K) × Bool
  | _, [] => ([], true)
  | i, (f, r) :: l =>
    let syn := if baseK then f else i
    let mod := if baseK then i else f
    if syn < synSize ∧ mod < size ∧ (profile = true → ⌊100 * r⌋ < 100) then
      let t := simPanels profile baseK m synSize size (i + 1) l
      (⟨m, syn, mod, r⟩ :: t.1, t.2)
    else ([], false)

/-- `if not model_i: model_i = self.factor_compare.best_model` (`simulator.py:392-393`, `473-474`). -/
def simModel (model best : Option ℕ) : Option ℕ :=
  match model with
  | some (i + 1) => some (i + 1)
  | _ => best

/-- `plot_comparison` (`profile` false, `simulator.py:378-460`) and `plot_profile_comparison` (`profile` true, `462-515`) with
`factors` synthetic factors: the figures shown, and false after an exception. -/
def simPlot (profile : Bool) (factors : ℕ) (model : Option ℕ) (s : CmpState BatchView (CmpView K)) : List (SimPanel K) × Bool :=
  match s.batch with
  | none => ([], true)
  | some b =>
    match s.cmp with
    | none => ([], false)
    | some c =>
      match simModel model c.best with
      | none => ([], false)
      | some m =>
        match c.results m, b[m]? with
        | some e, some (some size) =>
          if profile = true ∧ factors = 1 then ([], false) else simPanels profile c.baseK m factors size 0 e
        | _, _ => ([], false)

/-- What the figures see of `compareFactors`: `best_factor_r` holds the squared correlations of the profiles. -/
def cmpView (t : ℕ → CorrTables K) (res : CompareResult K) : CmpView K where
  baseK := res.baseK
  best := some res.model
  results m := (res.results m).map fun ap =>
    ap.2.mapIdx fun i f => (f, ((if res.baseK then (t m).h f i else (t m).h i f).getD 0))

/-- `100 * (H / H.sum(axis=0))` (`simulator.py:403-407`); `none` = NaN or infinity. -/
def normProfiles {k n : ℕ} (H : Mat k n K) : Fin k → Fin n → Option K := fun a j =>
  if ∑ b, H b j = 0 then none else some (100 * (H a j / ∑ b, H b j))

/-- `100 * (W / W.sum(axis=0))` (`simulator.py:409-412`). -/
def normContributions {m k : ℕ} (W : Mat m k K) : Fin m → Fin k → Option K := fun i a =>
  if ∑ l, W l a = 0 then none else some (100 * (W i a / ∑ l, W l a))

end fig

/-! ### PMF5 output -/

/-- The lists that the first loop of `load_pmf_output` fills (`factor_comparison.py:129-159`). -/
structure PmfParse where
  /-- `column_labels` -/
  labels : Option (List String)
  /-- `pmf_profiles` -/
  profiles : List (List String)
  /-- `pmf_profile_p` -/
  percent : List (List String)
  /-- `pmf_profile_t` -/
  total : List (List String)
  /-- `j` -/
  j : ℕ

/-- One line, already split at the tabs (`factor_comparison.py:145-159`). -/
def pmfLine (factors n : ℕ) (s : PmfParse) (row : List String) : PmfParse :=
  if row.length = factors + 2 then
    match row with
    | "" :: "" :: rest => { s with labels := some ("run" :: "species" :: rest) }
    | _ =>
      if s.j < n then { s with profiles := s.profiles ++ [row], j := s.j + 1 }
      else if s.j < 2 * n then { s with percent := s.percent ++ [row], j := s.j + 1 }
      else if s.j < 3 * n then { s with total := s.total ++ [row], j := s.j + 1 }
      else { s with j := s.j + 1 }
  else s

/-- The whole profile file. -/
def pmfParse (factors n : ℕ) (rows : List (List String)) : PmfParse := rows.foldl (pmfLine factors n) ⟨none, [], [], [], 0⟩

/-- What `load_pmf_output` does. -/
inductive PmfOutcome
  /-- a file is missing: a message, and `None` is returned -/
  | nothing
  /-- an exception -/
  | raised
  /-- a `FactorCompare` object whose base factors have these names -/
  | built (factors : List String)
  deriving DecidableEq

/-- `load_pmf_output` (`factor_comparison.py:93-200`) on the lines of the two files, split at the tabs; `none` = the file does not exist.
`astype` tells whether the conversions to numbers work, and `later` whether the rest of the constructor does. The constructor takes every column
of the profile table for a factor (66) and looks it up among the contributions (205). -/
def loadPmf (factors n : ℕ) (astype later : Bool) (profileFile contributionFile : Option (List (List String))) : PmfOutcome :=
  match profileFile, contributionFile with
  | none, _ => .nothing
  | _, none => .nothing
  | some p, some c =>
    match (pmfParse factors n p).labels with
    | none => .raised
    | some labels =>
      let columns := labels.filter (· ≠ "run")
      match c[3]? with
      | none => .raised
      | some header =>
        let contributions := header.drop 2 ++ ["Datetime"]
        if astype = true ∧ (∀ f ∈ columns, f ∈ contributions) ∧ later = true then .built columns else .raised

/-- The table `WH` of `_parse_sa_output` (`factor_comparison.py:231-236`): the product of shape (m, n) is read row by row into shape (n, m)
and then transposed. -/
def storedWH {K : Type*} {m n : ℕ} (WH : Mat m n K) : Mat m n K := fun i j =>
  WH ⟨(j.1 * m + i.1) / n, by
    have := i.2; have := j.2
    rw [Nat.div_lt_iff_lt_mul (by omega)]
    calc j.1 * m + i.1 < j.1 * m + m := by omega
      _ = (j.1 + 1) * m := by ring
      _ ≤ n * m := Nat.mul_le_mul_right _ (by omega)
      _ = m * n := Nat.mul_comm _ _⟩ ⟨(j.1 * m + i.1) % n, Nat.mod_lt _ (by have := j.2; omega)⟩

end Esat
