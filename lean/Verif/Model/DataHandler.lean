import Verif.Model.PyDict
import Mathlib.Algebra.Order.Field.Basic
import Mathlib.Algebra.Order.Group.Abs
import Mathlib.Order.WithBot

/-!
# Model of the data handler (`esat/data/datahandler.py`)

`DataHandler`: loading of existing frames (`_load_data`, 377-415), `set_category` (124-150), `get_data` / `_set_dataset`
(113-122, 282-341), `split_locations` (152-202), `merge` (204-257), the plot frames (`_aggregate_data`, 437-467).

Simplifications: the data and the uncertainty frame share their row index, so rows are pairs; column names of one frame are
distinct; numbers are elements of an ordered field, NaN is `none`, infinities are not modelled; conversion to `float32` is a
function `f32`. File reading, plots and the optimal block size are not part of this model.
-/

namespace Esat

/-- One cell of a data frame: a number (`none` = NaN) or a text. -/
inductive Cell (K : Type*)
  /-- a number -/
  | num (v : Option K)
  /-- a text -/
  | text (s : String)

/-- One row of a frame, by column name. -/
abbrev FRow (K : Type*) := String → Cell K

/-- Feature categories. -/
inductive Category
  /-- unchanged -/
  | strong
  /-- uncertainty tripled -/
  | weak
  /-- excluded -/
  | bad
  deriving DecidableEq

/-- The attributes used here. -/
structure Handler (K : Type*) where
  /-- `input_data.columns` -/
  vcols : List String
  /-- `uncertainty_data.columns` -/
  ucols : List String
  /-- rows of both frames -/
  rows : List (FRow K × FRow K)
  /-- `drop_col` -/
  dropCol : Option (List String)
  /-- `loc_cols` (a single name is turned into a list, `datahandler.py:164-165,294-295`) -/
  locCols : Option (List String)
  /-- the `Category` column of `metrics` -/
  metrics : PyDict String Category

section load
variable {K : Type*}

/-- NaN test of a cell. -/
def Cell.isNaN : Cell K → Bool
  | .num none => true
  | _ => false

/-- A cell holding a text. -/
def Cell.isText : Cell K → Bool
  | .text _ => true
  | _ => false

/-- `frame.isna().all(axis=1)` for one row. -/
def allNaN (cols : List String) (r : FRow K) : Bool := cols.all fun c => (r c).isNaN

/-- `_load_data` on frames (`datahandler.py:390-393,408-415`): rows that are all NaN in one of the frames are dropped, every
column of the data becomes a strong feature. This is the handler after a call that did not raise; see `loadDataframe` for the
exceptions. -/
def loadFrames (vcols ucols : List String) (rows : List (FRow K × FRow K)) (dropCol locCols : Option (List String)) : Handler K :=
  ⟨vcols, ucols, rows.filter fun r => !(allNaN vcols r.1 || allNaN ucols r.2), dropCol, locCols, vcols.map fun c => (c, .strong)⟩

/-- `load_dataframe` (`datahandler.py:881-902`); `none` = an exception of `_load_data`: frames with different columns cannot be
compared (`datahandler.py:404`, `ValueError`), texts cannot be subtracted (403, `TypeError`), and without rows the
signal to noise ratio divides by zero (406, `ZeroDivisionError`). -/
def loadDataframe (vcols ucols : List String) (rows : List (FRow K × FRow K)) : Option (Handler K) :=
  let h := loadFrames vcols ucols rows none none
  if vcols ≠ ucols ∨ (h.rows.any fun r => vcols.any fun c => (r.1 c).isText || (r.2 c).isText) ∨ h.rows = [] then none
  else some h

/-- Reading a category name (`datahandler.py:145`). -/
def categoryOf (s : String) : Option Category :=
  if s = "strong" then some .strong else if s = "weak" then some .weak else if s = "bad" then some .bad else none

/-- `set_category` (`datahandler.py:124-150`); a feature that is not in the index enlarges the table. -/
def setCategory (h : Handler K) (feature : Option String) (category : String) : Handler K × Bool :=
  match feature, categoryOf category with
  | some f, some c => ({ h with metrics := dictSet h.metrics f c }, true)
  | _, _ => (h, false)

end load

section process
variable {K : Type*} [Field K] [LinearOrder K]

/-- `astype("float32")` of one cell; `none` = `ValueError`. -/
def toF32 (f32 : K → K) (parse : String → Option K) : Cell K → Option (Option K)
  | .num v => some (v.map f32)
  | .text s => (parse s).map fun x => some (f32 x)

/-- `frame.drop(labels=l, axis=1)` on the column list; `none` = `KeyError`. -/
def dropCols (cols l : List String) : Option (List String) :=
  if l.all (· ∈ cols) then some (cols.filter (· ∉ l)) else none

/-- `drop` of an optional list. -/
def dropOpt (cols : List String) : Option (List String) → Option (List String)
  | none => some cols
  | some l => dropCols cols l

/-- Dropping one column after the other (`datahandler.py:301-303`). -/
def dropEach : List String → List String → Option (List String)
  | cols, [] => some cols
  | cols, b :: bs => (dropCols cols [b]).bind fun cols' => dropEach cols' bs

/-- All cells of a row converted (`none` = some cell cannot be converted). -/
def convRow (f32 : K → K) (parse : String → Option K) (cols : List String) (r : FRow K) : Option (String → Option K) :=
  if cols.all fun c => (toF32 f32 parse (r c)).isSome then some fun c => (toF32 f32 parse (r c)).getD none else none

/-- Tripling the weak columns (`datahandler.py:305-307`); `none` = `KeyError`. -/
def tripleWeak (f32 : K → K) (cols weak : List String) (rows : List ((String → Option K) × (String → Option K))) :
    Option (List ((String → Option K) × (String → Option K))) :=
  if weak.all (· ∈ cols) then
    some (rows.map fun r => (r.1, fun c => if c ∈ weak then (r.2 c).map fun x => f32 (x * 3) else r.2 c))
  else none

/-- Zeros replaced (`datahandler.py:334-338`): the array is `float32`, so the assigned value is converted. -/
def noZero (f32 : K → K) (eps : K) (v : Option K) : Option K := v.map fun x => if x = 0 then f32 eps else x

/-- `get_data` (`datahandler.py:113-122,282-341`): the data and uncertainty arrays; `none` = an exception. -/
def getData (f32 : K → K) (parse : String → Option K) (eps : K) (h : Handler K) :
    Option (List (List (Option K)) × List (List (Option K))) :=
  (dropOpt h.vcols h.dropCol).bind fun v1 => (dropOpt h.ucols h.dropCol).bind fun u1 =>
    (h.rows.mapM fun r => (convRow f32 parse v1 r.1).bind fun a => (convRow f32 parse u1 r.2).map fun b => (a, b)).bind fun rows =>
      (dropOpt v1 h.locCols).bind fun v2 => (dropOpt u1 h.locCols).bind fun u2 =>
        let bad := (h.metrics.filter fun p => p.2 = .bad).map (·.1)
        (dropEach v2 bad).bind fun v3 => (dropEach u2 bad).bind fun u3 =>
          (tripleWeak f32 u3 ((h.metrics.filter fun p => p.2 = .weak).map (·.1)) rows).bind fun rows' =>
            if v3.all (· ∈ u3) then
              let kept := rows'.filter fun r => !(v3.any fun c => (r.1 c).isNone) || !(u3.any fun c => (r.2 c).isNone)
              some (kept.map fun r => v3.map fun c => (noZero f32 eps (r.1 c)).map f32,
                kept.map fun r => u3.map fun c => (noZero f32 eps (r.2 c)).map f32)
            else none

end process

/-! ## Locations -/

section loc
variable {K : Type*} [DecidableEq K]

/-- The location values of a row (`none` = NaN or a text). -/
def locKey (rnd : K → K) (locs : List String) (r : FRow K) : List (Option K) :=
  locs.map fun c => match r c with
    | .num v => v.map rnd
    | .text _ => none

/-- Distinct values in order of appearance (`drop_duplicates`). -/
def distinct {α : Type*} [DecidableEq α] (l : List α) : List α :=
  l.foldl (fun acc a => if a ∈ acc then acc else acc ++ [a]) []

/-- `(frame[loc_cols] == loc.values).all(axis=1)` for one row: NaN equals nothing. -/
def locEq (a b : List (Option K)) : Bool := decide (a = b) && a.all Option.isSome

/-- `split_locations` (`datahandler.py:152-202`): the handlers with their location values; `none` = an exception. `rnd` is the
rounding of latitude and longitude to five digits (`datahandler.py:173-188`) or the identity. The new handlers have no location
columns. An empty list of location columns is not modelled (pandas then returns every row as a location). -/
def splitLocations (rnd : K → K) (h : Handler K) : Option (List (List (Option K) × Handler K)) :=
  match h.locCols with
  | none => some []
  | some locs =>
    if locs.all (· ∈ h.vcols) then
      (distinct (h.rows.map fun r => locKey rnd locs r.1)).mapM fun l =>
        (loadDataframe h.vcols h.ucols
          (h.rows.filter fun r => locEq ((locKey rnd locs r.1).map (·.map rnd)) l)).map fun g => (l, g)
    else some []

end loc

/-! ## Merging -/

section merge
variable {K : Type*}

/-- `frame['source_label'] = label` on the columns. -/
def labelCols (cols : List String) : List String := if "source_label" ∈ cols then cols else cols ++ ["source_label"]

/-- The same on a row. -/
def labelRow (label : String) (r : FRow K) : FRow K := fun c => if c = "source_label" then .text label else r c

/-- A row of one frame in the concatenated frame: missing columns are NaN. -/
def concatRow (cols : List String) (r : FRow K) : FRow K := fun c => if c ∈ cols then r c else .num none

/-- The rows one handler contributes. -/
def mergeRows (h : Handler K) (label : String) : List (FRow K × FRow K) :=
  h.rows.map fun r => (concatRow (labelCols h.vcols) (labelRow label r.1), concatRow (labelCols h.ucols) (labelRow label r.2))

/-- `merge` (`datahandler.py:204-257`). -/
def mergeHandlers (h : Handler K) (hs : List (Handler K)) (labels : List String) : Handler K × Bool :=
  if hs.length = 0 ∨ hs.length ≠ labels.length then (h, false)
  else if hs.any fun g => g.vcols ≠ h.vcols then (h, false)
  else
    ({ h with vcols := distinct ((hs ++ [h]).flatMap fun g => labelCols g.vcols),
              ucols := distinct ((hs ++ [h]).flatMap fun g => labelCols g.ucols),
              rows := ((hs.zip labels).flatMap fun p => mergeRows p.1 p.2) ++ mergeRows h "self" }, true)

end merge

/-! ## Frames for plots, signal to noise -/

/-- `input_data_plot` after `_aggregate_data` (`datahandler.py:437-467`; `true` = available): with more samples than
`max_plotting_n` the aggregated frame is stored in `V_prime_plot` (line 465) and `input_data_plot` stays `None`. -/
def aggregatePlot (samples maxN : ℕ) : Bool := decide (samples ≤ maxN)

/-- Ways to build a handler. -/
inductive LoadPath
  /-- the constructor with files (`datahandler.py:107-111`) -/
  | files
  /-- `load_dataframe` (`datahandler.py:881-902`): `_aggregate_data` is not called -/
  | frames

/-- Whether `input_data_plot` is available after loading. -/
def plotAvailable (p : LoadPath) (samples maxN : ℕ) : Bool :=
  match p with
  | .files => aggregatePlot samples maxN
  | .frames => false

/-- The entry of `d` after `d.mask(c_df <= u_df, 0)` (`datahandler.py:403-405`) for a value and its uncertainty: `none` = NaN (a missing
number; comparisons with NaN are false), `some ⊤` = infinite (a positive value with uncertainty zero). -/
def snEntry {K : Type*} [Field K] [LinearOrder K] : Option K × Option K → Option (WithTop K)
  | (some x, some u) => some (if x ≤ u then ((0 : K) : WithTop K) else if u = 0 then ⊤ else (((x - u) / u : K) : WithTop K))
  | _ => none

/-- The signal to noise ratio of a feature (`datahandler.py:403-406`) from all rows: the sum skips NaN, the number of rows does not;
`none` = `ZeroDivisionError` without rows. -/
def signalNoise {K : Type*} [Field K] [LinearOrder K] (xs : List (Option K × Option K)) : Option (WithTop K) :=
  if xs = [] then none
  else
    let s := xs.filterMap snEntry
    some (if ⊤ ∈ s then ⊤ else ((1 / (xs.length : K) * (s.map fun y => y.untopD 0).sum : K) : WithTop K))

end Esat
