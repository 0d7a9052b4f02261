import Verif.Model.Bootstrap
import Verif.Model.Displacement
import Mathlib.Data.List.MinMax

/-!
# Model of the summaries of the error estimates

`BSDISP.__compile_results` (the counters, `esat/error/bs_disp.py:215-270`), the summaries and the selection of rows for the
plots (`esat/error/bs_disp.py:272-400`, `esat/error/displacement.py:119-236`), the statistics of the bootstrap
(`esat/error/bootstrap.py:498-528`, `609-645`) and `Error.plot_summary` (`esat/error/error.py`). Figures are represented by
the numbers they are given. Rounding to 4 decimals is a function `rnd`.
-/

namespace Esat

section bsdisp
variable {K : Type*} [LinearOrder K] [Zero K]

/-- What the counters need of one displacement run: the column `dQ_drop` and the tables. -/
structure BsRun (K : Type*) where
  /-- `compiled_results["dQ_drop"]` -/
  drops : List K
  /-- `swap_table`, `count_table` -/
  tables : SwapTables

/-- The counters of `BSDISP` (`bs_disp.py:96-101`). -/
structure BsCounters where
  /-- `swap_table`, `count_table` -/
  tables : SwapTables
  /-- `n_drops` -/
  nDrops : ℕ
  /-- `disp_swap` -/
  dispSwap : ℕ
  /-- `fit_swaps` -/
  fitSwaps : ℤ

/-- The values set by the constructor. -/
def BsCounters.init : BsCounters := ⟨⟨fun _ _ => 0, fun _ _ => 0⟩, 0, 0, -1⟩

/-- `any(dQ_drop_i < 0.0)` (`bs_disp.py:247`). -/
def hasDrop (r : BsRun K) : Bool := r.drops.any fun x => decide (x < 0)

/-- `np.count_nonzero(swap_table) > 0` (`bs_disp.py:262`) for a table with `levels` rows and `k` columns. -/
def anySwap (levels k : ℕ) (t : SwapTables) : Bool :=
  decide (0 < ((List.range levels).flatMap fun i => (List.range k).map fun c => t.swap i c).countP (· ≠ 0))

/-- One pass over a displacement run (`bs_disp.py:259-263`). -/
def bsAdd (levels k : ℕ) (s : BsCounters) (r : BsRun K) : BsCounters :=
  ⟨⟨fun i c => s.tables.count i c + r.tables.count i c, fun i c => s.tables.swap i c + r.tables.swap i c⟩, s.nDrops,
   if anySwap levels k r.tables then s.dispSwap + 1 else s.dispSwap, s.fitSwaps⟩

/-- `fit_swap` (`bs_disp.py:264-268`): the diagonal of the mapping table against the number of bootstrap runs. -/
def fitSwap {k : ℕ} (t : MapTable k) (bn : ℕ) : ℕ :=
  (List.finRange k).foldl (fun s i => s + if t.counts i i < bn then 1 else 0) 0

/-- The counters after `__compile_results` (`bs_disp.py:231-270`): the loop over the keys `1 … len-1` for `n_drops`, the loop
over all runs for the tables; `none` = `KeyError`. The counters are not reset. -/
def bsCounters {k : ℕ} (levels : ℕ) (results : PyDict ℕ (BsRun K)) (mapping : MapTable k) (bn : ℕ) (s : BsCounters) :
    Option BsCounters :=
  match results with
  | [] => none
  | _ :: _ =>
    ((List.range' 1 (results.length - 1)).mapM fun i => dictGet results i).map fun ds =>
      let s1 : BsCounters := ds.foldl (fun s r => if hasDrop r then ⟨s.tables, s.nDrops + 1, s.dispSwap, s.fitSwaps⟩ else s) s
      let s2 := (results.map (·.2)).foldl (bsAdd levels k) s1
      ⟨s2.tables, s2.nDrops, s2.dispSwap, (fitSwap mapping bn : ℤ)⟩

end bsdisp

section summary
variable {K : Type*} [LinearOrder K]

/-- Largest entry of a column. -/
def colMax (x : K) (l : List K) : K := l.foldl max x

/-- Smallest entry of a column. -/
def colMin (x : K) (l : List K) : K := l.foldl min x

/-- `largest_dQ_change` (`bs_disp.py:281-283`, `displacement.py:123-125`) of a non-empty column. -/
def largestChange [AddGroup K] (x : K) (l : List K) : K :=
  if |colMin x l| < |colMax x l| then colMax x l else colMin x l

end summary

section plots
variable {K : Type*} [LinearOrder K] {k n : ℕ}

/-- `compiled_results.loc[factor == f].loc[dQ == q]` (`displacement.py:182-183`); the column `dQ` of a row is the level at its
position. -/
def selectRows {κ : Type*} [DecidableEq κ] (dQmax : List κ) (rows : List (DispRow k n K)) (f : Fin k) (q : κ) :
    List (DispRow k n K) :=
  (rows.filter fun r => decide (r.factor = f)).filter fun r => decide (dQmax[r.level]? = some q)

/-- The dQ level shown by `plot_profile` and `plot_contribution` (`displacement.py:181,220`, `bs_disp.py:338,380`). -/
def plotLevel {κ : Type*} [DecidableEq κ] (four : κ) (dQmax : List κ) (q : κ) : κ := if q ∈ dQmax then q else four

/-- The dQ level passed on by `plot_results` (`displacement.py:157`, default 4; `bs_disp.py:316`, default 0.5). -/
def resultsLevel {κ : Type*} [DecidableEq κ] (dflt : κ) (dQmax : List κ) (q : κ) : κ := if q ∈ dQmax then q else dflt

/-- `factor > self.factors or factor < 1` (`displacement.py:176`); the index of a valid factor. -/
def plotFactor (k : ℕ) (factor : ℤ) : Option (Fin k) :=
  if h : 1 ≤ factor ∧ factor ≤ k then some ⟨(factor - 1).toNat, by omega⟩ else none

/-- `conc[conc < 1e-4] = 1e-4`, `base_sums[base_sums < 1e-4] = 1e-4`. -/
def floorAt (floor x : K) : K := if x < floor then floor else x

end plots

section boot
variable {K : Type*} [Field K] [LinearOrder K] {k m n : ℕ}

/-- `_factor_statistics` and `_calculate_factors` on one run (`bootstrap.py:498-528`, `555-568`): the profiles were truncated in
place before. `eps = 1e-8`. -/
def bsContribution (rnd : K → K) (eps : K) (W : Mat m k K) (H : Mat k n K) (i : Fin k) (j : Fin n) : K :=
  let H' := truncateProfiles eps H
  let s := ∑ t, W t i * H' i j
  rnd (if s < eps then 0 else s)

/-- The normalised profile of one run (`bootstrap.py:505-511`); `none` = NaN (an all-zero column). -/
def bsProfile (rnd : K → K) (eps : K) (H : Mat k n K) (i : Fin k) (j : Fin n) : Option K :=
  let H' := truncateProfiles eps H
  let c := ∑ b, H' b j
  if c = 0 then none
  else
    let p := H' i j / c
    some (rnd (if p < eps then 0 else p))

/-- `show_factor_results` (`bootstrap.py:625-631`): `base_factor = self.base_H[factor]` is a view of the profile matrix of the
base model (`self.base_H = self.sa.H`), `base_factor[base_factor < 1e-5] = 0.0`. The profile matrix of the base model
afterwards; `cut = 1e-5`. -/
def showFactor (cut : K) (H : Mat k n K) (factor : ℤ) : Mat k n K :=
  match plotFactor k factor with
  | none => H
  | some f => fun i j => if i = f ∧ H i j < cut then 0 else H i j

/-- `summary` (`bootstrap.py:570-584`): all factors `1 … self.factors`. -/
def bootSummary (cut : K) (H : Mat k n K) : Mat k n K :=
  (List.range k).foldl (fun H (f : ℕ) => showFactor cut H ((f : ℤ) + 1)) H

end boot

/-! ## `Error` -/

section error
variable {K : Type*} [Field K] [LinearOrder K] {k m n : ℕ}

/-- What `Error.plot_summary` reads of a displacement or BS-DISP run: the matrices for the markers and the table. -/
structure ErrDisp (m k n : ℕ) (K : Type*) where
  /-- `W` -/
  W : Mat m k K
  /-- `H` -/
  H : Mat k n K
  /-- dQ levels -/
  dQmax : List K
  /-- `compiled_results` -/
  rows : List (DispRow k n K)

/-- What it reads of a bootstrap. -/
structure ErrBoot (m k n : ℕ) (K : Type*) where
  /-- `base_W` -/
  W : Mat m k K
  /-- `base_H` -/
  H : Mat k n K
  /-- `bs_factor_contributions`: factor, run, feature -/
  contributions : Fin k → List (Fin n → K)

/-- The figure: bars (`base`, `height`) per method in feature order, and the markers. -/
structure ErrFigure (n : ℕ) (K : Type*) where
  /-- bars of the bootstrap -/
  bs : Option (Fin n → K × K)
  /-- bars of the displacement, by position -/
  disp : Option (List (K × K))
  /-- bars of BS-DISP, by position -/
  bsdisp : Option (List (K × K))
  /-- markers -/
  base : Fin n → K

/-- How `plot_summary` ends. -/
inductive ErrOut (n : ℕ) (K : Type*)
  /-- a message is logged -/
  | nothing
  /-- an exception -/
  | raised
  /-- a figure -/
  | figure (f : ErrFigure n K)

/-- The bars of one bootstrap column (`error.py:82-86`): minimum and height over the runs, floored; `none` = the minimum of an
empty array. -/
def bsBars (floor : K) (runs : List (Fin n → K)) (j : Fin n) : Option (K × K) :=
  match runs.map fun r => floorAt floor (r j) with
  | [] => none
  | x :: l => some (colMin x l, colMax x l - colMin x l)

/-- The bars of a displacement table (`error.py:94-101`, `109-116`). -/
def dispBars (D : ErrDisp m k n K) (four : K) (f : Fin k) : List (K × K) :=
  (selectRows D.dQmax D.rows f four).map fun r => (r.cmin, r.cmax - r.cmin)

/-- `base_sums` (`error.py:77-81`, `88-92`, `103-107`). -/
def errBase (floor : K) (W : Mat m k K) (H : Mat k n K) (f : Fin k) (j : Fin n) : K := floorAt floor (concentration W H f j)

/-- `Error.plot_summary` (`error.py:53-125`). The number of factors is that of the last method given (`error.py:39-51`), here the
same for all. -/
def plotSummary (floor four : K) (bs : Option (ErrBoot m k n K)) (disp bsdisp : Option (ErrDisp m k n K)) (factor : ℤ) :
    ErrOut n K :=
  if bs.isNone && disp.isNone then .nothing
  else match plotFactor k factor with
    | none => .nothing
    | some f =>
      let bars : Option (Option (Fin n → K × K)) := match bs with
        | none => some none
        | some b => if (b.contributions f).isEmpty then none
          else some (some fun j => (bsBars floor (b.contributions f) j).getD (0, 0))
      match bars with
      | none => .raised
      | some bars =>
        let base1 : Option (Fin n → K) := bs.map fun b => errBase floor b.W b.H f
        let base2 : Option (Fin n → K) := match disp with
          | none => base1
          | some d => some (errBase floor d.W d.H f)
        let base3 : Option (Fin n → K) := match bsdisp with
          | none => base2
          | some d => some (errBase floor d.W d.H f)
        match base3 with
        | none => .raised
        | some base => .figure ⟨bars, disp.map fun d => dispBars d four f, bsdisp.map fun d => dispBars d four f, base⟩

end error

end Esat
