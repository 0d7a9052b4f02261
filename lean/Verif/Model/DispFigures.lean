import Verif.Model.DispRun
import Verif.Model.ErrorSummary
import Verif.Model.BsDispSummary

/-!
# Model of the figures of DISP and BS-DISP

`Displacement.plot_results`, `plot_profile`, `plot_contribution` (`esat/error/displacement.py:142-247`) and the same methods of
`BSDISP` (`esat/error/bs_disp.py:296-401`), with the compiled results of BS-DISP (`bs_disp.py:215-250`) as a table of rows. A figure is
represented by the numbers given to it; titles and colours are not modelled.
-/

namespace Esat

variable {K : Type*} [Field K] [LinearOrder K] {k n : ℕ}

/-- What is drawn for one feature: the marker of the base run and the bar, which starts at `base` and has the given height. -/
structure FigBar (n : ℕ) (K : Type*) where
  /-- `x` -/
  feature : Fin n
  /-- `y` of the markers -/
  marker : K
  /-- `base` of the bar -/
  base : K
  /-- `y` of the bar -/
  height : K

/-- `plot_profile` (`displacement.py:186-192`, `bs_disp.py:343-349`). -/
def profileBars (rows : List (DispRow k n K)) : List (FigBar n K) :=
  rows.map fun r => ⟨r.feature, 100 * r.profile, 100 * r.pmin, 100 * (r.pmax - r.pmin)⟩

/-- `plot_contribution` (`displacement.py:228-238`, `bs_disp.py:385-394`); `floor = 1e-4`. -/
def concBars (floor : K) (rows : List (DispRow k n K)) : List (FigBar n K) :=
  rows.map fun r => ⟨r.feature, floorAt floor r.conc, r.cmin, r.cmax - r.cmin⟩

/-- `plot_results` (`displacement.py:157-159`, `bs_disp.py:311-313`): the two figures; `none` = a message and no figure (`displacement.py:176-178`,
`218-220`). `four` is the level used by the figures, `dflt` that of `plot_results` for an invalid level. -/
def dispFigures (floor four dflt : K) (dQmax : List K) (rows : List (DispRow k n K)) (factor : ℤ) (q : K) :
    Option (List (FigBar n K) × List (FigBar n K)) :=
  (plotFactor k factor).map fun f =>
    let s := selectRows dQmax rows f (plotLevel four dQmax (resultsLevel dflt dQmax q))
    (profileBars s, concBars floor s)

/-- One row of the compiled results of BS-DISP (`bs_disp.py:221-254`): the row of the first run with the merged columns. -/
def bsMergeRow (d0 : DispRow k n K) (ds : List (DispRow k n K)) : DispRow k n K :=
  ⟨d0.level, d0.factor, d0.feature, d0.profile,
   ds.foldl (fun a d => max a d.pmax) d0.pmax, ds.foldl (fun a d => min a d.profile) d0.pmin,
   ((d0 :: ds).map (·.conc)).sum / (d0 :: ds).length,
   ds.foldl (fun a d => max a d.cmax) d0.cmax, ds.foldl (fun a d => min a d.cmin) d0.cmin,
   ds.foldl (fun a d => min a d.drop) d0.drop⟩

/-- The compiled results of BS-DISP (`bs_disp.py:215-254`): the runs are those read by the loop; `none` = an exception. -/
def bsRows (results : PyDict ℕ (List (DispRow k n K))) : Option (List (DispRow k n K)) :=
  (bsRead results).bind fun p =>
    (List.range p.1.length).mapM fun t =>
      (p.1[t]?).bind fun r0 => (p.2.mapM fun d => d[t]?).map fun rs => bsMergeRow r0 rs

end Esat
