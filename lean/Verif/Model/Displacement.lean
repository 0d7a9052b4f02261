import Verif.Model.Mat
import Verif.Model.PyDict
import Mathlib.Data.List.Basic
import Mathlib.Data.List.FinRange
import Mathlib.Order.Lattice

/-!
# Model of displacement (`esat/error/displacement.py`) and BS-DISP (`esat/error/bs_disp.py`)

The searches only see the loss through the change of Q as a function of the modifier, so they are modelled over an
arbitrary function `f : K → K`. Retraining (`SA(...)`, `initialize`, `train`, `compare_all_factors`) is an arbitrary
function of the displaced profile matrix; it receives the same arguments in the sequential and the parallel variants
(`robust_mode=False` is the default), apart from the model number, which is treated in `Props/Displacement.lean` (C79).
Dictionary keys `factor-{i+1}` / `feature-{j}` are represented by the numbers. Plotting, logging, saving are not modelled,
except for the labels of the swap table. Requested features are assumed to be valid column numbers, and `feature_labels`
to have one entry per column.
-/

namespace Esat

section search
variable {K : Type*} [Field K] [LinearOrder K]

/-- The doubling search for the upper modifier (`displacement.py:267-288`, `362-380`); the first argument is the number of
evaluations left (100), `t0 = dQmax[0]`. Returns the modifier and `high_found`. -/
def upBound (f : K → K) (t0 : K) : ℕ → K → K × Bool
  | 0, h => (h, false)
  | n + 1, h => if f h < t0 then upBound f t0 n (h * 2) else (h, true)

/-- Outcome of one bisection. -/
structure LevelRes (K : Type*) where
  /-- `dQ` at the last evaluation -/
  dQ : K
  /-- the modifier of the last evaluation (`new_value` is the base value times it) -/
  modv : K
  /-- `search_i` -/
  steps : ℕ
  /-- the last evaluation was in the window -/
  met : Bool

/-- The upward bisection for one target (`displacement.py:290-314`, `382-404`): evaluations left, `low_modifier`,
`high_modifier`, `modifier`, `search_i`. Also returns the final `high_modifier`, which is carried to the next target. -/
def bisectUp (f : K → K) (t thr : K) : ℕ → K → K → K → ℕ → LevelRes K × K
  | 0, _, high, md, s => (⟨f md, md, s, false⟩, high)
  | n + 1, low, high, md, s =>
    if t < f md then
      if n = 0 then (⟨f md, md, s + 1, false⟩, md) else bisectUp f t thr n low md ((md + low) / 2) (s + 1)
    else if f md < t - thr then
      if n = 0 then (⟨f md, md, s + 1, false⟩, high) else bisectUp f t thr n md high ((high + md) / 2) (s + 1)
    else (⟨f md, md, s + 1, true⟩, high)

/-- The loop over the dQ levels (`displacement.py:290-331`). -/
def increaseLevels (f : K → K) (thr : K) : List K → K → List (LevelRes K)
  | [], _ => []
  | t :: ts, high =>
    let r := bisectUp f t thr 100 1 high ((high + 1) / 2) 0
    r.1 :: increaseLevels f thr ts r.2

/-- The upward search of one factor and feature (`displacement.py:258-331`, `352-421`); `dQmax` is the list of levels. -/
def increaseSearch (f : K → K) (thr : K) (dQmax : List K) : List (LevelRes K) :=
  match dQmax with
  | [] => []
  | t0 :: ts => increaseLevels f thr (t0 :: ts) (upBound f t0 100 2).1

/-- The downward bisection for one target (`displacement.py:436-467`, `513-542`): evaluations left, `low_mod`, `high_mod`,
`modifier`, `p_mod`, `search_i`. `f` is the absolute change of Q, `eps = 1e-8`. -/
def bisectDown (f : K → K) (t thr eps : K) : ℕ → K → K → K → K → ℕ → LevelRes K
  | 0, _, _, md, _, s => ⟨f md, md, s, false⟩
  | n + 1, low, high, md, pmd, s =>
    if t < f md then
      let md' := (md + high) / 2
      if |pmd - md'| ≤ eps ∨ n = 0 then ⟨f md, md, s + 1, false⟩ else bisectDown f t thr eps n md high md' md' (s + 1)
    else if f md < t - thr then
      let md' := (low + md) / 2
      if |pmd - md'| ≤ eps ∨ n = 0 then ⟨f md, md, s + 1, false⟩ else bisectDown f t thr eps n low md md' md' (s + 1)
    else ⟨f md, md, s + 1, true⟩

/-- The downward search of one factor and feature (`displacement.py:434-486`, `508-561`). -/
def decreaseSearch (f : K → K) (thr eps : K) (dQmax : List K) : List (LevelRes K) :=
  dQmax.map fun t => bisectDown f t thr eps 50 0 1 (1 / 2) 0 0

end search

section results
variable {K : Type*} [Field K] [LinearOrder K] {k n m : ℕ}

/-- What is stored for one level (`displacement.py:329-331`). -/
structure LevelOut (K : Type*) where
  /-- `dQ` -/
  dQ : K
  /-- `value` -/
  value : K
  /-- `percent` -/
  percent : K
  /-- `search steps` -/
  steps : ℕ
  /-- `swap` -/
  swap : Bool
  /-- `conc` -/
  conc : K
  /-- `Q_drop` -/
  qDrop : K

/-- What displacement needs to know about the base model. -/
structure DispEnv (m k n : ℕ) (K : Type*) where
  /-- `self.H` (base profiles plus EPSILON) -/
  H : Mat k n K
  /-- `self.W` -/
  W : Mat m k K
  /-- `q_loss(V, U, W, ·)` -/
  Q : Mat k n K → K
  /-- `self.base_Q` -/
  baseQ : K
  /-- retraining from the given profiles: factor swap and `Qtrue` -/
  retrain : Mat k n K → Bool × K
  /-- `self.threshold_dQ` -/
  thr : K
  /-- `1e-8` -/
  eps : K

/-- `new_H = copy(self.H); new_H[f, j] = self.H[f, j] * modifier`. -/
def dispH (E : DispEnv m k n K) (a : Fin k) (j : Fin n) (md : K) : Mat k n K :=
  fun a' j' => if a' = a ∧ j' = j then E.H a j * md else E.H a' j'

/-- The stored record for a displaced matrix (`displacement.py:315-331`). -/
def levelOut (E : DispEnv m k n K) (a : Fin k) (j : Fin n) (r : LevelRes K) : LevelOut K :=
  let nH := dispH E a j r.modv
  let t := E.retrain nH
  ⟨r.dQ, E.H a j * r.modv, nH a j / ∑ b, nH b j, r.steps, t.1, ∑ s, E.W s a * nH a j, E.baseQ - t.2⟩

/-- Increase results of one factor and feature, in the order of the levels. -/
def incEntry (E : DispEnv m k n K) (dQmax : List K) (a : Fin k) (j : Fin n) : List (LevelOut K) :=
  (increaseSearch (fun md => E.Q (dispH E a j md) - E.baseQ) E.thr dQmax).map (levelOut E a j)

/-- Decrease results of one factor and feature. -/
def decEntry (E : DispEnv m k n K) (dQmax : List K) (a : Fin k) (j : Fin n) : List (LevelOut K) :=
  (decreaseSearch (fun md => |E.baseQ - E.Q (dispH E a j md)|) E.thr E.eps dQmax).map (levelOut E a j)

end results

/-! ## Result dictionaries -/

section dict
variable {κ κ' β : Type*} [DecidableEq κ] [DecidableEq κ']

/-- `if key not in d: d[key] = {}` followed by `d[key][key'] = v` (`displacement.py:346-350`, `502-506`). -/
def dictSet2 (d : PyDict κ (PyDict κ' β)) (key : κ) (key' : κ') (v : β) : PyDict κ (PyDict κ' β) :=
  dictSet d key (dictSet ((dictGet d key).getD []) key' v)

end dict

section compile
variable {K : Type*} [Field K] [LinearOrder K] {k n m : ℕ} {L : Type*}

/-- `_increase_disp` / `_decrease_disp`: factors and features in order (`displacement.py:256-332`, `432-487`). -/
def seqResults (out : Fin k → Fin n → L) (features : List (Fin n)) (prev : PyDict (Fin k) (PyDict (Fin n) L)) :
    PyDict (Fin k) (PyDict (Fin n) L) :=
  (List.finRange k).foldl (fun d a => dictSet d a (features.foldl (fun e j => dictSet e j (out a j)) [])) prev

/-- `_run_all_increase_disp` / `_run_all_decrease_disp` (`displacement.py:334-350`, `489-506`): `done` lists the tasks
`(factor, feature)` in the order in which the workers finish. -/
def parResults (out : Fin k → Fin n → L) (done : List (Fin k × Fin n)) (prev : PyDict (Fin k) (PyDict (Fin n) L)) :
    PyDict (Fin k) (PyDict (Fin n) L) :=
  done.foldl (fun d p => dictSet2 d p.1 p.2 (out p.1 p.2)) prev

/-- One row of the compiled results (`displacement.py:563-608`). -/
structure DispRow (k n : ℕ) (K : Type*) where
  /-- position of the dQ level -/
  level : ℕ
  /-- `factor` -/
  factor : Fin k
  /-- `feature` -/
  feature : Fin n
  /-- `profile` -/
  profile : K
  /-- `profile_max` -/
  pmax : K
  /-- `profile_min` -/
  pmin : K
  /-- `conc` -/
  conc : K
  /-- `conc_max` -/
  cmax : K
  /-- `conc_min` -/
  cmin : K
  /-- `dQ_drop` -/
  drop : K

/-- Lookup of one level in the result dictionary. -/
def lookupLevel (d : PyDict (Fin k) (PyDict (Fin n) (List (LevelOut K)))) (a : Fin k) (j : Fin n) (i : ℕ) :
    Option (LevelOut K) :=
  (dictGet d a).bind fun e => (dictGet e j).bind fun l => l[i]?

/-- One row of the compiled results; `floor = 1e-4`. -/
def compileRow (E : DispEnv m k n K) (floor : K) (features : List (Fin n))
    (inc dec : PyDict (Fin k) (PyDict (Fin n) (List (LevelOut K)))) (i : ℕ) (a : Fin k) (j : Fin n) :
    Option (DispRow k n K) :=
  let profile := E.H a j / ∑ b, E.H b j
  let conc := ∑ s, E.W s a * E.H a j
  let mk := fun pmax pmin cmax cmin drop => (⟨i, a, j, profile, pmax, pmin, conc, if floor < cmax then cmax else floor,
    if floor < cmin then cmin else floor, if drop < 0 then drop else 0⟩ : DispRow k n K)
  if j ∈ features then
    match lookupLevel inc a j i, lookupLevel dec a j i with
    | some p, some q => some (mk p.percent q.percent p.conc q.conc (if p.qDrop < q.qDrop then p.qDrop else q.qDrop))
    | _, _ => none
  else some (mk profile profile conc conc 0)

/-- The compiled table (`displacement.py:570-608`): levels, factors, features in this order; `none` = `KeyError`. -/
def compileRows (E : DispEnv m k n K) (floor : K) (features : List (Fin n)) (levels : ℕ)
    (inc dec : PyDict (Fin k) (PyDict (Fin n) (List (LevelOut K)))) : Option (List (DispRow k n K)) :=
  (((List.range levels).flatMap fun i => (List.finRange k).flatMap fun a => (List.finRange n).map fun j => (i, a, j))).mapM
    fun t => compileRow E floor features inc dec t.1 t.2.1 t.2.2

/-- `count_table` and `swap_table`: row = position of the level, column = position of the factor. -/
structure SwapTables where
  /-- `count_table` -/
  count : ℕ → ℕ → ℕ
  /-- `swap_table` -/
  swap : ℕ → ℕ → ℕ

/-- `self.count_table[dQ_i, factor_i] += 1` and the conditional increment (`displacement.py:614-617`). -/
def tallyOne (c i : ℕ) (s : Bool) (t : SwapTables) : SwapTables :=
  ⟨fun i' c' => if i' = i ∧ c' = c then t.count i' c' + 1 else t.count i' c',
   fun i' c' => if i' = i ∧ c' = c ∧ s = true then t.swap i' c' + 1 else t.swap i' c'⟩

/-- The loop over the levels of one feature (`displacement.py:612-618`); `sw` reads the swap flag. -/
def tallyLevels (sw : L → Bool) (c : ℕ) : List L → ℕ → SwapTables → SwapTables
  | [], _, t => t
  | l :: ls, i, t => tallyLevels sw c ls (i + 1) (tallyOne c i (sw l) t)

/-- The loop over the features of one factor. -/
def tallyFactor (sw : L → Bool) (c : ℕ) (e : PyDict (Fin n) (List L)) (t : SwapTables) : SwapTables :=
  e.foldl (fun t p => tallyLevels sw c p.2 0 t) t

/-- The loop over the dictionary (`displacement.py:609-619`, `620-627`): the column is the position in the dictionary. -/
def tallyDict (sw : L → Bool) : PyDict (Fin k) (PyDict (Fin n) (List L)) → ℕ → SwapTables → SwapTables
  | [], _, t => t
  | p :: d, c, t => tallyDict sw d (c + 1) (tallyFactor sw c p.2 t)

/-- Both dictionaries. -/
def tallyBoth (sw : L → Bool) (inc dec : PyDict (Fin k) (PyDict (Fin n) (List L))) (t : SwapTables) : SwapTables :=
  tallyDict sw dec 0 (tallyDict sw inc 0 t)

/-- The rows of the summary and of the saved swap table (`displacement.py:129-132`, `677-680`; `bs_disp.py:283-286`):
labels `reversed(dQmax)`, data in table order. -/
def summaryRows {β : Type*} (dQmax : List K) (row : ℕ → β) : List (K × β) :=
  dQmax.reverse.zipIdx.map fun p => (p.1, row p.2)

end compile

/-! ## BS-DISP -/

section bsdisp
variable {K : Type*} [LinearOrder K]

/-- The columns of the compiled results of one displacement run, as functions of the row. -/
structure DispCols (R K : Type*) where
  /-- `profile` -/
  profile : R → K
  /-- `profile_max` -/
  pmax : R → K
  /-- `profile_min` -/
  pmin : R → K
  /-- `conc_max` -/
  cmax : R → K
  /-- `conc_min` -/
  cmin : R → K
  /-- `dQ_drop` -/
  drop : R → K

/-- The merged columns. -/
structure BsMerged (R K : Type*) where
  /-- `profile_max` -/
  pmax : R → K
  /-- `profile_min` -/
  pmin : R → K
  /-- `conc_max` -/
  cmax : R → K
  /-- `conc_min` -/
  cmin : R → K
  /-- `dQ_drop` -/
  drop : R → K

/-- One pass of the merging loop (`bs_disp.py:231-248`); the lower end takes `disp_result_i["profile"]`. -/
def bsStep {R : Type*} (t : BsMerged R K) (d : DispCols R K) : BsMerged R K :=
  ⟨fun r => max (t.pmax r) (d.pmax r), fun r => min (t.pmin r) (d.profile r), fun r => max (t.cmax r) (d.cmax r),
   fun r => min (t.cmin r) (d.cmin r), fun r => min (t.drop r) (d.drop r)⟩

/-- The merge (`bs_disp.py:215-257`): the first entry of the dictionary, then the entries with keys `1 … len-1`;
`none` = `IndexError`/`KeyError`. -/
def bsCompile {R : Type*} (results : PyDict ℕ (DispCols R K)) : Option (BsMerged R K) :=
  match results with
  | [] => none
  | (_, d0) :: _ =>
    ((List.range' 1 (results.length - 1)).mapM fun i => dictGet results i).map fun ds =>
      ds.foldl bsStep ⟨d0.pmax, d0.pmin, d0.cmax, d0.cmin, d0.drop⟩

/-- A Python call with `args` positional arguments of a function with `params` parameters without defaults; `none` =
`TypeError`. -/
def pyCall {β : Type*} (params args : ℕ) (body : β) : Option β := if args = params then some body else none

/-- The displacement stage (`bs_disp.py:163-196`). Parallel: `pool.imap_unordered(BSDISP._parallel_disp, p_args)` calls the
function of eight parameters with one tuple; the results come in the order `done`. -/
def bsStage {D : Type*} (parallel : Bool) (disp : ℕ → D) (keys done : List ℕ) : Option (PyDict ℕ D) :=
  if parallel then
    (done.mapM fun b => pyCall 8 1 (b, disp b)).map fun rs => rs.foldl (fun d p => dictSet d p.1 p.2) []
  else some (keys.foldl (fun d b => dictSet d b (disp b)) [])

end bsdisp

end Esat
