import Verif.Model.Correlation
import Mathlib.Data.List.Basic
import Mathlib.Data.List.Range

/-!
# Model of the bootstrap (`esat/error/bootstrap.py`)

Resampling (112-223), factor mapping (252-343), the mapping table (530-553) and the in-place truncation in the result
tables (498-568). The training of the bootstrap models is the `SA` model elsewhere. A random source is a function
`r : ℕ → ℕ`; `rng.integers(low=0, high=h)` in call `i` is `r i % h`, which reaches every value in `[0, h)`, and it raises
`ValueError` when `h ≤ 0`. `math.ceil(N / block_size)` is the exact ceiling (float division is exact enough for
`N < 2^53`). Conversion to `float32` of the result is not modelled.
-/

namespace Esat

/-- `while row_count + len(l) > N: l.pop()` (`bootstrap.py:156-157,170-171`); `none` = pop from an empty list. -/
def popTo (N rc : ℕ) (l : List ℕ) : Option (List ℕ) :=
  if h : rc + l.length > N then
    if l = [] then none else popTo N rc l.dropLast
  else some l
termination_by l.length
decreasing_by
  simp only [List.length_dropLast]
  have : l.length ≠ 0 := by simpa using ‹¬l = []›
  omega

/-- The block table (`bootstrap.py:153-159`): `n` more blocks from `index_count = c` on. -/
def indexBlocks (N bs : ℕ) : ℕ → ℕ → Option (List (List ℕ))
  | 0, _ => some []
  | n + 1, c => do
    let b ← popTo N c (List.range' c bs)
    let rest ← indexBlocks N bs n (c + bs)
    pure (b :: rest)

/-- State of the sampling loop: the block table (its lists are popped in place, line 171), `row_count`,
`index_matrix`. -/
structure ResampleState where
  /-- `index_blocks` -/
  blocks : List (List ℕ)
  /-- `row_count` -/
  rc : ℕ
  /-- `index_matrix` -/
  idx : List ℕ

/-- One pass of the sampling loop without overlap (`bootstrap.py:163-165,170-173`). -/
def resampleStep (N M : ℕ) (r : ℕ) (s : ResampleState) : Option ResampleState :=
  if M - 1 = 0 then none
  else do
    let k := r % (M - 1)
    let b ← s.blocks[k]?
    let b' ← popTo N s.rc b
    pure ⟨s.blocks.set k b', s.rc + b'.length, s.idx ++ b'⟩

/-- One pass with overlap (`bootstrap.py:166-173`). -/
def overlapStep (N bs : ℕ) (r : ℕ) (s : ResampleState) : Option ResampleState :=
  if N - bs - 1 = 0 then none
  else do
    let b' ← popTo N s.rc (List.range' (r % (N - bs - 1)) bs)
    pure ⟨s.blocks, s.rc + b'.length, s.idx ++ b'⟩

/-- `for i in range(n)` with a step that may raise. -/
def loopM {σ : Type*} (f : ℕ → σ → Option σ) : ℕ → σ → Option σ
  | 0, s => some s
  | n + 1, s => (loopM f n s).bind (f n)

/-- `M = math.ceil(N / self.block_size)` (`bootstrap.py:151`). -/
def blockCount (N bs : ℕ) : ℕ := (N + bs - 1) / bs

/-- The index list of `_block_resample` (`bootstrap.py:145-173`). `block_size > N/2` replaces the block size by the float
`N/2`, and `range` raises `TypeError` for a float; block size 0 raises `ZeroDivisionError`. -/
def blockIndex (N bs : ℕ) (overlapping : Bool) (r : ℕ → ℕ) : Option (List ℕ) :=
  if bs = 0 then none
  else if N < 2 * bs then none
  else
    let M := blockCount N bs
    if overlapping then
      (loopM (fun i => overlapStep N bs (r i)) M ⟨[], 0, []⟩).map (·.idx)
    else do
      let blocks ← indexBlocks N bs M 0
      let s ← loopM (fun i => resampleStep N M (r i)) M ⟨blocks, 0, []⟩
      pure s.idx

/-- `A[index]` for a list of row indices; `none` = `IndexError`. -/
def takeRows {ρ : Type*} (A : List ρ) (idx : List ℕ) : Option (List ρ) := idx.mapM fun i => A[i]?

/-- The copy loop (`bootstrap.py:177-180`): row `i` of the selection overwrites row `i` of the array. -/
def writeBack {ρ : Type*} (A sel : List ρ) : List ρ := (sel.zipIdx).foldl (fun a p => a.set p.2 p.1) A

/-- `_block_resample` (`bootstrap.py:112-189`): data, uncertainty, contributions, index list. `self.data` has as many rows
as `data` (a deep copy). -/
def blockResample {ρ τ : Type*} (data unc : List ρ) (W : List τ) (bs : ℕ) (overlapping : Bool) (r : ℕ → ℕ) :
    Option (List ρ × List ρ × List τ × List ℕ) :=
  (blockIndex data.length bs overlapping r).bind fun idx =>
    (takeRows data idx).bind fun d => (takeRows unc idx).bind fun u => (takeRows W idx).bind fun w =>
      some (writeBack data d, writeBack unc u, writeBack W w, idx)

/-- `_resample` (`bootstrap.py:191-223`): independent draws with replacement; `choice` raises on an empty range. -/
def plainResample {ρ τ : Type*} (data unc : List ρ) (W : List τ) (r : ℕ → ℕ) :
    Option (List ρ × List ρ × List τ × List ℕ) :=
  if data.length = 0 then none
  else
    let idx := (List.range data.length).map fun i => r i % data.length
    (takeRows data idx).bind fun d => (takeRows unc idx).bind fun u => (takeRows W idx).bind fun w => some (d, u, w, idx)

/-! ## Mapping -/

section
variable {K : Type*} [LinearOrder K] {k : ℕ}

/-- One entry of the mapping dictionary: `match`, `r2`, `mapped`. -/
structure MapEntry (k : ℕ) (K : Type*) where
  /-- `match` -/
  mtch : Fin k
  /-- `r2`, `none` = NaN -/
  r : Option K
  /-- `mapped` -/
  mapped : Bool

/-- `a > b` on floats with NaN. -/
def nanGt (a b : Option K) : Bool :=
  match a, b with
  | some x, some y => decide (y < x)
  | _, _ => false

/-- The search for the best base factor of bootstrap factor `i` (`bootstrap.py:275-286`, `331-342`), over a table of
correlations. -/
def mapFactor (r : Fin k → Fin k → Option K) (thr : K) (i : Fin k) : MapEntry k K :=
  let b := (List.finRange k).foldl (fun (b : Fin k × Option K) j => if nanGt (r i j) b.2 then (j, r i j) else b) (i, r i i)
  ⟨b.1, b.2, match b.2 with | some x => decide (thr ≤ x) | none => false⟩

end

section
variable {K : Type*} [Field K] [LinearOrder K] {k m n : ℕ}

/-- `map_factors` (`bootstrap.py:252-287`). -/
def mapFactors (H1 H2 : Mat k n K) (thr : K) : Fin k → MapEntry k K :=
  mapFactor (fun i j => r2 (H1 i) (H2 j)) thr

/-- `np.matmul(W_i, [H_i]).sum(axis=0)` (`bootstrap.py:318-328`). -/
def concentration (W : Mat m k K) (H : Mat k n K) (i : Fin k) : Fin n → K := fun j => ∑ s, W s i * H i j

/-- `map_contributions` (`bootstrap.py:289-343`). -/
def mapContributions (W1 : Mat m k K) (H1 : Mat k n K) (W2 : Mat m k K) (H2 : Mat k n K) (thr : K) :
    Fin k → MapEntry k K :=
  mapFactor (fun i j => r2 (concentration W1 H1 i) (concentration W2 H2 j)) thr

/-- State of the mapping table: counts and unmapped counts (`bootstrap.py:535-537`). -/
structure MapTable (k : ℕ) where
  /-- `mapping_table` -/
  counts : Fin k → Fin k → ℕ
  /-- `unmapped` -/
  unmapped : Fin k → ℕ

/-- The inner loop body of `_build_table` (`bootstrap.py:541-545`). -/
def tableStep {L : Type*} (mp : Fin k → MapEntry k L) (t : MapTable k) (j : Fin k) : MapTable k :=
  if (mp j).mapped then ⟨fun a b => if a = j ∧ b = (mp j).mtch then t.counts a b + 1 else t.counts a b, t.unmapped⟩
  else ⟨t.counts, fun a => if a = j then t.unmapped a + 1 else t.unmapped a⟩

/-- `_build_table` (`bootstrap.py:530-553`) over the mappings of all runs. -/
def buildTable {L : Type*} (runs : List (Fin k → MapEntry k L)) : MapTable k :=
  runs.foldl (fun t mp => (List.finRange k).foldl (tableStep mp) t) ⟨fun _ _ => 0, fun _ => 0⟩

/-- `_factor_statistics` (`bootstrap.py:555-568`) on the profile matrix of one run: `Hi = model.H[i]` is a view, so
`Hi[Hi < 1e-8] = 0.0` changes the model. The new profile matrix of the model. -/
def truncateProfiles (eps : K) (H : Mat k n K) : Mat k n K := fun i j => if H i j < eps then 0 else H i j

end

end Esat
