import Verif.Model.Correlation
import Mathlib.Analysis.SpecialFunctions.Pow.Real
import Mathlib.Analysis.SpecialFunctions.Log.Base
import Mathlib.Analysis.SpecialFunctions.Sqrt

/-!
# Model of the optimal block length (`esat/model/recombinator.py`, `esat/data/datahandler.py:417-435`)

Arithmetic is exact over the reals; NaN is `none`, an exception is an outer `none`. Arrays are functions on natural numbers
with an explicit shape.
-/

namespace Esat

section mlag
variable {K : Type*}

/-- One assignment `xlag[j + 1:, col] = x[0:-j - 1, i]` (`recombinator.py:45`). Both slices have `max (nobs - j - 1) 0` rows. -/
def lagAssign (nobs : ℕ) (x : ℕ → ℕ → K) (i j col : ℕ) (a : ℕ → ℕ → K) : ℕ → ℕ → K :=
  fun t c => if c = col ∧ j + 1 ≤ t ∧ t < nobs then x (t - (j + 1)) i else a t c

/-- `mlag` (`recombinator.py:9-48`) for an array with `nobs` rows and `nvar` columns: `n` lags per column, the missing values
are `init`. The loops of lines 43-46 with the running column `icnt`. -/
def mlag (nobs nvar : ℕ) (x : ℕ → ℕ → K) (n : ℕ) (init : K) : ℕ → ℕ → K :=
  ((List.range nvar).foldl (fun (s : (ℕ → ℕ → K) × ℕ) i =>
    ((List.range n).foldl (fun a j => lagAssign nobs x i j (s.2 + j) a) s.1, s.2 + n)) (fun _ _ => init, 0)).1

end mlag

/-- `lam` (`recombinator.py:51-58`): the booleans are multiplied as 0 and 1. -/
def lam {K : Type*} [Field K] [LinearOrder K] (k : K) : K :=
  (if 0 ≤ |k| then 1 else 0) * (if |k| < 1 / 2 then 1 else 0) +
    2 * (1 - |k|) * (if 1 / 2 ≤ |k| then 1 else 0) * (if |k| ≤ 1 then 1 else 0)

section block

/-- `kn` (`recombinator.py:116`). -/
noncomputable def blockKn (n : ℕ) : ℕ := ⌊max 5 (Real.sqrt (Real.logb 10 n))⌋₊

/-- `m_max` (`recombinator.py:120`). -/
noncomputable def blockMMax (n : ℕ) : ℕ := ⌈Real.sqrt n⌉₊ + blockKn n

/-- `b_max` (`recombinator.py:125`). -/
noncomputable def blockBMax (n : ℕ) : ℝ := ⌈min (3 * Real.sqrt n) (n / 3)⌉

/-- The threshold `c * np.sqrt(np.log10(n) / n)` (`recombinator.py:158,173`). -/
noncomputable def blockThr (n : ℕ) : ℝ := 2 * Real.sqrt (Real.logb 10 n / n)

/-- `np.corrcoef` of two columns; NaN for a constant column. -/
noncomputable def corr {N : ℕ} (x y : Fin N → ℝ) : Option ℝ :=
  if scov x x = 0 ∨ scov y y = 0 then none else some (scov x y / Real.sqrt (scov x x * scov y y))

/-- Column `j` of `mlag(data, m)` without the first `m` rows (`recombinator.py:139-142,190-193`). -/
def lagCol {K : Type*} [Zero K] (n : ℕ) (data : ℕ → K) (m j : ℕ) : Fin (n - m) → K :=
  fun t => mlag n 1 (fun s _ => data s) m 0 (m + t) j

/-- `data[m:]`. -/
def dataCol {K : Type*} (n : ℕ) (data : ℕ → K) (m : ℕ) : Fin (n - m) → K := fun t => data (m + t)

/-- Auto-correlations (`recombinator.py:139-144`): entry `j` belongs to lag `j + 1`. -/
noncomputable def acorr (n : ℕ) (data : ℕ → ℝ) (j : ℕ) : Option ℝ :=
  corr (dataCol n data (blockMMax n)) (lagCol n data (blockMMax n) j)

/-- `np.abs(x) < thr` (false for NaN). -/
noncomputable def insig (thr : ℝ) (x : Option ℝ) : Bool := match x with | none => false | some r => decide (|r| < thr)

/-- `np.abs(x) > thr` (false for NaN). -/
noncomputable def signif (thr : ℝ) (x : Option ℝ) : Bool := match x with | none => false | some r => decide (thr < |r|)

/-- Entry `(j, s)` of `temp2` (`recombinator.py:152-155`): the transposed lag matrix of the auto-correlations with the last
`kn` auto-correlations as an additional column, without the first `kn` columns. -/
noncomputable def winEntry (ρ : ℕ → Option ℝ) (kn mMax j s : ℕ) : Option ℝ :=
  if s + kn < mMax then mlag mMax 1 (fun t _ => ρ t) kn (some 0) (s + kn) j else ρ (mMax - kn + j)

/-- Number of insignificant entries of a column (`recombinator.py:158-162`). -/
noncomputable def winCount (thr : ℝ) (ρ : ℕ → Option ℝ) (kn mMax s : ℕ) : ℕ :=
  ((List.range kn).filter fun j => insig thr (winEntry ρ kn mMax j s)).length

/-- `m_hat` (`recombinator.py:167-177`): the first collection without a significant entry, else the last index with a
significant auto-correlation (`max` of an empty array raises `ValueError`: `none`). -/
noncomputable def mHat (thr : ℝ) (ρ : ℕ → Option ℝ) (kn mMax : ℕ) : Option ℕ :=
  match ((List.range (mMax - kn + 1)).filter fun s => winCount thr ρ kn mMax s = kn).head? with
  | some s => some (s + 1)
  | none => ((List.range mMax).filter fun i => signif thr (ρ i)).getLast?

/-- `m` (`recombinator.py:179-182`). -/
def bandwidth (mMax mh : ℕ) : ℕ := if mMax < 2 * mh then mMax else 2 * mh

/-- Auto-covariances for lags `0..m` (`recombinator.py:190-196`). More than one row remains whenever `m_hat` exists
(`mHat_rows`), so the division is by a positive number. -/
noncomputable def acov (n : ℕ) (data : ℕ → ℝ) (m k : ℕ) : ℝ :=
  match k with
  | 0 => scov (dataCol n data m) (dataCol n data m) / ((n - m : ℕ) - 1)
  | j + 1 => scov (dataCol n data m) (lagCol n data m j) / ((n - m : ℕ) - 1)

/-- The auto-covariances from `-m` to `m` (`recombinator.py:197-204`): lags `-1..-m` sorted, then lags `0..m`. -/
noncomputable def acvAll (n : ℕ) (data : ℕ → ℝ) (m : ℕ) : List ℝ :=
  ((List.range m).map fun i => acov n data m (i + 1)).reverse ++ (List.range (m + 1)).map fun i => acov n data m i

/-- `np.arange(-m, m + 1)`. -/
def lagsAll (m : ℕ) : List ℤ := (List.range (2 * m + 1)).map fun i : ℕ => ((i : ℤ) - (m : ℤ))

/-- `g_hat` (`recombinator.py:207`). -/
noncomputable def gHat (n : ℕ) (data : ℕ → ℝ) (m : ℕ) : ℝ :=
  (List.zipWith (fun (k : ℤ) c => lam ((k : ℝ) / m) * |(k : ℝ)| * c) (lagsAll m) (acvAll n data m)).sum

/-- `np.sum(lam(kk / m) * acv)` (`recombinator.py:208-211`). -/
noncomputable def sHat (n : ℕ) (data : ℕ → ℝ) (m : ℕ) : ℝ :=
  (List.zipWith (fun (k : ℤ) c => lam ((k : ℝ) / m) * c) (lagsAll m) (acvAll n data m)).sum

/-- One block length from `g_hat` and a denominator (`recombinator.py:216-225`): `0/0` is NaN and stays NaN (the comparison is
false); `x/0` is infinite and is replaced by `b_max`. -/
noncomputable def blockFrom (n : ℕ) (g d : ℝ) : Option ℝ :=
  if d = 0 then (if g = 0 then none else some (blockBMax n))
  else
    let b := (2 * g ^ 2 / d) ^ (1 / 3 : ℝ) * (n : ℝ) ^ (1 / 3 : ℝ)
    some (if blockBMax n < b then blockBMax n else b)

/-- `optimal_block_length` for one column with `n` values (`recombinator.py:133-231`): lengths for the stationary and the
circular bootstrap. -/
noncomputable def blockLength (n : ℕ) (data : ℕ → ℝ) : Option (Option ℝ × Option ℝ) :=
  (mHat (blockThr n) (acorr n data) (blockKn n) (blockMMax n)).map fun mh =>
    let m := bandwidth (blockMMax n) mh
    if 0 < m then
      (blockFrom n (gHat n data m) (2 * sHat n data m ^ 2), blockFrom n (gHat n data m) (4 / 3 * sHat n data m ^ 2))
    else (some 1, some 1)

/-- `_determine_optimal_block` (`datahandler.py:417-435`) for data with `n` rows and the given columns: the floor of the mean
length of the circular bootstrap; a failing column or a NaN raises `ValueError`, which is caught and replaced by a fifth of the
number of columns. -/
noncomputable def optimalBlock (n : ℕ) (cols : List (ℕ → ℝ)) : ℤ :=
  match cols.mapM fun c => (blockLength n c).bind (·.2) with
  | some bs => ⌊bs.sum / bs.length⌋
  | none => ((cols.length / 5 : ℕ) : ℤ)

end block

end Esat
