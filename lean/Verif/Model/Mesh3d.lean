import Verif.Model.Mat
import Mathlib.Analysis.SpecialFunctions.Log.Base

/-!
# Model of the bars of `plot_all_factors_3d`

`esat/data/analysis.py:566-635`: the heights `conc_z` and `percent_z` and the mesh `_create_mesh3d` builds from them. The lists `X`, `Y`, `Z` are one
list of points, `I`, `J`, `K` one list of triangles, and a hover text is the triple of the numbers and the label in it. Not modelled: the two decimals of the hover
text, colours and layout.
-/

namespace Esat

section heights
variable {m n k : ℕ}

/-- `conc_z[i, j]` (`analysis.py:571-577`): `log10` of the column sum of the outer product plus one, a sum of zero being replaced by `1e-12`; `none` = NaN or `-inf`. -/
noncomputable def meshConc (W : Mat m k ℝ) (H : Mat k n ℝ) (i : Fin k) (j : Fin n) : Option ℝ :=
  let s := ∑ t, W t i * H i j
  let s' := if s = 0 then 1 / 1000000000000 else s
  if s' + 1 ≤ 0 then none else some (Real.logb 10 (s' + 1))

/-- `percent_z[i, j]` (`analysis.py:579-580`); `none` = division by zero. -/
def meshPercent {K : Type*} [Field K] [DecidableEq K] (H : Mat k n K) (i : Fin k) (j : Fin n) : Option K :=
  let s := ∑ a, H a j
  if s = 0 then none else some (100 * (H i j / s))

end heights

section mesh
variable {K : Type*} [Field K]

/-- The corners of a bar (`analysis.py:591-602`) with `bar_width = 0.85` and `bar_depth = 0.35` (583-584). -/
def barVertices (i j : ℕ) (z : K) : List (K × K × K) :=
  let x0 : K := j - 85 / 100 / 2
  let x1 : K := j + 85 / 100 / 2
  let y0 : K := i - 35 / 100 / 2
  let y1 : K := i + 35 / 100 / 2
  [(x0, y0, 0), (x1, y0, 0), (x1, y1, 0), (x0, y1, 0), (x0, y0, z), (x1, y0, z), (x1, y1, z), (x0, y1, z)]

/-- The triangles of a bar (`analysis.py:613-620`). -/
def barFaces : List (ℕ × ℕ × ℕ) :=
  [(0, 1, 2), (0, 2, 3), (4, 5, 6), (4, 6, 7), (0, 1, 5), (0, 5, 4), (1, 2, 6), (1, 6, 5), (2, 3, 7), (2, 7, 6), (3, 0, 4), (3, 4, 7)]

/-- The arguments of `go.Mesh3d` (`analysis.py:626-635`). -/
structure Mesh (K : Type*) where
  /-- `x`, `y`, `z` -/
  points : List (K × K × K)
  /-- `i`, `j`, `k` -/
  triangles : List (ℕ × ℕ × ℕ)
  /-- `intensity` -/
  intensity : List K
  /-- `text`: number of the factor, feature, value -/
  text : List (ℕ × String × K)

/-- The body of the inner loop (`analysis.py:590-625`) for bar `(i, j)` with the counter `idx`. -/
def addBar (feature : ℕ → String) (z : ℕ → ℕ → K) (st : Mesh K × ℕ) (p : ℕ × ℕ) : Mesh K × ℕ :=
  let v := st.2 * 8
  ({ points := st.1.points ++ barVertices p.1 p.2 (z p.1 p.2)
     triangles := st.1.triangles ++ barFaces.map fun f => (v + f.1, v + f.2.1, v + f.2.2)
     intensity := st.1.intensity ++ List.replicate 8 (z p.1 p.2)
     text := st.1.text ++ List.replicate 8 (p.1 + 1, feature p.2, z p.1 p.2) }, st.2 + 1)

/-- `_create_mesh3d` (`analysis.py:586-635`) for `k` factors and `n` features. -/
def createMesh (k n : ℕ) (feature : ℕ → String) (z : ℕ → ℕ → K) : Mesh K :=
  (((List.range k).flatMap fun i => (List.range n).map fun j => (i, j)).foldl (addBar feature z) (⟨[], [], [], []⟩, 0)).1

end mesh

end Esat
