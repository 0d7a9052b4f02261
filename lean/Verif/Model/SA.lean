import Verif.Model.Metrics
import Mathlib.Algebra.Order.Monoid.Unbundled.WithTop

/-!
# Model of class `SA` (`esat/model/sa.py`)

Constructor (58-140), `__validate` (142-217), `initialize` (219-308), the control flow of `train` (325-476), and the
bookkeeping at its end (466-476).  Numbers are elements of an ordered field `K`; an array entry is `Option K`, `none`
standing for NaN; an entry of the profile matrix can also be infinite (`PEntry`), since `initialize` divides by column sums
(infinite entries in arrays of the caller are not modelled).  The random generator, `kmeans2` and `whiten` are oracles: their
outputs are arguments.  The square root is a parameter `sqrt? : K → Option K`.  float32 rounding is not modelled; logging and metadata are not modelled.
-/

namespace Esat

/-- A two-dimensional NumPy array whose shape is only known at run time. -/
structure DMat (α : Type*) where
  /-- `shape[0]` -/
  rows : ℕ
  /-- `shape[1]` -/
  cols : ℕ
  /-- entries -/
  val : Fin rows → Fin cols → α

/-- The two update algorithms. -/
inductive Alg
  /-- `ls-nmf` -/
  | ls
  /-- `ws-nmf` -/
  | ws
  deriving DecidableEq, Repr

/-- `EPSILON = 1e-12` (`esat/metrics.py:7`). -/
def epsilon (K : Type*) [Field K] : K := 1 / 10 ^ 12

/-- `self.method = method.lower() if method.lower() in ('ls-nmf', 'ws-nmf') else 'ls-nmf'` (`sa.py:89`). -/
def parseMethod (method : String) : Alg := if method.toLower = "ws-nmf" then .ws else .ls

section
variable {K : Type*} [Field K] [LinearOrder K] {m n k : ℕ}

/-- `self.U[self.U < EPSILON] = EPSILON` (`sa.py:76`); comparisons with NaN are false. -/
def floorU (U : DMat (Option K)) : DMat (Option K) :=
  { U with val := fun i j => match U.val i j with
      | some x => some (if x < epsilon K then epsilon K else x)
      | none => none }

/-- `H[H <= 0.0] = 1e-12` on an array with NaN entries (`sa.py:291,301`). -/
def floorN {r c : ℕ} (A : Mat r c (Option K)) : Mat r c (Option K) :=
  fun i j => match A i j with
    | some x => some (if x ≤ 0 then 1 / 10 ^ 12 else x)
    | none => none

/-- The same statement on an array of integer dtype: the assigned `1e-12` is truncated to `0`. -/
def floorI {r c : ℕ} (A : Mat r c (Option K)) : Mat r c (Option K) :=
  fun i j => (A i j).map fun x => if x ≤ 0 then 0 else x

/-- An entry of the profile matrix: a number, `inf` (`⊤`) or NaN (`none`). -/
abbrev PEntry (K : Type*) := Option (WithTop K)

/-- An array without infinite entries as a profile matrix. -/
def entries {K : Type*} {r c : ℕ} (A : Mat r c (Option K)) : Mat r c (PEntry K) := fun i j =>
  Option.map (fun x : K => (x : WithTop K)) (A i j)

/-- `np.any(np.isnan(A))`. -/
def anyNaN {α : Type*} {r c : ℕ} (A : Mat r c (Option α)) : Bool := decide (∃ i j, (A i j).isNone = true)

/-- `A.min() < 0.0`; the minimum of an array with a NaN is NaN, and NaN compares false. -/
def minNeg {α : Type*} [Zero α] [LinearOrder α] {r c : ℕ} (A : Mat r c (Option α)) : Bool :=
  !anyNaN A && decide (∃ i j, ∃ x ∈ A i j, x < 0)

/-- An `SA` object for `m × n` data and `k` factors; `R` is the type of the stored results. -/
structure SA (m n k : ℕ) (K : Type*) (R : Type*) where
  /-- `self.V` -/
  V : Mat m n (Option K)
  /-- `self.U` -/
  U : DMat (Option K)
  /-- `self.method` -/
  method : Alg
  /-- `self.update_step` (`sa.py:121-125`) -/
  updateStep : Alg
  /-- `self.optimized_update` (`sa.py:133-136`) -/
  optimizedUpdate : Alg
  /-- `self.H` -/
  H : Option (DMat (PEntry K))
  /-- `self.W` -/
  W : Option (DMat (Option K))
  /-- `self.__has_neg` -/
  hasNeg : Bool
  /-- `self.__validated` -/
  validated : Bool
  /-- `self.__initialized` -/
  initialized : Bool
  /-- `self.WH`, `self.Qtrue`, `self.Qrobust`, `self.q_list` -/
  results : Option R

variable {R : Type*}

/-- The `validated` outcome of `__validate` (`sa.py:156-214`) for the current attributes. -/
def validOf (k : ℕ) (V : Mat m n (Option K)) (U : DMat (Option K)) (H : Option (DMat (PEntry K))) (W : Option (DMat (Option K))) : Bool :=
  !anyNaN V && !anyNaN U.val && !minNeg U.val && decide (U.rows = m ∧ U.cols = n) &&
  (match H with
    | none => false
    | some H => decide (H.rows = k ∧ H.cols = n) && !anyNaN H.val && !minNeg H.val) &&
  (match W with
    | none => false
    | some W => decide (W.rows = m ∧ W.cols = k) && !anyNaN W.val)

/-- The `has_neg` outcome of `__validate` (`sa.py:165-166,210-211`). -/
def negOf (V : Mat m n (Option K)) (W : Option (DMat (Option K))) : Bool :=
  minNeg V || (match W with | none => false | some W => minNeg W.val)

/-- `SA.__init__` (`sa.py:58-140`): `__validate` runs with `H = W = None`, then `__validated` is reset. -/
def SA.construct (k : ℕ) (V : Mat m n (Option K)) (U : DMat (Option K)) (method : String) : SA m n k K R :=
  let hasNeg := negOf V none
  let meth := parseMethod method
  let alg := if meth = .ls ∧ hasNeg = false then Alg.ls else Alg.ws
  { V := V, U := floorU U, method := meth, updateStep := alg, optimizedUpdate := alg, H := none, W := none,
    hasNeg := hasNeg, validated := false, initialized := false, results := none }

/-- The weights `We = 1 / U**2` computed by the constructor (`sa.py:79`). -/
def SA.weights (s : SA m n k K R) : Mat s.U.rows s.U.cols (Option K) :=
  fun i j => (s.U.val i j).map fun x => 1 / x ^ 2

/-- Exceptions `initialize` can raise. -/
inductive InitErr
  /-- `H[i] = prior_H[i]` with `i ≥ factors` (`sa.py:299`) -/
  | indexError
  /-- `H[i] = prior_H[i]` with a row of another length (`sa.py:299`) -/
  | valueError
  /-- `whiten` (`sa.py:255`) and `kmeans2` (`sa.py:265`) raise `ValueError` for data with NaN (`check_finite=True`) -/
  | notFinite
  deriving DecidableEq, Repr

/-- Everything random or delegated to SciPy in one call of `initialize`. -/
structure InitDraws (m n k : ℕ) (K : Type*) where
  /-- `rng.standard_normal((factors, n))` (`sa.py:279`) -/
  hDraw : Mat k n K
  /-- `rng.standard_normal((m, factors))` (`sa.py:288`) -/
  wDraw : Mat m k K
  /-- centroids of `kmeans2` (`sa.py:265`) -/
  centroids : Mat k n (Option K)
  /-- contributions built from the cluster labels (`sa.py:266-268`) -/
  contributions : Mat m k K

/-- Mean of a column, `none` if an entry is NaN (`sa.py:275`). -/
def colMean (V : Mat m n (Option K)) (j : Fin n) : Option K :=
  if ∃ i, (V i j).isNone = true then none else some ((∑ i, (V i j).getD 0) / m)

/-- Mean of a row (`sa.py:276`). -/
def rowMean (V : Mat m n (Option K)) (i : Fin m) : Option K :=
  if ∃ j, (V i j).isNone = true then none else some ((∑ j, (V i j).getD 0) / n)

/-- The randomly sampled profiles (`sa.py:277-279`). -/
def randomH (sqrt? : K → Option K) (V : Mat m n (Option K)) (d : InitDraws m n k K) : Mat k n (Option K) :=
  fun a j => do
    let mu ← colMean V j
    let s ← sqrt? (mu / k)
    return s * d.hDraw a j

/-- The randomly sampled contributions (`sa.py:285-291`). -/
def randomW (sqrt? : K → Option K) (meth : Alg) (V : Mat m n (Option K)) (d : InitDraws m n k K) :
    Mat m k (Option K) :=
  let w : Mat m k (Option K) := fun i a => do
    let mu ← rowMean V i
    let s ← sqrt? (mu / k)
    return s * d.wDraw i a
  match meth with
  | .ls => floorN w
  | .ws => w

/-- `np.matmul(V, H.T)` with NaN propagation (`sa.py:282`). -/
def matmulVHt (V : Mat m n (Option K)) (H : Mat k n (Option K)) : Mat m k (Option K) :=
  fun i a => if ∃ j, (V i j).isNone = true ∨ (H a j).isNone = true then none
    else some (∑ j, (V i j).getD 0 * (H a j).getD 0)

/-- `H = H / H.sum(axis=0); H[H <= 0.0] = 1e-12` (`sa.py:300-301`): a column with a NaN is NaN; if the sum is zero, a positive entry
becomes `inf`, a negative one `-inf` and then `1e-12`, a zero NaN. -/
def normaliseCols (H : Mat k n (Option K)) : Mat k n (PEntry K) := fun a j =>
  if ∃ b, (H b j).isNone = true then none
  else
    let s := ∑ b, (H b j).getD 0
    let x := (H a j).getD 0
    if s = 0 then (if x < 0 then some ((1 / 10 ^ 12 : K) : WithTop K) else if x = 0 then none else some ⊤)
    else some ((if x / s ≤ 0 then 1 / 10 ^ 12 else x / s : K) : WithTop K)

/-- One row of the prior array, assigned to a row of length `n` (`sa.py:299`): a single column is broadcast, any other
length mismatch is excluded beforehand. -/
def priorRow (n : ℕ) (P : DMat (Option K)) (a : Fin P.rows) (j : Fin n) : Option K :=
  if hc : P.cols = n then P.val a (j.cast hc.symm)
  else if h1 : P.cols = 1 then P.val a ⟨0, by omega⟩ else none

/-- Insertion of the prior profiles, column normalisation and the floor (`sa.py:297-301`). -/
def insertPrior (H : Mat k n (Option K)) (P : DMat (Option K)) : Except InitErr (Mat k n (PEntry K)) :=
  if P.rows = 0 then .ok (normaliseCols H)
  else if P.cols ≠ n ∧ P.cols ≠ 1 then .error .valueError
  else if k < P.rows then .error .indexError
  else .ok (normaliseCols fun a j => if ha : a.val < P.rows then priorRow n P ⟨a.val, ha⟩ j else H a j)

/-- A full-shape user array as a `k × n` matrix, if it has that shape (`sa.py:259`). -/
def asShape {α : Type*} (r c : ℕ) (A : DMat α) : Option (Mat r c α) :=
  if h : A.rows = r ∧ A.cols = c then some fun i j => A.val (i.cast h.1.symm) (j.cast h.2.symm) else none

/-- The arguments of one call of `initialize` (`sa.py:219-224`) with its oracle draws. -/
structure InitArgs (m n k : ℕ) (K : Type*) where
  /-- argument `H` -/
  H : Option (DMat (Option K))
  /-- `H.dtype` is an integer type -/
  hInt : Bool
  /-- argument `W` -/
  W : Option (DMat (Option K))
  /-- `"kmeans" in init_method.lower()` -/
  kmeans : Bool
  /-- `"update" in init_method.lower()` -/
  update : Bool
  /-- random draws and clustering result -/
  draws : InitDraws m n k K
  /-- argument `init_norm` -/
  norm : Bool

/-- The profiles and contributions before prior insertion (`sa.py:263-291`); `wsUpdateW` is the W half of
`WSNMF.update` (`sa.py:284`). -/
def baseFactors (sqrt? : K → Option K) (wsUpdateW : Mat k n (Option K) → Mat m k (Option K)) (meth : Alg)
    (V : Mat m n (Option K)) (a : InitArgs m n k K) : Mat k n (Option K) × DMat (Option K) :=
  if a.kmeans then (a.draws.centroids, ⟨m, k, fun i f => some (a.draws.contributions i f)⟩)
  else
    let h := (a.H.bind (asShape k n)).getD (randomH sqrt? V a.draws)
    let w : Option (DMat (Option K)) :=
      if a.update then some ⟨m, k, match meth with | .ls => matmulVHt V h | .ws => wsUpdateW h⟩ else a.W
    (h, w.getD ⟨m, k, randomW sqrt? meth V a.draws⟩)

/-- The profile and contribution matrices computed by `initialize` (`sa.py:251-303`). -/
def initFactors (sqrt? : K → Option K) (wsUpdateW : Mat k n (Option K) → Mat m k (Option K)) (meth : Alg)
    (V : Mat m n (Option K)) (a : InitArgs m n k K) : Except InitErr (Mat k n (PEntry K) × DMat (Option K)) :=
  let p := baseFactors sqrt? wsUpdateW meth V a
  match a.H, (a.H.bind (asShape k n)).isSome with
  | some P, false =>
    match insertPrior p.1 P with
    | .ok h => .ok (h, p.2)
    | .error e => .error e
  | some _, true => .ok (entries ((if a.hInt && !a.kmeans then floorI else floorN) p.1), p.2)
  | none, _ => .ok (entries (floorN p.1), p.2)

/-- Whether the SciPy calls of `initialize` accept the data: `whiten(obs=self.V)` runs whenever `init_norm` is set (also
without k-means, `sa.py:253-255`), `kmeans2` for k-means (`sa.py:265`); both check for NaN. -/
def scipyAccepts (V : Mat m n (Option K)) (a : InitArgs m n k K) : Bool := !((a.norm || a.kmeans) && anyNaN V)

/-- `SA.initialize` (`sa.py:219-308`). -/
def SA.initialize (sqrt? : K → Option K) (wsUpdateW : Mat k n (Option K) → Mat m k (Option K)) (s : SA m n k K R)
    (a : InitArgs m n k K) : Except InitErr (SA m n k K R) :=
  match (if scipyAccepts s.V a then initFactors sqrt? wsUpdateW s.method s.V a else .error .notFinite) with
  | .ok p => .ok { s with H := some ⟨k, n, p.1⟩, W := some p.2, initialized := true,
                          validated := validOf k s.V s.U (some ⟨k, n, p.1⟩) (some p.2),
                          hasNeg := negOf s.V (some p.2) }
  | .error e => .error e

/-- The contents of the caller's array after it was passed as `H` to `initialize`: a full-shape array that is not replaced
by k-means is floored in place (`sa.py:301`); any other array is only read. -/
def callerHAfter (k n : ℕ) (hInt kmeans : Bool) (H : DMat (Option K)) : DMat (Option K) :=
  if kmeans = false ∧ H.rows = k ∧ H.cols = n then { H with val := (if hInt then floorI else floorN) H.val } else H

/-- The contents of the caller's array after it was passed as `W`: `W` is only written when it was created by
`initialize` itself (`sa.py:285-291`). -/
def callerWAfter (W : DMat (Option K)) : DMat (Option K) := W

/-- The update algorithm of the compiled / the Python path (`sa.py:397-400`, `437`). -/
def SA.algorithm (s : SA m n k K R) (optimized : Bool) : Alg := if optimized then s.optimizedUpdate else s.updateStep

/-- What `train` returns. -/
inductive TrainReturn
  /-- `return -1` -/
  | minusOne
  /-- `return False` -/
  | false
  /-- falls off the end: `None` -/
  | none
  deriving DecidableEq, Repr

/-- `SA.train` (`sa.py:383-476`). `init` is the default `self.initialize()` call, `run` the training loop (`none` = a
`RuntimeError` of the compiled function, `sa.py:423-425`), `finish` the computation of WH, Qtrue, Qrobust from the factors. -/
def SA.train (init : SA m n k K R → Except InitErr (SA m n k K R)) (optimized : Bool)
    (run : Alg → DMat (Option K) → DMat (PEntry K) → Option (DMat (Option K) × DMat (PEntry K)))
    (finish : DMat (Option K) → DMat (PEntry K) → R) (s : SA m n k K R) :
    Except InitErr (SA m n k K R × TrainReturn) :=
  match (if s.initialized then .ok s else init s) with
  | .error e => .error e
  | .ok s =>
    match s.validated, s.W, s.H with
    | true, some W, some H =>
      match run (s.algorithm optimized) W H with
      | Option.none => .ok (s, .false)
      | some (W', H') => .ok ({ s with W := some W', H := some H', results := some (finish W' H') }, .none)
    | _, _, _ => .ok (s, .minusOne)

/-- The calls a user can make on an `SA` object. -/
inductive SAOp (m n k : ℕ) (K : Type*) (R : Type*)
  /-- `initialize(...)` -/
  | initialize (a : InitArgs m n k K)
  /-- `train()` with the draws of a default initialisation, the training loop and the final computation -/
  | train (d : InitDraws m n k K) (optimized : Bool)
      (run : Alg → DMat (Option K) → DMat (PEntry K) → Option (DMat (Option K) × DMat (PEntry K)))
      (finish : DMat (Option K) → DMat (PEntry K) → R)

/-- The arguments of `self.initialize()` (`sa.py:385`). -/
def defaultArgs (d : InitDraws m n k K) : InitArgs m n k K := ⟨none, false, none, false, false, d, true⟩

/-- One call; an exception leaves the object unchanged (both raise before assigning attributes). The second component is
what `train` returned. -/
def SA.step (sqrt? : K → Option K) (wsUpdateW : Mat k n (Option K) → Mat m k (Option K)) (s : SA m n k K R) :
    SAOp m n k K R → SA m n k K R × Option TrainReturn
  | .initialize a => match s.initialize sqrt? wsUpdateW a with
    | .ok s' => (s', none)
    | .error _ => (s, none)
  | .train d optimized run finish =>
    match s.train (fun s => s.initialize sqrt? wsUpdateW (defaultArgs d)) optimized run finish with
    | .ok (s', r) => (s', some r)
    | .error _ => (s, none)

/-- A sequence of calls; the list of what the `train` calls returned is accumulated in order. -/
def SA.runOps (sqrt? : K → Option K) (wsUpdateW : Mat k n (Option K) → Mat m k (Option K)) (s : SA m n k K R)
    (ops : List (SAOp m n k K R)) : SA m n k K R × List TrainReturn :=
  ops.foldl (fun p op => let q := p.1.step sqrt? wsUpdateW op; (q.1, p.2 ++ q.2.toList)) (s, [])

end

/-- The attributes written at the end of `train` (`sa.py:466-470`). -/
structure FinalResults (m n : ℕ) where
  /-- `self.WH` -/
  WH : Mat m n ℝ
  /-- `self.Qtrue` -/
  Qtrue : ℝ
  /-- `self.Qrobust` -/
  Qrobust : ℝ

/-- `self.WH = np.matmul(self.W, self.H); self.Qtrue = q_loss(...); self.Qrobust, _ = qr_loss(..., alpha=robust_alpha)`
(`sa.py:467-469`). -/
noncomputable def saFinish {m n k : ℕ} (V U : Mat m n ℝ) (alpha : ℝ) (W : Mat m k ℝ) (H : Mat k n ℝ) :
    FinalResults m n :=
  { WH := W ⬝ H, Qtrue := qLoss V U W H, Qrobust := (qrLoss V U W H alpha).1 }

/-- The number of an entry, `none` for NaN and `inf`. -/
def PEntry.num? {K : Type*} : PEntry K → Option K
  | some (some x) => some x
  | _ => none

/-- The same on the run-time arrays; `none` if a shape is wrong or an entry is NaN or infinite (the Q values are then not finite numbers). -/
noncomputable def finishOf {m n : ℕ} (k : ℕ) (V U : Mat m n ℝ) (alpha : ℝ) (W : DMat (Option ℝ)) (H : DMat (PEntry ℝ)) :
    Option (FinalResults m n) :=
  match asShape m k W, asShape k n H with
  | some W', some H' =>
    let h : Mat k n (Option ℝ) := fun a j => PEntry.num? (H' a j)
    if anyNaN W' || anyNaN h then none
    else some (saFinish V U alpha (fun i a => (W' i a).getD 0) (fun a j => (h a j).getD 0))
  | _, _ => none

end Esat
