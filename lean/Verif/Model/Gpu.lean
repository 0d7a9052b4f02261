import Mathlib.Tactic.Common

/-!
# Shape model of the GPU training path

`ls_nmf` / `ws_nmf` with a CUDA device (`rust/lib.rs:222-242,556-576`) and one iteration of `ls_nmf_update_gpu`
(`lib.rs:448-467`) and `ws_nmf_update_gpu` (`lib.rs:827-856`), reduced to the shapes and element types of the tensors:
candle's `matmul` needs matching inner dimensions, its element-wise operations need equal shapes (no broadcasting in
`mul`/`div`/`add`/`sub`), `to_scalar::<T>` needs a rank-0 tensor of element type `T`.  All tensors are created from `f64`
vectors, so their element type is `F64`.  Tensor values are not modelled: an error here is independent of them.
-/

namespace Esat

/-- A tensor's dimensions, all element types being `F64`. -/
abbrev Shp := List ℕ

/-- `a.matmul(&b)` on rank-2 tensors. -/
def Shp.matmul (a b : Shp) : Option Shp :=
  match a, b with
  | [m, k], [k', n] => if k = k' then some [m, n] else none
  | _, _ => none

/-- element-wise `mul`, `div`, `add`, `sub`. -/
def Shp.zip (a b : Shp) : Option Shp := if a = b then some a else none

/-- `a.t()` on a rank-2 tensor. -/
def Shp.t (a : Shp) : Option Shp :=
  match a with
  | [m, n] => some [n, m]
  | _ => none

/-- `x.to_scalar::<f32>()` on an `F64` tensor: rank must be 0 and the element type must match; `dtypeCheck` says whether
the library performs the latter check (it does). -/
def Shp.toScalarF32 (dtypeCheck : Bool) (a : Shp) : Option Unit :=
  if a = [] ∧ dtypeCheck = false then some () else none

/-- `calculate_q_gpu` (`lib.rs:944-957`). -/
def gpuQ (dtypeCheck : Bool) (v u w h : Shp) : Option Unit := do
  let wh ← w.matmul h
  let r ← v.zip wh
  let wr ← r.zip u
  let _ ← wr.zip wr
  Shp.toScalarF32 dtypeCheck []

/-- The factor tensors built by `ls_nmf` for the GPU: `W` and `H` are passed transposed (`lib.rs:232-241`). -/
def lsGpuInputs (m n k : ℕ) : Shp × Shp := ([k, m], [n, k])

/-- One iteration of `ls_nmf_update_gpu` on shapes; `none` = candle error (`lib.rs:445,448-467`). -/
def lsGpuIter (dtypeCheck : Bool) (updatesH : Bool) (v u we w h : Shp) : Option (Shp × Shp) := do
  let wev ← we.zip v
  let h ← if updatesH then do
      let wh ← w.matmul h
      let wt ← w.t
      let num ← wt.matmul wev
      let x ← we.zip wh
      let den ← wt.matmul x
      let d ← num.zip den
      h.zip d
    else some h
  let wh ← w.matmul h
  let ht ← h.t
  let num ← wev.matmul ht
  let x ← we.zip wh
  let den ← x.matmul ht
  let d ← num.zip den
  let w ← w.zip d
  let _ ← gpuQ dtypeCheck v u w h
  some (w, h)

/-- One iteration of `ws_nmf_update_gpu` on shapes (`lib.rs:824,827-858`); `W`, `H` are passed untransposed
(`lib.rs:566-575`). -/
def wsGpuIter (dtypeCheck : Bool) (updatesH : Bool) (v u we w h : Shp) : Option (Shp × Shp) := do
  let wev ← we.zip v
  let wh ← w.matmul h
  let ht ← h.t
  let num ← wev.matmul ht
  let x ← we.zip wh
  let den ← x.matmul ht
  let d ← num.zip den
  let w ← w.zip d
  let h ← if updatesH then do
      let wneg ← (← w.zip w).zip [1]
      let wpos ← (← w.zip w).zip [1]
      let _ ← w.matmul h
      let hnum ← (← wpos.t).matmul wev
      let hden ← (← wneg.t).matmul wev
      let n2a ← (← wneg.t).matmul we
      let n2b ← n2a.matmul wneg
      let d2a ← (← wpos.t).matmul we
      let d2b ← d2a.matmul wpos
      let hj ← h.t
      let n2 ← hj.matmul n2b
      let d2 ← hj.matmul d2b
      let nn ← (← hnum.zip n2).zip [1]
      let dd ← (← hden.zip d2).zip [1]
      let delta ← nn.zip dd
      h.zip (← delta.t)
    else some h
  let _ ← gpuQ dtypeCheck v u w h
  some (w, h)

/-- Outcome of `SA.train` on the compiled path (`sa.py:399-427,466-476`): a `RuntimeError` from the compiled code is
logged and `train` returns `False` without storing anything. -/
inductive TrainOutcome
  /-- trained: returns `None` -/
  | trained
  /-- `return False` -/
  | falseReturned
  deriving DecidableEq, Repr

/-- Training with `use_gpu=True` (the constructor's default, `sa.py:66`) on a machine with a CUDA device: the compiled
function runs `max_iter` iterations, the first error ends it (`lib.rs:448`, `sa.py:424-426`). `iter i` is the shape
computation of iteration `i`. -/
def gpuTrain (iter : ℕ → Shp × Shp → Option (Shp × Shp)) : ℕ → ℕ → Shp × Shp → TrainOutcome
  | 0, _, _ => .trained
  | fuel + 1, i, s =>
    match iter i s with
    | none => .falseReturned
    | some s' => gpuTrain iter fuel (i + 1) s'

/-- `calculate_q_robust_gpu` on shapes (`lib.rs:959-977`): `robust_alpha` is a tensor of shape `(1,)`. The comparison `lt` and `where_cond`
need equal shapes too. -/
def gpuQRobust (dtypeCheck : Bool) (v u w h : Shp) : Option Unit := do
  let wh ← w.matmul h
  let r ← v.zip wh
  let s ← r.zip u
  let a ← s.zip [1]
  let ru ← a.zip u
  let rr ← r.zip ru
  let mask ← s.zip [1]
  let mr ← (← mask.zip s).zip rr
  let _ ← mr.zip mr
  Shp.toScalarF32 dtypeCheck []

/-- The loop of `ls_nmf_update_gpu` (`lib.rs:447-504`) and `ws_nmf_update_gpu` (`lib.rs:826-888`) with the report: `timer i` says that the time
since the last report has passed, `conv i` that the model converged in iteration `i`. -/
def gpuTrainReport (iter : ℕ → Shp × Shp → Option (Shp × Shp)) (robust : Shp × Shp → Option Unit) (timer conv : ℕ → Bool) :
    ℕ → ℕ → Shp × Shp → TrainOutcome
  | 0, _, _ => .trained
  | fuel + 1, i, s =>
    match iter i s with
    | none => .falseReturned
    | some s' =>
      if timer i || conv i || fuel == 0 then
        match robust s' with
        | none => .falseReturned
        | some () => if conv i then .trained else gpuTrainReport iter robust timer conv fuel (i + 1) s'
      else gpuTrainReport iter robust timer conv fuel (i + 1) s'

end Esat
