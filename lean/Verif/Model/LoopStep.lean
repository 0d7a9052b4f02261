import Verif.Model.LsNmf
import Verif.Model.WsNmf

/-!
# One iteration of the compiled training loops on possibly spoilt states

The factors may have been spoilt by a division by zero in an earlier iteration (`none` = the matrix contains `nan`/`inf`);
the loop goes on with them.  The matrix inverse of ws-nmf is a parameter, see `Model/WsNmf.lean`.
-/

namespace Esat
variable {m n k : ℕ}

/-- One iteration of the compiled ls-nmf loop (`rust/lib.rs:354-363`) on a state whose matrices may have been spoilt by
a division by zero (`none`); H is not touched when it is held. -/
def lsLoopStep {K : Type*} [Field K] [DecidableEq K] (V We : Mat m n K) (u : Bool) :
    Option (Mat m k K) × Option (Mat k n K) → Option (Mat m k K) × Option (Mat k n K) :=
  fun p =>
    let H' := if u then (p.1.bind fun W => p.2.bind fun H => lsStepH V We W H) else p.2
    (p.1.bind fun W => H'.bind fun H => lsStepW V We W H, H')

/-- One iteration of the compiled ws-nmf loop (`rust/lib.rs:694-735`). -/
noncomputable def wsLoopStep (inv : Mat k k ℝ → Mat k k ℝ) (V We : Mat m n ℝ) (u : Bool) :
    Option (Mat m k ℝ) × Option (Mat k n ℝ) → Option (Mat m k ℝ) × Option (Mat k n ℝ) :=
  fun p => match p.2 with
    | none => (none, none)
    | some H => let W' := wsStepW inv V We H
      (some W', if u then wsStepH V We W' H else some H)

end Esat
