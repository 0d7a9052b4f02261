import Verif.Lemmas.TrainLoop
import Verif.Model.LoopStep
import Mathlib.Data.Fin.VecNotation
import Mathlib.Tactic.NormNum
import Mathlib.Data.Rat.Defs
import Mathlib.Algebra.Order.Ring.Rat

/-!
# Properties C04, C12, C13, C14, C15: the training loops

The specification (`traj`, `lossAt`, `Crit`, `effN`) is in `Verif/Spec/TrainLoop.lean`.
-/

namespace Esat

section
variable {σ K : Type*} [Field K] [LinearOrder K]

/-! ## Example data: a state that counts updates, with a loss that halves and then stalls -/

/-- Example update: the state is the number of updates, `100` added when H is not updated. -/
def exStep : Bool → ℕ → ℕ := fun u s => if u then s + 1 else s + 100

/-- Example loss: `10 - s` until 6 updates, then constant. -/
def exLoss : ℕ → Option ℚ := fun s => some (10 - min s 6)

/-- Example parameters: window of three losses. -/
def exCfg : LoopCfg ℚ := { maxIter := 50, delta := 1 / 2, convergeN := 3, holdH := false, delayH := -1 }

/-! ## C12 -/

/-- C12: the compiled loop performs `t ≥ 1` updates, at most `max_iter`; it returns the factors after `t` updates, one
loss per update, the last one belonging to the returned factors; the reported iteration is the last one performed. It
reports convergence iff the criterion holds at the last iteration, never continues past an iteration where it holds, and
without convergence performs exactly `max_iter` updates. -/
theorem C12_stops_at_first (step : Bool → σ → σ) (loss : σ → Option K) (cfg : LoopCfg K) (clock : ℕ → Bool) (s : σ)
    (hmax : 0 < cfg.maxIter) :
    let flags := fun i : ℕ => !cfg.holdH || (decide (0 < cfg.delayH) && decide (cfg.delayH < i))
    let ℓ := lossAt step loss flags s
    let r := rustLoop step loss cfg clock s
    ∃ t : ℕ, 1 ≤ t ∧ (t : ℤ) ≤ cfg.maxIter ∧
      r.factors = traj step flags s t ∧
      r.losses = (List.range t).map ℓ ∧
      r.losses.getLast? = some (loss r.factors) ∧ r.q = loss r.factors ∧
      r.convergeI = t - 1 ∧
      (r.converged = true ↔ Crit ℓ (effN cfg.convergeN) cfg.delta (t - 1)) ∧
      (∀ i, i + 1 < t → ¬ Crit ℓ (effN cfg.convergeN) cfg.delta i) ∧
      (r.converged = false → (t : ℤ) = cfg.maxIter) := by
  intro flags ℓ r
  obtain ⟨t, h1, h2, h3, h4, h5, h6, h7, h8, h9, _⟩ := rustLoop_spec step loss cfg clock s hmax
  have hlast : loss r.factors = ℓ (t - 1) := by
    have : t - 1 + 1 = t := by omega
    show loss r.factors = loss (traj step flags s (t - 1 + 1))
    rw [this]; exact congrArg loss h3
  refine ⟨t, h1, by omega, h3, h4, ?_, ?_, h6, h7, h8, fun h => by have := h9 h; omega⟩
  · rw [hlast, show r.losses = _ from h4]
    obtain ⟨u, rfl⟩ : ∃ u, t = u + 1 := ⟨t - 1, by omega⟩
    rw [List.range_succ, List.map_append]
    simp
    rfl
  · rw [hlast]; exact h5

/-- C12: `converged` says exactly that the criterion is met at some iteration before `max_iter`. -/
theorem C12_converged_iff (step : Bool → σ → σ) (loss : σ → Option K) (cfg : LoopCfg K) (clock : ℕ → Bool) (s : σ)
    (hmax : 0 < cfg.maxIter) :
    let flags := fun i : ℕ => !cfg.holdH || (decide (0 < cfg.delayH) && decide (cfg.delayH < i))
    (rustLoop step loss cfg clock s).converged = true ↔
      ∃ i : ℕ, (i : ℤ) < cfg.maxIter ∧ Crit (lossAt step loss flags s) (effN cfg.convergeN) cfg.delta i := by
  intro flags
  obtain ⟨t, h1, h2, _, _, _, _, _, h7, h8, h9⟩ := C12_stops_at_first step loss cfg clock s hmax
  constructor
  · intro h
    exact ⟨t - 1, by omega, h7.1 h⟩
  · rintro ⟨i, hi, hc⟩
    rw [h7]
    have hge : t ≤ i + 1 := by
      by_contra hlt
      exact h8 i (by omega) hc
    by_contra hn
    have hf : (rustLoop step loss cfg clock s).converged = false := by
      simpa using mt h7.1 hn
    have := h9 hf
    have : i = t - 1 := by omega
    exact hn (this ▸ hc)

/-- C12: with no iterations at all nothing is done; the returned loss is zero, whatever the loss of the factors is, and no step is counted. -/
theorem C12_no_iterations (step : Bool → σ → σ) (loss : σ → Option K) (cfg : LoopCfg K) (clock : ℕ → Bool) (s : σ)
    (hmax : cfg.maxIter ≤ 0) :
    let r := rustLoop step loss cfg clock s
    r.factors = s ∧ r.losses = [] ∧ r.converged = false ∧ r.convergeI = 0 ∧ r.q = some 0 ∧ r.reports = [] := by
  intro r
  have : r = rustInit s := rustLoop_zero step loss cfg clock s hmax
  rw [this]; exact ⟨rfl, rfl, rfl, rfl, rfl, rfl⟩

/-- Non-vacuity: a run that converges after eight of at most fifty updates. -/
example : (0 : ℤ) < exCfg.maxIter ∧
    (rustLoop exStep exLoss exCfg (fun _ => false) 0).converged = true ∧
    (rustLoop exStep exLoss exCfg (fun _ => false) 0).factors = 8 ∧
    (rustLoop exStep exLoss exCfg (fun _ => false) 0).losses.length = 8 := by decide +kernel

/-- Non-vacuity: a run that does not converge. -/
example : (rustLoop exStep exLoss { exCfg with maxIter := 5 } (fun _ => false) 0).converged = false ∧
    (rustLoop exStep exLoss { exCfg with maxIter := 5 } (fun _ => false) 0).factors = 5 := by decide +kernel

/-! ## C14 -/

/-- C14: the progress callback is called with strictly increasing iterations, the last call is for the iteration where
training stops and is flagged completed, and no earlier one is; whatever the clock does. -/
theorem C14_reports (step : Bool → σ → σ) (loss : σ → Option K) (cfg : LoopCfg K) (clock : ℕ → Bool) (s : σ)
    (hmax : 0 < cfg.maxIter) :
    let r := rustLoop step loss cfg clock s
    (r.reports.map Report.iter).Pairwise (· < ·) ∧
    ∃ earlier, r.reports = earlier ++ [⟨r.losses.length - 1, true⟩] ∧ ∀ e ∈ earlier, e.completed = false := by
  intro r
  obtain ⟨t, h1, _, _, h4, _, _, _, _, _, h10⟩ := rustLoop_spec step loss cfg clock s hmax
  have hlen : r.losses.length = t := by rw [show r.losses = _ from h4]; simp
  rw [hlen]
  constructor
  · rw [show r.reports = _ from h10, List.pairwise_map]
    refine List.Pairwise.filterMap _ (R := (· < ·)) ?_ List.pairwise_lt_range
    intro a a' haa b hb b' hb'
    split at hb <;> simp only [Option.mem_def, Option.some.injEq, reduceCtorEq] at hb
    split at hb' <;> simp only [Option.mem_def, Option.some.injEq, reduceCtorEq] at hb'
    subst hb hb'
    exact haa
  · obtain ⟨u, rfl⟩ : ∃ u, t = u + 1 := ⟨t - 1, by omega⟩
    refine ⟨(List.range u).filterMap (fun j =>
        if clock j || decide (j + 1 = u + 1) then some ⟨j, decide (j + 1 = u + 1)⟩ else none), ?_, ?_⟩
    · rw [show r.reports = _ from h10, List.range_succ, List.filterMap_append]
      simp
    · intro e he
      obtain ⟨j, hj, hje⟩ := List.mem_filterMap.1 he
      have := List.mem_range.1 hj
      split at hje
      · rw [← Option.some.inj hje]
        simp; omega
      · cases hje

/-- C14: between the last report and any earlier iteration nothing is lost but what the clock throttles: iteration `i`
before the last is reported iff the throttle interval had elapsed. -/
theorem C14_throttled_only (step : Bool → σ → σ) (loss : σ → Option K) (cfg : LoopCfg K) (clock : ℕ → Bool) (s : σ)
    (hmax : 0 < cfg.maxIter) (i : ℕ) :
    let r := rustLoop step loss cfg clock s
    i + 1 < r.losses.length → ((⟨i, false⟩ : Report) ∈ r.reports ↔ clock i = true) := by
  intro r hi
  obtain ⟨t, h1, _, _, h4, _, _, _, _, _, h10⟩ := rustLoop_spec step loss cfg clock s hmax
  have hlen : r.losses.length = t := by rw [show r.losses = _ from h4]; simp
  rw [hlen] at hi
  rw [show r.reports = _ from h10, List.mem_filterMap]
  constructor
  · rintro ⟨j, hj, hje⟩
    split at hje
    · rename_i hc
      have := Option.some.inj hje
      simp only [Report.mk.injEq, decide_eq_false_iff_not] at this
      rw [this.1] at hc
      simpa [show ¬ (i + 1 = t) by omega] using hc
    · cases hje
  · intro h
    exact ⟨i, List.mem_range.2 (by omega), by simp [h]; omega⟩

/-- Non-vacuity: a run with two throttled reports and the final one. -/
example : (rustLoop exStep exLoss exCfg (fun i => i % 3 = 1) 0).reports
    = [⟨1, false⟩, ⟨4, false⟩, ⟨7, true⟩] := by decide +kernel

/-! ## C15 -/

/-- C15: if the compiled loop reports convergence, the loss of the returned factors is a number (not NaN), and so is the
one recorded at the start of the window. -/
theorem C15_converged_is_number (step : Bool → σ → σ) (loss : σ → Option K) (cfg : LoopCfg K) (clock : ℕ → Bool)
    (s : σ) :
    let r := rustLoop step loss cfg clock s
    r.converged = true → (loss r.factors).isSome ∧
      ∃ a, r.losses[r.losses.length - effN cfg.convergeN]? = some (some a) := by
  intro r hr
  by_cases hmax : 0 < cfg.maxIter
  · obtain ⟨t, h1, h2, h3, h4, _, h5, _, h7, _⟩ := C12_stops_at_first step loss cfg clock s hmax
    have hlen : r.losses.length = t := by rw [show r.losses = _ from h4]; simp
    obtain ⟨hN, a, b, ha, hb, _⟩ := h7.1 hr
    have e : t - 1 + 1 = t := by omega
    rw [e] at ha hN
    have hb' : loss (traj step _ s (t - 1 + 1)) = some b := hb
    rw [e] at hb'
    refine ⟨?_, a, ?_⟩
    · rw [show r.factors = _ from h3, hb']; rfl
    · rw [hlen, show r.losses = _ from h4, List.getElem?_map,
        List.getElem?_range (by have := effN_pos cfg.convergeN; omega), Option.map_some, ha]
  · have : r = rustInit s := rustLoop_zero step loss cfg clock s (by omega)
    rw [this] at hr; cases hr

/-- C15: if the loss is NaN from update `j` on, and training went past that update, it did not report convergence. -/
theorem C15_nan_tail (step : Bool → σ → σ) (loss : σ → Option K) (cfg : LoopCfg K) (clock : ℕ → Bool) (s : σ) (j : ℕ)
    (hnan : ∀ i, j ≤ i →
      lossAt step loss (fun i : ℕ => !cfg.holdH || (decide (0 < cfg.delayH) && decide (cfg.delayH < i))) s i = none) :
    let r := rustLoop step loss cfg clock s
    j < r.losses.length → r.converged = false := by
  intro r hj
  by_contra hc
  have hc' : r.converged = true := by simpa using hc
  have h1 := (C15_converged_is_number step loss cfg clock s hc').1
  obtain ⟨h2, _⟩ := rustLoop_factors step loss cfg clock s
  have : loss r.factors = none := by
    rw [show r.factors = _ from h2]
    have h3 := hnan (r.losses.length - 1) (by omega)
    have e : r.losses.length - 1 + 1 = r.losses.length := by omega
    have h4 : loss (traj step _ s (r.losses.length - 1 + 1)) = none := h3
    rw [e] at h4
    exact h4
  rw [this] at h1
  cases h1

/-- Non-vacuity: a loss that becomes NaN at the fourth update; training runs to `max_iter` and is not converged. -/
example : (∀ i, 3 ≤ i → lossAt exStep (fun s => if s < 4 then some (10 - (s : ℚ)) else none) (fun _ => true) 0 i = none)
    ∧ (rustLoop exStep (fun s => if s < 4 then some (10 - (s : ℚ)) else none) exCfg (fun _ => false) 0).losses.length
      = 50 := by
  constructor
  · intro i hi
    have : ∀ t, traj exStep (fun _ => true) 0 t = t := by
      intro t; induction t with
      | zero => rfl
      | succ t ih => simp [traj, exStep, ih]
    simp [lossAt, this]; omega
  · decide +kernel

/-- C15 in the Python loop: if training starts with the flag unset, a NaN loss at the stopping iteration leaves it
unset. -/
theorem C15_python_nan (step : Bool → σ → σ) (loss : σ → Option K × Option K) (cfg : LoopCfg K) (k0 : ℕ) (s : σ)
    (hn : 1 ≤ cfg.convergeN) :
    ∃ r, pyLoop step loss cfg true false k0 s = .ok r ∧
      (r.converged = true → (loss r.factors).1.isSome ∧ (loss r.factors).2.isSome) := by
  obtain ⟨r, t, e, _, h2, _, _, h5⟩ := pyLoop_spec step loss cfg false k0 s hn
  refine ⟨r, e, fun hc => ?_⟩
  rcases h5 with ⟨_, _, h, _⟩ | ⟨h0, _, _, h⟩
  · rw [h] at hc; cases hc
  · have hp := (h.1 hc).resolve_left (by decide)
    have e1 : t - 1 + 1 = t := by omega
    have : lossAt step loss (rustUpdatesH cfg) s (t - 1) = loss r.factors := by
      rw [h2]; unfold lossAt; rw [e1]
    unfold PyNan at hp
    rw [this] at hp
    rw [not_or] at hp
    exact ⟨Option.isSome_iff_ne_none.2 hp.1, Option.isSome_iff_ne_none.2 hp.2⟩

/-- C15 in the Python loop, exactly: whatever the flag was before, after a run that ends with a NaN loss it is what it was; so such a run reports convergence iff the flag was set before it. Missing: runs that start with the flag set. -/
theorem C15_python_iff_partial (step : Bool → σ → σ) (loss : σ → Option K × Option K) (cfg : LoopCfg K) (c0 : Bool) (k0 : ℕ) (s : σ)
    (hn : 1 ≤ cfg.convergeN) :
    ∃ r, pyLoop step loss cfg true c0 k0 s = .ok r ∧
      ((loss r.factors).1 = none ∨ (loss r.factors).2 = none → (r.converged = true ↔ c0 = true)) := by
  obtain ⟨r, t, e, _, h2, _, _, h5⟩ := pyLoop_spec step loss cfg c0 k0 s hn
  refine ⟨r, e, fun hnan => ?_⟩
  rcases h5 with ⟨_, _, h, _⟩ | ⟨h0, _, _, h⟩
  · rw [h]
  · have e1 : t - 1 + 1 = t := by omega
    have : lossAt step loss (rustUpdatesH cfg) s (t - 1) = loss r.factors := by
      rw [h2]; unfold lossAt; rw [e1]
    have hp : PyNan (lossAt step loss (rustUpdatesH cfg) s) (t - 1) := by
      unfold PyNan
      rw [this]
      exact hnan
    rw [h]
    exact ⟨fun hc => hc.resolve_right (not_not.2 hp), .inl⟩

/-- Case for `C15_python_iff_partial`: a run with NaN losses on a model that converged before. -/
example : ∃ r, pyLoop exStep (fun _ => ((none : Option ℚ), (none : Option ℚ))) exCfg true true 0 0 = .ok r ∧ r.converged = true := by
  obtain ⟨r, h1, h2⟩ := C15_python_iff_partial exStep (fun _ => ((none : Option ℚ), (none : Option ℚ))) exCfg true 0 0 (by decide)
  exact ⟨r, h1, (h2 (.inl rfl)).2 rfl⟩

/-- C15 fails in the Python loop when `train` is called again on a model that converged before: the flag is never reset,
so a run whose first loss is NaN still shows `converged = True`. -/
theorem C15_python_retrain_refuted :
    ¬ ∀ (step : Bool → ℕ → ℕ) (loss : ℕ → Option ℚ × Option ℚ) (cfg : LoopCfg ℚ) (c0 : Bool) (k0 s : ℕ),
      1 ≤ cfg.convergeN → ∀ r, pyLoop step loss cfg true c0 k0 s = .ok r → loss r.factors = (none, none) →
      r.converged = false := by
  intro h
  have := h exStep (fun _ => (none, none)) exCfg true 0 0 (by decide) _ rfl rfl
  revert this
  decide +kernel

/-! ## C13 -/

/-- What the two training paths have to agree on. -/
def LoopsAgree (step : Bool → σ → σ) (loss : σ → Option K × Option K) (cfg : LoopCfg K) (acceptsHold : Bool)
    (clock : ℕ → Bool) (s : σ) : Prop :=
  ∃ r, pyLoop step loss cfg acceptsHold false 0 s = .ok r ∧
    let r' := rustLoop step (fun x => (loss x).1) cfg clock s
    r.factors = r'.factors ∧ r.converged = r'.converged ∧ r.losses = r'.losses

/-- C13 fails for ls-nmf: the Python loop needs one more recorded loss before it tests the criterion, so with a loss that
is flat from the start the compiled loop stops one update earlier. -/
theorem C13_refuted :
    ¬ ∀ (step : Bool → ℕ → ℕ) (loss : ℕ → Option ℚ × Option ℚ) (cfg : LoopCfg ℚ) (clock : ℕ → Bool) (s : ℕ),
      LoopsAgree step loss cfg true clock s := by
  intro h
  obtain ⟨r, hr, h1, _⟩ := h exStep (fun _ => (some 1, some 1)) { exCfg with convergeN := 2 } (fun _ => false) 0
  have e : (rustLoop exStep (fun _ => some (1 : ℚ)) { exCfg with convergeN := 2 } (fun _ => false) 0).factors = 2 := by
    decide +kernel
  have e2 : (match pyLoop exStep (fun _ => (some (1 : ℚ), some 1)) { exCfg with convergeN := 2 } true false 0 0 with
    | .ok r => r.factors | .error _ => 0) = 3 := by decide +kernel
  rw [hr] at e2
  simp only at e2 h1
  rw [e2, e] at h1
  exact absurd h1 (by decide)

/-- C13 fails for ws-nmf whatever the data: the Python path raises a `TypeError` in its first iteration because
`WSNMF.update` has no `hold_h` parameter. -/
theorem C13_wsnmf_python_refuted (step : Bool → σ → σ) (loss : σ → Option K × Option K) (cfg : LoopCfg K)
    (clock : ℕ → Bool) (c0 : Bool) (k0 : ℕ) (s : σ) (hmax : 0 < cfg.maxIter) :
    pyLoop step loss cfg false c0 k0 s = .error .typeError ∧ ¬ LoopsAgree step loss cfg false clock s := by
  have key : ∀ c k, pyLoop step loss cfg false c k s = .error .typeError := fun c k => by
    obtain ⟨f, hf⟩ : ∃ f, cfg.maxIter.toNat = f + 1 := ⟨cfg.maxIter.toNat - 1, by omega⟩
    simp [pyLoop, hf, pyIter, pyBody]
  exact ⟨key c0 k0, fun ⟨r, hr, _⟩ => by rw [key] at hr; cases hr⟩

/-- C13 fails for `converge_n = 0`: the Python loop raises an `IndexError`, the compiled one treats it as `1`. -/
theorem C13_window_zero_refuted (step : Bool → σ → σ) (loss : σ → Option K × Option K) (cfg : LoopCfg K)
    (hn : cfg.convergeN = 0) (hmax : 0 < cfg.maxIter) (c0 : Bool) (k0 : ℕ) (s : σ)
    (hfin : ∀ x, (loss x).1.isSome ∧ (loss x).2.isSome) :
    pyLoop step loss cfg true c0 k0 s = .error .indexError := by
  obtain ⟨f, hf⟩ : ∃ f, cfg.maxIter.toNat = f + 1 := ⟨cfg.maxIter.toNat - 1, by omega⟩
  have h : ∀ x, ((loss x).1.isNone || (loss x).2.isNone) = false := fun x => by
    have := hfin x
    simp [this.1, this.2]
  simp [pyLoop, hf, pyIter, pyBody, hn, h]

/-- C13 otherwise: if no loss is NaN, `converge_n ≥ 1` and the criterion does not already hold at the first iteration at
which the compiled loop can test it, then both paths stop after the same number of updates with the same factors,
convergence flag and loss history. Missing: exactly the excluded cases, where they differ (`C13_refuted` and the
theorems after it). -/
theorem C13_agree_partial (step : Bool → σ → σ) (loss : σ → Option K × Option K) (cfg : LoopCfg K) (clock : ℕ → Bool)
    (s : σ) (hn : 1 ≤ cfg.convergeN) (hfin : ∀ x, (loss x).1.isSome ∧ (loss x).2.isSome)
    (hfirst : ¬ Crit (lossAt step (fun x => (loss x).1)
      (fun i : ℕ => !cfg.holdH || (decide (0 < cfg.delayH) && decide (cfg.delayH < i))) s) cfg.convergeN.toNat cfg.delta
      (cfg.convergeN.toNat - 1)) :
    LoopsAgree step loss cfg true clock s := by
  have heff : effN cfg.convergeN = cfg.convergeN.toNat := by unfold effN; omega
  set N := cfg.convergeN.toNat with hN
  set ℓ := lossAt step (fun x => (loss x).1) (rustUpdatesH cfg) s with hℓ
  have hℓ' : ∀ j, (lossAt step loss (rustUpdatesH cfg) s j).1 = ℓ j := fun j => rfl
  have hfirst' : ¬ Crit ℓ N cfg.delta (N - 1) := hfirst
  obtain ⟨r, t, e, h1, h2, h3, h4, h5⟩ := pyLoop_spec step loss cfg false 0 s hn
  have hstop : ∀ j, (PyNan (lossAt step loss (rustUpdatesH cfg) s) j ∨
      PyCrit (lossAt step loss (rustUpdatesH cfg) s) N cfg.delta j) ↔ Crit ℓ N cfg.delta j := by
    intro j
    have hnn : ¬ PyNan (lossAt step loss (rustUpdatesH cfg) s) j := by
      have := hfin (traj step (rustUpdatesH cfg) s (j + 1))
      simp only [Option.isSome_iff_ne_none] at this
      unfold PyNan lossAt
      tauto
    constructor
    · rintro (h | h)
      · exact absurd h hnn
      · exact h.2
    · intro h
      refine .inr ⟨?_, h⟩
      have h6 := h.1
      by_contra hlt
      have : j = N - 1 := by omega
      exact hfirst' (this ▸ h)
  have h4 : ∀ j, j + 1 < t → ¬ Crit ℓ N cfg.delta j := fun j hj hc => h4 j hj ((hstop j).2 hc)
  have h5 : ((∀ j, j < t → ¬ Crit ℓ N cfg.delta j) ∧ t = cfg.maxIter.toNat ∧ r.converged = false ∧
        r.convergeSteps = 0 + t) ∨
      (0 < t ∧ Crit ℓ N cfg.delta (t - 1) ∧ r.convergeSteps = 0 + (t - 1) ∧
        (r.converged = true ↔ false = true ∨ ¬ PyNan (lossAt step loss (rustUpdatesH cfg) s) (t - 1))) := by
    rcases h5 with ⟨a, b⟩ | ⟨a, b, c⟩
    · exact .inl ⟨fun j hj hc => a j hj ((hstop j).2 hc), b⟩
    · exact .inr ⟨a, (hstop _).1 b, c⟩
  refine ⟨r, e, ?_⟩
  by_cases hmax : 0 < cfg.maxIter
  · obtain ⟨t', g1, g2, g3, g4, _, _, g7, g8, g9, _⟩ :=
      rustLoop_spec step (fun x => (loss x).1) cfg clock s hmax
    rw [heff] at g7 g8
    set r' := rustLoop step (fun x => (loss x).1) cfg clock s
    have hconv : r'.converged = true ∨ r'.converged = false := by cases r'.converged <;> simp
    have htt : t = t' := by
      rcases h5 with ⟨a, b, c, d⟩ | ⟨a, b, c, d⟩
      · rcases hconv with hc | hc
        · by_contra hne
          exact a (t' - 1) (by omega) (g7.1 hc)
        · have := g9 hc; omega
      · rcases hconv with hc | hc
        · by_contra hne
          rcases Nat.lt_or_gt_of_ne hne with hlt | hgt
          · exact g8 (t - 1) (by omega) b
          · exact h4 (t' - 1) (by omega) (g7.1 hc)
        · have h10 := g9 hc
          by_contra hne
          exact g8 (t - 1) (by omega) b
    subst htt
    refine ⟨h2.trans g3.symm, ?_, h3.trans g4.symm⟩
    rcases h5 with ⟨a, b, c, d⟩ | ⟨a, b, c, d⟩
    · rw [c]
      have : r'.converged ≠ true := fun hc => a (t - 1) (by omega) (g7.1 hc)
      simpa using this
    · have hnn : ¬ PyNan (lossAt step loss (rustUpdatesH cfg) s) (t - 1) := by
        have := hfin (traj step (rustUpdatesH cfg) s (t - 1 + 1))
        simp only [Option.isSome_iff_ne_none] at this
        unfold PyNan lossAt
        tauto
      rw [d.2 (.inr hnn), g7.2 b]
  · have hz : rustLoop step (fun x => (loss x).1) cfg clock s = rustInit s := rustLoop_zero _ _ _ _ _ (by omega)
    rw [hz]
    have ht : t = 0 := by omega
    subst ht
    rcases h5 with ⟨a, b, c, d⟩ | ⟨a, b, c, d⟩
    · exact ⟨h2, c, h3⟩
    · omega

/-- C13, exactly: for `converge_n ≥ 1` and losses that are numbers, the two paths agree unless the criterion holds at the
first iteration at which the compiled loop tests it and training gets that far. -/
theorem C13_agree_iff (step : Bool → σ → σ) (loss : σ → Option K × Option K) (cfg : LoopCfg K) (clock : ℕ → Bool)
    (s : σ) (hn : 1 ≤ cfg.convergeN) (hfin : ∀ x, (loss x).1.isSome ∧ (loss x).2.isSome) :
    LoopsAgree step loss cfg true clock s ↔
      (Crit (lossAt step (fun x => (loss x).1)
        (fun i : ℕ => !cfg.holdH || (decide (0 < cfg.delayH) && decide (cfg.delayH < i))) s) cfg.convergeN.toNat cfg.delta
        (cfg.convergeN.toNat - 1) → cfg.maxIter < cfg.convergeN) := by
  have heff : effN cfg.convergeN = cfg.convergeN.toNat := by unfold effN; omega
  have hnn : ∀ j, ¬ PyNan (lossAt step loss (rustUpdatesH cfg) s) j := by
    intro j
    have := hfin (traj step (rustUpdatesH cfg) s (j + 1))
    simp only [Option.isSome_iff_ne_none] at this
    unfold PyNan lossAt
    tauto
  obtain ⟨r, t, e, h1, h2, h3, h4, h5⟩ := pyLoop_spec step loss cfg false 0 s hn
  have hlen : r.losses.length = t := by rw [h3]; simp
  constructor
  · rintro ⟨r0, e0, hag⟩ hcrit
    rw [e] at e0
    obtain rfl : r = r0 := Except.ok.inj e0
    obtain ⟨a1, a2, a3⟩ := hag
    by_contra hge
    have hmax : 0 < cfg.maxIter := by omega
    obtain ⟨t', g1, g2, g3, g4, _, _, g7, g8, g9, _⟩ :=
      rustLoop_spec step (fun x => (loss x).1) cfg clock s hmax
    rw [heff] at g7 g8
    have hlen' : (rustLoop step (fun x => (loss x).1) cfg clock s).losses.length = t' := by rw [g4]; simp
    have htt : t = t' := by rw [← hlen, ← hlen', a3]
    subst htt
    have hle : ¬ cfg.convergeN.toNat - 1 + 1 < t := fun h => g8 _ h hcrit
    rcases hc : (rustLoop step (fun x => (loss x).1) cfg clock s).converged with _ | _
    · have := g9 hc
      have ht : t = cfg.convergeN.toNat := by omega
      rw [ht, hc] at g7
      exact absurd (g7.2 hcrit) (by decide)
    · have ht : t = cfg.convergeN.toNat := by
        have := (g7.1 hc).1
        omega
      rcases h5 with ⟨_, _, h, _⟩ | ⟨_, h, _⟩
      · rw [a2, hc] at h
        cases h
      · rcases h with h | h
        · exact hnn _ h
        · have := h.1
          omega
  · intro h
    by_cases hcrit : Crit (lossAt step (fun x => (loss x).1)
        (fun i : ℕ => !cfg.holdH || (decide (0 < cfg.delayH) && decide (cfg.delayH < i))) s) cfg.convergeN.toNat cfg.delta
        (cfg.convergeN.toNat - 1)
    · have hlt := h hcrit
      refine ⟨r, e, ?_⟩
      have hns : ∀ j, j < t → ¬ (PyNan (lossAt step loss (rustUpdatesH cfg) s) j ∨
          PyCrit (lossAt step loss (rustUpdatesH cfg) s) cfg.convergeN.toNat cfg.delta j) := by
        rintro j hj (hc | hc)
        · exact hnn _ hc
        · have := hc.1
          omega
      have ht : t = cfg.maxIter.toNat ∧ r.converged = false := by
        rcases h5 with ⟨_, b, c, _⟩ | ⟨a, b, _⟩
        · exact ⟨b, c⟩
        · exact absurd b (hns (t - 1) (by omega))
      by_cases hmax : 0 < cfg.maxIter
      · obtain ⟨t', g1, g2, g3, g4, _, _, g7, g8, g9, _⟩ :=
          rustLoop_spec step (fun x => (loss x).1) cfg clock s hmax
        rw [heff] at g7
        have hc : (rustLoop step (fun x => (loss x).1) cfg clock s).converged = false := by
          rw [← Bool.not_eq_true, g7]
          intro hc
          have := hc.1
          omega
        have htt : t = t' := by rw [ht.1, g9 hc]
        subst htt
        exact ⟨h2.trans g3.symm, ht.2.trans hc.symm, h3.trans g4.symm⟩
      · have hz : rustLoop step (fun x => (loss x).1) cfg clock s = rustInit s := rustLoop_zero _ _ _ _ _ (by omega)
        rw [hz]
        have h0 : t = 0 := by omega
        subst h0
        exact ⟨h2, ht.2, h3⟩
    · exact C13_agree_partial step loss cfg clock s hn hfin hcrit

/-- Non-vacuity of `C13_agree_partial`: the example run meets the hypotheses, converges, and both paths agree. -/
example : LoopsAgree exStep (fun s => (exLoss s, exLoss s)) exCfg true (fun _ => true) 0 := by
  refine C13_agree_partial _ _ _ _ _ (by decide) (fun x => ⟨rfl, rfl⟩) ?_
  rintro ⟨_, a, b, ha, hb, hab⟩
  have ha' : some (9 : ℚ) = some a := by rw [← ha]; decide +kernel
  have hb' : some (7 : ℚ) = some b := by rw [← hb]; decide +kernel
  rw [← Option.some.inj ha', ← Option.some.inj hb'] at hab
  revert hab
  decide +kernel

/-- C13: the iteration number stored differs too: after a converged run from a fresh model the compiled path stores the
index of the last iteration, and so does the Python path; without convergence the Python path stores one more. -/
theorem C13_converge_steps_partial (step : Bool → σ → σ) (loss : σ → Option K × Option K) (cfg : LoopCfg K) (s : σ)
    (hn : 1 ≤ cfg.convergeN) :
    ∃ r, pyLoop step loss cfg true false 0 s = .ok r ∧
      (r.converged = true → r.convergeSteps = r.losses.length - 1) ∧
      (r.convergeSteps = r.losses.length ∨ r.convergeSteps = r.losses.length - 1) := by
  obtain ⟨r, t, e, _, _, h3, _, h5⟩ := pyLoop_spec step loss cfg false 0 s hn
  have hlen : r.losses.length = t := by rw [h3]; simp
  refine ⟨r, e, fun hc => ?_, ?_⟩
  · rcases h5 with ⟨_, _, h, _⟩ | ⟨_, _, h, _⟩
    · rw [h] at hc; cases hc
    · omega
  · rcases h5 with ⟨_, _, _, h⟩ | ⟨_, _, h, _⟩ <;> omega

/-! ## C04 -/

/-- C04 for any update that leaves part `prof` of the state alone when told not to update H: with `hold_h` and no delay
the compiled loop returns that part unchanged. -/
theorem C04_hold {τ : Type*} (prof : σ → τ) (step : Bool → σ → σ) (hstep : ∀ x, prof (step false x) = prof x)
    (loss : σ → Option K) (cfg : LoopCfg K) (clock : ℕ → Bool) (s : σ)
    (hh : cfg.holdH = true) (hd : cfg.delayH ≤ 0) :
    prof (rustLoop step loss cfg clock s).factors = prof s := by
  rw [(rustLoop_factors step loss cfg clock s).1]
  have hf : ∀ i, rustUpdatesH cfg i = false := fun i => by
    simp [rustUpdatesH, hh, show ¬ (0 < cfg.delayH) by omega]
  generalize (rustLoop step loss cfg clock s).losses.length = t
  induction t with
  | zero => rfl
  | succ t ih => simp only [traj, hf, hstep]; exact ih

/-- C04 with a delay `d > 0`: through iteration index `d` (that is, during the first `d+1` updates) H keeps its initial
value; every later update is an ordinary one, so the state returned is the one reached by ordinary updates from the
state after the first `d+1`. -/
theorem C04_delay {τ : Type*} (prof : σ → τ) (step : Bool → σ → σ) (hstep : ∀ x, prof (step false x) = prof x)
    (loss : σ → Option K) (cfg : LoopCfg K) (clock : ℕ → Bool) (s : σ)
    (hh : cfg.holdH = true) (d : ℕ) (hd : cfg.delayH = d) (hpos : 0 < d) :
    let r := rustLoop step loss cfg clock s
    let t := r.losses.length
    (t ≤ d + 1 → prof r.factors = prof s) ∧
    (d + 1 < t → ∃ s', prof s' = prof s ∧ s' = traj step (fun _ => false) s (d + 1) ∧
      r.factors = traj step (fun _ => true) s' (t - (d + 1))) := by
  intro r t
  have hf : ∀ i : ℕ, rustUpdatesH cfg i = decide (d < i) := fun i => by
    simp [rustUpdatesH, hh, hd, hpos]
  have hearly : ∀ i, i ≤ d + 1 → traj step (rustUpdatesH cfg) s i = traj step (fun _ => false) s i := by
    intro i hi
    induction i with
    | zero => rfl
    | succ i ih =>
      simp only [traj]
      rw [ih (by omega), hf, decide_eq_false (by omega)]
  have hprof : ∀ i, prof (traj step (fun _ => false) s i) = prof s := by
    intro i
    induction i with
    | zero => rfl
    | succ i ih => simp only [traj, hstep]; exact ih
  have hr : r.factors = traj step (rustUpdatesH cfg) s t := (rustLoop_factors step loss cfg clock s).1
  constructor
  · intro ht
    rw [hr, hearly t ht, hprof]
  · intro ht
    refine ⟨_, hprof (d + 1), rfl, ?_⟩
    rw [hr]
    obtain ⟨u, hu⟩ : ∃ u, t = d + 1 + u := ⟨t - (d + 1), by omega⟩
    rw [hu, Nat.add_sub_cancel_left]
    clear hu
    induction u with
    | zero => exact hearly _ (le_refl _)
    | succ u ih =>
      rw [← Nat.add_assoc]
      simp only [traj]
      rw [ih, hf, decide_eq_true (by omega)]
      rfl

/-- C04: without `hold_h` the delay has no effect on anything returned. -/
theorem C04_no_hold (step : Bool → σ → σ) (loss : σ → Option K) (cfg : LoopCfg K) (clock : ℕ → Bool) (s : σ)
    (hh : cfg.holdH = false) (d : ℤ) :
    rustLoop step loss { cfg with delayH := d } clock s = rustLoop step loss cfg clock s := by
  have hb : ∀ i st, rustBody step loss { cfg with delayH := d } clock i st = rustBody step loss cfg clock i st := by
    intro i st
    simp [rustBody, rustUpdatesH, hh]
  have : ∀ fuel i st, rustIter step loss { cfg with delayH := d } clock fuel i st
      = rustIter step loss cfg clock fuel i st := by
    intro fuel
    induction fuel with
    | zero => intro i st; rfl
    | succ fuel ih => intro i st; simp only [rustIter, hb, ih]
  exact this _ _ _

/-- C04 for the Python loop: with `hold_h` and no delay the part `prof` of the state is returned unchanged. -/
theorem C04_hold_python {τ : Type*} (prof : σ → τ) (step : Bool → σ → σ) (hstep : ∀ x, prof (step false x) = prof x)
    (loss : σ → Option K × Option K) (cfg : LoopCfg K) (c0 : Bool) (k0 : ℕ) (s : σ) (hn : 1 ≤ cfg.convergeN)
    (hh : cfg.holdH = true) (hd : cfg.delayH ≤ 0) :
    ∃ r, pyLoop step loss cfg true c0 k0 s = .ok r ∧ prof r.factors = prof s := by
  obtain ⟨r, t, e, _, h2, _⟩ := pyLoop_spec step loss cfg c0 k0 s hn
  refine ⟨r, e, ?_⟩
  rw [h2]
  have hf : ∀ i, rustUpdatesH cfg i = false := fun i => by
    simp [rustUpdatesH, hh, show ¬ (0 < cfg.delayH) by omega]
  have : ∀ t, prof (traj step (rustUpdatesH cfg) s t) = prof s := by
    intro t
    induction t with
    | zero => rfl
    | succ t ih => simp only [traj, hf, hstep]; exact ih
  exact this t

end

/-! ### C04 for the two algorithms -/

section
variable {m n k : ℕ}

/-- C04 for ls-nmf: held profiles come back unchanged, even if the contributions overflow to NaN on the way. -/
theorem C04_lsnmf_hold {K : Type*} [Field K] [LinearOrder K] (V We : Mat m n K) (W : Mat m k K) (H : Mat k n K)
    (loss : Option (Mat m k K) × Option (Mat k n K) → Option K) (cfg : LoopCfg K) (clock : ℕ → Bool)
    (hh : cfg.holdH = true) (hd : cfg.delayH ≤ 0) :
    (rustLoop (lsLoopStep V We) loss cfg clock (some W, some H)).factors.2 = some H :=
  C04_hold Prod.snd (lsLoopStep V We) (fun _ => rfl) loss cfg clock (some W, some H) hh hd

/-- C04 for ls-nmf with a delay: H is unchanged if training stops within the first `d+1` updates. -/
theorem C04_lsnmf_delay {K : Type*} [Field K] [LinearOrder K] (V We : Mat m n K) (W : Mat m k K) (H : Mat k n K)
    (loss : Option (Mat m k K) × Option (Mat k n K) → Option K) (cfg : LoopCfg K) (clock : ℕ → Bool)
    (hh : cfg.holdH = true) (d : ℕ) (hd : cfg.delayH = d) (hpos : 0 < d) :
    let r := rustLoop (lsLoopStep V We) loss cfg clock (some W, some H)
    (r.losses.length ≤ d + 1 → r.factors.2 = some H) ∧
    (d + 1 < r.losses.length → ∃ W', r.factors =
      traj (lsLoopStep V We) (fun _ => true) (W', some H) (r.losses.length - (d + 1))) := by
  obtain ⟨h1, h2⟩ := C04_delay Prod.snd (lsLoopStep V We) (fun _ => rfl) loss cfg clock (some W, some H) hh d hd hpos
  refine ⟨h1, fun ht => ?_⟩
  obtain ⟨s', ha, _, hc⟩ := h2 ht
  have e : s' = (s'.1, some H) := Prod.ext rfl ha
  exact ⟨s'.1, by rw [e] at hc; exact hc⟩

/-- C04 for ws-nmf. -/
theorem C04_wsnmf_hold (inv : Mat k k ℝ → Mat k k ℝ) (V We : Mat m n ℝ) (W : Mat m k ℝ) (H : Mat k n ℝ)
    (loss : Option (Mat m k ℝ) × Option (Mat k n ℝ) → Option ℝ) (cfg : LoopCfg ℝ) (clock : ℕ → Bool)
    (hh : cfg.holdH = true) (hd : cfg.delayH ≤ 0) :
    (rustLoop (wsLoopStep inv V We) loss cfg clock (some W, some H)).factors.2 = some H :=
  C04_hold Prod.snd (wsLoopStep inv V We) (fun p => by rcases p with ⟨w, _ | h⟩ <;> rfl) loss cfg clock
    (some W, some H) hh hd

/-- C04 for ws-nmf with a delay. -/
theorem C04_wsnmf_delay (inv : Mat k k ℝ → Mat k k ℝ) (V We : Mat m n ℝ) (W : Mat m k ℝ) (H : Mat k n ℝ)
    (loss : Option (Mat m k ℝ) × Option (Mat k n ℝ) → Option ℝ) (cfg : LoopCfg ℝ) (clock : ℕ → Bool)
    (hh : cfg.holdH = true) (d : ℕ) (hd : cfg.delayH = d) (hpos : 0 < d) :
    let r := rustLoop (wsLoopStep inv V We) loss cfg clock (some W, some H)
    (r.losses.length ≤ d + 1 → r.factors.2 = some H) ∧
    (d + 1 < r.losses.length → ∃ W', r.factors =
      traj (wsLoopStep inv V We) (fun _ => true) (W', some H) (r.losses.length - (d + 1))) := by
  obtain ⟨h1, h2⟩ := C04_delay Prod.snd (wsLoopStep inv V We) (fun p => by rcases p with ⟨w, _ | h⟩ <;> rfl) loss cfg
    clock (some W, some H) hh d hd hpos
  refine ⟨h1, fun ht => ?_⟩
  obtain ⟨s', ha, _, hc⟩ := h2 ht
  have e : s' = (s'.1, some H) := Prod.ext rfl ha
  exact ⟨s'.1, by rw [e] at hc; exact hc⟩

/-- C04 for the Python loop of ls-nmf. -/
theorem C04_lsnmf_hold_python {K : Type*} [Field K] [LinearOrder K] (V We : Mat m n K) (W : Mat m k K) (H : Mat k n K)
    (loss : Option (Mat m k K) × Option (Mat k n K) → Option K × Option K) (cfg : LoopCfg K) (c0 : Bool) (k0 : ℕ)
    (hn : 1 ≤ cfg.convergeN) (hh : cfg.holdH = true) (hd : cfg.delayH ≤ 0) :
    ∃ r, pyLoop (lsLoopStep V We) loss cfg true c0 k0 (some W, some H) = .ok r ∧ r.factors.2 = some H :=
  C04_hold_python Prod.snd (lsLoopStep V We) (fun _ => rfl) loss cfg c0 k0 (some W, some H) hn hh hd

/-- C04 for one call of `LSNMF.update`: with `hold_h` the profiles are returned as they were passed; the contributions are
the W half step for these profiles. Without `hold_h` the profiles are the H half step. -/
theorem C04_lsnmf_update {K : Type*} [Field K] [LinearOrder K] (V We : Mat m n K) (hold : Bool) (W : Mat m k K)
    (H : Mat k n K) (W' : Mat m k K) (H' : Mat k n K) (h : lsUpdate V We hold W H = some (W', H')) :
    (hold = true → H' = H) ∧ (hold = false → lsStepH V We W H = some H') ∧ lsStepW V We W H' = some W' := by
  cases hold with
  | true =>
    simp only [lsUpdate, if_true, Option.bind_eq_bind, Option.bind_some, Option.bind_eq_some_iff, Option.pure_def,
      Option.some.injEq, Prod.mk.injEq] at h
    obtain ⟨w, hw, rfl, rfl⟩ := h
    exact ⟨fun _ => rfl, by simp, hw⟩
  | false =>
    simp only [lsUpdate, Bool.false_eq_true, if_false, Option.bind_eq_bind, Option.bind_eq_some_iff, Option.pure_def,
      Option.some.injEq, Prod.mk.injEq] at h
    obtain ⟨h1, hh, w, hw, rfl, rfl⟩ := h
    exact ⟨by simp, fun _ => hh, hw⟩

/-- C04 for a sequence of calls of `LSNMF.update`: if every call holds the profiles, they are unchanged at the end. -/
theorem C04_lsnmf_run {K : Type*} [Field K] [LinearOrder K] (V We : Mat m n K) (holds : List Bool)
    (hall : ∀ b ∈ holds, b = true) (W : Mat m k K) (H : Mat k n K) (W' : Mat m k K) (H' : Mat k n K)
    (h : lsRun V We holds W H = some (W', H')) : H' = H := by
  induction holds generalizing W H with
  | nil =>
    simp only [lsRun, Option.some.injEq, Prod.mk.injEq] at h
    exact h.2.symm
  | cons b bs ih =>
    simp only [lsRun, Option.bind_eq_bind, Option.bind_eq_some_iff] at h
    obtain ⟨⟨w, g⟩, hp, hr⟩ := h
    have h1 := (C04_lsnmf_update V We b W H w g hp).1 (hall b (by simp))
    rw [ih (fun c hc => hall c (by simp [hc])) w g hr, h1]

/-- The compiled iteration and `LSNMF.update` are the same step, for every flag: wherever the update yields numbers, the
iteration yields the same matrices, and wherever it does not, the iteration leaves a spoilt matrix. -/
theorem C04_lsnmf_loop_is_update {K : Type*} [Field K] [LinearOrder K] (V We : Mat m n K) (u : Bool) (W W' : Mat m k K)
    (H H' : Mat k n K) :
    lsUpdate V We (!u) W H = some (W', H') ↔ lsLoopStep V We u (some W, some H) = (some W', some H') := by
  cases u <;> simp [lsUpdate, lsLoopStep, Option.bind_eq_some_iff]
  constructor
  · rintro ⟨h1, h2⟩
    exact ⟨⟨H', h1, h2⟩, h1⟩
  · rintro ⟨⟨a, h1, h2⟩, h3⟩
    rw [h1] at h3
    cases h3
    exact ⟨h1, h2⟩

/-- C04 for one ws-nmf update: `hold_h` keeps the profiles, the contributions do not depend on the flag, and without
`hold_h` the profiles are the H half step for the new contributions; this is also what the compiled iteration does. -/
theorem C04_wsnmf_update (inv : Mat k k ℝ → Mat k k ℝ) (V We : Mat m n ℝ) (W : Mat m k ℝ) (H : Mat k n ℝ) :
    (wsUpdate inv V We true W H).2 = some H ∧
    (wsUpdate inv V We true W H).1 = (wsUpdate inv V We false W H).1 ∧
    (wsUpdate inv V We false W H).2 = wsStepH V We (wsUpdate inv V We false W H).1 H ∧
    ∀ u, wsLoopStep inv V We u (some W, some H) = (some (wsUpdate inv V We (!u) W H).1, (wsUpdate inv V We (!u) W H).2) := by
  refine ⟨rfl, rfl, rfl, fun u => ?_⟩
  cases u <;> rfl

/-- Non-vacuity of the update theorems: a 1 × 1 model whose held update gives `W = 2`, `H = 1`, whose ordinary update gives
`W = 1`, `H = 2`. -/
example : lsUpdate (fun _ _ => 2 : Mat 1 1 ℚ) (fun _ _ => 1) true (fun _ _ => 1 : Mat 1 1 ℚ) (fun _ _ => 1)
      = some (fun _ _ => 2, fun _ _ => 1) ∧
    lsUpdate (fun _ _ => 2 : Mat 1 1 ℚ) (fun _ _ => 1) false (fun _ _ => 1 : Mat 1 1 ℚ) (fun _ _ => 1)
      = some (fun _ _ => 1, fun _ _ => 2) := by
  constructor <;> decide +kernel

/-- Non-vacuity of the delay theorem: delay 2, four updates; the first three hold (each adds 100), the fourth does not. -/
example : (rustLoop exStep (fun s => some (10 - (s : ℚ))) { exCfg with holdH := true, delayH := 2, maxIter := 4 }
    (fun _ => false) 0).factors = 301 := by decide +kernel

end

/-! ### The theorems applied to concrete runs -/

/-- Example parameters: profiles held all the way. -/
def exHoldCfg : LoopCfg ℚ := { exCfg with holdH := true, delayH := -1, maxIter := 6 }

/-- Example state with a profile: the first component counts updates of the contributions, the second one those of the
profiles. -/
def exPairStep : Bool → ℕ × ℕ → ℕ × ℕ := fun u s => (s.1 + 1, if u then s.2 + 1 else s.2)

/-- Case for `C04_hold`: the profile component stays 7 although six updates were made. -/
example : (rustLoop exPairStep (fun s => some (10 - (s.1 : ℚ))) exHoldCfg (fun _ => false) (0, 7)).factors.2 = 7 ∧
    (rustLoop exPairStep (fun s => some (10 - (s.1 : ℚ))) exHoldCfg (fun _ => false) (0, 7)).factors.1 = 6 :=
  ⟨C04_hold Prod.snd exPairStep (fun _ => rfl) _ _ _ _ rfl (by decide), by decide +kernel⟩

/-- Case for `C04_hold_python`. -/
example : ∃ r, pyLoop exPairStep (fun s => (some (10 - (s.1 : ℚ)), some (10 - (s.1 : ℚ)))) exHoldCfg true false 0 (0, 7) = .ok r ∧
    r.factors.2 = 7 :=
  C04_hold_python Prod.snd exPairStep (fun _ => rfl) _ _ _ _ _ (by decide) rfl (by decide)

/-- Case for `C04_delay`: with a delay of 2 and six updates the profiles are updated three times, at iterations 3, 4, 5. -/
example :
    let r := rustLoop exPairStep (fun s => some (10 - (s.1 : ℚ))) { exHoldCfg with delayH := 2 } (fun _ => false) (0, 7)
    (∃ s', s'.2 = 7 ∧ s' = traj exPairStep (fun _ => false) (0, 7) 3 ∧ r.factors = traj exPairStep (fun _ => true) s' 3) ∧
    r.factors = (6, 10) := by
  have hl : (rustLoop exPairStep (fun s => some (10 - (s.1 : ℚ))) { exHoldCfg with delayH := 2 } (fun _ => false)
    (0, 7)).losses.length = 6 := by decide +kernel
  have h := (C04_delay Prod.snd exPairStep (fun _ => rfl) (fun s => some (10 - (s.1 : ℚ))) { exHoldCfg with delayH := 2 }
    (fun _ => false) (0, 7) rfl 2 rfl (by decide)).2 (by rw [hl]; decide)
  rw [hl] at h
  exact ⟨h, by decide +kernel⟩

/-- Case for `C04_no_hold`: without holding, the delay 3 changes nothing. -/
example : rustLoop exStep exLoss { exCfg with delayH := 3 } (fun _ => false) 0 = rustLoop exStep exLoss exCfg (fun _ => false) 0 :=
  C04_no_hold exStep exLoss exCfg _ 0 rfl 3

/-- Case for `C12_converged_iff`: the run of `exCfg` converges, so some iteration below 50 meets the criterion. -/
example : ∃ i : ℕ, (i : ℤ) < exCfg.maxIter ∧
    Crit (lossAt exStep exLoss (fun i : ℕ => !exCfg.holdH || (decide (0 < exCfg.delayH) && decide (exCfg.delayH < i))) 0)
      (effN exCfg.convergeN) exCfg.delta i :=
  (C12_converged_iff exStep exLoss exCfg (fun _ => false) 0 (by decide)).1 (by decide +kernel)

/-- Case for `C14_reports`. -/
example : ((rustLoop exStep exLoss exCfg (fun i => i % 3 = 1) 0).reports.map Report.iter).Pairwise (· < ·) :=
  (C14_reports exStep exLoss exCfg (fun i => i % 3 = 1) 0 (by decide)).1

/-- Case for `C13_converge_steps_partial`: the Python loop on the example converges after 8 updates and reports 7 steps. -/
example : (pyLoop exStep (fun s => (exLoss s, exLoss s)) exCfg true false 0 0).toOption.map
    (fun r => (r.converged, r.convergeSteps, r.losses.length)) = some (true, 7, 8) ∧
    ∃ r, pyLoop exStep (fun s => (exLoss s, exLoss s)) exCfg true false 0 0 = .ok r ∧
      (r.converged = true → r.convergeSteps = r.losses.length - 1) := by
  obtain ⟨r, h, h1, _⟩ := C13_converge_steps_partial exStep (fun s => (exLoss s, exLoss s)) exCfg 0 (by decide)
  exact ⟨by decide +kernel, r, h, h1⟩

/-- Case for `C15_python_nan`: with a second loss that is never a number the Python loop does not converge. -/
example : ∃ r, pyLoop exStep (fun s => (exLoss s, none)) exCfg true false 0 0 = .ok r ∧ r.converged = false := by
  obtain ⟨r, h, h1⟩ := C15_python_nan exStep (fun s => (exLoss s, none)) exCfg 0 0 (by decide)
  refine ⟨r, h, ?_⟩
  by_contra hc
  exact absurd (h1 (by simpa using hc)).2 (by simp)

/-- Case for `C04_lsnmf_hold`, `C04_lsnmf_hold_python`: two samples, one feature, one factor. -/
example (loss : Option (Mat 2 1 ℚ) × Option (Mat 1 1 ℚ) → Option ℚ) :
    (rustLoop (lsLoopStep ![![1], ![2]] ![![1], ![4]]) loss exHoldCfg (fun _ => false) (some ![![1], ![1]], some ![![3]])).factors.2
      = some ![![3]] ∧
    ∃ r, pyLoop (lsLoopStep ![![1], ![2]] ![![1], ![4]]) (fun s => (loss s, loss s)) exHoldCfg true false 0
      (some ![![1], ![1]], some ![![3]]) = .ok r ∧ r.factors.2 = some ![![3]] :=
  ⟨C04_lsnmf_hold _ _ _ _ _ _ _ rfl (by decide),
   C04_lsnmf_hold_python _ _ _ _ _ _ _ _ (by decide) rfl (by decide)⟩

/-- Case for `C04_lsnmf_delay`: with a delay of 5 and at most six updates the profiles are untouched. -/
example (loss : Option (Mat 2 1 ℚ) × Option (Mat 1 1 ℚ) → Option ℚ)
    (h : (rustLoop (lsLoopStep ![![1], ![2]] ![![1], ![4]]) loss { exHoldCfg with delayH := 5 } (fun _ => false)
      (some ![![1], ![1]], some ![![3]])).losses.length ≤ 6) :
    (rustLoop (lsLoopStep ![![1], ![2]] ![![1], ![4]]) loss { exHoldCfg with delayH := 5 } (fun _ => false)
      (some ![![1], ![1]], some ![![3]])).factors.2 = some ![![3]] :=
  (C04_lsnmf_delay _ _ _ _ _ _ _ rfl 5 rfl (by decide)).1 h

/-- Case for `C04_lsnmf_run`: two held updates of a one-factor model return the profile 3. -/
example : (lsRun (m := 2) (n := 1) (k := 1) (K := ℚ) ![![1], ![2]] ![![1], ![4]] [true, true] ![![1], ![1]] ![![3]]).map
      (fun r => (r.1 0 0, r.1 1 0, r.2 0 0)) = some (1 / 3, 2 / 3, 3) ∧
    ∀ W' H', lsRun (m := 2) (n := 1) (k := 1) (K := ℚ) ![![1], ![2]] ![![1], ![4]] [true, true] ![![1], ![1]] ![![3]]
      = some (W', H') → H' = ![![3]] :=
  ⟨by decide +kernel, fun W' H' h => C04_lsnmf_run _ _ _ (by decide) _ _ W' H' h⟩

/-- Case for `C04_wsnmf_hold` and `C04_wsnmf_delay`. -/
example (loss : Option (Mat 2 1 ℝ) × Option (Mat 1 1 ℝ) → Option ℝ) :
    (rustLoop (wsLoopStep (fun A => fun a b => 1 / A a b) ![![1], ![2]] ![![1], ![4]]) loss
      { maxIter := 6, delta := 1 / 2, convergeN := 3, holdH := true, delayH := -1 } (fun _ => false)
      (some ![![1], ![1]], some ![![3]])).factors.2 = some ![![3]] ∧
    ((rustLoop (wsLoopStep (fun A => fun a b => 1 / A a b) ![![1], ![2]] ![![1], ![4]]) loss
      { maxIter := 6, delta := 1 / 2, convergeN := 3, holdH := true, delayH := 5 } (fun _ => false)
      (some ![![1], ![1]], some ![![3]])).losses.length ≤ 6 →
    (rustLoop (wsLoopStep (fun A => fun a b => 1 / A a b) ![![1], ![2]] ![![1], ![4]]) loss
      { maxIter := 6, delta := 1 / 2, convergeN := 3, holdH := true, delayH := 5 } (fun _ => false)
      (some ![![1], ![1]], some ![![3]])).factors.2 = some ![![3]]) :=
  ⟨C04_wsnmf_hold _ _ _ _ _ _ _ _ rfl (by simp), (C04_wsnmf_delay _ _ _ _ _ _ _ _ rfl 5 rfl (by decide)).1⟩

end Esat
