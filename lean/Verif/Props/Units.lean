import Verif.Props.Training
import Verif.Props.WsFixed
import Verif.Model.SA
import Mathlib.Tactic.FieldSimp
import Mathlib.Tactic.LinearCombination

/-!
# C167, C168: units of measurement

What happens to a whole training run if samples, features, all data or the uncertainties are expressed in other units.
-/

namespace Esat
variable {m n k : ℕ}

/-! ## The loops -/

section loops
variable {σ τ K : Type*} [Field K] [LinearOrder K] [IsStrictOrderedRing K]

/-- The state of a run with other factors and losses multiplied by `q`. -/
def RustState.rescale (f : σ → τ) (q : K) (st : RustState σ K) : RustState τ K :=
  { factors := f st.factors, q := st.q.map (q * ·), converged := st.converged, convergeI := st.convergeI,
    window := st.window.map (Option.map (q * ·)), losses := st.losses.map (Option.map (q * ·)), reports := st.reports }

theorem lossDrop_rescale (q : K) (hq : 0 < q) (x y : Option K) (δ : K) :
    lossDrop (x.map (q * ·)) (y.map (q * ·)) (q * δ) = lossDrop x y δ := by
  cases x <;> cases y <;> simp only [lossDrop, Option.map_none, Option.map_some]
  congr 1
  rw [← mul_sub, mul_lt_mul_iff_right₀ hq]

theorem rustBody_rescale (f : σ → τ) (q : K) (hq : 0 < q) (step : Bool → σ → σ) (step' : Bool → τ → τ) (loss : σ → Option K)
    (loss' : τ → Option K) (hs : ∀ u s, step' u (f s) = f (step u s)) (hl : ∀ s, loss' (f s) = (loss s).map (q * ·)) (cfg : LoopCfg K)
    (clock : ℕ → Bool) (i : ℕ) (st : RustState σ K) :
    rustBody step' loss' { cfg with delta := q * cfg.delta } clock i (st.rescale f q) = (rustBody step loss cfg clock i st).rescale f q := by
  have hw : (st.window.map (Option.map (q * ·)) ++ [Option.map (q * ·) (loss (step (rustUpdatesH cfg i) st.factors))]) =
      (st.window ++ [loss (step (rustUpdatesH cfg i) st.factors)]).map (Option.map (q * ·)) := by simp
  have hh : ∀ l : List (Option K), (l.map (Option.map (q * ·))).headD none = (l.headD none).map (q * ·) := fun l => by
    cases l <;> rfl
  have hu : rustUpdatesH { cfg with delta := q * cfg.delta } i = rustUpdatesH cfg i := rfl
  unfold rustBody RustState.rescale
  simp only [hu, hs, hl, hw, hh, lossDrop_rescale q hq, List.length_map]
  split_ifs <;> simp

theorem rustIter_rescale (f : σ → τ) (q : K) (hq : 0 < q) (step : Bool → σ → σ) (step' : Bool → τ → τ) (loss : σ → Option K)
    (loss' : τ → Option K) (hs : ∀ u s, step' u (f s) = f (step u s)) (hl : ∀ s, loss' (f s) = (loss s).map (q * ·)) (cfg : LoopCfg K)
    (clock : ℕ → Bool) : ∀ (fuel i : ℕ) (st : RustState σ K),
    rustIter step' loss' { cfg with delta := q * cfg.delta } clock fuel i (st.rescale f q) =
      (rustIter step loss cfg clock fuel i st).rescale f q
  | 0, _, _ => rfl
  | fuel + 1, i, st => by
    unfold rustIter
    rw [rustBody_rescale f q hq step step' loss loss' hs hl]
    have hc : ((rustBody step loss cfg clock i st).rescale f q).converged = (rustBody step loss cfg clock i st).converged := rfl
    simp only [hc]
    split_ifs
    · rfl
    · exact rustIter_rescale f q hq step step' loss loss' hs hl cfg clock fuel (i + 1) _

theorem rustLoop_rescale (f : σ → τ) (q : K) (hq : 0 < q) (step : Bool → σ → σ) (step' : Bool → τ → τ) (loss : σ → Option K)
    (loss' : τ → Option K) (hs : ∀ u s, step' u (f s) = f (step u s)) (hl : ∀ s, loss' (f s) = (loss s).map (q * ·)) (cfg : LoopCfg K)
    (clock : ℕ → Bool) (s : σ) :
    rustLoop step' loss' { cfg with delta := q * cfg.delta } clock (f s) = (rustLoop step loss cfg clock s).rescale f q := by
  unfold rustLoop
  rw [← rustIter_rescale f q hq step step' loss loss' hs hl]
  congr 1
  simp [rustInit, RustState.rescale]

end loops

/-! ## ls-nmf -/

section ls
variable {K : Type*} [Field K] [LinearOrder K] [IsStrictOrderedRing K]

/-- Sample `i` multiplied by `r i` and feature `j` by `c j`. -/
def inUnits (r : Fin m → K) (c : Fin n → K) (A : Mat m n K) : Mat m n K := fun i j => r i * A i j * c j

theorem lsStepH_units (r : Fin m → K) (c : Fin n → K) (d : Fin k → K) (w : K) (hr : ∀ i, r i ≠ 0) (hc : ∀ j, c j ≠ 0) (hd : ∀ a, d a ≠ 0)
    (hw : w ≠ 0) (V We : Mat m n K) (W : Mat m k K) (H : Mat k n K) :
    lsStepH (inUnits r c V) (fun i j => w * We i j / (r i * c j) ^ 2) (inUnits r d W) (inUnits (fun a => (d a)⁻¹) c H) =
      (lsStepH V We W H).map (inUnits (fun a => (d a)⁻¹) c) := by
  have hs : ∀ i j, ∑ b, inUnits r d W i b * inUnits (fun a => (d a)⁻¹) c H b j = r i * c j * ∑ b, W i b * H b j := fun i j => by
    rw [Finset.mul_sum]
    refine Finset.sum_congr rfl fun b _ => ?_
    have := hd b
    simp only [inUnits]
    field_simp
  have hnum : ∀ a j, lsHNum (inUnits r c V) (fun i j => w * We i j / (r i * c j) ^ 2) (inUnits r d W) a j =
      w * d a / c j * lsHNum V We W a j := fun a j => by
    rw [lsHNum_apply, lsHNum_apply, Finset.mul_sum]
    refine Finset.sum_congr rfl fun i _ => ?_
    have h1 := hr i
    have h2 := hc j
    simp only [inUnits]
    field_simp
  have hden : ∀ a j, lsHDen (fun i j => w * We i j / (r i * c j) ^ 2) (inUnits r d W) (inUnits (fun a => (d a)⁻¹) c H) a j =
      w * d a / c j * lsHDen We W H a j := fun a j => by
    rw [lsHDen_apply, lsHDen_apply, Finset.mul_sum]
    refine Finset.sum_congr rfl fun i _ => ?_
    rw [hs]
    have h1 := hr i
    have h2 := hc j
    simp only [inUnits]
    field_simp
  have hk : ∀ a j, w * d a / c j ≠ 0 := fun a j => div_ne_zero (mul_ne_zero hw (hd a)) (hc j)
  have hz : NoZero (lsHDen (fun i j => w * We i j / (r i * c j) ^ 2) (inUnits r d W) (inUnits (fun a => (d a)⁻¹) c H)) ↔
      NoZero (lsHDen We W H) := by
    refine forall_congr' fun a => forall_congr' fun j => ?_
    rw [hden]
    simp [hk a j]
  unfold lsStepH
  by_cases h0 : NoZero (lsHDen We W H)
  · rw [if_pos h0, if_pos (hz.2 h0), Option.map_some]
    congr 1
    funext a j
    simp only [emul, ediv, hnum, hden]
    have h1 := hk a j
    have h2 := h0 a j
    rw [mul_div_mul_left _ _ h1]
    simp only [inUnits, emul, ediv]
    ring
  · rw [if_neg h0, if_neg (fun h => h0 (hz.1 h))]
    rfl

theorem lsStepW_units (r : Fin m → K) (c : Fin n → K) (d : Fin k → K) (w : K) (hr : ∀ i, r i ≠ 0) (hc : ∀ j, c j ≠ 0) (hd : ∀ a, d a ≠ 0)
    (hw : w ≠ 0) (V We : Mat m n K) (W : Mat m k K) (H : Mat k n K) :
    lsStepW (inUnits r c V) (fun i j => w * We i j / (r i * c j) ^ 2) (inUnits r d W) (inUnits (fun a => (d a)⁻¹) c H) =
      (lsStepW V We W H).map (inUnits r d) := by
  rw [lsStepW_eq_transpose, lsStepW_eq_transpose]
  have := lsStepH_units c r (fun a => (d a)⁻¹) w hc hr (fun a => inv_ne_zero (hd a)) hw (tr V) (tr We) (tr H) (tr W)
  have e1 : tr (inUnits r c V) = inUnits c r (tr V) := by funext j i; simp only [tr, inUnits]; ring
  have e2 : tr (fun i j => w * We i j / (r i * c j) ^ 2) = fun j i => w * tr We j i / (c j * r i) ^ 2 := by
    funext j i; simp only [tr]; rw [mul_comm (r i)]
  have e3 : tr (inUnits (fun a => (d a)⁻¹) c H) = inUnits c (fun a => (d a)⁻¹) (tr H) := by funext j a; simp only [tr, inUnits]; ring
  have e4 : tr (inUnits r d W) = inUnits (fun a => ((d a)⁻¹)⁻¹) r (tr W) := by funext a i; simp only [tr, inUnits, inv_inv]; ring
  rw [e1, e2, e3, e4, this, Option.map_map, Option.map_map]
  congr 1
  funext X i a
  simp only [Function.comp, tr, inUnits, inv_inv]
  ring

theorem qLoss_units (r : Fin m → K) (c : Fin n → K) (d : Fin k → K) (s : K) (hr : ∀ i, r i ≠ 0) (hc : ∀ j, c j ≠ 0) (hd : ∀ a, d a ≠ 0)
    (hs : s ≠ 0) (V U : Mat m n K) (W : Mat m k K) (H : Mat k n K) :
    qLoss (inUnits r c V) (fun i j => s * inUnits r c U i j) (inUnits r d W) (inUnits (fun a => (d a)⁻¹) c H) =
      1 / s ^ 2 * qLoss V U W H := by
  have hm : ∀ i j, ∑ b, inUnits r d W i b * inUnits (fun a => (d a)⁻¹) c H b j = r i * c j * ∑ b, W i b * H b j := fun i j => by
    rw [Finset.mul_sum]
    refine Finset.sum_congr rfl fun b _ => ?_
    have := hd b
    simp only [inUnits]
    field_simp
  unfold qLoss
  simp only [if_true, mmul, hm, Finset.mul_sum]
  refine Finset.sum_congr rfl fun i _ => Finset.sum_congr rfl fun j _ => ?_
  have h1 := hr i
  have h2 := hc j
  by_cases hU : U i j = 0
  · simp [inUnits, hU]
  simp only [inUnits]
  rw [← Finset.mul_sum]
  field_simp

/-- Both factors in other units, if they have not been spoilt. -/
def factorsInUnits (r : Fin m → K) (c : Fin n → K) (d : Fin k → K) (p : Option (Mat m k K) × Option (Mat k n K)) :
    Option (Mat m k K) × Option (Mat k n K) := (p.1.map (inUnits r d), p.2.map (inUnits (fun a => (d a)⁻¹) c))

theorem lsLoopStep_units (r : Fin m → K) (c : Fin n → K) (d : Fin k → K) (s : K) (hr : ∀ i, r i ≠ 0) (hc : ∀ j, c j ≠ 0)
    (hd : ∀ a, d a ≠ 0) (hs : s ≠ 0) (V U : Mat m n K) (u : Bool) (p : Option (Mat m k K) × Option (Mat k n K)) :
    lsLoopStep (inUnits r c V) (weights fun i j => s * inUnits r c U i j) u (factorsInUnits r c d p) =
      factorsInUnits r c d (lsLoopStep V (weights U) u p) := by
  have hw : weights (fun i j => s * inUnits r c U i j) = fun i j => 1 / s ^ 2 * weights U i j / (r i * c j) ^ 2 := by
    funext i j
    have h1 := hr i
    have h2 := hc j
    simp only [weights, inUnits]
    by_cases hU : U i j = 0
    · simp [hU]
    field_simp
  have hw0 : 1 / s ^ 2 ≠ 0 := one_div_ne_zero (pow_ne_zero 2 hs)
  rw [hw]
  obtain ⟨_ | W, _ | H⟩ := p
  · cases u <;> rfl
  · cases u <;> rfl
  · cases u <;> rfl
  · cases u
    · simp only [lsLoopStep, factorsInUnits, Option.map_some, Option.bind_some, Bool.false_eq_true, if_false]
      rw [lsStepW_units r c d _ hr hc hd hw0]
    · simp only [lsLoopStep, factorsInUnits, Option.map_some, Option.bind_some, if_true]
      rw [lsStepH_units r c d _ hr hc hd hw0]
      cases lsStepH V (weights U) W H with
      | none => rfl
      | some H' =>
        simp only [Option.map_some, Option.bind_some]
        rw [lsStepW_units r c d _ hr hc hd hw0]

/-- **C167.** A whole ls-nmf training run in other units: sample `i` in units smaller by `r i`, feature `j` by `c j` (data and uncertainties
alike), factor `a` of the starting point scaled by `d a`, and the uncertainties multiplied by `s` on top. If the tolerance is divided by
`s²`, the run takes exactly the same course: the same number of iterations, flags and reports; the losses are divided by `s²`, and the
factors are the original ones in the new units, spoilt exactly if those were. With `s = 1` nothing but the units changes. -/
theorem C167_training (r : Fin m → K) (c : Fin n → K) (d : Fin k → K) (s : K) (hr : ∀ i, r i ≠ 0) (hc : ∀ j, c j ≠ 0)
    (hd : ∀ a, d a ≠ 0) (hs : s ≠ 0) (V U : Mat m n K) (cfg : LoopCfg K) (clock : ℕ → Bool) (rm : Bool) (rn : ℤ) (W : Mat m k K)
    (H : Mat k n K) :
    let run := lsTrain V U cfg clock rm rn W H
    let run' := lsTrain (fun i j => r i * V i j * c j) (fun i j => s * (r i * U i j * c j)) { cfg with delta := cfg.delta / s ^ 2 }
      clock rm rn (fun i a => r i * W i a * d a) (fun a j => H a j * c j / d a)
    run'.converged = run.converged ∧ run'.convergeI = run.convergeI ∧ run'.reports = run.reports ∧
      run'.q = run.q.map (· / s ^ 2) ∧ run'.losses = run.losses.map (Option.map (· / s ^ 2)) ∧
      run'.factors.1 = run.factors.1.map (fun W' => fun i a => r i * W' i a * d a) ∧
      run'.factors.2 = run.factors.2.map (fun H' => fun a j => H' a j * c j / d a) := by
  intro run run'
  have hq : (0 : K) < 1 / s ^ 2 := by positivity
  have hH : (fun a j => H a j * c j / d a) = inUnits (fun a => (d a)⁻¹) c H := by funext a j; simp only [inUnits]; ring
  have key := rustLoop_rescale (factorsInUnits r c d) (1 / s ^ 2) hq (lsLoopStep V (weights U))
    (lsLoopStep (inUnits r c V) (weights fun i j => s * inUnits r c U i j)) (lsQ V U) (lsQ (inUnits r c V) fun i j => s * inUnits r c U i j)
    (fun u p => lsLoopStep_units r c d s hr hc hd hs V U u p)
    (fun p => by
      obtain ⟨_ | W, _ | H⟩ := p
      · rfl
      · rfl
      · rfl
      · simp only [factorsInUnits, Option.map_some, lsQ]
        rw [qLoss_units r c d s hr hc hd hs]) cfg clock (some W, some H)
  have hrun : run' = run.rescale (factorsInUnits r c d) (1 / s ^ 2) := by
    refine Eq.trans ?_ key
    rw [one_div_mul_eq_div]
    show lsTrain _ _ _ _ _ _ _ _ = _
    rw [hH]
    rfl
  have hf : (fun x : K => 1 / s ^ 2 * x) = (· / s ^ 2) := by funext x; ring
  rw [hrun]
  refine ⟨rfl, rfl, rfl, ?_, ?_, rfl, ?_⟩
  · show run.q.map _ = _
    rw [hf]
  · show run.losses.map _ = _
    rw [hf]
  · show run.factors.2.map _ = _
    congr 1
    funext X a j
    simp only [inUnits]
    ring

/-- Three samples, two features: the second feature in units smaller by a thousand. The run is defined. -/
example : (lsTrain (fun i j => exV i j * (if j = 1 then 1000 else 1)) (fun i j => exU i j * (if j = 1 then 1000 else 1))
      ⟨3, 1 / 10, 2, false, -1⟩ (fun _ => false) false 0 exW (fun a j => exH a j * if j = 1 then 1000 else 1)).q =
    (lsTrain exV exU ⟨3, 1 / 10, 2, false, -1⟩ (fun _ => false) false 0 exW exH).q := by
  have := (C167_training (fun _ => 1) (fun j => if j = 1 then 1000 else 1) (fun _ => 1) 1 (by simp) (by intro j; split <;> norm_num)
    (by simp) one_ne_zero exV exU ⟨3, 1 / 10, 2, false, -1⟩ (fun _ => false) false 0 exW exH).2.2.2.1
  simpa using this

end ls

/-! ## ws-nmf -/

section ws

theorem wsPos_scale (r : Fin m → ℝ) (hr : ∀ i, 0 < r i) (W : Mat m k ℝ) (i : Fin m) (a : Fin k) :
    wsPos (fun i a => r i * W i a) i a = r i * wsPos W i a := by
  unfold wsPos
  rw [abs_mul, abs_of_pos (hr i)]
  ring

theorem wsNeg_scale (r : Fin m → ℝ) (hr : ∀ i, 0 < r i) (W : Mat m k ℝ) (i : Fin m) (a : Fin k) :
    wsNeg (fun i a => r i * W i a) i a = r i * wsNeg W i a := by
  unfold wsNeg
  rw [abs_mul, abs_of_pos (hr i)]
  ring

/-- What an inverse (or pseudo-inverse) does to a multiple of a matrix. -/
def InvHomogeneous (inv : Mat k k ℝ → Mat k k ℝ) : Prop :=
  ∀ (t : ℝ) (A : Mat k k ℝ), 0 < t → inv (fun a b => t * A a b) = fun a b => t⁻¹ * inv A a b

theorem wsStepW_units (inv : Mat k k ℝ → Mat k k ℝ) (hinv : InvHomogeneous inv) (r : Fin m → ℝ) (c : Fin n → ℝ) (hr : ∀ i, 0 < r i)
    (hc : ∀ j, 0 < c j) (V We : Mat m n ℝ) (H : Mat k n ℝ) :
    wsStepW inv (inUnits r c V) (fun i j => We i j / (r i * c j) ^ 2) (fun a j => H a j * c j) = fun i a => r i * wsStepW inv V We H i a := by
  funext i b
  have hN : wsNormal (fun i j => We i j / (r i * c j) ^ 2) (fun a j => H a j * c j) i = fun a b => (1 / r i ^ 2) * wsNormal We H i a b := by
    funext a b
    simp only [wsNormal, Finset.mul_sum]
    refine Finset.sum_congr rfl fun j _ => ?_
    have h1 := (hr i).ne'
    have h2 := (hc j).ne'
    field_simp
  have hR : ∀ a, wsRhs (inUnits r c V) (fun i j => We i j / (r i * c j) ^ 2) (fun a j => H a j * c j) i a = 1 / r i * wsRhs V We H i a := by
    intro a
    simp only [wsRhs, Finset.mul_sum]
    refine Finset.sum_congr rfl fun j _ => ?_
    have h1 := (hr i).ne'
    have h2 := (hc j).ne'
    simp only [inUnits]
    field_simp
  simp only [wsStepW, Finset.mul_sum]
  refine Finset.sum_congr rfl fun a _ => ?_
  rw [hN, hinv _ _ (by have := hr i; positivity), hR]
  have h1 := (hr i).ne'
  field_simp

theorem wsLin_units (r : Fin m → ℝ) (c : Fin n → ℝ) (hr : ∀ i, 0 < r i) (hc : ∀ j, 0 < c j) (V We : Mat m n ℝ) (A : Mat m k ℝ) (b j) :
    wsLin (inUnits r c V) (fun i j => We i j / (r i * c j) ^ 2) (fun i a => r i * A i a) b j = wsLin V We A b j / c j := by
  simp only [wsLin, Finset.sum_div]
  refine Finset.sum_congr rfl fun i _ => ?_
  have h1 := (hr i).ne'
  have h2 := (hc j).ne'
  simp only [inUnits]
  field_simp

theorem wsQuad_units (r : Fin m → ℝ) (c : Fin n → ℝ) (hr : ∀ i, 0 < r i) (hc : ∀ j, 0 < c j) (We : Mat m n ℝ) (A : Mat m k ℝ)
    (H : Mat k n ℝ) (b j) :
    wsQuad (fun i j => We i j / (r i * c j) ^ 2) (fun i a => r i * A i a) (fun a j => H a j * c j) b j = wsQuad We A H b j / c j := by
  simp only [wsQuad, Finset.sum_div, Finset.mul_sum]
  refine Finset.sum_congr rfl fun a _ => Finset.sum_congr rfl fun i _ => ?_
  have h1 := (hr i).ne'
  have h2 := (hc j).ne'
  field_simp

/-- The sum that raises the profile entry `b, j` in a ws-nmf update, before EPSILON is added. -/
noncomputable def wsRaise (V U : Mat m n ℝ) (W : Mat m k ℝ) (H : Mat k n ℝ) (b : Fin k) (j : Fin n) : ℝ :=
  (∑ i, V i j / U i j ^ 2 * max (W i b) 0) + ∑ i, (∑ a, H a j * max (-W i a) 0) * max (-W i b) 0 / U i j ^ 2

/-- The sum that lowers the profile entry `b, j` in a ws-nmf update, before EPSILON is added. -/
noncomputable def wsLower (V U : Mat m n ℝ) (W : Mat m k ℝ) (H : Mat k n ℝ) (b : Fin k) (j : Fin n) : ℝ :=
  (∑ i, V i j / U i j ^ 2 * max (-W i b) 0) + ∑ i, (∑ a, H a j * max (W i a) 0) * max (W i b) 0 / U i j ^ 2

theorem wsLin_eq (V U : Mat m n ℝ) (A : Mat m k ℝ) (b j) : wsLin V (weights U) A b j = ∑ i, V i j / U i j ^ 2 * A i b := by
  simp only [wsLin, weights]
  exact Finset.sum_congr rfl fun i _ => by ring

theorem wsQuad_eq (U : Mat m n ℝ) (A : Mat m k ℝ) (H : Mat k n ℝ) (b j) :
    wsQuad (weights U) A H b j = ∑ i, (∑ a, H a j * A i a) * A i b / U i j ^ 2 := by
  simp only [wsQuad, weights, Finset.mul_sum, Finset.sum_mul, Finset.sum_div]
  rw [Finset.sum_comm]
  exact Finset.sum_congr rfl fun i _ => Finset.sum_congr rfl fun a _ => by ring

theorem wsNum_eq (V U : Mat m n ℝ) (W : Mat m k ℝ) (H : Mat k n ℝ) (b j) :
    wsNum V (weights U) W H b j = wsRaise V U W H b j + 1 / 10 ^ 12 := by
  unfold wsNum wsRaise
  rw [wsLin_eq, wsQuad_eq]
  simp only [wsPos_eq, wsNeg_eq, posPart', negPart', wsEps]
  norm_num

theorem wsDen_eq (V U : Mat m n ℝ) (W : Mat m k ℝ) (H : Mat k n ℝ) (b j) :
    wsDen V (weights U) W H b j = wsLower V U W H b j + 1 / 10 ^ 12 := by
  unfold wsDen wsLower
  rw [wsLin_eq, wsQuad_eq]
  simp only [wsPos_eq, wsNeg_eq, posPart', negPart', wsEps]
  norm_num

theorem weights_units (r : Fin m → ℝ) (c : Fin n → ℝ) (U : Mat m n ℝ) :
    weights (inUnits r c U) = fun i j => weights U i j / (r i * c j) ^ 2 := by
  funext i j
  simp only [weights, inUnits]
  rw [div_div, ← mul_pow]
  congr 2
  ring

theorem wsNum_units (r : Fin m → ℝ) (c : Fin n → ℝ) (hr : ∀ i, 0 < r i) (hc : ∀ j, 0 < c j) (V U : Mat m n ℝ) (W : Mat m k ℝ)
    (H : Mat k n ℝ) (b j) :
    wsNum (inUnits r c V) (weights (inUnits r c U)) (fun i a => r i * W i a) (fun a j => H a j * c j) b j =
      wsRaise V U W H b j / c j + 1 / 10 ^ 12 := by
  have e1 : wsPos (fun i a => r i * W i a) = fun i a => r i * wsPos W i a := by funext i a; exact wsPos_scale r hr W i a
  have e2 : wsNeg (fun i a => r i * W i a) = fun i a => r i * wsNeg W i a := by funext i a; exact wsNeg_scale r hr W i a
  have h := wsNum_eq V U W H b j
  unfold wsNum at h ⊢
  rw [weights_units, e1, e2, wsLin_units r c hr hc, wsQuad_units r c hr hc]
  have he : wsEps = 1 / 10 ^ 12 := by norm_num [wsEps]
  rw [he] at h ⊢
  rw [← add_div, add_right_cancel h]

theorem wsDen_units (r : Fin m → ℝ) (c : Fin n → ℝ) (hr : ∀ i, 0 < r i) (hc : ∀ j, 0 < c j) (V U : Mat m n ℝ) (W : Mat m k ℝ)
    (H : Mat k n ℝ) (b j) :
    wsDen (inUnits r c V) (weights (inUnits r c U)) (fun i a => r i * W i a) (fun a j => H a j * c j) b j =
      wsLower V U W H b j / c j + 1 / 10 ^ 12 := by
  have e1 : wsPos (fun i a => r i * W i a) = fun i a => r i * wsPos W i a := by funext i a; exact wsPos_scale r hr W i a
  have e2 : wsNeg (fun i a => r i * W i a) = fun i a => r i * wsNeg W i a := by funext i a; exact wsNeg_scale r hr W i a
  have h := wsDen_eq V U W H b j
  unfold wsDen at h ⊢
  rw [weights_units, e1, e2, wsLin_units r c hr hc, wsQuad_units r c hr hc]
  have he : wsEps = 1 / 10 ^ 12 := by norm_num [wsEps]
  rw [he] at h ⊢
  rw [← add_div, add_right_cancel h]

/-- **C168.** One ws-nmf update in other units (samples `r`, features `c`): the contributions are those of the old units, but the profiles
are computed as if EPSILON were `c j` times as large, so that an entry comes out as in the old units exactly if the unit of its feature is
unchanged, or the entry is zero, or it does not change at all in this update. -/
theorem C168_update (inv : Mat k k ℝ → Mat k k ℝ) (hinv : InvHomogeneous inv) (r : Fin m → ℝ) (c : Fin n → ℝ) (hr : ∀ i, 0 < r i)
    (hc : ∀ j, 0 < c j) (V U : Mat m n ℝ) (W0 W1 W : Mat m k ℝ) (H Hn : Mat k n ℝ)
    (h : wsUpdate inv V (weights U) false W0 H = (W, some Hn)) :
    let X := wsUpdate inv (fun i j => r i * V i j * c j) (weights fun i j => r i * U i j * c j) false W1 (fun a j => H a j * c j)
    X.1 = (fun i a => r i * W i a) ∧
    ∀ Hn', X.2 = some Hn' → ∀ b j,
      Hn b j = H b j * √((wsRaise V U W H b j + 1 / 10 ^ 12) / (wsLower V U W H b j + 1 / 10 ^ 12)) ∧
      Hn' b j = c j * (H b j * √((wsRaise V U W H b j + c j * (1 / 10 ^ 12)) / (wsLower V U W H b j + c j * (1 / 10 ^ 12)))) ∧
      (Hn' b j = c j * Hn b j ↔ c j = 1 ∨ H b j = 0 ∨ Hn b j = H b j) := by
  intro X
  have hW : W = wsStepW inv V (weights U) H := by
    have := congrArg Prod.fst h
    exact this.symm
  have hX1 : X.1 = fun i a => r i * W i a := by
    show wsStepW inv (inUnits r c V) (weights (inUnits r c U)) _ = _
    rw [weights_units, wsStepW_units inv hinv r c hr hc, hW]
  refine ⟨hX1, fun Hn' hH' b j => ?_⟩
  have h2 : wsStepH V (weights U) W H = some Hn := by
    have := congrArg Prod.snd h
    rw [hW]
    exact this
  have h3 : wsStepH (inUnits r c V) (weights (inUnits r c U)) (fun i a => r i * W i a) (fun a j => H a j * c j) = some Hn' := by
    rw [← hX1]
    exact hH'
  unfold wsStepH at h2 h3
  split_ifs at h2 h3 with g2 g3
  have g2 := g2 b j
  have g3 := g3 b j
  rw [Option.some.injEq] at h2 h3
  have e2 : Hn b j = H b j * √((wsRaise V U W H b j + 1 / 10 ^ 12) / (wsLower V U W H b j + 1 / 10 ^ 12)) := by
    rw [← h2]
    dsimp only
    rw [wsNum_eq, wsDen_eq]
  have hcj := hc j
  have ediv : (wsRaise V U W H b j / c j + 1 / 10 ^ 12) / (wsLower V U W H b j / c j + 1 / 10 ^ 12) =
      (wsRaise V U W H b j + c j * (1 / 10 ^ 12)) / (wsLower V U W H b j + c j * (1 / 10 ^ 12)) := by
    rw [div_add' _ _ _ hcj.ne', div_add' _ _ _ hcj.ne', div_div_div_cancel_right₀ hcj.ne', mul_comm (1 / 10 ^ 12 : ℝ)]
  have e3 : Hn' b j = c j * (H b j * √((wsRaise V U W H b j + c j * (1 / 10 ^ 12)) / (wsLower V U W H b j + c j * (1 / 10 ^ 12)))) := by
    rw [← h3]
    dsimp only
    rw [wsNum_units r c hr hc, wsDen_units r c hr hc, ediv]
    ring
  refine ⟨e2, e3, ?_⟩
  rw [wsNum_eq, wsDen_eq] at g2
  rw [wsNum_units r c hr hc, wsDen_units r c hr hc, ediv] at g3
  obtain ⟨d2, q2⟩ := g2
  obtain ⟨d3', q3⟩ := g3
  have d3 : wsLower V U W H b j + c j * (1 / 10 ^ 12) ≠ 0 := by
    intro h0
    apply d3'
    rw [div_add' _ _ _ hcj.ne', mul_comm (1 / 10 ^ 12 : ℝ), h0, zero_div]
  set N := wsRaise V U W H b j
  set D := wsLower V U W H b j
  by_cases hz : H b j = 0
  · simp [e2, e3, hz]
  have hsame : Hn b j = H b j ↔ N = D := by
    rw [e2]
    constructor
    · intro e
      have : √((N + 1 / 10 ^ 12) / (D + 1 / 10 ^ 12)) = 1 := by
        have := mul_left_cancel₀ hz (e.trans (mul_one _).symm)
        exact this
      rw [Real.sqrt_eq_one, div_eq_one_iff_eq d2] at this
      linarith
    · intro e
      rw [e, div_self d2, Real.sqrt_one, mul_one]
  rw [hsame, e2, e3, mul_right_inj' hcj.ne', mul_right_inj' hz, Real.sqrt_inj q3 q2, div_eq_div_iff d3 d2]
  constructor
  · intro e
    have : (N - D) * (1 - c j) = 0 := by linear_combination (10 ^ 12 : ℝ) * e
    rcases mul_eq_zero.1 this with h | h
    · exact .inr (.inr (by linarith))
    · exact .inl (by linarith)
  · rintro (h | h | h)
    · rw [h]; ring
    · exact absurd h hz
    · rw [h]; ring

/-- **C168.** Samples in other units: the whole ws-nmf training run takes the same course. -/
theorem C168_samples (inv : Mat k k ℝ → Mat k k ℝ) (hinv : InvHomogeneous inv) (r : Fin m → ℝ) (hr : ∀ i, 0 < r i)
    (V U : Mat m n ℝ) (cfg : LoopCfg ℝ) (clock : ℕ → Bool) (W : Mat m k ℝ) (H : Mat k n ℝ) :
    let run := rustLoop (wsLoopStep inv V (weights U)) (lsQ V U) cfg clock (some W, some H)
    let run' := rustLoop (wsLoopStep inv (fun i j => r i * V i j) (weights fun i j => r i * U i j))
      (lsQ (fun i j => r i * V i j) (fun i j => r i * U i j)) cfg clock (some (fun i a => r i * W i a), some H)
    run'.converged = run.converged ∧ run'.convergeI = run.convergeI ∧ run'.reports = run.reports ∧ run'.losses = run.losses ∧
      run'.factors.1 = run.factors.1.map (fun W' => fun i a => r i * W' i a) ∧ run'.factors.2 = run.factors.2 := by
  intro run run'
  have hu : ∀ A : Mat m n ℝ, (fun i j => r i * A i j) = inUnits r (fun _ => 1) A := fun A => by funext i j; simp [inUnits]
  have hc1 : ∀ j : Fin n, (0 : ℝ) < (fun _ => 1) j := fun _ => one_pos
  have hH1 : ∀ H : Mat k n ℝ, (fun a j => H a j * (fun _ : Fin n => (1 : ℝ)) j) = H := fun H => by funext a j; simp
  have key := rustLoop_rescale (fun p : Option (Mat m k ℝ) × Option (Mat k n ℝ) => (p.1.map (fun W' => fun i a => r i * W' i a), p.2)) 1 one_pos
    (wsLoopStep inv V (weights U)) (wsLoopStep inv (inUnits r (fun _ => 1) V) (weights (inUnits r (fun _ => 1) U))) (lsQ V U)
    (lsQ (inUnits r (fun _ => 1) V) (inUnits r (fun _ => 1) U))
    (fun u p => by
      obtain ⟨W, _ | H⟩ := p
      · rfl
      have hW := wsStepW_units inv hinv r (fun _ => 1) hr hc1 V (weights U) H
      rw [hH1, ← weights_units] at hW
      have hn := fun W' b j => wsNum_units r (fun _ => 1) hr hc1 V U W' H b j
      have hd := fun W' b j => wsDen_units r (fun _ => 1) hr hc1 V U W' H b j
      simp only [hH1, div_one, ← wsNum_eq, ← wsDen_eq] at hn hd
      have hS : ∀ W' : Mat m k ℝ, wsStepH (inUnits r (fun _ => 1) V) (weights (inUnits r (fun _ => 1) U)) (fun i a => r i * W' i a) H =
          wsStepH V (weights U) W' H := fun W' => by
        unfold wsStepH
        simp only [hn, hd]
      simp only [wsLoopStep, hW, hS, Option.map_some])
    (fun p => by
      have hid : ∀ o : Option ℝ, o.map (1 * ·) = o := fun o => by cases o <;> simp
      rw [hid]
      obtain ⟨_ | W, _ | H⟩ := p
      · rfl
      · rfl
      · rfl
      · simp only [lsQ, Option.map_some]
        have := qLoss_units r (fun _ => 1) (fun _ : Fin k => (1 : ℝ)) 1 (fun i => (hr i).ne') (fun _ => one_ne_zero) (fun _ => one_ne_zero)
          one_ne_zero V U W H
        simp only [one_mul, one_pow, div_one] at this
        rw [← this]
        congr 2
        · funext i a; simp [inUnits]
        · funext a j; simp [inUnits]) cfg clock (some W, some H)
  have hid : ∀ o : Option ℝ, o.map (1 * ·) = o := fun o => by cases o <;> simp
  have hrun : run' = run.rescale (fun p => (p.1.map (fun W' => fun i a => r i * W' i a), p.2)) 1 := by
    refine Eq.trans ?_ key
    show rustLoop _ _ _ _ _ = _
    rw [hu V, hu U, one_mul]
    rfl
  rw [hrun]
  refine ⟨rfl, rfl, rfl, ?_, rfl, rfl⟩
  show run.losses.map (Option.map (1 * ·)) = run.losses
  rw [show Option.map (fun x : ℝ => 1 * x) = id from funext hid, List.map_id]

/-- The inverse of a one by one matrix is homogeneous, and a one-cell model (data 4, uncertainty 1, profile 1) has defined updates in both
units, whose results do not correspond: with positive data and one factor the raising sum is below the lowering one. -/
example : InvHomogeneous (k := 1) (fun A _ _ => (A 0 0)⁻¹) ∧
    (∃ W Hn, wsUpdate (m := 1) (n := 2) (k := 1) (fun A _ _ => (A 0 0)⁻¹) (fun _ j => if j = 0 then 1 else 3) (weights fun _ _ => 1) false
      (fun _ _ => 0) (fun _ _ => 1) = (W, some Hn) ∧ Hn 0 0 ≠ 1) := by
  have hN : ∀ b j, wsNum (m := 1) (n := 2) (k := 1) (fun _ j => if j = 0 then 1 else 3) (weights fun _ _ => 1) (fun _ _ => 2) (fun _ _ => 1) b j =
      (if j = 0 then 2 else 6) + 1 / 10 ^ 12 := fun b j => by
    rw [wsNum_eq]
    fin_cases j <;> simp [wsRaise] <;> norm_num
  have hD : ∀ b j, wsDen (m := 1) (n := 2) (k := 1) (fun _ j => if j = 0 then 1 else 3) (weights fun _ _ => 1) (fun _ _ => 2) (fun _ _ => 1) b j =
      4 + 1 / 10 ^ 12 := fun b j => by
    rw [wsDen_eq]
    fin_cases j <;> simp [wsLower] <;> norm_num
  have hW : wsStepW (m := 1) (n := 2) (k := 1) (fun A _ _ => (A 0 0)⁻¹) (fun _ j => if j = 0 then 1 else 3) (weights fun _ _ => 1)
      (fun _ _ => 1) = fun _ _ => (2 : ℝ) := by
    funext i b
    simp [wsStepW, wsRhs, wsNormal, weights]
    norm_num
  refine ⟨fun t A ht => by funext a b; dsimp only; rw [mul_inv], fun _ _ => 2, fun b j => 1 * √(((if j = 0 then 2 else 6) + 1 / 10 ^ 12) / (4 + 1 / 10 ^ 12)),
    ?_, ?_⟩
  · unfold wsUpdate
    simp only [hW, Bool.false_eq_true, if_false]
    unfold wsStepH
    rw [if_pos]
    · simp only [hN, hD]
    · intro b j
      rw [hN, hD]
      refine ⟨by norm_num, ?_⟩
      split_ifs <;> positivity
  · simp only [if_true, one_mul]
    intro h
    rw [Real.sqrt_eq_one] at h
    norm_num at h

end ws

/-! ## The start -/

section start
open Classical in
/-- The root of the code: `np.sqrt` of a negative number is NaN. -/
noncomputable def realSqrt? (x : ℝ) : Option ℝ := if 0 ≤ x then some √x else none

theorem realSqrt?_scale (t : ℝ) (ht : 0 < t) (x : ℝ) : realSqrt? (t ^ 2 * x) = (realSqrt? x).map (t * ·) := by
  unfold realSqrt?
  have : 0 ≤ t ^ 2 * x ↔ 0 ≤ x := by
    constructor
    · intro h
      by_contra hx
      have := mul_neg_of_pos_of_neg (pow_pos ht 2) (not_le.1 hx)
      linarith
    · intro h; positivity
  simp only [this]
  split_ifs
  · simp only [Option.map_some]
    rw [Real.sqrt_mul (by positivity), Real.sqrt_sq ht.le]
  · rfl

theorem colMean_some (V : Mat m n ℝ) (j : Fin n) : colMean (fun i j => some (V i j)) j = some ((∑ i, V i j) / m) := by
  simp [colMean]

theorem rowMean_some (V : Mat m n ℝ) (i : Fin m) : rowMean (fun i j => some (V i j)) i = some ((∑ j, V i j) / n) := by
  simp [rowMean]

theorem start_entry (S d : ℝ) (p q : ℕ) (hp : 0 < p) (hq : 0 < q) (hS : 0 ≤ S) (t : ℝ) (ht : 0 < t) :
    ((do let s ← realSqrt? (t ^ 2 * S / p / q); return s * d : Option ℝ) = some (t * √(S / p / q) * d)) ∧
      (t * √(S / p / q) * d ≤ 0 ↔ ¬ (0 < d ∧ 0 < S)) := by
  have e : t ^ 2 * S / p / q = t ^ 2 * (S / p / q) := by ring
  have h0 : 0 ≤ S / p / q := by positivity
  refine ⟨?_, ?_⟩
  · rw [e, realSqrt?_scale t ht]
    simp [realSqrt?, h0]
  · rw [← not_lt, not_iff_not]
    constructor
    · intro h
      have hs : 0 ≤ t * √(S / p / q) := by positivity
      have hd : 0 < d := by
        by_contra hd
        have := mul_nonpos_of_nonneg_of_nonpos hs (not_lt.1 hd)
        linarith
      refine ⟨hd, lt_of_le_of_ne hS fun h0 => ?_⟩
      rw [← h0] at h
      simp at h
    · rintro ⟨h1, h2⟩
      have : 0 < S / p / q := by positivity
      have := Real.sqrt_pos.2 this
      positivity

/-- **C169.** The default ls-nmf starting point for the data `t² V`, with the same random draws: an entry of the profiles is
`t √(column mean / factors)` times its draw if this is positive, and `1e-12` in every unit otherwise (for about half of the entries, the
draws being standard normal); the contributions likewise with the row means. So the start is `t` times that for `V` exactly in the
entries which are not floored. -/
theorem C169_start (wsU : Mat k n (Option ℝ) → Mat m k (Option ℝ)) (hm : 0 < m) (hn : 0 < n) (hk : 0 < k) (t : ℝ) (ht : 0 < t)
    (V : Mat m n ℝ) (hV : ∀ i j, 0 ≤ V i j) (d : InitDraws m n k ℝ) :
    ∃ H W, initFactors realSqrt? wsU .ls (fun i j => some (t ^ 2 * V i j)) (defaultArgs d) = .ok (H, ⟨m, k, W⟩) ∧
      (∀ a j, H a j = some ((if 0 < d.hDraw a j ∧ 0 < ∑ i, V i j then t * √((∑ i, V i j) / m / k) * d.hDraw a j else 1 / 10 ^ 12 : ℝ) : WithTop ℝ)) ∧
      (∀ i a, W i a = some (if 0 < d.wDraw i a ∧ 0 < ∑ j, V i j then t * √((∑ j, V i j) / n / k) * d.wDraw i a else 1 / 10 ^ 12)) := by
  refine ⟨_, _, rfl, fun a j => ?_, fun i a => ?_⟩
  · obtain ⟨e1, e2⟩ := start_entry (∑ i, V i j) (d.hDraw a j) m k hm hk (Finset.sum_nonneg fun i _ => hV i j) t ht
    show entries (floorN (randomH realSqrt? (fun i j => some (t ^ 2 * V i j)) d)) a j = _
    have : randomH realSqrt? (fun i j => some (t ^ 2 * V i j)) d a j = some (t * √((∑ i, V i j) / m / k) * d.hDraw a j) := by
      unfold randomH
      rw [colMean_some, ← Finset.mul_sum]
      exact e1
    unfold entries floorN
    rw [this]
    simp only [e2, ite_not, Option.map_some]
  · obtain ⟨e1, e2⟩ := start_entry (∑ j, V i j) (d.wDraw i a) n k hn hk (Finset.sum_nonneg fun j _ => hV i j) t ht
    show randomW realSqrt? .ls (fun i j => some (t ^ 2 * V i j)) d i a = _
    unfold randomW floorN
    dsimp only
    rw [rowMean_some, ← Finset.mul_sum]
    simp only [Option.bind_eq_bind, Option.bind_some] at e1 ⊢
    rw [e1]
    simp only [e2, ite_not]

/-- **C169.** Without floored entries the whole run of a default model is independent of the unit of the data: data and uncertainties
multiplied by `t²`, the same draws: the same iterations, the same losses, both factors multiplied by `t`. -/
theorem C169_training (t : ℝ) (ht : 0 < t) (V U : Mat m n ℝ) (cfg : LoopCfg ℝ) (clock : ℕ → Bool) (W : Mat m k ℝ) (H : Mat k n ℝ) :
    let run := lsTrain V U cfg clock false 0 W H
    let run' := lsTrain (fun i j => t ^ 2 * V i j) (fun i j => t ^ 2 * U i j) cfg clock false 0 (fun i a => t * W i a) (fun a j => t * H a j)
    run'.converged = run.converged ∧ run'.convergeI = run.convergeI ∧ run'.losses = run.losses ∧
      run'.factors.1 = run.factors.1.map (fun W' => fun i a => t * W' i a) ∧
      run'.factors.2 = run.factors.2.map (fun H' => fun a j => t * H' a j) := by
  intro run run'
  obtain ⟨h1, h2, -, -, h3, h4, h5⟩ := C167_training (fun _ => t ^ 2) (fun _ => 1) (fun _ : Fin k => t⁻¹) 1 (fun _ => pow_ne_zero 2 ht.ne')
    (fun _ => one_ne_zero) (fun _ => inv_ne_zero ht.ne') one_ne_zero V U cfg clock false 0 W H
  have e1 : ∀ x : ℝ, t ^ 2 * x * t⁻¹ = t * x := fun x => by field_simp
  have e2 : ∀ x : ℝ, x * t = t * x := fun x => mul_comm x t
  simp only [mul_one, one_mul, one_pow, div_one, div_inv_eq_mul, e1, e2] at h1 h2 h3 h4 h5
  have hid : Option.map (fun x : ℝ => x) = id := funext fun o => by cases o <;> rfl
  rw [hid, List.map_id] at h3
  exact ⟨h1, h2, h3, h4, h5⟩

end start

end Esat
