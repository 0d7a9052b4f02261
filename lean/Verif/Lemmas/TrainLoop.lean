import Verif.Model.TrainLoop
import Verif.Spec.TrainLoop
import Mathlib.Tactic.Ring
import Mathlib.Tactic.Linarith
import Mathlib.Data.List.Basic
import Mathlib.Data.List.Range

/-! Helper lemmas for the training loops: exact characterisation of the state reached. -/

namespace Esat

theorem lossDrop_iff {K : Type*} [Field K] [LinearOrder K] (x y : Option K) (d : K) :
    lossDrop x y d = true ↔ ∃ a b, x = some a ∧ y = some b ∧ a - b < d := by
  cases x <;> cases y <;> simp [lossDrop]

theorem drop_range_succ {α : Type*} (f : ℕ → α) (i d : ℕ) (h : d ≤ i) :
    ((List.range i).map f).drop d ++ [f i] = ((List.range (i + 1)).map f).drop d := by
  rw [List.range_succ, List.map_append, List.drop_append_of_le_length (by simpa using h)]
  rfl

section
variable {σ K : Type*} [Field K] [LinearOrder K]

theorem effN_pos (n : ℤ) : 1 ≤ effN n := by unfold effN; omega

structure RustInv (step : Bool → σ → σ) (loss : σ → Option K) (cfg : LoopCfg K) (clock : ℕ → Bool) (s : σ) (i : ℕ)
    (st : RustState σ K) : Prop where
  factors : st.factors = traj step (rustUpdatesH cfg) s i
  losses : st.losses = (List.range i).map (lossAt step loss (rustUpdatesH cfg) s)
  window : st.window = ((List.range i).map (lossAt step loss (rustUpdatesH cfg) s)).drop (i - (effN cfg.convergeN - 1))
  converged : st.converged = false
  reports : st.reports = (List.range i).filterMap (fun j => if clock j then some ⟨j, false⟩ else none)
  before : ∀ j, j < i → ¬ Crit (lossAt step loss (rustUpdatesH cfg) s) (effN cfg.convergeN) cfg.delta j

theorem rustBody_spec (step : Bool → σ → σ) (loss : σ → Option K) (cfg : LoopCfg K) (clock : ℕ → Bool) (s : σ) (i : ℕ)
    (st : RustState σ K) (inv : RustInv step loss cfg clock s i st) :
    let ℓ := lossAt step loss (rustUpdatesH cfg) s
    let st' := rustBody step loss cfg clock i st
    let c := st'.converged
    let last := decide ((i : ℤ) + 1 = cfg.maxIter)
    (c = true ↔ Crit ℓ (effN cfg.convergeN) cfg.delta i) ∧
    st'.factors = traj step (rustUpdatesH cfg) s (i + 1) ∧ st'.q = ℓ i ∧ st'.convergeI = i ∧
    st'.losses = (List.range (i + 1)).map ℓ ∧
    st'.window = ((List.range (i + 1)).map ℓ).drop (i + 1 - (effN cfg.convergeN - 1)) ∧
    st'.reports = st.reports ++ (if clock i || c || last then [⟨i, c || last⟩] else []) := by
  intro ℓ st' c last
  have hN := effN_pos cfg.convergeN
  have hf : step (rustUpdatesH cfg i) st.factors = traj step (rustUpdatesH cfg) s (i + 1) := by
    rw [inv.factors]; rfl
  have hq : loss (step (rustUpdatesH cfg i) st.factors) = ℓ i := by rw [hf]; rfl
  have hw : st.window ++ [ℓ i] = ((List.range (i + 1)).map ℓ).drop (i - (effN cfg.convergeN - 1)) := by
    rw [inv.window, drop_range_succ _ _ _ (Nat.sub_le _ _)]
  have hlen : (((List.range (i + 1)).map ℓ).drop (i - (effN cfg.convergeN - 1))).length
      = i + 1 - (i - (effN cfg.convergeN - 1)) := by simp
  have hfull : (cfg.convergeN ≤ (((st.window ++ [ℓ i]).length : ℕ) : ℤ)) ↔ effN cfg.convergeN ≤ i + 1 := by
    rw [hw, hlen]; unfold effN at *; omega
  have hhead : effN cfg.convergeN ≤ i + 1 → (st.window ++ [ℓ i]).headD none = ℓ (i + 1 - effN cfg.convergeN) := by
    intro h
    rw [hw, List.headD_eq_head?_getD, List.head?_drop]
    have : i - (effN cfg.convergeN - 1) = i + 1 - effN cfg.convergeN := by omega
    rw [this, List.getElem?_map, List.getElem?_range (by omega)]
    rfl
  have hconv : c = true ↔ Crit ℓ (effN cfg.convergeN) cfg.delta i := by
    have e : c = if decide (cfg.convergeN ≤ (((st.window ++ [ℓ i]).length : ℕ) : ℤ))
        && lossDrop ((st.window ++ [ℓ i]).headD none) (ℓ i) cfg.delta then true else st.converged := by
      simp only [c, st', rustBody, hq]
    rw [e, inv.converged]
    unfold Crit
    by_cases h : effN cfg.convergeN ≤ i + 1
    · rw [hhead h]
      simp only [hfull.2 h, decide_true, Bool.true_and, h, true_and]
      rw [← lossDrop_iff]
      cases lossDrop (ℓ (i + 1 - effN cfg.convergeN)) (ℓ i) cfg.delta <;> simp
    · rw [decide_eq_false (mt hfull.1 h)]; simp [h]
  refine ⟨hconv, hf, ?_, rfl, ?_, ?_, ?_⟩
  · simp only [st', rustBody, hq]
  · simp only [st', rustBody, hq]
    rw [inv.losses, List.range_succ, List.map_append]; rfl
  · have e : st'.window = if decide (cfg.convergeN ≤ (((st.window ++ [ℓ i]).length : ℕ) : ℤ))
        then (st.window ++ [ℓ i]).tail else st.window ++ [ℓ i] := by
      simp only [st', rustBody, hq]
    rw [e]
    by_cases h : effN cfg.convergeN ≤ i + 1
    · rw [if_pos (by simpa using hfull.2 h), hw, List.tail_drop]
      congr 1; omega
    · rw [if_neg (by simpa using mt hfull.1 h), hw]
      congr 1; omega
  · have e : st'.reports = if clock i || c || last then st.reports ++ [⟨i, c || last⟩] else st.reports := rfl
    rw [e]
    split <;> simp

theorem rustIter_spec (step : Bool → σ → σ) (loss : σ → Option K) (cfg : LoopCfg K) (clock : ℕ → Bool) (s : σ)
    (fuel : ℕ) : ∀ (i : ℕ) (st : RustState σ K), RustInv step loss cfg clock s i st →
    i + (fuel + 1) = cfg.maxIter.toNat →
    let ℓ := lossAt step loss (rustUpdatesH cfg) s
    let r := rustIter step loss cfg clock (fuel + 1) i st
    ∃ t, i < t ∧ t ≤ cfg.maxIter.toNat ∧ r.factors = traj step (rustUpdatesH cfg) s t ∧
      r.losses = (List.range t).map ℓ ∧ r.q = ℓ (t - 1) ∧ r.convergeI = t - 1 ∧
      (r.converged = true ↔ Crit ℓ (effN cfg.convergeN) cfg.delta (t - 1)) ∧
      (∀ j, j + 1 < t → ¬ Crit ℓ (effN cfg.convergeN) cfg.delta j) ∧
      (r.converged = false → t = cfg.maxIter.toNat) ∧
      r.reports = (List.range t).filterMap (fun j =>
        if clock j || decide (j + 1 = t) then some ⟨j, decide (j + 1 = t)⟩ else none) := by
  induction fuel with
  | zero =>
    intro i st inv hT ℓ r
    obtain ⟨hc, h1, h2, h3, h4, h5, h6⟩ := rustBody_spec step loss cfg clock s i st inv
    have hr : r = rustBody step loss cfg clock i st := by
      simp only [r, rustIter]; split <;> rfl
    have hlast : ((i : ℤ) + 1 = cfg.maxIter) := by omega
    refine ⟨i + 1, by omega, by omega, by rw [hr]; exact h1, by rw [hr]; exact h4, by rw [hr]; exact h2,
      by rw [hr]; exact h3, by rw [hr]; exact hc, fun j hj => inv.before j (by omega), fun _ => by omega, ?_⟩
    rw [hr, h6, inv.reports, List.range_succ, List.filterMap_append]
    congr 1
    · refine List.filterMap_congr fun j hj => ?_
      have := List.mem_range.1 hj
      have hne : ¬ (j + 1 = i + 1) := by omega
      rw [decide_eq_false hne, Bool.or_false]
    · simp [hlast]
  | succ fuel ih =>
    intro i st inv hT ℓ r
    obtain ⟨hc, h1, h2, h3, h4, h5, h6⟩ := rustBody_spec step loss cfg clock s i st inv
    have hlast : ¬ ((i : ℤ) + 1 = cfg.maxIter) := by omega
    by_cases hcv : (rustBody step loss cfg clock i st).converged = true
    · have hr : r = rustBody step loss cfg clock i st := by
        simp only [r, rustIter]; rw [if_pos hcv]
      refine ⟨i + 1, by omega, by omega, by rw [hr]; exact h1, by rw [hr]; exact h4, by rw [hr]; exact h2,
        by rw [hr]; exact h3, by rw [hr]; exact hc, fun j hj => inv.before j (by omega),
        fun h => (by rw [hr, hcv] at h; exact absurd h (by decide)), ?_⟩
      rw [hr, h6, inv.reports, List.range_succ, List.filterMap_append]
      congr 1
      · refine List.filterMap_congr fun j hj => ?_
        have := List.mem_range.1 hj
        have hne : ¬ (j + 1 = i + 1) := by omega
        rw [decide_eq_false hne, Bool.or_false]
      · simp [hcv]
    · have hcv' : (rustBody step loss cfg clock i st).converged = false := by simpa using hcv
      have hr : r = rustIter step loss cfg clock (fuel + 1) (i + 1) (rustBody step loss cfg clock i st) := by
        simp only [r]; rw [rustIter]; simp only [hcv', Bool.false_eq_true, if_false]
      have inv' : RustInv step loss cfg clock s (i + 1) (rustBody step loss cfg clock i st) := by
        refine ⟨h1, h4, h5, hcv', ?_, ?_⟩
        · rw [h6, inv.reports, List.range_succ, List.filterMap_append]
          congr 1
          simp [hcv', hlast]
          split <;> simp_all
        · intro j hj
          rcases Nat.lt_succ_iff_lt_or_eq.1 hj with h | rfl
          · exact inv.before j h
          · exact fun h => hcv (hc.2 h)
      obtain ⟨t, ht, hrest⟩ := ih (i + 1) _ inv' (by omega)
      rw [hr]
      exact ⟨t, by omega, hrest⟩


theorem rustInv_init (step : Bool → σ → σ) (loss : σ → Option K) (cfg : LoopCfg K) (clock : ℕ → Bool) (s : σ) :
    RustInv step loss cfg clock s 0 (rustInit s) :=
  ⟨rfl, rfl, by simp [rustInit], rfl, rfl, fun j hj => absurd hj (Nat.not_lt_zero j)⟩

/-- Everything about a run of the compiled loop with at least one iteration. -/
theorem rustLoop_spec (step : Bool → σ → σ) (loss : σ → Option K) (cfg : LoopCfg K) (clock : ℕ → Bool) (s : σ)
    (h : 0 < cfg.maxIter) :
    let ℓ := lossAt step loss (rustUpdatesH cfg) s
    let r := rustLoop step loss cfg clock s
    ∃ t, 0 < t ∧ t ≤ cfg.maxIter.toNat ∧ r.factors = traj step (rustUpdatesH cfg) s t ∧
      r.losses = (List.range t).map ℓ ∧ r.q = ℓ (t - 1) ∧ r.convergeI = t - 1 ∧
      (r.converged = true ↔ Crit ℓ (effN cfg.convergeN) cfg.delta (t - 1)) ∧
      (∀ j, j + 1 < t → ¬ Crit ℓ (effN cfg.convergeN) cfg.delta j) ∧
      (r.converged = false → t = cfg.maxIter.toNat) ∧
      r.reports = (List.range t).filterMap (fun j =>
        if clock j || decide (j + 1 = t) then some ⟨j, decide (j + 1 = t)⟩ else none) := by
  intro ℓ r
  obtain ⟨f, hf⟩ : ∃ f, cfg.maxIter.toNat = f + 1 := ⟨cfg.maxIter.toNat - 1, by omega⟩
  have := rustIter_spec step loss cfg clock s f 0 (rustInit s) (rustInv_init step loss cfg clock s) (by omega)
  simpa only [r, rustLoop, hf] using this

theorem rustLoop_zero (step : Bool → σ → σ) (loss : σ → Option K) (cfg : LoopCfg K) (clock : ℕ → Bool) (s : σ)
    (h : cfg.maxIter ≤ 0) : rustLoop step loss cfg clock s = rustInit s := by
  have : cfg.maxIter.toNat = 0 := by omega
  simp only [rustLoop, this, rustIter]

/-- The compiled loop always returns a point of the trajectory. -/
theorem rustLoop_factors (step : Bool → σ → σ) (loss : σ → Option K) (cfg : LoopCfg K) (clock : ℕ → Bool) (s : σ) :
    let r := rustLoop step loss cfg clock s
    r.factors = traj step (rustUpdatesH cfg) s r.losses.length ∧ r.losses.length ≤ cfg.maxIter.toNat := by
  intro r
  by_cases h : 0 < cfg.maxIter
  · obtain ⟨t, h1, h2, h3, h4, _⟩ := rustLoop_spec step loss cfg clock s h
    have : r.losses.length = t := by rw [show r.losses = _ from h4]; simp
    rw [this]; exact ⟨h3, h2⟩
  · have : r = rustInit s := rustLoop_zero step loss cfg clock s (by omega)
    rw [this]; exact ⟨rfl, Nat.zero_le _⟩

/-! ### Python loop -/

/-- The iteration at which the Python loop leaves because a loss is NaN. -/
def PyNan (ℓ : ℕ → Option K × Option K) (i : ℕ) : Prop := (ℓ i).1 = none ∨ (ℓ i).2 = none

/-- The criterion as evaluated by the Python loop: one more recorded loss is required. -/
def PyCrit (ℓ : ℕ → Option K × Option K) (N : ℕ) (delta : K) (i : ℕ) : Prop :=
  N ≤ i ∧ Crit (fun j => (ℓ j).1) N delta i

structure PyInv (step : Bool → σ → σ) (loss : σ → Option K × Option K) (cfg : LoopCfg K) (c0 : Bool) (k0 : ℕ) (s : σ)
    (i : ℕ) (st : PyState σ K) : Prop where
  factors : st.factors = traj step (rustUpdatesH cfg) s i
  hold : st.holdH = true → cfg.holdH = true
  hold' : cfg.holdH = true → st.holdH = false → 0 < cfg.delayH ∧ cfg.delayH < i
  losses : st.losses = (List.range i).map (fun j => (lossAt step loss (rustUpdatesH cfg) s j).1)
  window : st.window = ((List.range i).map (fun j => (lossAt step loss (rustUpdatesH cfg) s j).1)).drop
      (i - cfg.convergeN.toNat)
  converged : st.converged = c0
  steps : st.convergeSteps = k0 + i
  before : ∀ j, j < i → ¬ PyNan (lossAt step loss (rustUpdatesH cfg) s) j ∧
    ¬ PyCrit (lossAt step loss (rustUpdatesH cfg) s) cfg.convergeN.toNat cfg.delta j

theorem pyBody_spec (step : Bool → σ → σ) (loss : σ → Option K × Option K) (cfg : LoopCfg K) (c0 : Bool) (k0 : ℕ)
    (s : σ) (i : ℕ) (st : PyState σ K) (hn : 1 ≤ cfg.convergeN) (inv : PyInv step loss cfg c0 k0 s i st) :
    let ℓ := lossAt step loss (rustUpdatesH cfg) s
    ∃ st' b, pyBody step loss cfg true i st = .ok (st', b) ∧
      st'.factors = traj step (rustUpdatesH cfg) s (i + 1) ∧
      st'.losses = (List.range (i + 1)).map (fun j => (ℓ j).1) ∧
      (b = true ↔ PyNan ℓ i ∨ PyCrit ℓ cfg.convergeN.toNat cfg.delta i) ∧
      (b = false → PyInv step loss cfg c0 k0 s (i + 1) st') ∧
      (b = true → st'.convergeSteps = k0 + i ∧ (st'.converged = true ↔ c0 = true ∨ ¬ PyNan ℓ i)) := by
  intro ℓ
  have hflag : (!(if decide (0 < cfg.delayH) && decide (cfg.delayH < i) then false else st.holdH))
      = rustUpdatesH cfg i := by
    unfold rustUpdatesH
    by_cases hd : 0 < cfg.delayH ∧ cfg.delayH < (i : ℤ)
    · simp [hd.1, hd.2]
    · have e : (decide (0 < cfg.delayH) && decide (cfg.delayH < (i : ℤ))) = false := by
        simpa [not_and] using hd
      rw [e]
      simp only [Bool.false_eq_true, if_false, Bool.or_false]
      cases h1 : st.holdH with
      | true => rw [inv.hold h1]
      | false =>
        cases h2 : cfg.holdH with
        | false => rfl
        | true => exact absurd (inv.hold' h2 h1) (by omega)
  have hf : step (!(if decide (0 < cfg.delayH) && decide (cfg.delayH < i) then false else st.holdH)) st.factors
      = traj step (rustUpdatesH cfg) s (i + 1) := by
    rw [hflag, inv.factors]; rfl
  have hq : loss (step (!(if decide (0 < cfg.delayH) && decide (cfg.delayH < i) then false else st.holdH))
      st.factors) = ℓ i := by rw [hf]; rfl
  have hw : st.window ++ [(ℓ i).1] =
      ((List.range (i + 1)).map (fun j => (ℓ j).1)).drop (i - cfg.convergeN.toNat) := by
    rw [inv.window]
    exact drop_range_succ (fun j => (ℓ j).1) _ _ (Nat.sub_le _ _)
  have hlosses : st.losses ++ [(ℓ i).1] = (List.range (i + 1)).map (fun j => (ℓ j).1) := by
    rw [inv.losses, List.range_succ, List.map_append]; rfl
  have hlen : (st.window ++ [(ℓ i).1]).length = i + 1 - (i - cfg.convergeN.toNat) := by rw [hw]; simp
  have hh : (if (decide (0 < cfg.delayH) && decide (cfg.delayH < i)) = true then false else st.holdH) = true
      → cfg.holdH = true := by
    split
    · intro h; cases h
    · exact inv.hold
  have hh' : cfg.holdH = true →
      (if (decide (0 < cfg.delayH) && decide (cfg.delayH < i)) = true then false else st.holdH) = false →
      0 < cfg.delayH ∧ cfg.delayH < ((i + 1 : ℕ) : ℤ) := by
    intro h1 h2
    split at h2
    · rename_i h3; simp only [Bool.and_eq_true, decide_eq_true_eq] at h3; omega
    · have := inv.hold' h1 h2; omega
  have body : pyBody step loss cfg true i st =
      (if (ℓ i).1.isNone || (ℓ i).2.isNone then
      .ok ({ st with factors := traj step (rustUpdatesH cfg) s (i + 1),
                     holdH := (if decide (0 < cfg.delayH) && decide (cfg.delayH < i) then false else st.holdH),
                     window := st.window ++ [(ℓ i).1], losses := st.losses ++ [(ℓ i).1] }, true)
    else if cfg.convergeN < (((st.window ++ [(ℓ i).1]).length : ℕ) : ℤ) then
      match (st.window ++ [(ℓ i).1]).tail with
      | [] => .error .indexError
      | first :: _ =>
        if lossDrop first (ℓ i).1 cfg.delta then
          .ok ({ factors := traj step (rustUpdatesH cfg) s (i + 1),
                 holdH := (if decide (0 < cfg.delayH) && decide (cfg.delayH < i) then false else st.holdH),
                 window := (st.window ++ [(ℓ i).1]).tail, losses := st.losses ++ [(ℓ i).1], converged := true,
                 convergeSteps := st.convergeSteps }, true)
        else
          .ok ({ factors := traj step (rustUpdatesH cfg) s (i + 1),
                 holdH := (if decide (0 < cfg.delayH) && decide (cfg.delayH < i) then false else st.holdH),
                 window := (st.window ++ [(ℓ i).1]).tail, losses := st.losses ++ [(ℓ i).1],
                 converged := st.converged, convergeSteps := st.convergeSteps + 1 }, false)
    else
      .ok ({ factors := traj step (rustUpdatesH cfg) s (i + 1),
             holdH := (if decide (0 < cfg.delayH) && decide (cfg.delayH < i) then false else st.holdH),
             window := st.window ++ [(ℓ i).1], losses := st.losses ++ [(ℓ i).1], converged := st.converged,
             convergeSteps := st.convergeSteps + 1 }, false)) := by
    rw [← hf, ← hq]; rfl
  rw [body]
  have hnan : ((ℓ i).1.isNone || (ℓ i).2.isNone) = true ↔ PyNan ℓ i := by
    simp [PyNan]
  by_cases hN : PyNan ℓ i
  · rw [if_pos (hnan.2 hN)]
    refine ⟨_, _, rfl, rfl, hlosses, by simp [hN], by simp, fun _ => ⟨inv.steps, ?_⟩⟩
    simp [hN, inv.converged]
  · rw [if_neg (mt hnan.1 hN)]
    have hgt : cfg.convergeN < (((st.window ++ [(ℓ i).1]).length : ℕ) : ℤ) ↔ cfg.convergeN.toNat ≤ i := by
      rw [hlen]; omega
    by_cases hge : cfg.convergeN.toNat ≤ i
    · rw [if_pos (hgt.2 hge)]
      have htail : (st.window ++ [(ℓ i).1]).tail =
          ((List.range (i + 1)).map (fun j => (ℓ j).1)).drop (i + 1 - cfg.convergeN.toNat) := by
        rw [hw, List.tail_drop]; congr 1; omega
      have hne : ∃ rest, (st.window ++ [(ℓ i).1]).tail = (ℓ (i + 1 - cfg.convergeN.toNat)).1 :: rest := by
        rw [htail, List.drop_eq_getElem_cons (by simp; omega)]
        exact ⟨_, by rw [List.getElem_map, List.getElem_range]⟩
      obtain ⟨rest, hrest⟩ := hne
      have hcrit : PyCrit ℓ cfg.convergeN.toNat cfg.delta i ↔
          lossDrop (ℓ (i + 1 - cfg.convergeN.toNat)).1 (ℓ i).1 cfg.delta = true := by
        rw [lossDrop_iff]; unfold PyCrit Crit
        constructor
        · rintro ⟨_, _, h⟩; exact h
        · intro h; exact ⟨hge, by omega, h⟩
      rw [hrest] at htail ⊢
      by_cases hd : lossDrop (ℓ (i + 1 - cfg.convergeN.toNat)).1 (ℓ i).1 cfg.delta = true
      · simp only [hd, if_true]
        refine ⟨_, _, rfl, rfl, hlosses, by simp [hcrit.2 hd], by simp, fun _ => ⟨inv.steps, ?_⟩⟩
        simp [hN]
      · simp only [hd]
        refine ⟨_, _, rfl, rfl, hlosses, by simp [hN, mt hcrit.1 hd], fun _ => ?_, by simp⟩
        refine ⟨rfl, hh, hh', hlosses, htail, inv.converged, by simp [inv.steps]; omega, ?_⟩
        intro j hj
        rcases Nat.lt_succ_iff_lt_or_eq.1 hj with h | rfl
        · exact inv.before j h
        · exact ⟨hN, mt hcrit.1 hd⟩
    · rw [if_neg (mt hgt.1 hge)]
      have hncrit : ¬ PyCrit ℓ cfg.convergeN.toNat cfg.delta i := fun h => hge h.1
      refine ⟨_, _, rfl, rfl, hlosses, by simp [hN, hncrit], fun _ => ?_, by simp⟩
      refine ⟨rfl, hh, hh', hlosses, ?_, inv.converged, by simp [inv.steps]; omega, ?_⟩
      · show st.window ++ [(ℓ i).1] = _
        rw [hw]; congr 1; omega
      · intro j hj
        rcases Nat.lt_succ_iff_lt_or_eq.1 hj with h | rfl
        · exact inv.before j h
        · exact ⟨hN, hncrit⟩

/-- Everything about a run of the Python loop (for `converge_n ≥ 1` and an `update_step` that accepts `hold_h`). -/
theorem pyIter_spec (step : Bool → σ → σ) (loss : σ → Option K × Option K) (cfg : LoopCfg K) (c0 : Bool) (k0 : ℕ)
    (s : σ) (hn : 1 ≤ cfg.convergeN) (fuel : ℕ) :
    ∀ (i : ℕ) (st : PyState σ K), PyInv step loss cfg c0 k0 s i st →
    let ℓ := lossAt step loss (rustUpdatesH cfg) s
    let stop := fun j => PyNan ℓ j ∨ PyCrit ℓ cfg.convergeN.toNat cfg.delta j
    ∃ r t, pyIter step loss cfg true fuel i st = .ok r ∧ i ≤ t ∧ t ≤ i + fuel ∧
      r.factors = traj step (rustUpdatesH cfg) s t ∧
      r.losses = (List.range t).map (fun j => (ℓ j).1) ∧
      (∀ j, j + 1 < t → ¬ stop j) ∧
      (((∀ j, j < t → ¬ stop j) ∧ t = i + fuel ∧ r.converged = c0 ∧ r.convergeSteps = k0 + t) ∨
        (i < t ∧ stop (t - 1) ∧ r.convergeSteps = k0 + (t - 1) ∧
          (r.converged = true ↔ c0 = true ∨ ¬ PyNan ℓ (t - 1)))) := by
  induction fuel with
  | zero =>
    intro i st inv ℓ stop
    exact ⟨st, i, rfl, le_refl _, by omega, inv.factors, inv.losses,
      fun j hj => not_or.2 (inv.before j (by omega)),
      .inl ⟨fun j hj => not_or.2 (inv.before j hj), by omega, inv.converged, inv.steps⟩⟩
  | succ fuel ih =>
    intro i st inv ℓ stop
    obtain ⟨st', b, hb, h1, h2, h3, h4, h5⟩ := pyBody_spec step loss cfg c0 k0 s i st hn inv
    cases b with
    | true =>
      refine ⟨st', i + 1, by simp only [pyIter, hb], by omega, by omega, h1, h2,
        fun j hj => not_or.2 (inv.before j (by omega)), .inr ⟨by omega, h3.1 rfl, (h5 rfl).1, (h5 rfl).2⟩⟩
    | false =>
      obtain ⟨r, t, e, g1, g2, g3, g4, g5, g6⟩ := ih (i + 1) st' (h4 rfl)
      refine ⟨r, t, by simp only [pyIter, hb]; exact e, by omega, by omega, g3, g4, g5, ?_⟩
      rcases g6 with ⟨a, b, c, d⟩ | ⟨a, b, c, d⟩
      · exact .inl ⟨a, by omega, c, d⟩
      · exact .inr ⟨by omega, b, c, d⟩

theorem pyLoop_spec (step : Bool → σ → σ) (loss : σ → Option K × Option K) (cfg : LoopCfg K) (c0 : Bool) (k0 : ℕ)
    (s : σ) (hn : 1 ≤ cfg.convergeN) :
    let ℓ := lossAt step loss (rustUpdatesH cfg) s
    let stop := fun j => PyNan ℓ j ∨ PyCrit ℓ cfg.convergeN.toNat cfg.delta j
    ∃ r t, pyLoop step loss cfg true c0 k0 s = .ok r ∧ t ≤ cfg.maxIter.toNat ∧
      r.factors = traj step (rustUpdatesH cfg) s t ∧
      r.losses = (List.range t).map (fun j => (ℓ j).1) ∧
      (∀ j, j + 1 < t → ¬ stop j) ∧
      (((∀ j, j < t → ¬ stop j) ∧ t = cfg.maxIter.toNat ∧ r.converged = c0 ∧ r.convergeSteps = k0 + t) ∨
        (0 < t ∧ stop (t - 1) ∧ r.convergeSteps = k0 + (t - 1) ∧
          (r.converged = true ↔ c0 = true ∨ ¬ PyNan ℓ (t - 1)))) := by
  intro ℓ stop
  obtain ⟨r, t, e, _, h⟩ := pyIter_spec step loss cfg c0 k0 s hn cfg.maxIter.toNat 0
    { factors := s, holdH := cfg.holdH, window := [], losses := [], converged := c0, convergeSteps := k0 }
    ⟨rfl, fun h => h, fun h h' => by simp [h] at h', rfl, by simp, rfl, rfl, fun j hj => absurd hj (Nat.not_lt_zero j)⟩
  simp only [Nat.zero_add] at h
  exact ⟨r, t, e, h⟩

end

end Esat
