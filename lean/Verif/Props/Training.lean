import Verif.Model.Training
import Verif.Lemmas.TrainLoop
import Verif.Lemmas.LsNmf
import Verif.Props.LsNmf
import Verif.Props.TrainLoop
import Verif.Props.Metrics
import Mathlib.Tactic.FinCases
import Mathlib.Data.Fin.VecNotation
import Mathlib.Algebra.BigOperators.Fin
import Mathlib.Topology.Algebra.Order.Field
import Mathlib.Topology.Order.MonotoneConvergence
import Mathlib.Topology.Instances.Real.Lemmas
import Mathlib.Topology.Algebra.Monoid

/-!
# Properties of complete ls-nmf training runs (C151-C157)

Whether a run converges and how long it takes, what bounds hold on the way, and what the factors are in the limit.
-/

namespace Esat
open Filter Topology

/-- Data, uncertainties and factors as a validated model has them: at least one sample and one feature, non-negative data
without an all-zero sample or feature, no zero uncertainty, positive starting factors. -/
structure GoodStart {K : Type*} [Field K] [LinearOrder K] {m n k : ℕ} (V U : Mat m n K) (W : Mat m k K) (H : Mat k n K) : Prop where
  rows : 0 < m
  cols : 0 < n
  data : ∀ i j, 0 ≤ V i j
  row : ∀ i, ∃ j, 0 < V i j
  col : ∀ j, ∃ i, 0 < V i j
  unc : ∀ i j, U i j ≠ 0
  w : ∀ i a, 0 < W i a
  h : ∀ a j, 0 < H a j

section generic
variable {K : Type*} [Field K] [LinearOrder K] [IsStrictOrderedRing K] {m n k : ℕ}

theorem weights_pos {U : Mat m n K} (h : ∀ i j, U i j ≠ 0) : AllPos (weights U) := fun i j => by
  have := h i j
  unfold weights
  positivity

/-- From a good start the trajectory consists of positive factors whose loss never increases. -/
theorem traj_good {V U : Mat m n K} {W : Mat m k K} {H : Mat k n K} (g : GoodStart V U W H) (flags : ℕ → Bool) (t : ℕ) :
    ∃ W' H', traj (lsLoopStep V (weights U)) flags (some W, some H) t = (some W', some H') ∧ AllPos W' ∧ AllPos H' ∧
      qLoss V U W' H' ≤ qLoss V U W H ∧
      ∃ W'' H'', traj (lsLoopStep V (weights U)) flags (some W, some H) (t + 1) = (some W'', some H'') ∧
        AllPos W'' ∧ AllPos H'' ∧ qLoss V U W'' H'' ≤ qLoss V U W' H' := by
  have step : ∀ u (W' : Mat m k K) (H' : Mat k n K), AllPos W' → AllPos H' → ∃ W'' H'', lsLoopStep V (weights U) u (some W', some H') = (some W'', some H'') ∧
      AllPos W'' ∧ AllPos H'' ∧ qLoss V U W'' H'' ≤ qLoss V U W' H' := by
    intro u W' H' h1 h2
    obtain ⟨W'', H'', h3, h4, h5⟩ := lsUpdate_pos g.rows g.cols g.data g.row g.col (weights_pos g.unc) h1 h2 (!u)
    refine ⟨W'', H'', (C04_lsnmf_loop_is_update V (weights U) u W' W'' H' H'').1 h3, h4, h5, ?_⟩
    rw [qLoss_eq_WLoss, qLoss_eq_WLoss]
    exact C02_update_le V (weights U) (!u) W' W'' H' H'' g.data (fun i j => (weights_pos g.unc i j).le)
      (fun i j => (h1 i j).le) (fun i j => (h2 i j).le) h3
  induction t with
  | zero => exact ⟨W, H, rfl, g.w, g.h, le_refl _, step _ W H g.w g.h⟩
  | succ t ih =>
    obtain ⟨W1, H1, -, -, -, h4, W2, H2, h5, h6, h7, h8⟩ := ih
    obtain ⟨W3, H3, h9, h10⟩ := step (flags (t + 1)) W2 H2 h6 h7
    refine ⟨W2, H2, h5, h6, h7, h8.trans h4, W3, H3, ?_, h10⟩
    rw [← h9, ← h5]
    rfl

/-- The recorded losses as a sequence of numbers. -/
theorem lossAt_good {V U : Mat m n K} {W : Mat m k K} {H : Mat k n K} (g : GoodStart V U W H) (flags : ℕ → Bool) :
    ∃ q : ℕ → K, (∀ i, lossAt (lsLoopStep V (weights U)) (lsQ V U) flags (some W, some H) i = some (q i)) ∧ Antitone q ∧
      (∀ i, 0 ≤ q i) ∧ ∀ i, q i ≤ qLoss V U W H := by
  have ex : ∀ t, ∃ W' H', traj (lsLoopStep V (weights U)) flags (some W, some H) t = (some W', some H') := fun t => by
    obtain ⟨W', H', h, -⟩ := traj_good g flags t
    exact ⟨W', H', h⟩
  choose Ws Hs hs using ex
  refine ⟨fun i => qLoss V U (Ws (i + 1)) (Hs (i + 1)), fun i => ?_, antitone_nat_of_succ_le fun i => ?_, fun i => ?_, fun i => ?_⟩
  · rw [lossAt, hs]; rfl
  · obtain ⟨W', H', h1, -, -, -, W2, H2, h2, -, -, h3⟩ := traj_good g flags (i + 1)
    rw [hs] at h1 h2
    simp only [Prod.mk.injEq, Option.some.injEq] at h1 h2
    rw [h1.1, h1.2, h2.1, h2.2]
    exact h3
  · dsimp only
    rw [qLoss_eq_WLoss]
    exact Finset.sum_nonneg fun i _ => Finset.sum_nonneg fun j _ => mul_nonneg (weights_pos g.unc i j).le (sq_nonneg _)
  · obtain ⟨W', H', h1, -, -, h3, -⟩ := traj_good g flags (i + 1)
    rw [hs] at h1
    simp only [Prod.mk.injEq, Option.some.injEq] at h1
    dsimp only
    rw [h1.1, h1.2]
    exact h3

/-- A non-increasing, non-negative sequence meets the criterion in time. -/
theorem crit_in_time (q : ℕ → K) (hq : Antitone q) (h0 : ∀ i, 0 ≤ q i) (N : ℕ) (hN : 1 ≤ N) (δ : K) (hδ : 0 < δ) (p s : ℕ)
    (hp : q s < p * δ) : ∃ i, s ≤ i + 1 - N ∧ N ≤ i + 1 ∧ i ≤ s + (N - 1) * p ∧ q (i + 1 - N) - q i < δ := by
  by_contra hc
  push Not at hc
  have key : ∀ r, r ≤ p → r * δ ≤ q s - q (s + (N - 1) * r) := by
    intro r
    induction r with
    | zero => intro _; simp
    | succ r ih =>
      intro hr
      have h1 := ih (by omega)
      have e : s + (N - 1) * (r + 1) + 1 - N = s + (N - 1) * r := by
        rw [Nat.mul_succ]; omega
      have h2 := hc (s + (N - 1) * (r + 1)) (by rw [e]; omega) (by rw [Nat.mul_succ]; omega)
        (Nat.add_le_add_left (Nat.mul_le_mul_left _ hr) _)
      rw [e] at h2
      push_cast
      linarith
  have h1 := key p le_rfl
  have h2 := h0 (s + (N - 1) * p)
  linarith

/-! ## C151: training converges -/

/-- **C151.** With a positive `converge_delta` an ls-nmf run converges, whatever the data, the start, `hold_h` and `delay_h`:
if `p · converge_delta` exceeds the loss of the starting factors, it does so within `(converge_n - 1) · p + 1` iterations. -/
theorem C151_converges {V U : Mat m n K} {W : Mat m k K} {H : Mat k n K} (g : GoodStart V U W H) (cfg : LoopCfg K)
    (clock : ℕ → Bool) (rm : Bool) (rn : ℤ) (hδ : 0 < cfg.delta) (hn : 1 ≤ cfg.convergeN) (p : ℕ)
    (hp : (∑ i, ∑ j, ((V i j - ∑ a, W i a * H a j) / U i j) ^ 2) < p * cfg.delta)
    (hmax : (cfg.convergeN - 1) * p + 1 ≤ cfg.maxIter) :
    let r := lsTrain V U cfg clock rm rn W H
    r.converged = true ∧ (r.losses.length : ℤ) ≤ (cfg.convergeN - 1) * p + 1 := by
  intro r
  have hnn : (0 : ℤ) ≤ (cfg.convergeN - 1) * p := mul_nonneg (by omega) (by omega)
  obtain ⟨q, hq, hanti, h0, hle⟩ := lossAt_good g (rustUpdatesH cfg)
  have hQ : qLoss V U W H = ∑ i, ∑ j, ((V i j - ∑ a, W i a * H a j) / U i j) ^ 2 := by
    simp only [qLoss, if_true, ← pow_two]; rfl
  have hN : effN cfg.convergeN = cfg.convergeN.toNat := by unfold effN; omega
  obtain ⟨i, -, hi1, hi2, hi3⟩ := crit_in_time q hanti h0 (effN cfg.convergeN) (effN_pos _) cfg.delta hδ p 0
    (lt_of_le_of_lt (hle 0) (hQ ▸ hp))
  have hcrit : Crit (lossAt (lsLoopStep V (weights U)) (lsQ V U) (rustUpdatesH cfg) (some W, some H)) (effN cfg.convergeN)
      cfg.delta i := ⟨hi1, _, _, hq _, hq _, hi3⟩
  have hi4 : (i : ℤ) ≤ (cfg.convergeN - 1) * p := by
    have : ((effN cfg.convergeN - 1 : ℕ) : ℤ) = cfg.convergeN - 1 := by omega
    have h2 : (i : ℤ) ≤ ((effN cfg.convergeN - 1 : ℕ) : ℤ) * p := by
      rw [Nat.zero_add] at hi2
      exact_mod_cast hi2
    rwa [this] at h2
  obtain ⟨t, t1, t2, t3, t4, t5, t6, t7, t8, t9, -⟩ := rustLoop_spec (lsLoopStep V (weights U)) (lsQ V U) cfg clock
    (some W, some H) (by omega)
  have hlen : r.losses.length = t := by
    rw [show r.losses = _ from t4]; simp
  have hti : t ≤ i + 1 := by
    by_contra hlt
    exact t8 i (by omega) hcrit
  refine ⟨?_, by rw [hlen]; omega⟩
  by_contra hc
  have hc' : r.converged = false := by simpa using hc
  have h10 := t9 hc'
  have : i = t - 1 := by omega
  rw [this] at hcrit
  exact hc (t7.2 hcrit)

/-- **C151.** With `converge_n` at most one, the first iteration already counts as converged. -/
theorem C151_first_iteration {V U : Mat m n K} {W : Mat m k K} {H : Mat k n K} (g : GoodStart V U W H) (cfg : LoopCfg K)
    (clock : ℕ → Bool) (rm : Bool) (rn : ℤ) (hδ : 0 < cfg.delta) (hn : cfg.convergeN ≤ 1) (hmax : 0 < cfg.maxIter) :
    let r := lsTrain V U cfg clock rm rn W H
    r.converged = true ∧ r.losses.length = 1 := by
  intro r
  obtain ⟨q, hq, -⟩ := lossAt_good g (rustUpdatesH cfg)
  have hN : effN cfg.convergeN = 1 := by unfold effN; omega
  have hcrit : Crit (lossAt (lsLoopStep V (weights U)) (lsQ V U) (rustUpdatesH cfg) (some W, some H)) (effN cfg.convergeN)
      cfg.delta 0 := by
    rw [hN]
    exact ⟨le_refl _, q 0, q 0, hq 0, hq 0, by rw [sub_self]; exact hδ⟩
  obtain ⟨t, t1, t2, t3, t4, t5, t6, t7, t8, t9, -⟩ := rustLoop_spec (lsLoopStep V (weights U)) (lsQ V U) cfg clock
    (some W, some H) hmax
  have hlen : r.losses.length = t := by
    rw [show r.losses = _ from t4]; simp
  have ht : t = 1 := by
    by_contra h
    exact t8 0 (by omega) hcrit
  subst ht
  exact ⟨t7.2 hcrit, hlen⟩

/-! ## C152: a tolerance of zero -/

/-- **C152.** With `converge_delta ≤ 0` an ls-nmf run never converges, not even when the factors have stopped changing: all
`max_iter` iterations are performed. -/
theorem C152_never {V U : Mat m n K} {W : Mat m k K} {H : Mat k n K} (g : GoodStart V U W H) (cfg : LoopCfg K)
    (clock : ℕ → Bool) (rm : Bool) (rn : ℤ) (hδ : cfg.delta ≤ 0) (hmax : 0 < cfg.maxIter) :
    let r := lsTrain V U cfg clock rm rn W H
    r.converged = false ∧ (r.losses.length : ℤ) = cfg.maxIter := by
  intro r
  obtain ⟨q, hq, hanti, -⟩ := lossAt_good g (rustUpdatesH cfg)
  have hno : ∀ i, ¬ Crit (lossAt (lsLoopStep V (weights U)) (lsQ V U) (rustUpdatesH cfg) (some W, some H)) (effN cfg.convergeN)
      cfg.delta i := by
    rintro i ⟨h1, a, b, h2, h3, h4⟩
    rw [hq] at h2 h3
    obtain rfl := Option.some.inj h2
    obtain rfl := Option.some.inj h3
    have := hanti (show i + 1 - effN cfg.convergeN ≤ i by have := effN_pos cfg.convergeN; omega)
    linarith
  obtain ⟨t, t1, t2, t3, t4, t5, t6, t7, t8, t9, -⟩ := rustLoop_spec (lsLoopStep V (weights U)) (lsQ V U) cfg clock
    (some W, some H) hmax
  have hc : r.converged = false := by
    rw [Bool.eq_false_iff]
    exact fun h => hno _ (t7.1 h)
  have hlen : r.losses.length = t := by
    rw [show r.losses = _ from t4]; simp
  refine ⟨hc, ?_⟩
  have := t9 hc
  rw [hlen]
  omega

/-! ## C153: bounds on the way -/

/-- **C153.** During the whole run no scaled residual exceeds the root of the starting loss, and every product of a contribution
with a profile entry stays below the data plus that multiple of the uncertainty: nothing can grow without bound. -/
theorem C153_bounds {V U : Mat m n K} {W : Mat m k K} {H : Mat k n K} (g : GoodStart V U W H) (flags : ℕ → Bool) (t : ℕ)
    (b : K) (hb : 0 ≤ b) (hQ : (∑ i, ∑ j, ((V i j - ∑ a, W i a * H a j) / U i j) ^ 2) ≤ b ^ 2) :
    ∃ W' H', traj (lsLoopStep V (weights U)) flags (some W, some H) t = (some W', some H') ∧
      ∀ i j, |(V i j - ∑ a, W' i a * H' a j) / U i j| ≤ b ∧ ∀ a, 0 < W' i a * H' a j ∧ W' i a * H' a j ≤ V i j + b * |U i j| := by
  obtain ⟨W', H', h1, h2, h3, h4, -⟩ := traj_good g flags t
  refine ⟨W', H', h1, fun i j => ?_⟩
  have hQ' : qLoss V U W' H' ≤ b ^ 2 := by
    refine h4.trans ?_
    refine le_of_eq_of_le ?_ hQ
    simp only [qLoss, if_true, ← pow_two]; rfl
  have hcell : ((V i j - ∑ a, W' i a * H' a j) / U i j) ^ 2 ≤ b ^ 2 := by
    refine le_trans ?_ hQ'
    have e : qLoss V U W' H' = ∑ i, ∑ j, ((V i j - ∑ a, W' i a * H' a j) / U i j) ^ 2 := by
      simp only [qLoss, if_true, ← pow_two]; rfl
    rw [e]
    refine le_trans ?_ (Finset.single_le_sum (f := fun i => ∑ j, ((V i j - ∑ a, W' i a * H' a j) / U i j) ^ 2)
      (fun i _ => Finset.sum_nonneg fun j _ => sq_nonneg _) (Finset.mem_univ i))
    exact Finset.single_le_sum (f := fun j => ((V i j - ∑ a, W' i a * H' a j) / U i j) ^ 2)
      (fun j _ => sq_nonneg _) (Finset.mem_univ j)
  have habs' : |(V i j - ∑ a, W' i a * H' a j) / U i j| ≤ b := abs_le_of_sq_le_sq hcell hb
  refine ⟨habs', fun a => ⟨mul_pos (h2 i a) (h3 a j), ?_⟩⟩
  have h5 : W' i a * H' a j ≤ ∑ a, W' i a * H' a j :=
    Finset.single_le_sum (f := fun a => W' i a * H' a j) (fun a _ => (mul_pos (h2 i a) (h3 a j)).le) (Finset.mem_univ a)
  have hu : 0 < |U i j| := abs_pos.2 (g.unc i j)
  rw [abs_div, div_le_iff₀ hu] at habs'
  have := (abs_le.1 habs').1
  linarith

/-- Second-order expansion of the loss in the profiles. -/
theorem WLoss_expand_H (V We : Mat m n K) (A : Mat m k K) (B B₂ : Mat k n K) :
    WLoss V We A B₂ = WLoss V We A B + 2 * ∑ a, ∑ j, (lsHDen We A B a j - lsHNum V We A a j) * (B₂ a j - B a j)
      + ∑ i, ∑ j, We i j * ((A ⬝ (B₂ - B)) i j) ^ 2 := by
  have e : ∀ i j, We i j * (V i j - (A ⬝ B₂) i j) ^ 2 = We i j * (V i j - (A ⬝ B) i j) ^ 2
      + 2 * ((We i j * ((A ⬝ B) i j - V i j)) * (A ⬝ (B₂ - B)) i j) + We i j * ((A ⬝ (B₂ - B)) i j) ^ 2 := fun i j => by
    rw [show (A ⬝ B₂) i j = (A ⬝ B) i j + (A ⬝ (B₂ - B)) i j by
      simp [mmul, mul_sub, Finset.sum_sub_distrib]]
    ring
  have cross : ∑ i, ∑ j, (We i j * ((A ⬝ B) i j - V i j)) * (A ⬝ (B₂ - B)) i j
      = ∑ a, ∑ j, (lsHDen We A B a j - lsHNum V We A a j) * (B₂ a j - B a j) := by
    have h1 : ∀ a j, (lsHDen We A B a j - lsHNum V We A a j) * (B₂ a j - B a j)
        = ∑ i, (We i j * ((A ⬝ B) i j - V i j)) * (A i a * (B₂ a j - B a j)) := fun a j => by
      rw [lsHDen_apply, lsHNum_apply, ← Finset.sum_sub_distrib, Finset.sum_mul]
      refine Finset.sum_congr rfl fun i _ => ?_
      rw [show (A ⬝ B) i j = ∑ b, A i b * B b j from rfl]
      ring
    simp only [h1]
    rw [Finset.sum_comm]
    rw [show (∑ a, ∑ j, ∑ i, (We i j * ((A ⬝ B) i j - V i j)) * (A i a * (B₂ a j - B a j)))
      = ∑ j, ∑ i, ∑ a, (We i j * ((A ⬝ B) i j - V i j)) * (A i a * (B₂ a j - B a j)) by
        rw [Finset.sum_comm]
        exact Finset.sum_congr rfl fun j _ => Finset.sum_comm]
    refine Finset.sum_congr rfl fun j _ => Finset.sum_congr rfl fun i _ => ?_
    rw [← Finset.mul_sum]
    rfl
  simp only [WLoss, e, Finset.sum_add_distrib, ← Finset.mul_sum, cross]

/-- Second-order expansion of the loss in the contributions. -/
theorem WLoss_expand_W (V We : Mat m n K) (A A₂ : Mat m k K) (B : Mat k n K) :
    WLoss V We A₂ B = WLoss V We A B + 2 * ∑ i, ∑ a, (lsWDen We A B i a - lsWNum V We B i a) * (A₂ i a - A i a)
      + ∑ i, ∑ j, We i j * (((A₂ - A) ⬝ B) i j) ^ 2 := by
  have e : ∀ i j, We i j * (V i j - (A₂ ⬝ B) i j) ^ 2 = We i j * (V i j - (A ⬝ B) i j) ^ 2
      + 2 * ((We i j * ((A ⬝ B) i j - V i j)) * ((A₂ - A) ⬝ B) i j) + We i j * (((A₂ - A) ⬝ B) i j) ^ 2 := fun i j => by
    rw [show (A₂ ⬝ B) i j = (A ⬝ B) i j + ((A₂ - A) ⬝ B) i j by
      simp [mmul, sub_mul, Finset.sum_sub_distrib]]
    ring
  have cross : ∑ i, ∑ j, (We i j * ((A ⬝ B) i j - V i j)) * ((A₂ - A) ⬝ B) i j
      = ∑ i, ∑ a, (lsWDen We A B i a - lsWNum V We B i a) * (A₂ i a - A i a) := by
    refine Finset.sum_congr rfl fun i _ => ?_
    have h1 : ∀ a, (lsWDen We A B i a - lsWNum V We B i a) * (A₂ i a - A i a)
        = ∑ j, (We i j * ((A ⬝ B) i j - V i j)) * ((A₂ i a - A i a) * B a j) := fun a => by
      rw [lsWDen_apply, lsWNum_apply, ← Finset.sum_sub_distrib, Finset.sum_mul]
      refine Finset.sum_congr rfl fun j _ => ?_
      rw [show (A ⬝ B) i j = ∑ b, A i b * B b j from rfl]
      ring
    simp only [h1]
    rw [Finset.sum_comm]
    refine Finset.sum_congr rfl fun j _ => ?_
    rw [← Finset.mul_sum]
    rfl
  simp only [WLoss, e, Finset.sum_add_distrib, ← Finset.mul_sum, cross]

/-! ## C155: one factor -/

/-- **C155.** With a single factor every update computes exact least-squares solutions: the new contributions are the best possible
ones, of any sign, for the new profile, and the new profile (if it is not held) is the best possible one for the old
contributions. -/
theorem C155_one_factor (V We : Mat m n K) (hWe : ∀ i j, 0 ≤ We i j) (hold : Bool) (W W' : Mat m 1 K) (H H' : Mat 1 n K)
    (h : lsUpdate V We hold W H = some (W', H')) :
    (∀ W₂, WLoss V We W' H' ≤ WLoss V We W₂ H') ∧ (hold = false → ∀ H₂, WLoss V We W H' ≤ WLoss V We W H₂) := by
  obtain ⟨h1, h2⟩ := lsUpdate_eq_some.1 h
  have nn : ∀ X : Mat m n K, 0 ≤ ∑ i, ∑ j, We i j * (X i j) ^ 2 := fun X =>
    Finset.sum_nonneg fun i _ => Finset.sum_nonneg fun j _ => mul_nonneg (hWe i j) (sq_nonneg _)
  constructor
  · obtain ⟨dW, eW⟩ := lsStepW_eq_some.1 h2
    intro W₂
    rw [WLoss_expand_W V We W' W₂ H']
    have g : ∀ i a, lsWDen We W' H' i a = lsWNum V We H' i a := by
      intro i a
      obtain rfl : a = 0 := Subsingleton.elim _ _
      have hd := dW i 0
      have hs : ∀ X : Mat m 1 K, lsWDen We X H' i 0 = X i 0 * ∑ j, We i j * H' 0 j * H' 0 j := fun X => by
        rw [lsWDen_apply, Finset.mul_sum]
        refine Finset.sum_congr rfl fun j _ => ?_
        rw [Fin.sum_univ_one]
        ring
      rw [hs] at hd
      rw [hs, eW i 0, hs]
      have h3 := left_ne_zero_of_mul hd
      have h4 := right_ne_zero_of_mul hd
      generalize ∑ j, We i j * H' 0 j * H' 0 j = S at *
      field_simp
    have z : ∑ i, ∑ a, (lsWDen We W' H' i a - lsWNum V We H' i a) * (W₂ i a - W' i a) = 0 :=
      Finset.sum_eq_zero fun i _ => Finset.sum_eq_zero fun a _ => by rw [g, sub_self, zero_mul]
    rw [z]
    linarith [nn ((W₂ - W') ⬝ H')]
  · intro hh H₂
    rcases h1 with ⟨h1, _⟩ | ⟨_, h1⟩
    · rw [hh] at h1; cases h1
    · obtain ⟨dH, eH⟩ := lsStepH_eq_some.1 h1
      rw [WLoss_expand_H V We W H' H₂]
      have g : ∀ a j, lsHDen We W H' a j = lsHNum V We W a j := by
        intro a j
        obtain rfl : a = 0 := Subsingleton.elim _ _
        have hd := dH 0 j
        have hs : ∀ X : Mat 1 n K, lsHDen We W X 0 j = X 0 j * ∑ i, W i 0 * We i j * W i 0 := fun X => by
          rw [lsHDen_apply, Finset.mul_sum]
          refine Finset.sum_congr rfl fun i _ => ?_
          rw [Fin.sum_univ_one]
          ring
        rw [hs] at hd
        rw [hs, eH 0 j, hs]
        have h3 := left_ne_zero_of_mul hd
        have h4 := right_ne_zero_of_mul hd
        generalize ∑ i, W i 0 * We i j * W i 0 = S at *
        field_simp
      have z : ∑ a, ∑ j, (lsHDen We W H' a j - lsHNum V We W a j) * (H₂ a j - H' a j) = 0 :=
        Finset.sum_eq_zero fun a _ => Finset.sum_eq_zero fun j _ => by rw [g, sub_self, zero_mul]
      rw [z]
      linarith [nn (W ⬝ (H₂ - H'))]

example : (lsUpdate (K := ℚ) ![![1, 2], ![3, 4]] ![![1, 1], ![1, 1]] false ![![1], ![2]] ![![1, 1]]).isSome = true := by
  decide +kernel

/-! ## C157: robust mode -/

/-- **C157.** `robust_mode` and `robust_n` change nothing: losses, factors, convergence and progress reports are those of the default
mode. **Disagreement** with the documentation ("turning robust_mode=True will switch to using the robust value for updating
W and H"). -/
theorem C157_no_effect (V U : Mat m n K) (cfg : LoopCfg K) (clock : ℕ → Bool) (rn rn' : ℤ) (W : Mat m k K) (H : Mat k n K) :
    lsTrain V U cfg clock true rn W H = lsTrain V U cfg clock false rn' W H := rfl

/-- The example data meet the conditions of a good start, with a starting loss of 93.25 < 100. -/
theorem exGood : GoodStart exV exU exW exH where
  rows := by decide
  cols := by decide
  data := by decide +kernel
  row := by decide +kernel
  col := by decide +kernel
  unc := by decide +kernel
  w := by decide +kernel
  h := by decide +kernel

example : (lsTrain exV exU ⟨7, 20, 2, false, -1⟩ (fun _ => false) false 0 exW exH).converged = true :=
  (C151_converges exGood ⟨7, 20, 2, false, -1⟩ (fun _ => false) false 0 (by norm_num) (by norm_num) 5 (by decide +kernel)
    (by norm_num)).1

example : (lsTrain exV exU ⟨3, 0, 2, false, -1⟩ (fun _ => false) false 0 exW exH).losses.length = 3 := by
  have := (C152_never exGood ⟨3, 0, 2, false, -1⟩ (fun _ => false) false 0 (by norm_num) (by norm_num)).2
  exact Int.ofNat.inj this

end generic

section limits
variable {m n k : ℕ}

theorem tendsto_mmul {ι : Type*} {l : Filter ι} {p q r : ℕ} {A : ι → Mat p q ℝ} {B : ι → Mat q r ℝ} {A0 : Mat p q ℝ} {B0 : Mat q r ℝ}
    (hA : ∀ i j, Tendsto (fun t => A t i j) l (𝓝 (A0 i j))) (hB : ∀ i j, Tendsto (fun t => B t i j) l (𝓝 (B0 i j))) (i j) :
    Tendsto (fun t => (A t ⬝ B t) i j) l (𝓝 ((A0 ⬝ B0) i j)) :=
  tendsto_finset_sum _ fun a _ => (hA i a).mul (hB a j)

theorem tendsto_WLoss {ι : Type*} {l : Filter ι} (V We : Mat m n ℝ) {A : ι → Mat m k ℝ} {B : ι → Mat k n ℝ} {A0 : Mat m k ℝ}
    {B0 : Mat k n ℝ} (hA : ∀ i j, Tendsto (fun t => A t i j) l (𝓝 (A0 i j)))
    (hB : ∀ i j, Tendsto (fun t => B t i j) l (𝓝 (B0 i j))) :
    Tendsto (fun t => WLoss V We (A t) (B t)) l (𝓝 (WLoss V We A0 B0)) :=
  tendsto_finset_sum _ fun i _ => tendsto_finset_sum _ fun j _ =>
    ((tendsto_const_nhds.sub (tendsto_mmul hA hB i j)).pow 2).const_mul _

theorem tendsto_hnum {ι : Type*} {l : Filter ι} (V We : Mat m n ℝ) {A : ι → Mat m k ℝ} {A0 : Mat m k ℝ}
    (hA : ∀ i j, Tendsto (fun t => A t i j) l (𝓝 (A0 i j))) (a j) :
    Tendsto (fun t => lsHNum V We (A t) a j) l (𝓝 (lsHNum V We A0 a j)) :=
  tendsto_mmul (A := fun t => tr (A t)) (A0 := tr A0) (B := fun _ => emul We V) (B0 := emul We V) (fun i j => hA j i)
    (fun _ _ => tendsto_const_nhds) a j

theorem tendsto_hden {ι : Type*} {l : Filter ι} (We : Mat m n ℝ) {A : ι → Mat m k ℝ} {B : ι → Mat k n ℝ} {A0 : Mat m k ℝ}
    {B0 : Mat k n ℝ} (hA : ∀ i j, Tendsto (fun t => A t i j) l (𝓝 (A0 i j)))
    (hB : ∀ i j, Tendsto (fun t => B t i j) l (𝓝 (B0 i j))) (a j) :
    Tendsto (fun t => lsHDen We (A t) (B t) a j) l (𝓝 (lsHDen We A0 B0 a j)) :=
  tendsto_mmul (A := fun t => tr (A t)) (A0 := tr A0) (B := fun t => emul We (A t ⬝ B t)) (B0 := emul We (A0 ⬝ B0))
    (fun i j => hA j i) (fun i j => (tendsto_mmul hA hB i j).const_mul _) a j

theorem tendsto_wnum {ι : Type*} {l : Filter ι} (V We : Mat m n ℝ) {B : ι → Mat k n ℝ} {B0 : Mat k n ℝ}
    (hB : ∀ i j, Tendsto (fun t => B t i j) l (𝓝 (B0 i j))) (i a) :
    Tendsto (fun t => lsWNum V We (B t) i a) l (𝓝 (lsWNum V We B0 i a)) :=
  tendsto_mmul (A := fun _ => emul We V) (A0 := emul We V) (B := fun t => tr (B t)) (B0 := tr B0)
    (fun _ _ => tendsto_const_nhds) (fun i j => hB j i) i a

theorem tendsto_wden {ι : Type*} {l : Filter ι} (We : Mat m n ℝ) {A : ι → Mat m k ℝ} {B : ι → Mat k n ℝ} {A0 : Mat m k ℝ}
    {B0 : Mat k n ℝ} (hA : ∀ i j, Tendsto (fun t => A t i j) l (𝓝 (A0 i j)))
    (hB : ∀ i j, Tendsto (fun t => B t i j) l (𝓝 (B0 i j))) (i a) :
    Tendsto (fun t => lsWDen We (A t) (B t) i a) l (𝓝 (lsWDen We A0 B0 i a)) :=
  tendsto_mmul (A := fun t => emul We (A t ⬝ B t)) (A0 := emul We (A0 ⬝ B0)) (B := fun t => tr (B t)) (B0 := tr B0)
    (fun i j => (tendsto_mmul hA hB i j).const_mul _) (fun i j => hB j i) i a

/-- An infinite sequence of updates from non-negative data, weights and factors. -/
structure Updates (V We : Mat m n ℝ) (hold : Bool) (W : ℕ → Mat m k ℝ) (H : ℕ → Mat k n ℝ) : Prop where
  data : ∀ i j, 0 ≤ V i j
  weights : ∀ i j, 0 ≤ We i j
  w0 : ∀ i a, 0 ≤ W 0 i a
  h0 : ∀ a j, 0 ≤ H 0 a j
  step : ∀ t, lsUpdate V We hold (W t) (H t) = some (W (t + 1), H (t + 1))

theorem Updates.nonneg {V We : Mat m n ℝ} {hold : Bool} {W : ℕ → Mat m k ℝ} {H : ℕ → Mat k n ℝ} (u : Updates V We hold W H) (t : ℕ) :
    AllNonneg (W t) ∧ AllNonneg (H t) := by
  induction t with
  | zero => exact ⟨u.w0, u.h0⟩
  | succ t ih => exact lsUpdate_nonneg u.data u.weights ih.1 ih.2 (u.step t)

theorem Updates.anti {V We : Mat m n ℝ} {hold : Bool} {W : ℕ → Mat m k ℝ} {H : ℕ → Mat k n ℝ} (u : Updates V We hold W H) :
    Antitone fun t => WLoss V We (W t) (H t) :=
  antitone_nat_of_succ_le fun t =>
    C02_update_le V We hold (W t) (W (t + 1)) (H t) (H (t + 1)) u.data u.weights (u.nonneg t).1 (u.nonneg t).2 (u.step t)

/-- The images of a convergent sequence of factors converge to the image of the limit. -/
theorem tendsto_update {ι : Type*} {l : Filter ι} {V We : Mat m n ℝ} {hold : Bool} {A A' : ι → Mat m k ℝ} {B B' : ι → Mat k n ℝ}
    {A0 A1 : Mat m k ℝ} {B0 B1 : Mat k n ℝ} (hA : ∀ i j, Tendsto (fun t => A t i j) l (𝓝 (A0 i j)))
    (hB : ∀ i j, Tendsto (fun t => B t i j) l (𝓝 (B0 i j))) (hs : ∀ t, lsUpdate V We hold (A t) (B t) = some (A' t, B' t))
    (h0 : lsUpdate V We hold A0 B0 = some (A1, B1)) :
    (∀ i j, Tendsto (fun t => A' t i j) l (𝓝 (A1 i j))) ∧ ∀ i j, Tendsto (fun t => B' t i j) l (𝓝 (B1 i j)) := by
  obtain ⟨h1, h2⟩ := lsUpdate_eq_some.1 h0
  have hB' : ∀ i j, Tendsto (fun t => B' t i j) l (𝓝 (B1 i j)) := by
    rcases h1 with ⟨hh, rfl⟩ | ⟨hh, h1⟩
    · intro i j
      refine (hB i j).congr fun t => ?_
      obtain ⟨h3, -⟩ := lsUpdate_eq_some.1 (hs t)
      rcases h3 with ⟨-, h3⟩ | ⟨h3, -⟩
      · rw [h3]
      · rw [hh] at h3; cases h3
    · obtain ⟨hd, he⟩ := lsStepH_eq_some.1 h1
      intro a j
      rw [he a j]
      refine ((hB a j).mul ((tendsto_hnum V We hA a j).div (tendsto_hden We hA hB a j) (hd a j))).congr fun t => ?_
      obtain ⟨h3, -⟩ := lsUpdate_eq_some.1 (hs t)
      rcases h3 with ⟨h3, -⟩ | ⟨-, h3⟩
      · rw [hh] at h3; cases h3
      · exact ((lsStepH_eq_some.1 h3).2 a j).symm
  refine ⟨?_, hB'⟩
  obtain ⟨hd, he⟩ := lsStepW_eq_some.1 h2
  intro i a
  rw [he i a]
  refine ((hA i a).mul ((tendsto_wnum V We hB' i a).div (tendsto_wden We hA hB' i a) (hd i a))).congr fun t => ?_
  exact ((lsStepW_eq_some.1 (lsUpdate_eq_some.1 (hs t)).2).2 i a).symm

/-! ## C154: limit points -/

/-- **C154.** If the factors of an endless run come arbitrarily close to some pair again and again (a limit point) and the update of
that pair is defined, the update leaves it unchanged. -/
theorem C154_limit_point {V We : Mat m n ℝ} {hold : Bool} {W : ℕ → Mat m k ℝ} {H : ℕ → Mat k n ℝ} (u : Updates V We hold W H)
    (φ : ℕ → ℕ) (hφ : Tendsto φ atTop atTop) (A A1 : Mat m k ℝ) (B B1 : Mat k n ℝ)
    (hA : ∀ i a, Tendsto (fun t => W (φ t) i a) atTop (𝓝 (A i a))) (hB : ∀ a j, Tendsto (fun t => H (φ t) a j) atTop (𝓝 (B a j)))
    (hdef : lsUpdate V We hold A B = some (A1, B1)) : A1 = A ∧ B1 = B := by
  have hA0 : AllNonneg A := fun i a => ge_of_tendsto' (hA i a) fun t => (u.nonneg (φ t)).1 i a
  have hB0 : AllNonneg B := fun a j => ge_of_tendsto' (hB a j) fun t => (u.nonneg (φ t)).2 a j
  have hbdd : BddBelow (Set.range fun t => WLoss V We (W t) (H t)) :=
    ⟨0, by
      rintro _ ⟨t, rfl⟩
      exact Finset.sum_nonneg fun i _ => Finset.sum_nonneg fun j _ => mul_nonneg (u.weights i j) (sq_nonneg _)⟩
  have hlim := tendsto_atTop_ciInf u.anti hbdd
  have h1 : WLoss V We A B = ⨅ t, WLoss V We (W t) (H t) :=
    tendsto_nhds_unique (tendsto_WLoss V We hA hB) (hlim.comp hφ)
  obtain ⟨hA', hB'⟩ := tendsto_update (A' := fun t => W (φ t + 1)) (B' := fun t => H (φ t + 1)) hA hB (fun t => u.step (φ t)) hdef
  have h2 : WLoss V We A1 B1 = ⨅ t, WLoss V We (W t) (H t) :=
    tendsto_nhds_unique (tendsto_WLoss V We hA' hB') (hlim.comp ((tendsto_add_atTop_nat 1).comp hφ))
  exact (C02_stall_iff_fixed V We hold A A1 B B1 u.data u.weights hA0 hB0 hdef).1 (h2.trans h1.symm)

/-- **C154.** A limit point without zero entries cannot be improved by changing the profiles alone or the contributions alone, not even
with negative values. -/
theorem C154_positive_limit_point {V We : Mat m n ℝ} {W : ℕ → Mat m k ℝ} {H : ℕ → Mat k n ℝ} (u : Updates V We false W H)
    (hm : 0 < m) (hn : 0 < n) (hWe : ∀ i j, 0 < We i j) (hrow : ∀ i, ∃ j, 0 < V i j) (hcol : ∀ j, ∃ i, 0 < V i j)
    (φ : ℕ → ℕ) (hφ : Tendsto φ atTop atTop) (A : Mat m k ℝ) (B : Mat k n ℝ)
    (hA : ∀ i a, Tendsto (fun t => W (φ t) i a) atTop (𝓝 (A i a))) (hB : ∀ a j, Tendsto (fun t => H (φ t) a j) atTop (𝓝 (B a j)))
    (hA0 : ∀ i a, A i a ≠ 0) (hB0 : ∀ a j, B a j ≠ 0) :
    (∀ H₂, WLoss V We A B ≤ WLoss V We A H₂) ∧ (∀ W₂, WLoss V We A B ≤ WLoss V We W₂ B) := by
  have hA1 : AllPos A := fun i a =>
    lt_of_le_of_ne (ge_of_tendsto' (hA i a) fun t => (u.nonneg (φ t)).1 i a) (hA0 i a).symm
  have hB1 : AllPos B := fun a j =>
    lt_of_le_of_ne (ge_of_tendsto' (hB a j) fun t => (u.nonneg (φ t)).2 a j) (hB0 a j).symm
  obtain ⟨A1, B1, h, -, -⟩ := lsUpdate_pos hm hn u.data hrow hcol hWe hA1 hB1 false
  obtain ⟨rfl, rfl⟩ := C154_limit_point u φ hφ A A1 B B1 hA hB h
  exact C06_fixed_is_coordinatewise_minimum V We u.weights A1 B1 hA0 hB0 h

/-- A positive sequence multiplied by factors with a limit above one cannot tend to zero. -/
theorem ratio_le_one (x r : ℕ → ℝ) (L : ℝ) (hx : ∀ t, 0 < x t) (hstep : ∀ t, x (t + 1) = x t * r t)
    (hr : Tendsto r atTop (𝓝 L)) (h0 : Tendsto x atTop (𝓝 0)) : L ≤ 1 := by
  by_contra hL
  push Not at hL
  obtain ⟨T, hT⟩ := eventually_atTop.1 (hr.eventually (lt_mem_nhds hL))
  have hmono : ∀ s, x T ≤ x (T + s) := by
    intro s
    induction s with
    | zero => exact le_refl _
    | succ s ih =>
      have h1 := hT (T + s) (by omega)
      have h2 := hx (T + s)
      have : x (T + (s + 1)) = x (T + s) * r (T + s) := hstep (T + s)
      rw [this]
      nlinarith
  have h1 : Tendsto (fun s => x (T + s)) atTop (𝓝 0) := by
    have := (tendsto_add_atTop_iff_nat T).2 h0
    simpa only [Nat.add_comm] using this
  have := ge_of_tendsto' h1 hmono
  linarith [hx T]

/-- **C154.** If the factors of an endless run with positive factors converge and the update of the limit is defined, the limit is the
best possible for each matrix separately: no other non-negative profiles give a lower loss with these contributions, and no other
non-negative contributions with these profiles. Entries that have died out are covered. -/
theorem C154_limit_optimal {V We : Mat m n ℝ} {W : ℕ → Mat m k ℝ} {H : ℕ → Mat k n ℝ} (u : Updates V We false W H)
    (hW : ∀ t i a, 0 < W t i a) (hH : ∀ t a j, 0 < H t a j) (A : Mat m k ℝ) (B : Mat k n ℝ)
    (hA : ∀ i a, Tendsto (fun t => W t i a) atTop (𝓝 (A i a))) (hB : ∀ a j, Tendsto (fun t => H t a j) atTop (𝓝 (B a j)))
    (hdef : (lsUpdate V We false A B).isSome) :
    (∀ H₂ : Mat k n ℝ, (∀ a j, 0 ≤ H₂ a j) → WLoss V We A B ≤ WLoss V We A H₂) ∧
    (∀ W₂ : Mat m k ℝ, (∀ i a, 0 ≤ W₂ i a) → WLoss V We A B ≤ WLoss V We W₂ B) := by
  obtain ⟨⟨A1, B1⟩, hdef⟩ := Option.isSome_iff_exists.1 hdef
  obtain ⟨rfl, rfl⟩ := C154_limit_point u id tendsto_id A A1 B B1 hA hB hdef
  obtain ⟨h1, h2⟩ := lsUpdate_eq_some.1 hdef
  have h1 : lsStepH V We A1 B1 = some B1 := by
    rcases h1 with ⟨h, _⟩ | ⟨_, h⟩
    · cases h
    · exact h
  obtain ⟨dH, eH⟩ := lsStepH_eq_some.1 h1
  obtain ⟨dW, eW⟩ := lsStepW_eq_some.1 h2
  have hA0 : AllNonneg A1 := fun i a => ge_of_tendsto' (hA i a) fun t => (hW t i a).le
  have hB0 : AllNonneg B1 := fun a j => ge_of_tendsto' (hB a j) fun t => (hH t a j).le
  have dH' : ∀ a j, 0 < lsHDen We A1 B1 a j := fun a j =>
    lt_of_le_of_ne (lsHDen_nonneg u.weights hA0 hB0 a j) (dH a j).symm
  have dW' : ∀ i a, 0 < lsWDen We A1 B1 i a := fun i a =>
    lt_of_le_of_ne (by
      rw [lsWDen_apply]
      exact Finset.sum_nonneg fun j _ => mul_nonneg (mul_nonneg (u.weights i j)
        (Finset.sum_nonneg fun b _ => mul_nonneg (hA0 i b) (hB0 b j))) (hB0 a j)) (dW i a).symm
  have stepH : ∀ t, lsStepH V We (W t) (H t) = some (H (t + 1)) := fun t => by
    rcases (lsUpdate_eq_some.1 (u.step t)).1 with ⟨h, _⟩ | ⟨_, h⟩
    · cases h
    · exact h
  have hB' : ∀ a j, Tendsto (fun t => H (t + 1) a j) atTop (𝓝 (B1 a j)) := fun a j => (hB a j).comp (tendsto_add_atTop_nat 1)
  have kktH : ∀ a j, lsHNum V We A1 a j ≤ lsHDen We A1 B1 a j ∧ (lsHDen We A1 B1 a j - lsHNum V We A1 a j) * B1 a j = 0 := by
    intro a j
    by_cases hz : B1 a j = 0
    · refine ⟨?_, by rw [hz, mul_zero]⟩
      have := ratio_le_one (fun t => H t a j) (fun t => lsHNum V We (W t) a j / lsHDen We (W t) (H t) a j) _ (fun t => hH t a j)
        (fun t => (lsStepH_eq_some.1 (stepH t)).2 a j)
        ((tendsto_hnum V We hA a j).div (tendsto_hden We hA hB a j) (dH a j)) (by have := hB a j; rwa [hz] at this)
      rwa [div_le_one (dH' a j)] at this
    · have h3 : lsHNum V We A1 a j / lsHDen We A1 B1 a j = 1 := by
        have h4 : B1 a j * 1 = B1 a j * (lsHNum V We A1 a j / lsHDen We A1 B1 a j) := by rw [mul_one]; exact eH a j
        exact (mul_left_cancel₀ hz h4).symm
      have h5 := (div_eq_one_iff_eq (dH a j)).1 h3
      exact ⟨h5.le, by rw [h5, sub_self, zero_mul]⟩
  have kktW : ∀ i a, lsWNum V We B1 i a ≤ lsWDen We A1 B1 i a ∧ (lsWDen We A1 B1 i a - lsWNum V We B1 i a) * A1 i a = 0 := by
    intro i a
    by_cases hz : A1 i a = 0
    · refine ⟨?_, by rw [hz, mul_zero]⟩
      have := ratio_le_one (fun t => W t i a) (fun t => lsWNum V We (H (t + 1)) i a / lsWDen We (W t) (H (t + 1)) i a) _
        (fun t => hW t i a) (fun t => (lsStepW_eq_some.1 (lsUpdate_eq_some.1 (u.step t)).2).2 i a)
        ((tendsto_wnum V We hB' i a).div (tendsto_wden We hA hB' i a) (dW i a)) (by have := hA i a; rwa [hz] at this)
      rwa [div_le_one (dW' i a)] at this
    · have h3 : lsWNum V We B1 i a / lsWDen We A1 B1 i a = 1 := by
        have h4 : A1 i a * 1 = A1 i a * (lsWNum V We B1 i a / lsWDen We A1 B1 i a) := by rw [mul_one]; exact eW i a
        exact (mul_left_cancel₀ hz h4).symm
      have h5 := (div_eq_one_iff_eq (dW i a)).1 h3
      exact ⟨h5.le, by rw [h5, sub_self, zero_mul]⟩
  have nn : ∀ X : Mat m n ℝ, 0 ≤ ∑ i, ∑ j, We i j * (X i j) ^ 2 := fun X =>
    Finset.sum_nonneg fun i _ => Finset.sum_nonneg fun j _ => mul_nonneg (u.weights i j) (sq_nonneg _)
  constructor
  · intro H₂ hH₂
    rw [WLoss_expand_H V We A1 B1 H₂]
    have : 0 ≤ ∑ a, ∑ j, (lsHDen We A1 B1 a j - lsHNum V We A1 a j) * (H₂ a j - B1 a j) :=
      Finset.sum_nonneg fun a _ => Finset.sum_nonneg fun j _ => by
        rw [mul_sub, (kktH a j).2, sub_zero]
        exact mul_nonneg (sub_nonneg.2 (kktH a j).1) (hH₂ a j)
    linarith [nn (A1 ⬝ (H₂ - B1))]
  · intro W₂ hW₂
    rw [WLoss_expand_W V We A1 W₂ B1]
    have : 0 ≤ ∑ i, ∑ a, (lsWDen We A1 B1 i a - lsWNum V We B1 i a) * (W₂ i a - A1 i a) :=
      Finset.sum_nonneg fun i _ => Finset.sum_nonneg fun a _ => by
        rw [mul_sub, (kktW i a).2, sub_zero]
        exact mul_nonneg (sub_nonneg.2 (kktW i a).1) (hW₂ i a)
    linarith [nn ((W₂ - A1) ⬝ B1)]

/-! ## C151 for the Python loop -/

/-- **C151** for the Python loop on a fresh model, which needs at most one iteration more. -/
theorem C151_python {V U : Mat m n ℝ} {W : Mat m k ℝ} {H : Mat k n ℝ} (g : GoodStart V U W H) (alpha : ℝ) (cfg : LoopCfg ℝ)
    (hδ : 0 < cfg.delta) (hn : 1 ≤ cfg.convergeN) (p : ℕ)
    (hp : (∑ i, ∑ j, ((V i j - ∑ a, W i a * H a j) / U i j) ^ 2) < p * cfg.delta)
    (hmax : (cfg.convergeN - 1) * p + 2 ≤ cfg.maxIter) :
    ∃ r, lsTrainPy V U alpha cfg W H = .ok r ∧ r.converged = true ∧ (r.losses.length : ℤ) ≤ (cfg.convergeN - 1) * p + 2 := by
  have hnn : (0 : ℤ) ≤ (cfg.convergeN - 1) * p := mul_nonneg (by omega) (by omega)
  obtain ⟨q, hq, hanti, h0, hle⟩ := lossAt_good g (rustUpdatesH cfg)
  have hQ : qLoss V U W H = ∑ i, ∑ j, ((V i j - ∑ a, W i a * H a j) / U i j) ^ 2 := by
    simp only [qLoss, if_true, ← pow_two]; rfl
  obtain ⟨i, hi0, hi1, hi2, hi3⟩ := crit_in_time q hanti h0 cfg.convergeN.toNat (by omega) cfg.delta hδ p 1
    (lt_of_le_of_lt (hle 1) (hQ ▸ hp))
  have hfst : ∀ j, (lossAt (lsLoopStep V (weights U)) (lsQPy V U alpha) (rustUpdatesH cfg) (some W, some H) j).1 = some (q j) := by
    intro j
    rw [← hq j]
    unfold lossAt
    rcases traj (lsLoopStep V (weights U)) (rustUpdatesH cfg) (some W, some H) (j + 1) with ⟨_ | W', _ | H'⟩ <;> rfl
  have hnan : ∀ j, ¬ PyNan (lossAt (lsLoopStep V (weights U)) (lsQPy V U alpha) (rustUpdatesH cfg) (some W, some H)) j := by
    intro j
    obtain ⟨W', H', h, -⟩ := traj_good g (rustUpdatesH cfg) (j + 1)
    unfold PyNan lossAt
    rw [h]
    simp [lsQPy]
  have hcrit : PyCrit (lossAt (lsLoopStep V (weights U)) (lsQPy V U alpha) (rustUpdatesH cfg) (some W, some H))
      cfg.convergeN.toNat cfg.delta i := ⟨by omega, hi1, _, _, hfst _, hfst _, hi3⟩
  have hi4 : (i : ℤ) ≤ (cfg.convergeN - 1) * p + 1 := by
    have : ((cfg.convergeN.toNat - 1 : ℕ) : ℤ) = cfg.convergeN - 1 := by omega
    have h2 : (i : ℤ) ≤ 1 + ((cfg.convergeN.toNat - 1 : ℕ) : ℤ) * p := by exact_mod_cast hi2
    rw [this] at h2
    linarith
  obtain ⟨r, t, e, h1, h2, h3, h4, h5⟩ := pyLoop_spec (lsLoopStep V (weights U)) (lsQPy V U alpha) cfg false 0 (some W, some H) hn
  refine ⟨r, e, ?_, ?_⟩
  · rcases h5 with ⟨a, b, c, d⟩ | ⟨a, b, c, d⟩
    · exact absurd (.inr hcrit) (a i (by omega))
    · exact d.2 (.inr (hnan _))
  · have hlen : r.losses.length = t := by rw [h3]; simp
    have hti : t ≤ i + 1 := by
      by_contra hlt
      exact h4 i (by omega) (.inr hcrit)
    rw [hlen]
    omega

/-! ## C156: the uncertainties returned by the robust loss -/

/-- Huber's loss: quadratic up to `α`, then continued along its tangent. -/
noncomputable def trueHuber (α s : ℝ) : ℝ := if s ≤ α then s ^ 2 else 2 * α * s - α ^ 2

/-- **C156.** `qr_loss` returns the uncertainties of the classical reweighting scheme: factors that lower Q evaluated with them, for
example after an ls-nmf update with them, also lower Huber's loss with the original uncertainties. -/
theorem C156_reweighting {k' : ℕ} (V U : Mat m n ℝ) (W : Mat m k ℝ) (H : Mat k n ℝ) (α : ℝ) (hα : 0 < α) (hU : ∀ i j, 0 < U i j)
    (W₂ : Mat m k' ℝ) (H₂ : Mat k' n ℝ) (hle : qLoss V (qrLoss V U W H α).2 W₂ H₂ ≤ qLoss V (qrLoss V U W H α).2 W H) :
    (∑ i, ∑ j, trueHuber α |(V i j - ∑ a, W₂ i a * H₂ a j) / U i j|) ≤
      ∑ i, ∑ j, trueHuber α |(V i j - ∑ a, W i a * H a j) / U i j| := by
  have cell : ∀ i j, trueHuber α |residual V W₂ H₂ i j / U i j| - trueHuber α |residual V W H i j / U i j| ≤
      (residual V W₂ H₂ i j / (qrLoss V U W H α).2 i j) ^ 2 - (residual V W H i j / (qrLoss V U W H α).2 i j) ^ 2 := by
    intro i j
    have hu := hU i j
    generalize hr2 : residual V W₂ H₂ i j / U i j = x
    have hx : residual V W₂ H₂ i j = x * U i j := by rw [← hr2]; field_simp
    by_cases hs : |residual V W H i j / U i j| ≤ α
    · rw [(C10_updated_uncertainty V U W H α hα hU i j).1 hs, hr2]
      have h2 : (residual V W H i j / U i j) ^ 2 = |residual V W H i j / U i j| ^ 2 := (sq_abs _).symm
      rw [h2, ← sq_abs x]
      unfold trueHuber
      rw [if_pos hs]
      split
      · exact le_refl _
      · nlinarith [sq_nonneg (|x| - α)]
    · have e : (qrLoss V U W H α).2 i j = Real.sqrt (|residual V W H i j / U i j| / α) * U i j := by
        obtain ⟨h1, h2, h3, h4⟩ := robust_cell α (residual V W H i j) (U i j) hα (hU i j) (not_le.1 hs)
        simp only [qrLoss, sub_mmul_eq_residual]
        rw [if_pos (by rw [if_pos (not_le.1 hs)]; exact h4), h1]
      have hs' := not_le.1 hs
      have hs0 : 0 < |residual V W H i j / U i j| := hα.trans hs'
      have key : ∀ y : ℝ, (y * U i j / (qrLoss V U W H α).2 i j) ^ 2 = α * |y| ^ 2 / |residual V W H i j / U i j| := by
        intro y
        rw [e, div_pow, mul_pow, mul_pow, Real.sq_sqrt (div_pos hs0 hα).le, sq_abs]
        field_simp
      have k1 : (residual V W H i j / (qrLoss V U W H α).2 i j) ^ 2 = α * |residual V W H i j / U i j| := by
        have := key (residual V W H i j / U i j)
        rw [div_mul_cancel₀ _ hu.ne'] at this
        rw [this]
        field_simp
      rw [k1, hx, key x]
      generalize |residual V W H i j / U i j| = s at *
      have hy0 : 0 ≤ |x| := abs_nonneg x
      generalize |x| = y at *
      unfold trueHuber
      rw [if_neg hs, le_sub_iff_add_le, le_div_iff₀ hs0]
      split
      · rename_i hy
        have h5 : y ^ 2 ≤ α * s := by nlinarith
        nlinarith [mul_nonneg (sub_nonneg.2 hs'.le) (sub_nonneg.2 h5)]
      · nlinarith [mul_nonneg hα.le (sq_nonneg (s - y))]
  rw [C09_formula, C09_formula] at hle
  have h1 := Finset.sum_le_sum fun (i : Fin m) (_ : i ∈ Finset.univ) => Finset.sum_le_sum fun (j : Fin n) (_ : j ∈ Finset.univ) => cell i j
  simp only [Finset.sum_sub_distrib] at h1
  have h2 : (∑ i, ∑ j, trueHuber α |residual V W₂ H₂ i j / U i j|) ≤ ∑ i, ∑ j, trueHuber α |residual V W H i j / U i j| := by
    linarith
  exact h2

/-- **C156.** An ls-nmf update with these uncertainties never increases Huber's loss. -/
theorem C156_update (V U : Mat m n ℝ) (W W' : Mat m k ℝ) (H H' : Mat k n ℝ) (α : ℝ) (hα : 0 < α) (hU : ∀ i j, 0 < U i j)
    (hV : ∀ i j, 0 ≤ V i j) (hW : ∀ i a, 0 ≤ W i a) (hH : ∀ a j, 0 ≤ H a j) (hold : Bool)
    (h : lsUpdate V (weights (qrLoss V U W H α).2) hold W H = some (W', H')) :
    (∑ i, ∑ j, trueHuber α |(V i j - ∑ a, W' i a * H' a j) / U i j|) ≤
      ∑ i, ∑ j, trueHuber α |(V i j - ∑ a, W i a * H a j) / U i j| := by
  refine C156_reweighting V U W H α hα hU W' H' ?_
  rw [qLoss_eq_WLoss, qLoss_eq_WLoss]
  exact C02_update_le V _ hold W W' H H' hV (fun i j => by unfold weights; positivity) hW hH h

/-- **C156.** The reported Q(robust) is not that loss: it can increase although Q evaluated with the returned uncertainties
decreases. -/
theorem C156_reported_can_increase :
    let V : Mat 2 1 ℝ := ![![20], ![20]]
    let U : Mat 2 1 ℝ := ![![1], ![1]]
    let W : Mat 2 1 ℝ := ![![10], ![18]]
    let W₂ : Mat 2 1 ℝ := ![![10.1], ![17.82]]
    let H : Mat 1 1 ℝ := ![![1]]
    qLoss V (qrLoss V U W H 4).2 W₂ H < qLoss V (qrLoss V U W H 4).2 W H ∧
    (qrLoss V U W H 4).1 < (qrLoss V U W₂ H 4).1 := by
  intro V U W W₂ H
  have hU : ∀ i j, 0 < U i j := by intro i j; fin_cases i <;> fin_cases j <;> simp [U]
  have r0 : residual V W H 0 0 = 10 := by norm_num [residual, V, W, H]
  have r1 : residual V W H 1 0 = 2 := by norm_num [residual, V, W, H]
  have s0 : residual V W₂ H 0 0 = 9.9 := by norm_num [residual, V, W₂, H]
  have s1 : residual V W₂ H 1 0 = 2.18 := by norm_num [residual, V, W₂, H]
  have u0 : U 0 0 = 1 := rfl
  have u1 : U 1 0 = 1 := rfl
  have e1 : (qrLoss V U W H 4).2 1 0 = 1 :=
    (C10_updated_uncertainty V U W H 4 (by norm_num) hU 1 0).1 (by rw [r1, u1]; norm_num)
  have e0 : (qrLoss V U W H 4).2 0 0 = Real.sqrt (10 / 4) := by
    obtain ⟨h1, h2, h3, h4⟩ := robust_cell 4 (residual V W H 0 0) (U 0 0) (by norm_num) (hU 0 0) (by rw [r0, u0]; norm_num)
    have hs : |residual V W H 0 0 / U 0 0| > 4 := by rw [r0, u0]; norm_num
    simp only [qrLoss, sub_mmul_eq_residual]
    rw [if_pos (by rw [if_pos hs]; exact h4), h1, r0, u0]
    norm_num
  constructor
  · rw [C09_formula, C09_formula]
    simp only [Fin.sum_univ_two, Fin.sum_univ_one]
    rw [r0, r1, s0, s1, e0, e1, div_pow _ (Real.sqrt (10 / 4)), div_pow _ (Real.sqrt (10 / 4)), Real.sq_sqrt (by norm_num)]
    norm_num
  · rw [C10_is_huber V U W H 4 (by norm_num) hU, C10_is_huber V U W₂ H 4 (by norm_num) hU]
    simp only [Fin.sum_univ_two, Fin.sum_univ_one]
    rw [r0, r1, s0, s1, u0, u1]
    norm_num [huber, abs_of_pos]

/-- **C157.** The documented robust mode would give other factors: on this data the update with the robust uncertainties yields the
contribution 3, the update that is performed 4.2. -/
theorem C157_documented_differs :
    let V : Mat 1 2 ℝ := ![![20, 2]]
    let U : Mat 1 2 ℝ := ![![1, 1]]
    let W : Mat 1 1 ℝ := ![![1]]
    let H : Mat 1 2 ℝ := ![![4, 2]]
    lsUpdate V (weights (qrLoss V U W H 4).2) true W H = some (![![3]], H) ∧
    lsUpdate V (weights U) true W H = some (![![4.2]], H) := by
  intro V U W H
  have hU : ∀ i j, 0 < U i j := by intro i j; fin_cases i; fin_cases j <;> simp [U]
  have r0 : residual V W H 0 0 = 16 := by norm_num [residual, V, W, H]
  have r1 : residual V W H 0 1 = 0 := by norm_num [residual, V, W, H]
  have e1 : (qrLoss V U W H 4).2 0 1 = 1 :=
    (C10_updated_uncertainty V U W H 4 (by norm_num) hU 0 1).1 (by rw [r1]; norm_num)
  have e0 : (qrLoss V U W H 4).2 0 0 = 2 := by
    obtain ⟨h1, h2, h3, h4⟩ := robust_cell 4 (residual V W H 0 0) (U 0 0) (by norm_num) (hU 0 0) (by rw [r0]; norm_num [U])
    have hs : |residual V W H 0 0 / U 0 0| > 4 := by rw [r0]; norm_num [U]
    simp only [qrLoss, sub_mmul_eq_residual]
    rw [if_pos (by rw [if_pos hs]; exact h4), h1, r0]
    norm_num [U]
    rw [show (4 : ℝ) = 2 ^ 2 by norm_num, Real.sqrt_sq (by norm_num)]
  have w0 : weights (qrLoss V U W H 4).2 0 0 = 1 / 4 := by unfold weights; rw [e0]; norm_num
  have w1 : weights (qrLoss V U W H 4).2 0 1 = 1 := by unfold weights; rw [e1]; norm_num
  constructor
  · rw [lsUpdate_eq_some]
    refine ⟨.inl ⟨rfl, rfl⟩, lsStepW_eq_some.2 ⟨fun i a => ?_, fun i a => ?_⟩⟩
    · fin_cases i; fin_cases a
      simp only [lsWDen_apply, Fin.sum_univ_two, Fin.sum_univ_one, Fin.zero_eta, w0, w1]
      norm_num [W, H]
    · fin_cases i; fin_cases a
      simp only [lsWDen_apply, lsWNum_apply, Fin.sum_univ_two, Fin.sum_univ_one, Fin.zero_eta, w0, w1]
      norm_num [W, H, V]
  · rw [lsUpdate_eq_some]
    refine ⟨.inl ⟨rfl, rfl⟩, lsStepW_eq_some.2 ⟨fun i a => ?_, fun i a => ?_⟩⟩
    · fin_cases i; fin_cases a
      simp only [lsWDen_apply, Fin.sum_univ_two, Fin.sum_univ_one, Fin.zero_eta, weights]
      norm_num [W, H, U]
    · fin_cases i; fin_cases a
      simp only [lsWDen_apply, lsWNum_apply, Fin.sum_univ_two, Fin.sum_univ_one, Fin.zero_eta, weights]
      norm_num [W, H, V, U]

/-- A run with a limit: one cell, data 1, starting at 2 · 1; the first update halves the profile, then nothing changes. -/
example : ∃ (W H : ℕ → Mat 1 1 ℝ), Updates ![![1]] ![![1]] false W H ∧ H 0 ≠ H 1 ∧
    (∀ i a, Tendsto (fun t => W t i a) atTop (𝓝 ((![![2]] : Mat 1 1 ℝ) i a))) ∧
    (∀ a j, Tendsto (fun t => H t a j) atTop (𝓝 ((![![1 / 2]] : Mat 1 1 ℝ) a j))) ∧
    (lsUpdate ![![1]] ![![1]] false (![![2]] : Mat 1 1 ℝ) ![![1 / 2]]).isSome := by
  have up : ∀ h : ℝ, h ≠ 0 → lsUpdate ![![1]] ![![1]] false (![![2]] : Mat 1 1 ℝ) ![![h]] = some (![![2]], ![![1 / 2]]) := by
    intro h hh
    rw [lsUpdate_eq_some]
    refine ⟨.inr ⟨rfl, lsStepH_eq_some.2 ⟨fun i a => ?_, fun i a => ?_⟩⟩, lsStepW_eq_some.2 ⟨fun i a => ?_, fun i a => ?_⟩⟩ <;>
      fin_cases i <;> fin_cases a <;>
      simp [lsHDen_apply, lsHNum_apply, lsWDen_apply, lsWNum_apply, Fin.sum_univ_one, hh]
    field_simp
  refine ⟨fun _ => ![![2]], fun t => if t = 0 then ![![1]] else ![![1 / 2]], ⟨?_, ?_, ?_, ?_, ?_⟩, ?_, ?_, ?_, ?_⟩
  · intro i j; fin_cases i; fin_cases j; simp
  · intro i j; fin_cases i; fin_cases j; simp
  · intro i j; fin_cases i; fin_cases j; simp
  · intro i j; fin_cases i; fin_cases j; simp
  · intro t
    rw [if_neg (by omega : ¬ t + 1 = 0)]
    split
    · exact up 1 one_ne_zero
    · exact up (1 / 2) (by norm_num)
  · intro h
    have := congrFun (congrFun h 0) 0
    norm_num at this
  · exact fun i a => tendsto_const_nhds
  · intro a j
    refine tendsto_const_nhds.congr' (eventually_atTop.2 ⟨1, fun t ht => ?_⟩)
    dsimp only
    rw [if_neg (by omega : ¬ t = 0)]
  · rw [up _ (by norm_num)]; rfl

end limits

end Esat
