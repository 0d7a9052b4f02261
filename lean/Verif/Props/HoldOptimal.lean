import Verif.Props.Training
import Verif.Props.WsNmf
import Mathlib.Analysis.SpecialFunctions.Log.Basic

/-!
# C238: training with fixed profiles finds the best contributions

With `hold_h` and no delay only the contributions are updated. The loss then tends to its smallest value over all non-negative contributions, at the rate `1/t` (ls-nmf), and is the least squares optimum from the first iteration
on (ws-nmf).
-/

namespace Esat
open Filter Topology

section vector
variable {k : ℕ}

/-- A symmetric form. -/
noncomputable def formB (A : Fin k → Fin k → ℝ) (x y : Fin k → ℝ) : ℝ := ∑ a, ∑ c, A a c * (x a * y c)

theorem formB_comm {A : Fin k → Fin k → ℝ} (hs : ∀ a c, A a c = A c a) (x y : Fin k → ℝ) : formB A x y = formB A y x := by
  unfold formB
  rw [Finset.sum_comm]
  exact Finset.sum_congr rfl fun a _ => Finset.sum_congr rfl fun c _ => by rw [hs c a]; ring

theorem formB_diff {A : Fin k → Fin k → ℝ} (hs : ∀ a c, A a c = A c a) (x y : Fin k → ℝ) :
    formB A (fun a => x a - y a) (fun a => x a - y a) = formB A x x - 2 * formB A y x + formB A y y := by
  have h : formB A (fun a => x a - y a) (fun a => x a - y a) = formB A x x - formB A x y - formB A y x + formB A y y := by
    unfold formB
    simp only [← Finset.sum_sub_distrib, ← Finset.sum_add_distrib]
    exact Finset.sum_congr rfl fun a _ => Finset.sum_congr rfl fun c _ => by ring
  rw [h, formB_comm hs x y]
  ring

/-- One multiplicative update of a non-negative quadratic problem, compared with an arbitrary non-negative vector `u`. -/
theorem vector_step {A : Fin k → Fin k → ℝ} (hs : ∀ a c, A a c = A c a) (hA : ∀ a c, 0 ≤ A a c) (hpsd : ∀ x, 0 ≤ formB A x x) (b w w' u q : Fin k → ℝ)
    (hb : ∀ a, 0 < b a) (hw : ∀ a, 0 < w a) (hu : ∀ a, 0 ≤ u a) (hq : ∀ a, q a = ∑ c, A a c * w c) (hqp : ∀ a, 0 < q a) (hw' : ∀ a, w' a = w a * (b a / q a)) :
    (formB A w' w' - 2 * ∑ a, b a * w' a) - (formB A u u - 2 * ∑ a, b a * u a) ≤
      2 * (∑ a, u a * b a * (Real.log (w' a) - Real.log (w a))) + formB A w w - formB A w' w' := by
  -- the new fitted values are not too large
  have h1 : formB A w' w' ≤ ∑ a, b a * w' a := by
    have e1 : ∑ a, b a * w' a = ∑ a, ∑ c, A a c * (w a * w c) * (b a / q a) ^ 2 := by
      refine Finset.sum_congr rfl fun a _ => ?_
      have : ∑ c, A a c * (w a * w c) * (b a / q a) ^ 2 = w a * (b a / q a) ^ 2 * q a := by
        rw [hq a, Finset.mul_sum]
        exact Finset.sum_congr rfl fun c _ => by ring
      rw [this, hw' a]
      have := (hqp a).ne'
      field_simp
    have e2 : ∑ a, b a * w' a = ∑ a, ∑ c, A a c * (w a * w c) * (b c / q c) ^ 2 := by
      rw [e1, Finset.sum_comm]
      exact Finset.sum_congr rfl fun a _ => Finset.sum_congr rfl fun c _ => by rw [hs c a]; ring
    have e3 : 2 * formB A w' w' ≤ ∑ a, ∑ c, (A a c * (w a * w c) * (b a / q a) ^ 2 + A a c * (w a * w c) * (b c / q c) ^ 2) := by
      unfold formB
      rw [Finset.mul_sum]
      refine Finset.sum_le_sum fun a _ => ?_
      rw [Finset.mul_sum]
      refine Finset.sum_le_sum fun c _ => ?_
      rw [hw' a, hw' c]
      have h0 : 0 ≤ A a c * (w a * w c) := mul_nonneg (hA a c) (mul_pos (hw a) (hw c)).le
      nlinarith [mul_nonneg h0 (sq_nonneg (b a / q a - b c / q c))]
    simp only [Finset.sum_add_distrib] at e3
    rw [← e1, ← e2] at e3
    linarith
  -- the logarithms
  have h2 : (∑ a, b a * u a) - formB A u w ≤ ∑ a, u a * b a * (Real.log (w' a) - Real.log (w a)) := by
    have e : formB A u w = ∑ a, u a * q a := by
      unfold formB
      refine Finset.sum_congr rfl fun a _ => ?_
      rw [hq a, Finset.mul_sum]
      exact Finset.sum_congr rfl fun c _ => by ring
    rw [e, ← Finset.sum_sub_distrib]
    refine Finset.sum_le_sum fun a _ => ?_
    have hr : 0 < b a / q a := div_pos (hb a) (hqp a)
    have e1 : Real.log (w' a) - Real.log (w a) = Real.log (b a / q a) := by
      rw [hw' a, Real.log_mul (hw a).ne' hr.ne']
      ring
    rw [e1]
    have h3 := Real.one_sub_inv_le_log_of_pos hr
    have h4 : b a * (1 - (b a / q a)⁻¹) = b a - q a := by
      have := (hb a).ne'
      have := (hqp a).ne'
      field_simp
    have h5 : b a - q a ≤ b a * Real.log (b a / q a) := by
      rw [← h4]
      exact mul_le_mul_of_nonneg_left h3 (hb a).le
    nlinarith [mul_le_mul_of_nonneg_left h5 (hu a)]
  have h3 := hpsd fun a => w a - u a
  rw [formB_diff hs] at h3
  linarith

end vector

section matrix
variable {m n k : ℕ}

/-! ## Specification -/

/-- The weighted squares of the modelled values. -/
noncomputable def fitSq (We : Mat m n ℝ) (W : Mat m k ℝ) (H : Mat k n ℝ) : ℝ := ∑ i, ∑ j, We i j * (∑ a, W i a * H a j) ^ 2

/-- The logarithmic change of the contributions from `W` to `W'`, weighted with the contributions `X` and the weighted data explained by each factor. -/
noncomputable def logGain (V We : Mat m n ℝ) (H : Mat k n ℝ) (X W W' : Mat m k ℝ) : ℝ :=
  ∑ i, ∑ a, X i a * (∑ j, We i j * V i j * H a j) * (Real.log (W' i a) - Real.log (W i a))

/-! ## Lemmas -/

theorem row_form (We : Mat m n ℝ) (H : Mat k n ℝ) (i : Fin m) (x y : Fin k → ℝ) :
    formB (fun a c => ∑ j, We i j * (H a j * H c j)) x y = ∑ j, We i j * ((∑ a, x a * H a j) * ∑ c, y c * H c j) := by
  unfold formB
  simp only [Finset.sum_mul, Finset.mul_sum]
  rw [Finset.sum_congr rfl fun a _ => Finset.sum_comm, Finset.sum_comm]
  refine Finset.sum_congr rfl fun j _ => ?_
  rw [Finset.sum_comm]
  exact Finset.sum_congr rfl fun a _ => Finset.sum_congr rfl fun c _ => by ring

theorem row_loss (V We : Mat m n ℝ) (H : Mat k n ℝ) (W : Mat m k ℝ) :
    WLoss V We W H = ∑ i, ((formB (fun a c => ∑ j, We i j * (H a j * H c j)) (W i) (W i) - 2 * ∑ a, (∑ j, We i j * V i j * H a j) * W i a) + ∑ j, We i j * V i j ^ 2) := by
  unfold WLoss
  refine Finset.sum_congr rfl fun i _ => ?_
  have e : ∑ a, (∑ j, We i j * V i j * H a j) * W i a = ∑ j, We i j * V i j * ∑ a, W i a * H a j := by
    simp only [Finset.sum_mul, Finset.mul_sum]
    rw [Finset.sum_comm]
    exact Finset.sum_congr rfl fun j _ => Finset.sum_congr rfl fun a _ => by ring
  rw [row_form, e, Finset.mul_sum, ← Finset.sum_sub_distrib, ← Finset.sum_add_distrib]
  refine Finset.sum_congr rfl fun j _ => ?_
  simp only [mmul]
  ring

theorem fit_form (We : Mat m n ℝ) (H : Mat k n ℝ) (W : Mat m k ℝ) : fitSq We W H = ∑ i, formB (fun a c => ∑ j, We i j * (H a j * H c j)) (W i) (W i) := by
  unfold fitSq
  refine Finset.sum_congr rfl fun i _ => ?_
  rw [row_form]
  exact Finset.sum_congr rfl fun j _ => by ring

/-! ## Theorems -/

/-- **C238.** One update of the contributions, compared with arbitrary non-negative contributions `X`. -/
theorem C238_step {V We : Mat m n ℝ} {W W' : Mat m k ℝ} {H H' : Mat k n ℝ} (hn : 0 < n) (hV : ∀ i j, 0 ≤ V i j) (hrow : ∀ i, ∃ j, 0 < V i j) (hWe : ∀ i j, 0 < We i j)
    (hW : ∀ i a, 0 < W i a) (hH : ∀ a j, 0 < H a j) (h : lsUpdate V We true W H = some (W', H')) (X : Mat m k ℝ) (hX : ∀ i a, 0 ≤ X i a) :
    WLoss V We W' H - WLoss V We X H ≤ 2 * logGain V We H X W W' + fitSq We W H - fitSq We W' H := by
  obtain ⟨h1, h2⟩ := lsUpdate_eq_some.1 h
  have h1 : H' = H := by
    rcases h1 with ⟨-, h⟩ | ⟨h, -⟩
    · exact h
    · cases h
  subst h1
  obtain ⟨-, he⟩ := lsStepW_eq_some.1 h2
  rw [row_loss, row_loss, fit_form, fit_form]
  unfold logGain
  rw [← Finset.sum_sub_distrib, Finset.mul_sum, ← Finset.sum_add_distrib, ← Finset.sum_sub_distrib]
  refine Finset.sum_le_sum fun i _ => ?_
  have hb : ∀ a, 0 < ∑ j, We i j * V i j * H' a j := by
    intro a
    obtain ⟨j, hj⟩ := hrow i
    exact Finset.sum_pos' (fun j _ => mul_nonneg (mul_nonneg (hWe i j).le (hV i j)) (hH a j).le) ⟨j, Finset.mem_univ _, mul_pos (mul_pos (hWe i j) hj) (hH a j)⟩
  have hq : ∀ a, lsWDen We W H' i a = ∑ c, (∑ j, We i j * (H' a j * H' c j)) * W i c := by
    intro a
    rw [lsWDen_apply]
    simp only [Finset.sum_mul, Finset.mul_sum]
    rw [Finset.sum_comm]
    exact Finset.sum_congr rfl fun c _ => Finset.sum_congr rfl fun j _ => by ring
  have hqp : ∀ a, 0 < lsWDen We W H' i a := by
    intro a
    rw [hq]
    refine Finset.sum_pos (fun c _ => mul_pos (Finset.sum_pos (fun j _ => mul_pos (hWe i j) (mul_pos (hH a j) (hH c j))) ⟨⟨0, hn⟩, Finset.mem_univ _⟩) (hW i c)) ⟨a, Finset.mem_univ _⟩
  have hnum : ∀ a, lsWNum V We H' i a = ∑ j, We i j * V i j * H' a j := fun a => rfl
  have key := vector_step (A := fun a c => ∑ j, We i j * (H' a j * H' c j)) (fun a c => Finset.sum_congr rfl fun j _ => by ring)
    (fun a c => Finset.sum_nonneg fun j _ => mul_nonneg (hWe i j).le (mul_pos (hH a j) (hH c j)).le)
    (fun x => by rw [row_form]; exact Finset.sum_nonneg fun j _ => mul_nonneg (hWe i j).le (mul_self_nonneg _))
    (fun a => ∑ j, We i j * V i j * H' a j) (W i) (W' i) (X i) (fun a => lsWDen We W H' i a) hb (hW i) (hX i) hq hqp (fun a => he i a)
  linarith

/-- **C238.** After `t` updates with fixed profiles: `t` times the distance from the loss of any non-negative contributions `X` is bounded by the change of the logarithms and of the modelled values. -/
theorem C238_rate {V We : Mat m n ℝ} {W : ℕ → Mat m k ℝ} {H : ℕ → Mat k n ℝ} (u : Updates V We true W H) (hn : 0 < n) (hrow : ∀ i, ∃ j, 0 < V i j) (hWe : ∀ i j, 0 < We i j)
    (hW : ∀ i a, 0 < W 0 i a) (hH : ∀ a j, 0 < H 0 a j) (X : Mat m k ℝ) (hX : ∀ i a, 0 ≤ X i a) (t : ℕ) :
    H t = H 0 ∧ (∀ i a, 0 < W t i a) ∧
      t * (WLoss V We (W t) (H 0) - WLoss V We X (H 0)) ≤ 2 * logGain V We (H 0) X (W 0) (W t) + fitSq We (W 0) (H 0) - fitSq We (W t) (H 0) := by
  induction t with
  | zero => exact ⟨rfl, hW, by simp [logGain]⟩
  | succ t ih =>
    obtain ⟨e, hp, ih⟩ := ih
    have hs := u.step t
    rw [e] at hs
    obtain ⟨h1, h2⟩ := lsUpdate_eq_some.1 hs
    have h1 : H (t + 1) = H 0 := by
      rcases h1 with ⟨-, h⟩ | ⟨h, -⟩
      · exact h
      · cases h
    obtain ⟨W', h3, h4⟩ := lsStepW_pos hn u.data hrow hWe hp hH
    rw [h1] at h2
    have h5 : W' = W (t + 1) := by
      rw [h3] at h2
      exact Option.some.inj h2
    rw [h5] at h4
    refine ⟨h1, h4, ?_⟩
    have key := C238_step hn u.data hrow hWe hp hH hs X hX
    have hmono := u.anti (Nat.le_succ t)
    simp only [e, h1] at hmono
    have hlog : logGain V We (H 0) X (W 0) (W (t + 1)) = logGain V We (H 0) X (W 0) (W t) + logGain V We (H 0) X (W t) (W (t + 1)) := by
      unfold logGain
      simp only [← Finset.sum_add_distrib]
      exact Finset.sum_congr rfl fun i _ => Finset.sum_congr rfl fun a _ => by ring
    rw [hlog]
    push_cast
    have h6 : (t : ℝ) * (WLoss V We (W (t + 1)) (H 0) - WLoss V We X (H 0)) ≤ t * (WLoss V We (W t) (H 0) - WLoss V We X (H 0)) :=
      mul_le_mul_of_nonneg_left (by linarith) (Nat.cast_nonneg t)
    linarith

/-- `c log x - d x²` is bounded above. -/
theorem log_sq_bounded (c d : ℝ) (hc : 0 ≤ c) (hd : 0 < d) : ∃ C, ∀ x : ℝ, 0 < x → c * Real.log x - d * x ^ 2 ≤ C := by
  rcases hc.eq_or_lt with rfl | hc
  · exact ⟨0, fun x _ => by nlinarith [mul_nonneg hd.le (sq_nonneg x)]⟩
  · refine ⟨-(c / 2) - c / 2 * Real.log (2 * d / c), fun x hx => ?_⟩
    have hy : 0 < 2 * d / c * x ^ 2 := by positivity
    have h := Real.log_le_sub_one_of_pos hy
    rw [Real.log_mul (by positivity) (by positivity), Real.log_pow] at h
    have h2 : c / 2 * (Real.log (2 * d / c) + (2 : ℕ) * Real.log x) ≤ c / 2 * (2 * d / c * x ^ 2 - 1) := mul_le_mul_of_nonneg_left h (by positivity)
    have h3 : c / 2 * (2 * d / c * x ^ 2 - 1) = d * x ^ 2 - c / 2 := by field_simp
    rw [h3] at h2
    push_cast at h2
    linarith

/-- **C238.** With fixed profiles the loss after `t` iterations exceeds that of any other non-negative contributions by at most a constant divided by `t`. -/
theorem C238_bound {V We : Mat m n ℝ} {W : ℕ → Mat m k ℝ} {H : ℕ → Mat k n ℝ} (u : Updates V We true W H) (hn : 0 < n) (hrow : ∀ i, ∃ j, 0 < V i j) (hWe : ∀ i j, 0 < We i j)
    (hW : ∀ i a, 0 < W 0 i a) (hH : ∀ a j, 0 < H 0 a j) (X : Mat m k ℝ) (hX : ∀ i a, 0 ≤ X i a) :
    ∃ C, ∀ t : ℕ, 0 < t → WLoss V We (W t) (H t) ≤ WLoss V We X (H t) + C / t := by
  have hd : ∀ i a, 0 < ∑ j, We i j * (H 0 a j) ^ 2 := fun i a =>
    Finset.sum_pos (fun j _ => mul_pos (hWe i j) (pow_pos (hH a j) 2)) ⟨⟨0, hn⟩, Finset.mem_univ _⟩
  have hb : ∀ i a, 0 ≤ ∑ j, We i j * V i j * H 0 a j := fun i a => Finset.sum_nonneg fun j _ => mul_nonneg (mul_nonneg (hWe i j).le (u.data i j)) (hH a j).le
  choose C hC using fun (i : Fin m) (a : Fin k) =>
    log_sq_bounded (2 * (X i a * ∑ j, We i j * V i j * H 0 a j)) (∑ j, We i j * (H 0 a j) ^ 2) (mul_nonneg (by norm_num) (mul_nonneg (hX i a) (hb i a))) (hd i a)
  refine ⟨(∑ i, ∑ a, (C i a - 2 * (X i a * ∑ j, We i j * V i j * H 0 a j) * Real.log (W 0 i a))) + fitSq We (W 0) (H 0), fun t ht => ?_⟩
  obtain ⟨e, hp, key⟩ := C238_rate u hn hrow hWe hW hH X hX t
  rw [e]
  have hfit : ∑ i, ∑ a, (∑ j, We i j * (H 0 a j) ^ 2) * W t i a ^ 2 ≤ fitSq We (W t) (H 0) := by
    unfold fitSq
    refine Finset.sum_le_sum fun i _ => ?_
    simp only [Finset.sum_mul]
    rw [Finset.sum_comm]
    refine Finset.sum_le_sum fun j _ => ?_
    have h1 : ∑ a, (W t i a * H 0 a j) ^ 2 ≤ (∑ a, W t i a * H 0 a j) ^ 2 := by
      have h0 : ∀ a, 0 ≤ W t i a * H 0 a j := fun a => (mul_pos (hp i a) (hH a j)).le
      rw [pow_two, Finset.sum_mul]
      refine Finset.sum_le_sum fun a _ => ?_
      rw [pow_two]
      exact mul_le_mul_of_nonneg_left (Finset.single_le_sum (f := fun a => W t i a * H 0 a j) (fun a _ => h0 a) (Finset.mem_univ a)) (h0 a)
    calc ∑ a, We i j * H 0 a j ^ 2 * W t i a ^ 2 = We i j * ∑ a, (W t i a * H 0 a j) ^ 2 := by
          rw [Finset.mul_sum]
          exact Finset.sum_congr rfl fun a _ => by ring
      _ ≤ _ := mul_le_mul_of_nonneg_left h1 (hWe i j).le
  have hlog : 2 * logGain V We (H 0) X (W 0) (W t) - ∑ i, ∑ a, (∑ j, We i j * (H 0 a j) ^ 2) * W t i a ^ 2 ≤
      ∑ i, ∑ a, (C i a - 2 * (X i a * ∑ j, We i j * V i j * H 0 a j) * Real.log (W 0 i a)) := by
    unfold logGain
    rw [Finset.mul_sum, ← Finset.sum_sub_distrib]
    refine Finset.sum_le_sum fun i _ => ?_
    rw [Finset.mul_sum, ← Finset.sum_sub_distrib]
    refine Finset.sum_le_sum fun a _ => ?_
    have := hC i a (W t i a) (hp i a)
    linarith
  have ht' : (0 : ℝ) < t := Nat.cast_pos.2 ht
  rw [← sub_le_iff_le_add', le_div_iff₀ ht']
  linarith

/-- **C238.** For positive profiles there are best non-negative contributions. -/
theorem C238_attained (hn : 0 < n) (V We : Mat m n ℝ) (H : Mat k n ℝ) (hV : ∀ i j, 0 ≤ V i j) (hWe : ∀ i j, 0 < We i j) (hH : ∀ a j, 0 < H a j) :
    ∃ X : Mat m k ℝ, (∀ i a, 0 ≤ X i a) ∧ ∀ Y : Mat m k ℝ, (∀ i a, 0 ≤ Y i a) → WLoss V We X H ≤ WLoss V We Y H := by
  let j0 : Fin n := ⟨0, hn⟩
  let S : ℝ := WLoss V We (fun _ _ => 0 : Mat m k ℝ) H
  have hS : 0 ≤ S := Finset.sum_nonneg fun i _ => Finset.sum_nonneg fun j _ => mul_nonneg (hWe i j).le (sq_nonneg _)
  let B : Mat m k ℝ := fun i a => (V i j0 + Real.sqrt (S / We i j0)) / H a j0
  have hB : ∀ i a, 0 ≤ B i a := fun i a => div_nonneg (add_nonneg (hV i j0) (Real.sqrt_nonneg _)) (hH a j0).le
  have hcont : Continuous fun X : Mat m k ℝ => WLoss V We X H := by
    unfold WLoss mmul
    fun_prop
  obtain ⟨X, hX, hmin⟩ := (isCompact_Icc (a := (fun _ _ => 0 : Mat m k ℝ)) (b := B)).exists_isMinOn ⟨fun _ _ => 0, ⟨fun i a => le_refl _, fun i a => hB i a⟩⟩ hcont.continuousOn
  refine ⟨X, fun i a => hX.1 i a, fun Y hY => ?_⟩
  by_cases hc : ∀ i a, Y i a ≤ B i a
  · exact hmin (⟨fun i a => hY i a, fun i a => hc i a⟩ : Y ∈ Set.Icc (fun _ _ => 0 : Mat m k ℝ) B)
  · push Not at hc
    obtain ⟨i, a, hia⟩ := hc
    have h0 : WLoss V We X H ≤ S := hmin (⟨fun i a => le_refl _, fun i a => hB i a⟩ : (fun _ _ => 0 : Mat m k ℝ) ∈ Set.Icc (fun _ _ => 0 : Mat m k ℝ) B)
    refine h0.trans ?_
    have h1 : Y i a * H a j0 ≤ (Y ⬝ H) i j0 :=
      Finset.single_le_sum (f := fun a => Y i a * H a j0) (fun a _ => mul_nonneg (hY i a) (hH a j0).le) (Finset.mem_univ a)
    have h2 : V i j0 + Real.sqrt (S / We i j0) < Y i a * H a j0 := (div_lt_iff₀ (hH a j0)).1 hia
    have h3 : S / We i j0 ≤ (V i j0 - (Y ⬝ H) i j0) ^ 2 := by
      have h4 := Real.sqrt_nonneg (S / We i j0)
      have h5 := Real.sq_sqrt (div_nonneg hS (hWe i j0).le)
      nlinarith
    have h4 : S ≤ We i j0 * (V i j0 - (Y ⬝ H) i j0) ^ 2 := by
      rw [div_le_iff₀ (hWe i j0)] at h3
      linarith
    refine h4.trans ?_
    have hnn : ∀ i j, 0 ≤ We i j * (V i j - (Y ⬝ H) i j) ^ 2 := fun i j => mul_nonneg (hWe i j).le (sq_nonneg _)
    exact (Finset.single_le_sum (f := fun j => We i j * (V i j - (Y ⬝ H) i j) ^ 2) (fun j _ => hnn i j) (Finset.mem_univ j0)).trans
      (Finset.single_le_sum (f := fun i => ∑ j, We i j * (V i j - (Y ⬝ H) i j) ^ 2) (fun i _ => Finset.sum_nonneg fun j _ => hnn i j) (Finset.mem_univ i))

/-- The modelled values of contributions with nearly the smallest loss are near those of the best contributions. -/
theorem fit_near {V We : Mat m n ℝ} {H : Mat k n ℝ} {X : Mat m k ℝ} (hX : ∀ i a, 0 ≤ X i a) (hopt : ∀ Y : Mat m k ℝ, (∀ i a, 0 ≤ Y i a) → WLoss V We X H ≤ WLoss V We Y H)
    (Y : Mat m k ℝ) (hY : ∀ i a, 0 ≤ Y i a) : ∑ i, ∑ j, We i j * ((Y ⬝ H) i j - (X ⬝ H) i j) ^ 2 ≤ 2 * (WLoss V We Y H - WLoss V We X H) := by
  have h := hopt (fun i a => (X i a + Y i a) / 2) fun i a => by have := hX i a; have := hY i a; positivity
  have e : WLoss V We (fun i a => (X i a + Y i a) / 2) H = (WLoss V We X H + WLoss V We Y H) / 2 - (∑ i, ∑ j, We i j * ((Y ⬝ H) i j - (X ⬝ H) i j) ^ 2) / 4 := by
    unfold WLoss
    simp only [← Finset.sum_add_distrib, Finset.sum_div, ← Finset.sum_sub_distrib]
    refine Finset.sum_congr rfl fun i _ => Finset.sum_congr rfl fun j _ => ?_
    have : (mmul (fun i a => (X i a + Y i a) / 2) H : Mat m n ℝ) i j = ((X ⬝ H) i j + (Y ⬝ H) i j) / 2 := by
      unfold mmul
      rw [← Finset.sum_add_distrib, Finset.sum_div]
      exact Finset.sum_congr rfl fun a _ => by ring
    rw [this]
    ring
  linarith

/-- **C238.** With fixed profiles there are best non-negative contributions `X` such that from every positive start the loss tends to that of `X`, the smallest possible one, and the modelled values tend to those of `X`. In
particular neither limit depends on the start. -/
theorem C238_limit (hn : 0 < n) (V We : Mat m n ℝ) (H : Mat k n ℝ) (hV : ∀ i j, 0 ≤ V i j) (hrow : ∀ i, ∃ j, 0 < V i j) (hWe : ∀ i j, 0 < We i j) (hH : ∀ a j, 0 < H a j) :
    ∃ X : Mat m k ℝ, (∀ i a, 0 ≤ X i a) ∧ (∀ Y : Mat m k ℝ, (∀ i a, 0 ≤ Y i a) → WLoss V We X H ≤ WLoss V We Y H) ∧
      ∀ (W : ℕ → Mat m k ℝ) (Hs : ℕ → Mat k n ℝ), Updates V We true W Hs → Hs 0 = H → (∀ i a, 0 < W 0 i a) →
        Tendsto (fun t => WLoss V We (W t) (Hs t)) atTop (𝓝 (WLoss V We X H)) ∧ ∀ i j, Tendsto (fun t => ∑ a, W t i a * Hs t a j) atTop (𝓝 (∑ a, X i a * H a j)) := by
  obtain ⟨X, hX, hopt⟩ := C238_attained hn V We H hV hWe hH
  refine ⟨X, hX, hopt, fun W Hs u h0 hW => ?_⟩
  subst h0
  have hHs : ∀ t, Hs t = Hs 0 := fun t => (C238_rate u hn hrow hWe hW hH X hX t).1
  have hlim : Tendsto (fun t => WLoss V We (W t) (Hs t)) atTop (𝓝 (WLoss V We X (Hs 0))) := by
    obtain ⟨C, hC⟩ := C238_bound u hn hrow hWe hW hH X hX
    have h1 : Tendsto (fun t : ℕ => WLoss V We X (Hs 0) + C / t) atTop (𝓝 (WLoss V We X (Hs 0) + 0)) := (tendsto_const_div_atTop_nhds_zero_nat C).const_add _
    rw [add_zero] at h1
    refine tendsto_of_tendsto_of_tendsto_of_le_of_le' tendsto_const_nhds h1 ?_ ?_
    · filter_upwards with t
      rw [hHs t]
      exact hopt _ fun i a => (u.nonneg t).1 i a
    · filter_upwards [eventually_gt_atTop 0] with t ht
      have := hC t ht
      rwa [hHs t] at this ⊢
  refine ⟨hlim, fun i j => ?_⟩
  have hd : ∀ t, ((∑ a, W t i a * Hs t a j) - ∑ a, X i a * Hs 0 a j) ^ 2 ≤ 2 / We i j * (WLoss V We (W t) (Hs t) - WLoss V We X (Hs 0)) := by
    intro t
    have h1 := fit_near hX hopt (W t) fun i a => (u.nonneg t).1 i a
    have hnn : ∀ i j, 0 ≤ We i j * ((W t ⬝ Hs 0) i j - (X ⬝ Hs 0) i j) ^ 2 := fun i j => mul_nonneg (hWe i j).le (sq_nonneg _)
    have h2 := (Finset.single_le_sum (f := fun j => We i j * ((W t ⬝ Hs 0) i j - (X ⬝ Hs 0) i j) ^ 2) (fun j _ => hnn i j) (Finset.mem_univ j)).trans
      (Finset.single_le_sum (f := fun i => ∑ j, We i j * ((W t ⬝ Hs 0) i j - (X ⬝ Hs 0) i j) ^ 2) (fun i _ => Finset.sum_nonneg fun j _ => hnn i j) (Finset.mem_univ i))
    have h3 : We i j * ((W t ⬝ Hs 0) i j - (X ⬝ Hs 0) i j) ^ 2 ≤ 2 * (WLoss V We (W t) (Hs 0) - WLoss V We X (Hs 0)) := h2.trans h1
    rw [hHs t]
    have h4 : ((W t ⬝ Hs 0) i j - (X ⬝ Hs 0) i j) ^ 2 ≤ 2 * (WLoss V We (W t) (Hs 0) - WLoss V We X (Hs 0)) / We i j := by
      rw [le_div_iff₀ (hWe i j)]
      linarith
    calc _ ≤ 2 * (WLoss V We (W t) (Hs 0) - WLoss V We X (Hs 0)) / We i j := h4
      _ = _ := by ring
  have h0 : Tendsto (fun t => 2 / We i j * (WLoss V We (W t) (Hs t) - WLoss V We X (Hs 0))) atTop (𝓝 0) := by
    have := (hlim.sub_const (WLoss V We X (Hs 0))).const_mul (2 / We i j)
    rwa [sub_self, mul_zero] at this
  have h1 : Tendsto (fun t => ((∑ a, W t i a * Hs t a j) - ∑ a, X i a * Hs 0 a j) ^ 2) atTop (𝓝 0) := squeeze_zero (fun t => sq_nonneg _) hd h0
  have h2 : Tendsto (fun t => |(∑ a, W t i a * Hs t a j) - ∑ a, X i a * Hs 0 a j|) atTop (𝓝 0) := by
    have := h1.sqrt
    rw [Real.sqrt_zero] at this
    exact this.congr fun t => Real.sqrt_sq_eq_abs _
  rw [tendsto_iff_dist_tendsto_zero]
  exact h2

/-- The trajectory of a good start with fixed profiles as an endless run. -/
theorem hold_updates {V U : Mat m n ℝ} {W : Mat m k ℝ} {H : Mat k n ℝ} (g : GoodStart V U W H) :
    ∃ (Ws : ℕ → Mat m k ℝ) (Hs : ℕ → Mat k n ℝ), Updates V (weights U) true Ws Hs ∧ Ws 0 = W ∧ Hs 0 = H ∧
      ∀ t, traj (lsLoopStep V (weights U)) (fun _ => false) (some W, some H) t = (some (Ws t), some (Hs t)) := by
  have ex : ∀ t, ∃ p : Mat m k ℝ × Mat k n ℝ, traj (lsLoopStep V (weights U)) (fun _ => false) (some W, some H) t = (some p.1, some p.2) := fun t => by
    obtain ⟨W', H', h, -⟩ := traj_good g (fun _ => false) t
    exact ⟨(W', H'), h⟩
  choose p hp using ex
  have h0 := hp 0
  rw [traj, Prod.mk.injEq, Option.some.injEq, Option.some.injEq] at h0
  refine ⟨fun t => (p t).1, fun t => (p t).2, ⟨g.data, fun i j => (weights_pos g.unc i j).le, fun i a => ?_, fun a j => ?_, fun t => ?_⟩, h0.1.symm, h0.2.symm, hp⟩
  · rw [← h0.1]
    exact (g.w i a).le
  · rw [← h0.2]
    exact (g.h a j).le
  · have h1 := hp (t + 1)
    rw [traj, hp t] at h1
    exact (C04_lsnmf_loop_is_update V (weights U) false (p t).1 (p (t + 1)).1 (p t).2 (p (t + 1)).2).2 h1

/-- **C238.** A compiled ls-nmf run with `hold_h` and no delay returns the profiles unchanged, and its loss is at most that of any other non-negative contributions `X` plus a constant, which does not depend on the settings,
divided by the number of iterations. -/
theorem C238_train {V U : Mat m n ℝ} {W : Mat m k ℝ} {H : Mat k n ℝ} (g : GoodStart V U W H) (X : Mat m k ℝ) (hX : ∀ i a, 0 ≤ X i a) :
    ∃ C, ∀ (cfg : LoopCfg ℝ) (clock : ℕ → Bool) (rm : Bool) (rn : ℤ), cfg.holdH = true → cfg.delayH ≤ 0 → 0 < cfg.maxIter →
      let r := lsTrain V U cfg clock rm rn W H
      ∃ W' q, r.factors = (some W', some H) ∧ r.q = some q ∧ q = ∑ i, ∑ j, ((V i j - ∑ a, W' i a * H a j) / U i j) ^ 2 ∧
        q ≤ (∑ i, ∑ j, ((V i j - ∑ a, X i a * H a j) / U i j) ^ 2) + C / r.losses.length := by
  obtain ⟨Ws, Hs, u, rfl, rfl, htraj⟩ := hold_updates g
  obtain ⟨C, hC⟩ := C238_bound u g.cols g.row (weights_pos g.unc) g.w g.h X hX
  have hH : ∀ t, Hs t = Hs 0 := fun t => (C238_rate u g.cols g.row (weights_pos g.unc) g.w g.h X hX t).1
  have hQ : ∀ Y : Mat m k ℝ, WLoss V (weights U) Y (Hs 0) = ∑ i, ∑ j, ((V i j - ∑ a, Y i a * Hs 0 a j) / U i j) ^ 2 := fun Y => by
    rw [← qLoss_eq_WLoss]
    simp only [qLoss, if_true, ← pow_two]
    rfl
  refine ⟨C, fun cfg clock rm rn hh hd hm => ?_⟩
  intro r
  have hf : rustUpdatesH cfg = fun _ => false := by
    funext i
    simp [rustUpdatesH, hh, show ¬ (0 < cfg.delayH) by omega]
  obtain ⟨t, t1, -, t3, t4, t5, -⟩ := rustLoop_spec (lsLoopStep V (weights U)) (lsQ V U) cfg clock (some (Ws 0), some (Hs 0)) hm
  have hlen : r.losses.length = t := by
    rw [show r.losses = _ from t4]; simp
  rw [hf, htraj] at t3
  rw [hf, lossAt, Nat.sub_add_cancel t1, htraj] at t5
  refine ⟨Ws t, _, by rw [show r.factors = _ from t3, hH t], t5, ?_, ?_⟩
  · rw [← hQ, ← qLoss_eq_WLoss, hH t]
  · rw [← hQ, hlen, qLoss_eq_WLoss]
    have := hC t t1
    rwa [hH t] at this ⊢

/-- **C238.** A compiled ws-nmf run with `hold_h` and no delay: the contributions are those of the first iteration, whatever the start, all losses are equal, and with a positive `converge_delta` the run converges at iteration
`converge_n`. If the inverses are right, no contributions at all, negative ones included, have a smaller loss. -/
theorem C238_ws (inv : Mat k k ℝ → Mat k k ℝ) (V U : Mat m n ℝ) (W : Mat m k ℝ) (H : Mat k n ℝ) (cfg : LoopCfg ℝ) (clock : ℕ → Bool)
    (hh : cfg.holdH = true) (hd : cfg.delayH ≤ 0) (hm : 0 < cfg.maxIter) (hδ : 0 < cfg.delta) (hN : cfg.convergeN ≤ cfg.maxIter) :
    let r := rustLoop (wsLoopStep inv V (weights U)) (lsQ V U) cfg clock (some W, some H)
    ∃ W', r.factors = (some W', some H) ∧ W' = wsStepW inv V (weights U) H ∧ r.converged = true ∧ (r.losses.length : ℤ) = max cfg.convergeN 1 ∧
      (∀ q ∈ r.losses, q = some (∑ i, ∑ j, ((V i j - ∑ a, W' i a * H a j) / U i j) ^ 2)) ∧
      ((∀ i, IsLeftInverse (inv (fun a b => ∑ j, H a j * (weights U i j * H b j))) (fun a b => ∑ j, H a j * (weights U i j * H b j))) →
        ∀ X : Mat m k ℝ, (∑ i, ∑ j, ((V i j - ∑ a, W' i a * H a j) / U i j) ^ 2) ≤ ∑ i, ∑ j, ((V i j - ∑ a, X i a * H a j) / U i j) ^ 2) := by
  intro r
  have hf : rustUpdatesH cfg = fun _ => false := by
    funext i
    simp [rustUpdatesH, hh, show ¬ (0 < cfg.delayH) by omega]
  have htraj : ∀ t, traj (wsLoopStep inv V (weights U)) (fun _ => false) (some W, some H) (t + 1) = (some (wsStepW inv V (weights U) H), some H) := by
    intro t
    induction t with
    | zero => rfl
    | succ t ih => rw [traj, ih]; rfl
  have hQ : ∀ Y : Mat m k ℝ, qLoss V U Y H = ∑ i, ∑ j, ((V i j - ∑ a, Y i a * H a j) / U i j) ^ 2 := fun Y => by
    simp only [qLoss, if_true, ← pow_two]
    rfl
  have hl : ∀ i, lossAt (wsLoopStep inv V (weights U)) (lsQ V U) (rustUpdatesH cfg) (some W, some H) i = some (qLoss V U (wsStepW inv V (weights U) H) H) := by
    intro i
    rw [lossAt, hf, htraj]
    rfl
  have hcrit : ∀ i, effN cfg.convergeN ≤ i + 1 → Crit (lossAt (wsLoopStep inv V (weights U)) (lsQ V U) (rustUpdatesH cfg) (some W, some H)) (effN cfg.convergeN) cfg.delta i :=
    fun i hi => ⟨hi, _, _, hl _, hl _, by rw [sub_self]; exact hδ⟩
  obtain ⟨t, t1, t2, t3, t4, -, -, t7, t8, t9, -⟩ := rustLoop_spec (wsLoopStep inv V (weights U)) (lsQ V U) cfg clock (some W, some H) hm
  have hlen : r.losses.length = t := by
    rw [show r.losses = _ from t4]; simp
  have hN' : (effN cfg.convergeN : ℤ) = max cfg.convergeN 1 := by unfold effN; omega
  have hle : t ≤ effN cfg.convergeN := by
    by_contra hc
    have h1 : 1 ≤ effN cfg.convergeN := effN_pos _
    exact t8 (effN cfg.convergeN - 1) (by omega) (hcrit _ (by omega))
  have hge : effN cfg.convergeN ≤ t := by
    by_cases hc : r.converged = true
    · obtain ⟨h1, -⟩ := t7.1 hc
      omega
    · have := t9 (by simpa using hc)
      omega
  obtain ⟨s, rfl⟩ : ∃ s, t = s + 1 := ⟨t - 1, by omega⟩
  refine ⟨_, by rw [show r.factors = _ from t3, hf, htraj], rfl, t7.2 (hcrit _ (by omega)), by rw [hlen]; omega, fun q hq => ?_, fun hinv X => ?_⟩
  · rw [show r.losses = _ from t4] at hq
    obtain ⟨i, -, rfl⟩ := List.mem_map.1 hq
    rw [hl, hQ]
  · have h := C07_total_optimal inv V (weights U) H (fun i j => by unfold weights; positivity) hinv X
    have e : ∀ Y : Mat m k ℝ, TotalLoss V (weights U) Y H = qLoss V U Y H := by
      intro Y
      rw [qLoss_eq_WLoss]
      unfold TotalLoss RowLoss WLoss mmul
      rfl
    rw [← hQ, ← hQ, ← e, ← e]
    exact h

/-! ## Cases -/

/-- One sample, two features, two factors. -/
theorem caseHold : GoodStart (![![3, 1]] : Mat 1 2 ℝ) (fun _ _ => 1) (fun _ _ => 1 : Mat 1 2 ℝ) ![![1, 2], ![2, 1]] where
  rows := by norm_num
  cols := by norm_num
  data := by intro i j; fin_cases i; fin_cases j <;> norm_num
  row := fun i => ⟨0, by fin_cases i; norm_num⟩
  col := fun j => ⟨0, by fin_cases j <;> norm_num⟩
  unc := by norm_num
  w := by norm_num
  h := by intro a j; fin_cases a <;> fin_cases j <;> norm_num

/-- Case for `C238_train` (and with it `C238_step`, `C238_rate`, `C238_bound`): the contributions `(0, 7/5)` have loss `1/5`, so every long enough run with fixed profiles ends with a loss below `1/4`. -/
example : ∃ N : ℕ, ∀ cfg : LoopCfg ℝ, cfg.holdH = true → cfg.delayH ≤ 0 → 0 < cfg.maxIter →
    let r := lsTrain (![![3, 1]] : Mat 1 2 ℝ) (fun _ _ => 1) cfg (fun _ => false) false 0 (fun _ _ => 1 : Mat 1 2 ℝ) ![![1, 2], ![2, 1]]
    N < r.losses.length → ∃ q, r.q = some q ∧ q < 1 / 4 := by
  obtain ⟨C, hC⟩ := C238_train caseHold ![![0, 7 / 5]] (by intro i a; fin_cases i; fin_cases a <;> norm_num)
  obtain ⟨N, hN⟩ := exists_nat_gt (20 * C)
  refine ⟨N, fun cfg h1 h2 h3 => ?_⟩
  intro r hr
  obtain ⟨W', q, -, hq, -, hle⟩ := hC cfg (fun _ => false) false 0 h1 h2 h3
  refine ⟨q, hq, ?_⟩
  have hlt : (N : ℝ) < r.losses.length := Nat.cast_lt.2 hr
  have hpos : (0 : ℝ) < r.losses.length := lt_of_le_of_lt (Nat.cast_nonneg N) hlt
  have h4 : C / r.losses.length < 1 / 20 := by
    rw [div_lt_iff₀ hpos]
    linarith
  have h5 : (∑ i : Fin 1, ∑ j : Fin 2, (((![![3, 1]] : Mat 1 2 ℝ) i j - ∑ a : Fin 2, (![![0, 7 / 5]] : Mat 1 2 ℝ) i a * (![![1, 2], ![2, 1]] : Mat 2 2 ℝ) a j) / 1) ^ 2) = 1 / 5 := by
    simp [Fin.sum_univ_two]
    norm_num
  change q ≤ (∑ i : Fin 1, ∑ j : Fin 2, (((![![3, 1]] : Mat 1 2 ℝ) i j - ∑ a : Fin 2, (![![0, 7 / 5]] : Mat 1 2 ℝ) i a * (![![1, 2], ![2, 1]] : Mat 2 2 ℝ) a j) / 1) ^ 2) + C / r.losses.length at hle
  rw [h5] at hle
  linarith

/-- Case for `C238_attained` and `C238_limit`: the same data from any two positive starts; the losses have the same limit. -/
example (W₁ W₂ : ℕ → Mat 1 2 ℝ) (H₁ H₂ : ℕ → Mat 2 2 ℝ) (u₁ : Updates ![![3, 1]] (fun _ _ => 1) true W₁ H₁) (u₂ : Updates ![![3, 1]] (fun _ _ => 1) true W₂ H₂)
    (h₁ : H₁ 0 = ![![1, 2], ![2, 1]]) (h₂ : H₂ 0 = ![![1, 2], ![2, 1]]) (p₁ : ∀ i a, 0 < W₁ 0 i a) (p₂ : ∀ i a, 0 < W₂ 0 i a) :
    Tendsto (fun t => WLoss ![![3, 1]] (fun _ _ => 1) (W₁ t) (H₁ t) - WLoss ![![3, 1]] (fun _ _ => 1) (W₂ t) (H₂ t)) atTop (𝓝 0) := by
  obtain ⟨X, -, -, h⟩ := C238_limit (m := 1) (k := 2) (by norm_num) ![![3, 1]] (fun _ _ => 1) ![![1, 2], ![2, 1]] caseHold.data caseHold.row (fun _ _ => one_pos) caseHold.h
  have := (h W₁ H₁ u₁ h₁ p₁).1.sub (h W₂ H₂ u₂ h₂ p₂).1
  rwa [sub_self] at this

/-- Such a run exists. -/
example : ∃ (W : ℕ → Mat 1 2 ℝ) (H : ℕ → Mat 2 2 ℝ), Updates ![![3, 1]] (weights fun _ _ => 1) true W H ∧ H 0 = ![![1, 2], ![2, 1]] ∧ ∀ i a, 0 < W 0 i a := by
  obtain ⟨W, H, u, h1, h2, -⟩ := hold_updates caseHold
  exact ⟨W, H, u, h2, fun i a => by rw [h1]; exact caseHold.w i a⟩

/-- Case for `C238_ws`: one factor, two features; data `(3, 1)`, profile `(1, 2)`: contribution 1, loss 5, converged after 25 iterations. -/
example : let r := rustLoop (wsLoopStep (fun A => fun a b => 1 / A a b) (![![3, 1]] : Mat 1 2 ℝ) (weights fun _ _ => 1)) (lsQ ![![3, 1]] fun _ _ => 1) ⟨100, 1, 25, true, -1⟩ (fun _ => false) (some (fun _ _ => 7 : Mat 1 1 ℝ), some (![![1, 2]] : Mat 1 2 ℝ))
    r.converged = true ∧ r.losses.length = 25 ∧ ∃ W', r.factors = (some W', some ![![1, 2]]) ∧ W' 0 0 = 1 ∧ ∀ q ∈ r.losses, q = some 5 := by
  have key := C238_ws (fun A => fun a b => 1 / A a b) (![![3, 1]] : Mat 1 2 ℝ) (fun _ _ => 1) (fun _ _ => 7 : Mat 1 1 ℝ) ![![1, 2]] ⟨100, 1, 25, true, -1⟩
    (fun _ => false) rfl (by norm_num) (by norm_num) (by norm_num) (by norm_num)
  dsimp only at key ⊢
  generalize rustLoop (K := ℝ) _ _ _ _ _ = r at key ⊢
  obtain ⟨W', h1, h2, h3, h4, h5, -⟩ := key
  have hW : W' 0 0 = 1 := by
    rw [h2]
    simp [wsStepW, wsRhs, wsNormal, weights, Fin.sum_univ_two]
    norm_num
  refine ⟨h3, ?_, W', h1, hW, fun q hq => ?_⟩
  · rw [max_eq_left (by norm_num)] at h4
    exact_mod_cast h4
  · rw [h5 q hq]
    simp [Fin.sum_univ_two, hW]
    norm_num

end matrix

end Esat
