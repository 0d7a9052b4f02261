import Verif.Props.LongRun

/-!
# C154: results that settle

If the results of longer and longer ls-nmf runs settle, what they settle at is best for each matrix separately; nothing is assumed about the limit, whole factors may have died out.
-/

namespace Esat

open Filter Topology

variable {m n k : ℕ}

/-- A positive sequence multiplied by `p / d` that settles: `p ≤ d` in the limit, with equality unless the sequence tends to zero. -/
theorem settled_entry {x p d : ℕ → ℝ} {X P D : ℝ} (hx : ∀ t, 0 < x t) (hd : ∀ t, 0 < d t) (hs : ∀ t, x (t + 1) = x t * (p t / d t))
    (hX : Tendsto x atTop (𝓝 X)) (hP : Tendsto p atTop (𝓝 P)) (hD : Tendsto d atTop (𝓝 D)) : P ≤ D ∧ (D - P) * X = 0 := by
  have e : D * X = P * X := by
    have h1 : Tendsto (fun t => d t * x (t + 1)) atTop (𝓝 (D * X)) := hD.mul (hX.comp (tendsto_add_atTop_nat 1))
    have h2 : Tendsto (fun t => p t * x t) atTop (𝓝 (P * X)) := hP.mul hX
    refine tendsto_nhds_unique h1 (h2.congr fun t => ?_)
    rw [hs t]
    have := (hd t).ne'
    field_simp
  refine ⟨?_, by rw [sub_mul, e, sub_self]⟩
  by_contra hlt
  push Not at hlt
  obtain ⟨T, hT⟩ := eventually_atTop.1 (hD.eventually_lt hP hlt)
  have hmono : ∀ s, x T ≤ x (T + s) := by
    intro s
    induction s with
    | zero => exact le_refl _
    | succ s ih =>
      have h1 := hT (T + s) (by omega)
      have h2 : 1 ≤ p (T + s) / d (T + s) := by rw [le_div_iff₀ (hd _), one_mul]; exact h1.le
      have h3 : x (T + (s + 1)) = x (T + s) * (p (T + s) / d (T + s)) := hs (T + s)
      rw [h3]
      nlinarith [hx (T + s)]
  have hXT : x T ≤ X := by
    refine ge_of_tendsto (x := atTop) hX ?_
    filter_upwards [eventually_ge_atTop T] with t ht
    obtain ⟨s, rfl⟩ := Nat.exists_eq_add_of_le ht
    exact hmono s
  have hX0 : X ≠ 0 := (lt_of_lt_of_le (hx T) hXT).ne'
  have := mul_right_cancel₀ hX0 e
  linarith

/-- **C154, settled.** If the factors of an endless run with positive factors and weights converge, the limit is best for each matrix separately. The update of the limit need not be defined. -/
theorem C154_settled {V We : Mat m n ℝ} {W : ℕ → Mat m k ℝ} {H : ℕ → Mat k n ℝ} (u : Updates V We false W H) (hm : 0 < m) (hn : 0 < n) (hWe : ∀ i j, 0 < We i j)
    (hW : ∀ t i a, 0 < W t i a) (hH : ∀ t a j, 0 < H t a j) (A : Mat m k ℝ) (B : Mat k n ℝ)
    (hA : ∀ i a, Tendsto (fun t => W t i a) atTop (𝓝 (A i a))) (hB : ∀ a j, Tendsto (fun t => H t a j) atTop (𝓝 (B a j))) :
    (∀ H₂ : Mat k n ℝ, (∀ a j, 0 ≤ H₂ a j) → WLoss V We A B ≤ WLoss V We A H₂) ∧
    (∀ W₂ : Mat m k ℝ, (∀ i a, 0 ≤ W₂ i a) → WLoss V We A B ≤ WLoss V We W₂ B) := by
  have stepH : ∀ t, lsStepH V We (W t) (H t) = some (H (t + 1)) := fun t => by
    rcases (lsUpdate_eq_some.1 (u.step t)).1 with ⟨h, _⟩ | ⟨_, h⟩
    · cases h
    · exact h
  have hB' : ∀ a j, Tendsto (fun t => H (t + 1) a j) atTop (𝓝 (B a j)) := fun a j => (hB a j).comp (tendsto_add_atTop_nat 1)
  have kktH : ∀ a j, lsHNum V We A a j ≤ lsHDen We A B a j ∧ (lsHDen We A B a j - lsHNum V We A a j) * B a j = 0 := fun a j =>
    settled_entry (fun t => hH t a j) (fun t => lsHDen_pos hm hWe (hW t) (hH t) a j) (fun t => (lsStepH_eq_some.1 (stepH t)).2 a j) (hB a j) (tendsto_hnum V We hA a j) (tendsto_hden We hA hB a j)
  have kktW : ∀ i a, lsWNum V We B i a ≤ lsWDen We A B i a ∧ (lsWDen We A B i a - lsWNum V We B i a) * A i a = 0 := fun i a =>
    settled_entry (fun t => hW t i a) (fun t => by
        rw [lsWDen_eq_transpose]
        exact lsHDen_pos hn (fun j i => hWe i j) (fun j a => hH (t + 1) a j) (fun a i => hW t i a) a i)
      (fun t => (lsStepW_eq_some.1 (lsUpdate_eq_some.1 (u.step t)).2).2 i a) (hA i a) (tendsto_wnum V We hB' i a) (tendsto_wden We hA hB' i a)
  have nn : ∀ X : Mat m n ℝ, 0 ≤ ∑ i, ∑ j, We i j * (X i j) ^ 2 := fun X =>
    Finset.sum_nonneg fun i _ => Finset.sum_nonneg fun j _ => mul_nonneg (u.weights i j) (sq_nonneg _)
  constructor
  · intro H₂ hH₂
    rw [WLoss_expand_H V We A B H₂]
    have : 0 ≤ ∑ a, ∑ j, (lsHDen We A B a j - lsHNum V We A a j) * (H₂ a j - B a j) :=
      Finset.sum_nonneg fun a _ => Finset.sum_nonneg fun j _ => by
        rw [mul_sub, (kktH a j).2, sub_zero]
        exact mul_nonneg (sub_nonneg.2 (kktH a j).1) (hH₂ a j)
    linarith [nn (A ⬝ (H₂ - B))]
  · intro W₂ hW₂
    rw [WLoss_expand_W V We A W₂ B]
    have : 0 ≤ ∑ i, ∑ a, (lsWDen We A B i a - lsWNum V We B i a) * (W₂ i a - A i a) :=
      Finset.sum_nonneg fun i _ => Finset.sum_nonneg fun a _ => by
        rw [mul_sub, (kktW i a).2, sub_zero]
        exact mul_nonneg (sub_nonneg.2 (kktW i a).1) (hW₂ i a)
    linarith [nn ((W₂ - A) ⬝ B)]

/-- **C154, runs.** Take the results of the compiled runs with `max_iter` 1, 2, 3, … from a proper start, without `hold_h` and with `converge_delta ≤ 0`. If they settle at some factors, then no other non-negative profiles have a
smaller Q with these contributions, and no other non-negative contributions with these profiles. -/
theorem C154_runs {V U : Mat m n ℝ} {W : Mat m k ℝ} {H : Mat k n ℝ} (g : GoodStart V U W H) (cfg : ℕ → LoopCfg ℝ) (hmax : ∀ N, (cfg N).maxIter = N + 1) (hh : ∀ N, (cfg N).holdH = false)
    (hδ : ∀ N, (cfg N).delta ≤ 0) (clock : ℕ → ℕ → Bool) (rm : ℕ → Bool) (rn : ℕ → ℤ) (Wr : ℕ → Mat m k ℝ) (Hr : ℕ → Mat k n ℝ)
    (hr : ∀ N, (lsTrain V U (cfg N) (clock N) (rm N) (rn N) W H).factors = (some (Wr N), some (Hr N))) (A : Mat m k ℝ) (B : Mat k n ℝ)
    (hA : ∀ i a, Tendsto (fun N => Wr N i a) atTop (𝓝 (A i a))) (hB : ∀ a j, Tendsto (fun N => Hr N a j) atTop (𝓝 (B a j))) :
    (∀ H₂ : Mat k n ℝ, (∀ a j, 0 ≤ H₂ a j) → (∑ i, ∑ j, ((V i j - ∑ a, A i a * B a j) / U i j) ^ 2) ≤ ∑ i, ∑ j, ((V i j - ∑ a, A i a * H₂ a j) / U i j) ^ 2) ∧
    (∀ W₂ : Mat m k ℝ, (∀ i a, 0 ≤ W₂ i a) → (∑ i, ∑ j, ((V i j - ∑ a, A i a * B a j) / U i j) ^ 2) ≤ ∑ i, ∑ j, ((V i j - ∑ a, W₂ i a * B a j) / U i j) ^ 2) := by
  obtain ⟨Ws, Hs, h0, h1, ht, hp, hu⟩ := traj_updates g fun _ => true
  have hrun : ∀ N, Wr N = Ws (N + 1) ∧ Hr N = Hs (N + 1) := by
    intro N
    have hlen := (C152_never g (cfg N) (clock N) (rm N) (rn N) (hδ N) (by rw [hmax]; omega)).2
    have hf := (rustLoop_factors (lsLoopStep V (weights U)) (lsQ V U) (cfg N) (clock N) (some W, some H)).1
    have e : rustUpdatesH (cfg N) = fun _ => true := by funext i; simp [rustUpdatesH, hh N]
    have hl : (rustLoop (lsLoopStep V (weights U)) (lsQ V U) (cfg N) (clock N) (some W, some H)).losses.length = N + 1 := by
      rw [hmax] at hlen
      exact_mod_cast hlen
    rw [e, hl, ht] at hf
    have := (hr N).symm.trans hf
    simp only [Prod.mk.injEq, Option.some.injEq] at this
    exact this
  have hQ : ∀ (X : Mat m k ℝ) (Y : Mat k n ℝ), WLoss V (weights U) X Y = ∑ i, ∑ j, ((V i j - ∑ a, X i a * Y a j) / U i j) ^ 2 := fun X Y => by
    rw [← qLoss_eq_WLoss, qLoss_amounts]
    rfl
  have key := C154_settled (V := V) (We := weights U) (W := Ws) (H := Hs) ⟨g.data, weights_nonneg' U, fun i a => ((hp 0).1 i a).le, fun a j => ((hp 0).2 a j).le, hu⟩ g.rows g.cols (weights_pos g.unc)
    (fun t => (hp t).1) (fun t => (hp t).2) A B
    (fun i a => (tendsto_add_atTop_iff_nat 1).1 ((hA i a).congr fun N => by rw [(hrun N).1]))
    (fun a j => (tendsto_add_atTop_iff_nat 1).1 ((hB a j).congr fun N => by rw [(hrun N).2]))
  simp only [hQ] at key
  exact key

/-- One sample, one factor: the results settle (after one iteration). -/
example : ∃ (V U : Mat 1 2 ℝ) (W : Mat 1 1 ℝ) (H H' : Mat 1 2 ℝ), GoodStart V U W H ∧ H' ≠ H ∧
    ∀ (cfg : LoopCfg ℝ) (clock : ℕ → Bool) (rm : Bool) (rn : ℤ), 0 < cfg.maxIter → cfg.holdH = false → (lsTrain V U cfg clock rm rn W H).factors = (some W, some H') := by
  have hnum : ∀ a j, lsHNum (![![3, 1]] : Mat 1 2 ℝ) (weights fun _ _ => 1) (fun _ _ => 2 : Mat 1 1 ℝ) a j = 2 * (![![3, 1]] : Mat 1 2 ℝ) 0 j := fun a j => by
    simp [lsHNum, mmul, tr, emul, weights]
  have hden : ∀ (H : Mat 1 2 ℝ) a j, lsHDen (weights fun _ _ => 1) (fun _ _ => 2 : Mat 1 1 ℝ) H a j = 4 * H 0 j := fun H a j => by
    simp [lsHDen, mmul, tr, emul, weights]
    ring
  have hz : ∀ j, (![![3, 1]] : Mat 1 2 ℝ) 0 j ≠ 0 := fun j => by fin_cases j <;> norm_num
  have h1 : ∀ H : Mat 1 2 ℝ, (∀ j, H 0 j ≠ 0) → lsStepH ![![3, 1]] (weights fun _ _ => 1) (fun _ _ => 2 : Mat 1 1 ℝ) H = some fun _ j => (![![3, 1]] : Mat 1 2 ℝ) 0 j / 2 := fun H hH => by
    refine lsStepH_eq_some.2 ⟨fun a j => ?_, fun a j => ?_⟩
    · rw [hden]; exact mul_ne_zero (by norm_num) (hH j)
    · rw [hnum, hden, Subsingleton.elim a 0]
      have := hH j
      field_simp
      norm_num
  have h2 : lsStepW ![![3, 1]] (weights fun _ _ => 1) (fun _ _ => 2 : Mat 1 1 ℝ) (fun _ j => (![![3, 1]] : Mat 1 2 ℝ) 0 j / 2) = some fun _ _ => 2 := by
    refine lsStepW_eq_some.2 ⟨fun i a => ?_, fun i a => ?_⟩
    · simp [lsWDen, mmul, tr, emul, weights, Fin.sum_univ_two]
      norm_num
    · simp [lsWNum, lsWDen, mmul, tr, emul, weights, Fin.sum_univ_two]
      norm_num
  refine ⟨![![3, 1]], fun _ _ => 1, fun _ _ => 2, fun _ _ => 1, fun _ j => (![![3, 1]] : Mat 1 2 ℝ) 0 j / 2,
    ⟨by norm_num, by norm_num, fun i j => by fin_cases i; fin_cases j <;> norm_num, fun i => ⟨0, by fin_cases i; norm_num⟩, fun j => ⟨0, by fin_cases j <;> norm_num⟩, fun _ _ => one_ne_zero,
      fun _ _ => by norm_num, fun _ _ => by norm_num⟩, fun h => ?_, fun cfg clock rm rn hm hh => ?_⟩
  · have := congrFun (congrFun h 0) 1
    norm_num at this
  · obtain ⟨t, t1, -, t3, -⟩ := rustLoop_spec (lsLoopStep ![![3, 1]] (weights fun _ _ => 1)) (lsQ ![![3, 1]] fun _ _ => 1) cfg clock (some (fun _ _ => 2 : Mat 1 1 ℝ), some (fun _ _ => 1 : Mat 1 2 ℝ)) hm
    have e : rustUpdatesH cfg = fun _ => true := by funext i; simp [rustUpdatesH, hh]
    rw [e] at t3
    rw [lsTrain, t3]
    obtain ⟨s, rfl⟩ : ∃ s, t = s + 1 := ⟨t - 1, by omega⟩
    clear t3 t1
    induction s with
    | zero => exact (C04_lsnmf_loop_is_update _ _ true _ _ _ _).1 (lsUpdate_eq_some.2 ⟨.inr ⟨rfl, h1 _ fun j => one_ne_zero⟩, h2⟩)
    | succ s ih =>
      show lsLoopStep _ _ true (traj _ _ _ (s + 1)) = _
      rw [ih]
      exact (C04_lsnmf_loop_is_update _ _ true _ _ _ _).1 (lsUpdate_eq_some.2 ⟨.inr ⟨rfl, h1 _ fun j => div_ne_zero (hz j) two_ne_zero⟩, h2⟩)

end Esat
