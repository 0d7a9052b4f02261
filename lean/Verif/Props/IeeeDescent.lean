import Verif.Props.IeeeLoss
import Verif.Props.IeeeRobust
import Verif.Props.LsNmf
import Verif.Model.IeeeWeights

/-!
# The loss during ls-nmf in floating point arithmetic (C228)

In exact arithmetic an update of ls-nmf never increases the loss (C02); in floating point arithmetic it can (C146). Here the increase is bounded.
-/

namespace Esat
open Fl

section exact
variable {m n k : ℕ}

theorem lsStepH_exact (v we : Mat m n ℚ≥0) (w : Mat m k ℚ≥0) (h : Mat k n ℚ≥0) (hH : ∀ a j, ∑ i, w i a * (we i j * ∑ b, w i b * h b j) ≠ 0) :
    lsStepH (fun i j => (v i j : ℚ)) (fun i j => (we i j : ℚ)) (fun i a => (w i a : ℚ)) (fun a j => (h a j : ℚ)) =
      some (fun a j => (exactH v we w h a j : ℚ)) := by
  have hden : ∀ a j, lsHDen (fun i j => (we i j : ℚ)) (fun i a => (w i a : ℚ)) (fun a j => (h a j : ℚ)) a j =
      ((∑ i, w i a * (we i j * ∑ b, w i b * h b j) : ℚ≥0) : ℚ) := fun a j => by
    simp [lsHDen, mmul, tr, emul, NNRat.cast_sum]
  have n1 : NoZero (lsHDen (fun i j => (we i j : ℚ)) (fun i a => (w i a : ℚ)) (fun a j => (h a j : ℚ))) := by
    intro a j
    rw [hden]
    exact_mod_cast hH a j
  rw [lsStepH, if_pos n1]
  refine congrArg some (funext fun a => funext fun j => ?_)
  simp only [emul, ediv, hden]
  simp [exactH, lsHNum, mmul, tr, emul, NNRat.cast_sum]

theorem lsStepW_exact (v we : Mat m n ℚ≥0) (w : Mat m k ℚ≥0) (h : Mat k n ℚ≥0)
    (hW : ∀ i a, ∑ j, (we i j * ∑ b, w i b * h b j) * h a j ≠ 0) :
    lsStepW (fun i j => (v i j : ℚ)) (fun i j => (we i j : ℚ)) (fun i a => (w i a : ℚ)) (fun a j => (h a j : ℚ)) =
      some (fun i a => (exactW v we w h i a : ℚ)) := by
  have hdenW : ∀ i a, lsWDen (fun i j => (we i j : ℚ)) (fun i a => (w i a : ℚ)) (fun a j => (h a j : ℚ)) i a =
      ((∑ j, (we i j * ∑ b, w i b * h b j) * h a j : ℚ≥0) : ℚ) := fun i a => by
    simp [lsWDen, mmul, tr, emul, NNRat.cast_sum]
  have n2 : NoZero (lsWDen (fun i j => (we i j : ℚ)) (fun i a => (w i a : ℚ)) (fun a j => (h a j : ℚ))) := by
    intro i a
    rw [hdenW]
    exact_mod_cast hW i a
  rw [lsStepW, if_pos n2]
  refine congrArg some (funext fun i => funext fun a => ?_)
  simp only [emul, ediv, hdenW]
  simp [exactW, lsWNum, mmul, tr, emul, NNRat.cast_sum]

/-- The weighted loss of factors that are given exactly. -/
def nnLoss (v we : Mat m n ℚ≥0) (w : Mat m k ℚ≥0) (h : Mat k n ℚ≥0) : ℚ :=
  ∑ i, ∑ j, (we i j : ℚ) * ((v i j : ℚ) - ∑ a, (w i a : ℚ) * h a j) ^ 2

/-- The loss of the zero model. -/
def zeroLoss (v we : Mat m n ℚ≥0) : ℚ := ∑ i, ∑ j, (we i j : ℚ) * (v i j : ℚ) ^ 2

theorem nnLoss_eq (v we : Mat m n ℚ≥0) (w : Mat m k ℚ≥0) (h : Mat k n ℚ≥0) :
    nnLoss v we w h = WLoss (fun i j => (v i j : ℚ)) (fun i j => (we i j : ℚ)) (fun i a => (w i a : ℚ)) (fun a j => (h a j : ℚ)) := rfl

theorem nnLoss_nonneg (v we : Mat m n ℚ≥0) (w : Mat m k ℚ≥0) (h : Mat k n ℚ≥0) : 0 ≤ nnLoss v we w h :=
  Finset.sum_nonneg fun i _ => Finset.sum_nonneg fun j _ => mul_nonneg (we i j).2 (sq_nonneg _)

theorem zeroLoss_nonneg (v we : Mat m n ℚ≥0) : 0 ≤ zeroLoss v we :=
  Finset.sum_nonneg fun i _ => Finset.sum_nonneg fun j _ => mul_nonneg (we i j).2 (sq_nonneg _)

/-- One squared residual after a relative change of the product by at most `γ`. -/
theorem sq_perturb {v p e γ : ℚ} (hγ : 0 ≤ γ) (hp : 0 ≤ p) (he : |e| ≤ γ * p) :
    (v - (p + e)) ^ 2 ≤ (1 + γ) * ((1 + 2 * γ) * (v - p) ^ 2 + 2 * γ * v ^ 2) := by
  have h1 : e ^ 2 ≤ (γ * p) ^ 2 := by
    rw [← sq_abs e]
    exact pow_le_pow_left₀ (abs_nonneg _) he 2
  have h2 : -(2 * (v - p) * e) ≤ γ * ((v - p) ^ 2 + p ^ 2) := by
    have e1 : -(2 * (v - p) * e) ≤ 2 * (|v - p| * |e|) := by
      have := neg_abs_le ((v - p) * e)
      rw [abs_mul] at this
      linarith
    have e2 : |v - p| * |e| ≤ |v - p| * (γ * p) := mul_le_mul_of_nonneg_left he (abs_nonneg _)
    have e3 : 2 * (|v - p| * p) ≤ |v - p| ^ 2 + p ^ 2 := by nlinarith [sq_nonneg (|v - p| - p)]
    rw [sq_abs] at e3
    nlinarith [mul_le_mul_of_nonneg_left e3 hγ]
  have h3 : p ^ 2 ≤ 2 * (v - p) ^ 2 + 2 * v ^ 2 := by nlinarith [sq_nonneg (2 * v - p)]
  have h4 : (γ + γ ^ 2) * p ^ 2 ≤ (γ + γ ^ 2) * (2 * (v - p) ^ 2 + 2 * v ^ 2) := mul_le_mul_of_nonneg_left h3 (by positivity)
  nlinarith

/-- The loss after a relative change of both factors. -/
theorem nnLoss_perturb {c : ℚ≥0} (hc : 1 ≤ c) {p q : ℕ} (v we : Mat m n ℚ≥0) {w w' : Mat m k ℚ≥0} {h h' : Mat k n ℚ≥0}
    (hw : ∀ i a, Rel c p (w i a) (w' i a)) (hh : ∀ a j, Rel c q (h a j) (h' a j)) :
    let γ : ℚ := (c : ℚ) ^ (p + q) - 1
    nnLoss v we w' h' ≤ (1 + γ) * ((1 + 2 * γ) * nnLoss v we w h + 2 * γ * zeroLoss v we) := by
  intro γ
  have hγ : 0 ≤ γ := by
    have : (1 : ℚ) ≤ (c : ℚ) ^ (p + q) := one_le_pow₀ (by exact_mod_cast hc)
    exact sub_nonneg.2 this
  have hrel : ∀ i j, Rel c (p + q) (∑ a, w i a * h a j) (∑ a, w' i a * h' a j) := by
    intro i j
    constructor
    · rw [Finset.sum_mul]
      exact Finset.sum_le_sum fun a _ => (rel_mul (hw i a) (hh a j)).1
    · rw [Finset.sum_mul]
      exact Finset.sum_le_sum fun a _ => (rel_mul (hw i a) (hh a j)).2
  have hpt : ∀ i j, (we i j : ℚ) * ((v i j : ℚ) - ∑ a, (w' i a : ℚ) * h' a j) ^ 2 ≤
      (1 + γ) * ((1 + 2 * γ) * ((we i j : ℚ) * ((v i j : ℚ) - ∑ a, (w i a : ℚ) * h a j) ^ 2) + 2 * γ * ((we i j : ℚ) * (v i j : ℚ) ^ 2)) := by
    intro i j
    have hr := rel_abs hc (hrel i j)
    push_cast at hr
    have hp0 : (0 : ℚ) ≤ ∑ a, (w i a : ℚ) * h a j := Finset.sum_nonneg fun a _ => mul_nonneg (w i a).2 (h a j).2
    have := sq_perturb (v := (v i j : ℚ)) hγ hp0 hr
    rw [add_sub_cancel] at this
    have hwe : (0 : ℚ) ≤ (we i j : ℚ) := (we i j).2
    have hm := mul_le_mul_of_nonneg_left this hwe
    calc _ ≤ _ := hm
      _ = _ := by ring
  calc nnLoss v we w' h' ≤ ∑ i, ∑ j, (1 + γ) * ((1 + 2 * γ) * ((we i j : ℚ) * ((v i j : ℚ) - ∑ a, (w i a : ℚ) * h a j) ^ 2) +
        2 * γ * ((we i j : ℚ) * (v i j : ℚ) ^ 2)) := Finset.sum_le_sum fun i _ => Finset.sum_le_sum fun j _ => hpt i j
    _ = _ := by
      unfold nnLoss zeroLoss
      simp only [← Finset.mul_sum, Finset.sum_add_distrib]

end exact

section descent
variable {A : Arith} {c lo hi : ℚ≥0} {m n k : ℕ}

/-- The profiles that the update of W uses. -/
def heldH (hold : Bool) (v we : Mat m n ℚ≥0) (w : Mat m k ℚ≥0) (h : Mat k n ℚ≥0) : Mat k n ℚ≥0 := if hold then h else exactH v we w h

/-- The ranges of C145 for one update. -/
structure StepRange (c lo hi : ℚ≥0) (d : ℕ) (hold : Bool) (v we : Mat m n ℚ≥0) (w : Mat m k ℚ≥0) (h : Mat k n ℚ≥0) : Prop where
  rH : hold = false → InRangeH c lo hi (12 * d + 16) v we w h
  rW : InRangeH c lo hi (12 * d + 16) (tr v) (tr we) (tr (heldH hold v we w h)) (tr w)

/-- The exact update from given factors does not increase the loss. -/
theorem nnLoss_exact {P : ℕ} {hold : Bool} {v we : Mat m n ℚ≥0} {w : Mat m k ℚ≥0} {h : Mat k n ℚ≥0}
    (rH : hold = false → InRangeH c lo hi P v we w h)
    (rW : InRangeH c lo hi P (tr v) (tr we) (tr (heldH hold v we w h)) (tr w)) :
    nnLoss v we (exactW v we w (heldH hold v we w h)) (heldH hold v we w h) ≤ nnLoss v we w h := by
  have hv : AllNonneg (fun i j => (v i j : ℚ)) := fun i j => (v i j).2
  have hwe : AllNonneg (fun i j => (we i j : ℚ)) := fun i j => (we i j).2
  have hw : AllNonneg (fun i a => (w i a : ℚ)) := fun i a => (w i a).2
  have hh : AllNonneg (fun a j => (h a j : ℚ)) := fun a j => (h a j).2
  have eW := lsStepW_exact v we w (heldH hold v we w h) (fun i a => by
    have := rW.ne a i
    simp only [tr] at this
    intro h0
    refine this (Eq.trans (Finset.sum_congr rfl fun j _ => ?_) h0)
    rw [mul_comm, Finset.sum_congr rfl fun b _ => mul_comm (heldH hold v we w h b j) (w i b)])
  rw [nnLoss_eq, nnLoss_eq]
  refine C02_update_le _ _ hold _ _ _ _ hv hwe hw hh (lsUpdate_eq_some.2 ⟨?_, eW⟩)
  cases hold
  · exact Or.inr ⟨rfl, lsStepH_exact v we w h (rH rfl).ne⟩
  · exact Or.inl ⟨rfl, rfl⟩

/-- The roundings that the product of the factors has taken part in after one update. -/
def stepRoundings (d : ℕ) : ℕ := 15 * d + 20

/-- **C228.** One update of ls-nmf in floating point arithmetic, from nonnegative finite factors: the computed factors are again
nonnegative and finite, and their exact loss is at most that before the update, up to a relative increase by the roundings and a
multiple of the loss of the zero model. -/
theorem C228_step (hA : Accurate A c lo hi) {d : ℕ} {hold : Bool} {v we : Mat m n ℚ≥0} {w : Mat m k ℚ≥0} {h : Mat k n ℚ≥0}
    (hr : StepRange c lo hi d hold v we w h) {W' : Mat m k Fl} {H' : Mat k n Fl}
    (hu : A.Update d (fun i j => fin false (v i j)) (fun i j => fin false (we i j)) hold
      (fun i a => fin false (w i a)) (fun a j => fin false (h a j)) W' H') :
    ∃ (w' : Mat m k ℚ≥0) (h' : Mat k n ℚ≥0), W' = (fun i a => fin false (w' i a)) ∧ H' = (fun a j => fin false (h' a j)) ∧
      nnLoss v we w' h' ≤ (c : ℚ) ^ stepRoundings d *
        ((2 * (c : ℚ) ^ stepRoundings d - 1) * nnLoss v we w h + 2 * ((c : ℚ) ^ stepRoundings d - 1) * zeroLoss v we) := by
  obtain ⟨h1, h2⟩ := hu
  have c1 := hA.one_le
  have hH : ∀ a j, ∃ z, H' a j = fin false z ∧ Rel c (3 * d + 4) (heldH hold v we w h a j) z := by
    cases hold
    · have key := stepH_rel (P := 12 * d + 16) hA (p := 0) (q := 0) (fun i a => rel_refl c1 0 (w i a))
        (fun a j => rel_refl c1 0 (h a j)) (hr.rH rfl) (by omega) h1
      simp only [mul_zero, zero_add] at key
      exact key
    · intro a j
      simp only [if_true] at h1
      exact ⟨h a j, by rw [h1], rel_refl c1 _ _⟩
  choose h' eh rh using hH
  have eH : H' = fun a j => fin false (h' a j) := funext fun a => funext fun j => eh a j
  have hW : ∀ i a, ∃ z, W' i a = fin false z ∧ Rel c (12 * d + 16) (exactW v we w (heldH hold v we w h) i a) z := by
    intro i a
    rw [eH] at h2
    have h3 := stepW_tr h2
    have key := stepH_rel (P := 12 * d + 16) hA (p := 3 * d + 4) (q := 0) (v := tr v) (we := tr we)
      (w := tr (heldH hold v we w h)) (w' := tr h') (h := tr w) (h' := tr w) (fun j b => rh b j)
      (fun b l => rel_refl c1 0 (w l b)) hr.rW (by omega) h3 a i
    rw [exactH_tr] at key
    obtain ⟨z, hz, rz⟩ := key
    exact ⟨z, hz, rel_mono c1 (by omega) rz⟩
  choose w' ew rw' using hW
  refine ⟨w', h', funext fun i => funext fun a => ew i a, eH, ?_⟩
  have hp := nnLoss_perturb c1 v we rw' rh
  dsimp only at hp
  have e : 12 * d + 16 + (3 * d + 4) = stepRoundings d := by unfold stepRoundings; omega
  rw [e] at hp
  have hc : (1 : ℚ) ≤ (c : ℚ) ^ stepRoundings d := one_le_pow₀ (by exact_mod_cast c1)
  have hx := nnLoss_exact hr.rH hr.rW
  calc nnLoss v we w' h' ≤ _ := hp
    _ = (c : ℚ) ^ stepRoundings d * ((2 * (c : ℚ) ^ stepRoundings d - 1) * nnLoss v we (exactW v we w (heldH hold v we w h)) (heldH hold v we w h) +
        2 * ((c : ℚ) ^ stepRoundings d - 1) * zeroLoss v we) := by ring
    _ ≤ _ := by
      refine mul_le_mul_of_nonneg_left ?_ (by linarith)
      have : (2 * (c : ℚ) ^ stepRoundings d - 1) * nnLoss v we (exactW v we w (heldH hold v we w h)) (heldH hold v we w h) ≤
          (2 * (c : ℚ) ^ stepRoundings d - 1) * nnLoss v we w h := mul_le_mul_of_nonneg_left hx (by linarith)
      linarith

/-- The growth of the loss in one update. -/
def growth (c : ℚ≥0) (d : ℕ) : ℚ := (c : ℚ) ^ stepRoundings d * (2 * (c : ℚ) ^ stepRoundings d - 1)

/-- The share of the loss of the zero model that one update can add. -/
def leak (c : ℚ≥0) (d : ℕ) : ℚ := (c : ℚ) ^ stepRoundings d * (2 * ((c : ℚ) ^ stepRoundings d - 1))

/-- **C228.** The same for an update whose computed factors are given. -/
theorem C228_next (hA : Accurate A c lo hi) {d : ℕ} {hold : Bool} {v we : Mat m n ℚ≥0} {w w' : Mat m k ℚ≥0} {h h' : Mat k n ℚ≥0}
    (hr : StepRange c lo hi d hold v we w h)
    (hu : A.Update d (fun i j => fin false (v i j)) (fun i j => fin false (we i j)) hold
      (fun i a => fin false (w i a)) (fun a j => fin false (h a j)) (fun i a => fin false (w' i a)) (fun a j => fin false (h' a j))) :
    nnLoss v we w' h' ≤ growth c d * nnLoss v we w h + leak c d * zeroLoss v we := by
  obtain ⟨w₁, h₁, e1, e2, hle⟩ := C228_step hA hr hu
  have ew : w' = w₁ := funext fun i => funext fun a => (Fl.fin.inj (congrFun (congrFun e1 i) a)).2
  have eh : h' = h₁ := funext fun a => funext fun j => (Fl.fin.inj (congrFun (congrFun e2 a) j)).2
  subst ew eh
  refine hle.trans (le_of_eq ?_)
  unfold growth leak
  ring

/-- **C228.** A run of `N` updates through the factors `w t`, `h t`: with the range conditions at each of them the loss after the
run is at most `growth ^ N` times the first one plus the accumulated share of the loss of the zero model. -/
theorem C228_run (hA : Accurate A c lo hi) {d : ℕ} {v we : Mat m n ℚ≥0} (hold : ℕ → Bool) (w : ℕ → Mat m k ℚ≥0) (h : ℕ → Mat k n ℚ≥0)
    (N : ℕ) (hr : ∀ t < N, StepRange c lo hi d (hold t) v we (w t) (h t))
    (hu : ∀ t < N, A.Update d (fun i j => fin false (v i j)) (fun i j => fin false (we i j)) (hold t)
      (fun i a => fin false (w t i a)) (fun a j => fin false (h t a j))
      (fun i a => fin false (w (t + 1) i a)) (fun a j => fin false (h (t + 1) a j))) :
    nnLoss v we (w N) (h N) ≤ growth c d ^ N * nnLoss v we (w 0) (h 0) +
        leak c d * zeroLoss v we * ∑ t ∈ Finset.range N, growth c d ^ t := by
  have hg : 0 ≤ growth c d := by
    have : (1 : ℚ) ≤ (c : ℚ) ^ stepRoundings d := one_le_pow₀ (by exact_mod_cast hA.one_le)
    exact mul_nonneg (by linarith) (by linarith)
  induction N with
  | zero => simp
  | succ N ih =>
    have ih := ih (fun t ht => hr t (by omega)) (fun t ht => hu t (by omega))
    have hle := C228_next hA (hr N (by omega)) (hu N (by omega))
    have := mul_le_mul_of_nonneg_left ih hg
    rw [geom_sum_succ]
    calc _ ≤ _ := hle
      _ ≤ growth c d * (growth c d ^ N * nnLoss v we (w 0) (h 0) + leak c d * zeroLoss v we * ∑ t ∈ Finset.range N, growth c d ^ t) +
          leak c d * zeroLoss v we := by linarith
      _ = _ := by ring

/-- `(1 + 1/M)^N` for `N` at most `M / 2`. -/
theorem pow_one_add_inv {M : ℚ} (hM : 0 < M) (N : ℕ) (hN : 2 * (N : ℚ) ≤ M) : (1 + 1 / M) ^ N ≤ 1 + 2 * N / M := by
  induction N with
  | zero => simp
  | succ N ih =>
    have hN' : 2 * (N : ℚ) ≤ M := by push_cast at hN; linarith
    rw [pow_succ]
    have h1 : (1 + 1 / M) ^ N * (1 + 1 / M) ≤ (1 + 2 * N / M) * (1 + 1 / M) :=
      mul_le_mul_of_nonneg_right (ih hN') (by positivity)
    refine h1.trans ?_
    have e : (1 + 2 * (N : ℚ) / M) * (1 + 1 / M) = 1 + (2 * N + 1) / M + (2 * N / M) / M := by field_simp; ring
    have h2 : 2 * (N : ℚ) / M ≤ 1 := (div_le_one hM).2 hN'
    have h3 : (2 * (N : ℚ) / M) / M ≤ 1 / M := div_le_div_of_nonneg_right h2 hM.le
    have e2 : 1 + 2 * ((N + 1 : ℕ) : ℚ) / M = 1 + (2 * N + 1) / M + 1 / M := by push_cast; field_simp; ring
    rw [e, e2]
    linarith

/-- **C228.** In single precision: an update adds at most the fraction `γ = (30 d + 40) / 16777215` of the loss and of the loss
of the zero model, each up to a factor close to four. -/
theorem C228_binary32 (d : ℕ) (hd : 30 * d + 40 ≤ 16777215) :
    let γ : ℚ := (30 * d + 40) / 16777215
    growth (16777216 / 16777215) d ≤ 1 + 3 * γ + 2 * γ ^ 2 ∧ leak (16777216 / 16777215) d ≤ 2 * γ * (1 + γ) := by
  intro γ
  have e : ((16777216 / 16777215 : ℚ≥0) : ℚ) = 1 + 1 / 16777215 := by
    rw [NNRat.cast_div]; norm_num
  have hp := pow_one_add_inv (M := 16777215) (by norm_num) (stepRoundings d) (by
    unfold stepRoundings; push_cast
    have : ((30 * d + 40 : ℕ) : ℚ) ≤ 16777215 := by exact_mod_cast hd
    push_cast at this; linarith)
  have e3 : 1 + 2 * ((stepRoundings d : ℕ) : ℚ) / 16777215 = 1 + γ := by
    simp only [γ, stepRoundings]; push_cast; ring
  rw [e3] at hp
  have h1 : (1 : ℚ) ≤ (1 + 1 / 16777215) ^ stepRoundings d := one_le_pow₀ (by norm_num)
  unfold growth leak
  rw [e]
  generalize (1 + 1 / 16777215 : ℚ) ^ stepRoundings d = x at hp h1
  have hγ : 0 ≤ γ := by linarith
  constructor <;> nlinarith

/-- The loss with the exact weights and the loss with computed ones. -/
theorem nnLoss_weights (c1 : 1 ≤ c) {p : ℕ} {v u we : Mat m n ℚ≥0} (hw : ∀ i j, Rel c p (1 / u i j ^ 2) (we i j)) (w : Mat m k ℚ≥0) (h : Mat k n ℚ≥0) :
    nnLoss v we w h ≤ (c : ℚ) ^ p * qLoss (fun i j => (v i j : ℚ)) (fun i j => (u i j : ℚ)) (fun i a => (w i a : ℚ)) (fun a j => (h a j : ℚ)) ∧
    qLoss (fun i j => (v i j : ℚ)) (fun i j => (u i j : ℚ)) (fun i a => (w i a : ℚ)) (fun a j => (h a j : ℚ)) ≤ (c : ℚ) ^ p * nnLoss v we w h := by
  have hq : qLoss (fun i j => (v i j : ℚ)) (fun i j => (u i j : ℚ)) (fun i a => (w i a : ℚ)) (fun a j => (h a j : ℚ)) =
      ∑ i, ∑ j, (1 / (u i j : ℚ) ^ 2) * ((v i j : ℚ) - ∑ a, (w i a : ℚ) * h a j) ^ 2 := by
    rw [qLoss_eq_WLoss]
    rfl
  have hwq : ∀ i j, (we i j : ℚ) ≤ (c : ℚ) ^ p * (1 / (u i j : ℚ) ^ 2) ∧ (1 / (u i j : ℚ) ^ 2) ≤ (c : ℚ) ^ p * (we i j : ℚ) := fun i j => by
    obtain ⟨h1, h2⟩ := hw i j
    constructor
    · have := NNRat.coe_le_coe.2 h2
      push_cast at this
      linarith
    · have := NNRat.coe_le_coe.2 h1
      push_cast at this
      linarith
  rw [hq]
  unfold nnLoss
  simp only [Finset.mul_sum]
  constructor <;> refine Finset.sum_le_sum fun i _ => Finset.sum_le_sum fun j _ => ?_
  · have := mul_le_mul_of_nonneg_right (hwq i j).1 (sq_nonneg ((v i j : ℚ) - ∑ a, (w i a : ℚ) * h a j))
    linarith
  · have := mul_le_mul_of_nonneg_right (hwq i j).2 (sq_nonneg ((v i j : ℚ) - ∑ a, (w i a : ℚ) * h a j))
    linarith

/-- **C228.** The computed weight agrees with `1/u²` up to two roundings. -/
theorem C228_weights (hA : Accurate A c lo hi) (s : Bool) {u : ℚ≥0} (hu : u ≠ 0) (h1 : Low c lo 1 (u * u)) (h2 : High c hi 1 (u * u))
    (h3 : Low c lo 1 (1 / (u * u))) (h4 : High c hi 1 (1 / (u * u))) :
    ∃ z, A.weightF (fin s u) = fin false z ∧ Rel c 2 (1 / u ^ 2) z := by
  have c1 := hA.one_le
  have hm : A.mul (fin s u) (fin s u) = A.mul (fin false u) (fin false u) := by cases s <;> rfl
  obtain ⟨y, hy, ry⟩ := mul_rel hA (rel_refl c1 0 u) (rel_refl c1 0 u) h1 h2 (by omega)
  obtain ⟨z, hz, rz⟩ := div_rel hA (rel_refl c1 0 1) ry (mul_ne_zero hu hu) h3 h4 (by omega)
  refine ⟨z, ?_, ?_⟩
  · rw [Arith.weightF, hm, hy, hz]
  · rw [pow_two]
    exact rz

/-- **C228.** The losses that training records: `q` is computed at the factors `w`, `h` and `q'` after the next update, both in
floating point arithmetic.  Then `q'` exceeds `q` by no more than the rounding of the weights, of the update and of the two
losses. -/
theorem C228_recorded (hA : Accurate A c lo hi) {ε η top : ℚ} (hB : Close A ε η top) {d e p : ℕ} {hold : Bool} {v u we : Mat m n ℚ≥0}
    {w w' : Mat m k ℚ≥0} {h h' : Mat k n ℚ≥0} (hu0 : ∀ i j, u i j ≠ 0) (hwe : ∀ i j, Rel c p (1 / u i j ^ 2) (we i j))
    (hr : StepRange c lo hi d hold v we w h)
    (hu : A.Update d (fun i j => fin false (v i j)) (fun i j => fin false (we i j)) hold
      (fun i a => fin false (w i a)) (fun a j => fin false (h a j)) (fun i a => fin false (w' i a)) (fun a j => fin false (h' a j)))
    (r : NoOverflow ε η top d e (fun i j => (v i j : ℚ)) (fun i j => (u i j : ℚ)) (fun i a => (w i a : ℚ)) (fun a j => (h a j : ℚ)))
    (r' : NoOverflow ε η top d e (fun i j => (v i j : ℚ)) (fun i j => (u i j : ℚ)) (fun i a => (w' i a : ℚ)) (fun a j => (h' a j : ℚ)))
    {q q' : Fl}
    (hq : A.QEval d e (fun i j => fin false (v i j)) (fun i j => fin false (u i j)) (fun i a => fin false (w i a)) (fun a j => fin false (h a j)) q)
    (hq' : A.QEval d e (fun i j => fin false (v i j)) (fun i j => fin false (u i j)) (fun i a => fin false (w' i a)) (fun a j => fin false (h' a j)) q') :
    ∃ Q Q' : ℚ, IsVal q Q ∧ IsVal q' Q' ∧
      Q' ≤ (c : ℚ) ^ p * (growth c d * ((c : ℚ) ^ p * (Q + lossErr ε η d e (fun i j => (v i j : ℚ)) (fun i j => (u i j : ℚ)) (fun i a => (w i a : ℚ)) (fun a j => (h a j : ℚ)))) +
          leak c d * zeroLoss v we) +
        lossErr ε η d e (fun i j => (v i j : ℚ)) (fun i j => (u i j : ℚ)) (fun i a => (w' i a : ℚ)) (fun a j => (h' a j : ℚ)) := by
  have val : ∀ x : ℚ≥0, IsVal (fin false x) (x : ℚ) := fun x => ⟨false, x, rfl, by simp⟩
  have hu1 : ∀ i j, ((u i j : ℚ≥0) : ℚ) ≠ 0 := fun i j => by exact_mod_cast hu0 i j
  obtain ⟨Q, hQ, hQe⟩ := C225_loss hB (fun i j => val (v i j)) (fun i j => val (u i j)) (fun i a => val (w i a)) (fun a j => val (h a j)) hu1 r hq
  obtain ⟨Q', hQ', hQe'⟩ := C225_loss hB (fun i j => val (v i j)) (fun i j => val (u i j)) (fun i a => val (w' i a)) (fun a j => val (h' a j)) hu1 r' hq'
  refine ⟨Q, Q', hQ, hQ', ?_⟩
  have c1 : (1 : ℚ) ≤ c := by exact_mod_cast hA.one_le
  have hc : (1 : ℚ) ≤ (c : ℚ) ^ p := one_le_pow₀ c1
  have hs : (1 : ℚ) ≤ (c : ℚ) ^ stepRoundings d := one_le_pow₀ c1
  have hg : 0 ≤ growth c d := mul_nonneg (by linarith) (by linarith)
  have k1 := (nnLoss_weights (v := v) hA.one_le hwe w h).1
  have k2 := (nnLoss_weights (v := v) hA.one_le hwe w' h').2
  have k3 := C228_next hA hr hu
  have a1 := (abs_le.1 hQe).1
  have a2 := (abs_le.1 hQe').2
  have b1 : nnLoss v we w h ≤ (c : ℚ) ^ p * (Q + lossErr ε η d e (fun i j => (v i j : ℚ)) (fun i j => (u i j : ℚ)) (fun i a => (w i a : ℚ)) (fun a j => (h a j : ℚ))) :=
    k1.trans (mul_le_mul_of_nonneg_left (by linarith) (by linarith))
  have b2 := k3.trans (add_le_add_left (mul_le_mul_of_nonneg_left b1 hg) _)
  have b3 := k2.trans (mul_le_mul_of_nonneg_left b2 (by linarith))
  linarith

end descent

/-! ## The hypotheses can be met -/

/-- Two samples, two features and two factors in single precision, with and without held profiles. -/
example :
    let v : Mat 2 2 ℚ≥0 := ![![6, 5], ![0, 7]]
    let we : Mat 2 2 ℚ≥0 := ![![1, 1 / 4], ![2, 1]]
    let w : Mat 2 2 ℚ≥0 := ![![1, 2], ![3, 1]]
    let h : Mat 2 2 ℚ≥0 := ![![1 / 2, 0], ![1, 3]]
    (∀ hold, StepRange (16777216 / 16777215) (2 ^ (-126 : ℤ)) (2 ^ (127 : ℤ)) 2 hold v we w h) ∧
      (∀ hold, ∃ W' H', binary32.arith.Update 2 (fun i j => fin false (v i j)) (fun i j => fin false (we i j)) hold
        (fun i a => fin false (w i a)) (fun a j => fin false (h a j)) W' H') ∧
      nnLoss v we w h = 41 ∧ zeroLoss v we = 365 / 4 := by
  refine ⟨fun hold => ⟨?_, ?_⟩, fun hold => ?_, by simp [nnLoss, Fin.sum_univ_two]; norm_num, by simp [zeroLoss, Fin.sum_univ_two]; norm_num⟩
  · intro _
    refine ⟨?_, ?_, ?_, ?_, ?_, ?_, ?_, ?_, ?_, ?_, ?_⟩ <;> (try unfold Low) <;> (try unfold High) <;> decide +kernel
  · cases hold
    · refine ⟨?_, ?_, ?_, ?_, ?_, ?_, ?_, ?_, ?_, ?_, ?_⟩ <;> (try unfold Low) <;> (try unfold High) <;> decide +kernel
    · refine ⟨?_, ?_, ?_, ?_, ?_, ?_, ?_, ?_, ?_, ?_, ?_⟩ <;> (try unfold Low) <;> (try unfold High) <;> decide +kernel
  · obtain ⟨W', H', W₁, H₁, hu, rfl, rfl⟩ := run_exists (A := binary32.arith) (m := 2) (n := 2) (k := 2) (d := 2) (by decide)
      (fun i j => fin false ((![![6, 5], ![0, 7]] : Mat 2 2 ℚ≥0) i j)) (fun i j => fin false ((![![1, 1 / 4], ![2, 1]] : Mat 2 2 ℚ≥0) i j)) [hold]
      (fun i a => fin false ((![![1, 2], ![3, 1]] : Mat 2 2 ℚ≥0) i a)) (fun a j => fin false ((![![1 / 2, 0], ![1, 3]] : Mat 2 2 ℚ≥0) a j))
    exact ⟨_, _, hu⟩

/-- The magnitude of a finite number. -/
def Fl.mag : Fl → ℚ≥0
  | fin _ x => x
  | _ => 0

/-- The run of C146, in which the recorded loss increases, meets the hypotheses of `C228_run`. -/
example : ∃ w h : ℕ → Mat 1 1 ℚ≥0,
    (∀ t < 2, StepRange (16777216 / 16777215) (2 ^ (-126 : ℤ)) (2 ^ (127 : ℤ)) 1 false (fun _ _ => 1) (fun _ _ => 1) (w t) (h t)) ∧
    (∀ t < 2, binary32.arith.Update 1 (fun _ _ => fin false 1) (fun _ _ => fin false 1) false
      (fun i a => fin false (w t i a)) (fun a j => fin false (h t a j))
      (fun i a => fin false (w (t + 1) i a)) (fun a j => fin false (h (t + 1) a j))) ∧
    w 0 0 0 = 21 ∧ w 2 ≠ w 1 := by
  let orb : ℕ → Fl × Fl := fun t => (oneStep binary32.arith (fin false 1) (fin false 1))^[t] (fin false 21, fin false 3)
  have e : ∀ t < 3, orb t = (fin false (orb t).1.mag, fin false (orb t).2.mag) := by decide +kernel
  refine ⟨fun t _ _ => (orb t).1.mag, fun t _ _ => (orb t).2.mag, fun t ht => ?_, fun t ht => ?_, by decide +kernel, ?_⟩
  · have h0 : t = 0 ∨ t = 1 := by omega
    rcases h0 with rfl | rfl
    · refine ⟨fun _ => ⟨?_, ?_, ?_, ?_, ?_, ?_, ?_, ?_, ?_, ?_, ?_⟩, ⟨?_, ?_, ?_, ?_, ?_, ?_, ?_, ?_, ?_, ?_, ?_⟩⟩ <;>
        (try unfold Low) <;> (try unfold High) <;> decide +kernel
    · refine ⟨fun _ => ⟨?_, ?_, ?_, ?_, ?_, ?_, ?_, ?_, ?_, ?_, ?_⟩, ⟨?_, ?_, ?_, ?_, ?_, ?_, ?_, ?_, ?_, ?_, ?_⟩⟩ <;>
        (try unfold Low) <;> (try unfold High) <;> decide +kernel
  · have hu := oneStep_update (A := binary32.arith) (fin false 1) (fin false 1) (orb t)
    have hs : oneStep binary32.arith (fin false 1) (fin false 1) (orb t) = orb (t + 1) := by
      simp only [orb, Function.iterate_succ_apply']
    rw [hs] at hu
    have e1 := e t (by omega)
    have e2 := e (t + 1) (by omega)
    rw [e1, e2] at hu
    exact hu
  · intro h
    have := congrFun (congrFun h 0) 0
    revert this
    decide +kernel

end Esat
