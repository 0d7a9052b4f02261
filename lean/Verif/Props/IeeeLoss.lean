import Mathlib.Tactic.Linarith
import Mathlib.Tactic.Ring
import Mathlib.Tactic.Positivity
import Mathlib.Tactic.FieldSimp
import Mathlib.Algebra.Order.BigOperators.Group.Finset
import Verif.Model.Ieee
import Verif.Model.Metrics
import Verif.Props.Ieee

/-!
# Accuracy of the loss in floating point arithmetic (C225)

The residuals are differences, so their relative error is not bounded. The bounds here are absolute; they hold for data and
factors of any sign.
-/

namespace Esat
open Fl

/-- The finite number `x` is the rational number `r`. -/
def IsVal (x : Fl) (r : ℚ) : Prop := ∃ s y, x = fin s y ∧ r = if s then -(y : ℚ) else y

/-- The rounding does not overflow up to `hi` and its error is at most `ε` times the magnitude, plus `η` for underflow. -/
structure Close (A : Arith) (ε η hi : ℚ) : Prop where
  eps : 0 ≤ ε
  eta : 0 ≤ η
  rnd : ∀ x : ℚ≥0, (x : ℚ) ≤ hi → ∃ y, A.rnd x = some y ∧ |(y : ℚ) - x| ≤ ε * x + η

section arithmetic
variable {A : Arith} {ε η hi : ℚ}

theorem round_is (hA : Close A ε η hi) (s : Bool) (x : ℚ≥0) (h : (x : ℚ) ≤ hi) :
    ∃ r, IsVal (A.round s x) r ∧ |r - (if s then -(x : ℚ) else x)| ≤ ε * x + η := by
  obtain ⟨y, e, hy⟩ := hA.rnd x h
  refine ⟨_, ⟨s, y, by simp [Arith.round, e], rfl⟩, ?_⟩
  cases s
  · simpa using hy
  · rw [if_pos rfl, if_pos rfl, neg_sub_neg, abs_sub_comm]
    exact hy

theorem is_abs {x : Fl} {r : ℚ} (h : IsVal x r) : ∃ s y, x = fin s y ∧ (y : ℚ) = |r| ∧ r = if s then -(y : ℚ) else y := by
  obtain ⟨s, y, e, hr⟩ := h
  refine ⟨s, y, e, ?_, hr⟩
  have : (0 : ℚ) ≤ y := y.2
  cases s <;> simp [hr, abs_of_nonneg this]

theorem add_is (hA : Close A ε η hi) {x y : Fl} {a b : ℚ} (hx : IsVal x a) (hy : IsVal y b) (h : |a + b| ≤ hi) :
    ∃ r, IsVal (A.add x y) r ∧ |r - (a + b)| ≤ ε * |a + b| + η := by
  obtain ⟨s, p, rfl, ha⟩ := hx
  obtain ⟨t, q, rfl, hb⟩ := hy
  have hp : (0 : ℚ) ≤ p := p.2
  have hq : (0 : ℚ) ≤ q := q.2
  have key : ∀ (s : Bool) (z : ℚ≥0), a + b = (if s then -(z : ℚ) else z) →
      ∃ r, IsVal (A.round s z) r ∧ |r - (a + b)| ≤ ε * |a + b| + η := by
    intro s z e
    have hz : (0 : ℚ) ≤ z := z.2
    have ez : |a + b| = z := by rw [e]; cases s <;> simp [abs_of_nonneg hz]
    rw [ez] at h ⊢
    rw [e]
    exact round_is hA s z h
  unfold Arith.add
  dsimp only
  by_cases hst : s = t
  · subst hst
    rw [if_pos rfl]
    refine key s _ ?_
    rw [ha, hb]
    cases s
    · simp
    · simp; ring
  · rw [if_neg hst]
    by_cases hpq : p = q
    · rw [if_pos hpq]
      refine ⟨0, ⟨false, 0, rfl, by simp⟩, ?_⟩
      have : a + b = 0 := by
        rw [ha, hb, hpq]
        cases s <;> cases t <;> simp_all
      rw [this]
      simpa using hA.eta
    · rw [if_neg hpq]
      by_cases hlt : q < p
      · rw [if_pos hlt]
        refine key s _ ?_
        rw [ha, hb, NNRat.coe_sub hlt.le]
        cases s <;> cases t <;> simp_all <;> ring
      · rw [if_neg hlt]
        refine key t _ ?_
        rw [ha, hb, NNRat.coe_sub (not_lt.1 hlt)]
        cases s <;> cases t <;> simp_all <;> ring

theorem neg_is {x : Fl} {a : ℚ} (hx : IsVal x a) : IsVal x.neg (-a) := by
  obtain ⟨s, p, rfl, ha⟩ := hx
  refine ⟨!s, p, rfl, ?_⟩
  cases s <;> simp [ha]

theorem mulEx_is {x y : Fl} {a b : ℚ} (hx : IsVal x a) (hy : IsVal y b) : IsVal (Arith.mulWith Fl.fin x y) (a * b) := by
  obtain ⟨s, p, rfl, ha⟩ := hx
  obtain ⟨t, q, rfl, hb⟩ := hy
  refine ⟨xor s t, p * q, rfl, ?_⟩
  rw [ha, hb]
  cases s <;> cases t <;> simp

theorem mul_is (hA : Close A ε η hi) {x y : Fl} {a b : ℚ} (hx : IsVal x a) (hy : IsVal y b) (h : |a * b| ≤ hi) :
    ∃ r, IsVal (A.mul x y) r ∧ |r - a * b| ≤ ε * |a * b| + η := by
  obtain ⟨s, p, rfl, ep, ha⟩ := is_abs hx
  obtain ⟨t, q, rfl, eq, hb⟩ := is_abs hy
  have e : ((p * q : ℚ≥0) : ℚ) = |a * b| := by rw [abs_mul, ← ep, ← eq]; push_cast; rfl
  obtain ⟨r, h1, h2⟩ := round_is hA (xor s t) (p * q) (by rw [e]; exact h)
  refine ⟨r, h1, ?_⟩
  rw [e] at h2
  have : a * b = if xor s t then -|a * b| else |a * b| := by
    rw [← e, ha, hb]
    cases s <;> cases t <;> simp
  rwa [← this] at h2

theorem div_is (hA : Close A ε η hi) {x y : Fl} {a b : ℚ} (hx : IsVal x a) (hy : IsVal y b) (hb : b ≠ 0) (h : |a / b| ≤ hi) :
    ∃ r, IsVal (A.div x y) r ∧ |r - a / b| ≤ ε * |a / b| + η := by
  obtain ⟨s, p, rfl, ep, ha⟩ := is_abs hx
  obtain ⟨t, q, rfl, eq, hb'⟩ := is_abs hy
  have hq : q ≠ 0 := by
    rintro rfl
    exact hb (abs_eq_zero.1 (by rw [← eq]; rfl))
  have e : ((p / q : ℚ≥0) : ℚ) = |a / b| := by rw [abs_div, ← ep, ← eq]; push_cast; rfl
  obtain ⟨r, h1, h2⟩ := round_is hA (xor s t) (p / q) (by rw [e]; exact h)
  refine ⟨r, by simpa [Arith.div, hq] using h1, ?_⟩
  rw [e] at h2
  have : a / b = if xor s t then -|a / b| else |a / b| := by
    rw [← e, ha, hb']
    cases s <;> cases t <;> simp [div_neg, neg_div]
  rwa [← this] at h2

/-- The error of a sum of products in which each product passes at most `d` roundings; `T` is the sum of the magnitudes and
`N` the number of products. -/
def dotErr (ε η : ℚ) (d : ℕ) (T : ℚ) (N : ℕ) : ℚ := ((1 + ε) ^ d - 1) * T + N * d * η * (1 + ε) ^ d

theorem dotErr_mono (hε : 0 ≤ ε) (hη : 0 ≤ η) {d d' : ℕ} (hd : d ≤ d') {T : ℚ} (hT : 0 ≤ T) (N : ℕ) :
    dotErr ε η d T N ≤ dotErr ε η d' T N := by
  have h1 : (1 + ε) ^ d ≤ (1 + ε) ^ d' := pow_le_pow_right₀ (by linarith) hd
  have h0 : (0 : ℚ) ≤ (1 + ε) ^ d := by positivity
  have hd' : (d : ℚ) ≤ d' := by exact_mod_cast hd
  unfold dotErr
  gcongr

theorem dotErr_nonneg (hε : 0 ≤ ε) (hη : 0 ≤ η) (d : ℕ) {T : ℚ} (hT : 0 ≤ T) (N : ℕ) : 0 ≤ dotErr ε η d T N := by
  have h1 : 1 ≤ (1 + ε) ^ d := one_le_pow₀ (by linarith)
  have : 0 ≤ ((1 + ε) ^ d - 1) * T := mul_nonneg (by linarith) hT
  unfold dotErr
  positivity

/-- One more rounding of a sum of two parts. -/
theorem dotErr_step (hε : 0 ≤ ε) (hη : 0 ≤ η) {D N : ℕ} (hN : 1 ≤ N) {T σ e : ℚ} (hσ : |σ| ≤ T) (he : e ≤ dotErr ε η D T N) (he0 : 0 ≤ e) :
    ε * (|σ| + e) + η + e ≤ dotErr ε η (D + 1) T N := by
  have hp : (1 : ℚ) ≤ (1 + ε) ^ D := one_le_pow₀ (by linarith)
  have hN' : (1 : ℚ) ≤ N := by exact_mod_cast hN
  have h1 : ε * (|σ| + e) ≤ ε * (T + dotErr ε η D T N) := by gcongr
  have h2 : η ≤ N * η * (1 + ε) ^ (D + 1) := by
    have : (1 : ℚ) ≤ N * (1 + ε) ^ (D + 1) := one_le_mul_of_one_le_of_one_le hN' (one_le_pow₀ (by linarith))
    nlinarith
  have h3 : dotErr ε η (D + 1) T N = ε * (T + dotErr ε η D T N) + dotErr ε η D T N + N * η * (1 + ε) ^ (D + 1) := by
    unfold dotErr
    push_cast
    ring
  rw [h3]
  linarith

theorem dot_empty {ι : Type} [DecidableEq ι] {x y : ι → Fl} {d : ℕ} {S : Finset ι} {s : Fl} (h : A.Dot x y d S s)
    (hS : S = ∅) : s = fin false 0 := by
  induction h with
  | zero => rfl
  | term i => exact absurd hS (Finset.singleton_ne_empty i)
  | fma i hi _ _ => exact absurd hS (Finset.insert_ne_empty _ _)
  | add hST _ _ ih ih' =>
    rw [Finset.union_eq_empty] at hS
    rw [ih hS.1, ih' hS.2]
    simp [Arith.add, Arith.round, A.rnd_zero]

theorem dot_is (hA : Close A ε η hi) {ι : Type} [DecidableEq ι] {x y : ι → Fl} {a b : ι → ℚ} (hx : ∀ i, IsVal (x i) (a i))
    (hy : ∀ i, IsVal (y i) (b i)) {d : ℕ} {S : Finset ι} {s : Fl} (h : A.Dot x y d S s)
    (hh : ∑ i ∈ S, |a i * b i| + dotErr ε η d (∑ i ∈ S, |a i * b i|) S.card ≤ hi) :
    ∃ r, IsVal s r ∧ |r - ∑ i ∈ S, a i * b i| ≤ dotErr ε η d (∑ i ∈ S, |a i * b i|) S.card := by
  have hε := hA.eps
  have hη := hA.eta
  have hT0 : ∀ S : Finset ι, 0 ≤ ∑ i ∈ S, |a i * b i| := fun S => Finset.sum_nonneg fun _ _ => abs_nonneg _
  induction h with
  | zero => exact ⟨0, ⟨false, 0, rfl, by simp⟩, by simp [dotErr]⟩
  | term i =>
    simp only [Finset.sum_singleton, Finset.card_singleton] at hh ⊢
    have h0 := dotErr_nonneg hε hη 1 (abs_nonneg (a i * b i)) 1
    obtain ⟨r, h1, h2⟩ := mul_is hA (hx i) (hy i) (by linarith)
    refine ⟨r, h1, h2.trans ?_⟩
    unfold dotErr
    have : 0 ≤ η * ε := mul_nonneg hη hε
    push_cast
    nlinarith
  | @fma d S s i hi' hd ih =>
    rw [Finset.sum_insert hi', Finset.card_insert_of_notMem hi'] at hh ⊢
    rw [Finset.sum_insert hi']
    have hm : dotErr ε η d (∑ j ∈ S, |a j * b j|) S.card ≤ dotErr ε η d (|a i * b i| + ∑ j ∈ S, |a j * b j|) (S.card + 1) := by
      have h1 : (1 : ℚ) ≤ (1 + ε) ^ d := one_le_pow₀ (by linarith)
      have h2 : (0 : ℚ) ≤ (1 + ε) ^ d - 1 := by linarith
      have h3 : ∑ j ∈ S, |a j * b j| ≤ |a i * b i| + ∑ j ∈ S, |a j * b j| := by linarith [abs_nonneg (a i * b i)]
      unfold dotErr
      push_cast
      gcongr
      linarith
    have hs1 := dotErr_step (η := η) (D := d) (N := S.card + 1) (T := |a i * b i| + ∑ j ∈ S, |a j * b j|)
      (σ := a i * b i + ∑ j ∈ S, a j * b j) (e := dotErr ε η d (∑ j ∈ S, |a j * b j|) S.card) hε hη (by omega)
      ((abs_add_le _ _).trans (by gcongr; exact Finset.abs_sum_le_sum_abs _ _)) hm (dotErr_nonneg hε hη _ (hT0 S) _)
    have hpos : 0 ≤ dotErr ε η d (∑ j ∈ S, |a j * b j|) S.card := dotErr_nonneg hε hη _ (hT0 S) _
    have hmono := dotErr_mono hε hη (Nat.le_succ d) (add_nonneg (abs_nonneg (a i * b i)) (hT0 S)) (S.card + 1)
    obtain ⟨r, h1, h2⟩ := ih (by have := abs_nonneg (a i * b i); simp only [Nat.succ_eq_add_one] at hmono; linarith)
    set e := dotErr ε η d (∑ j ∈ S, |a j * b j|) S.card with he
    have habs : |a i * b i + r| ≤ |a i * b i + ∑ j ∈ S, a j * b j| + e := by
      have : a i * b i + r = (a i * b i + ∑ j ∈ S, a j * b j) + (r - ∑ j ∈ S, a j * b j) := by ring
      rw [this]
      exact (abs_add_le _ _).trans (by linarith)
    have hle : |a i * b i + ∑ j ∈ S, a j * b j| ≤ |a i * b i| + ∑ j ∈ S, |a j * b j| :=
      (abs_add_le _ _).trans (by gcongr; exact Finset.abs_sum_le_sum_abs _ _)
    obtain ⟨z, h3, h4⟩ := add_is hA (mulEx_is (hx i) (hy i)) h1 (by
      have : 0 ≤ ε * (|a i * b i + ∑ j ∈ S, a j * b j| + e) := mul_nonneg hε (by positivity)
      linarith)
    refine ⟨z, h3, ?_⟩
    have : z - (a i * b i + ∑ j ∈ S, a j * b j) = (z - (a i * b i + r)) + (r - ∑ j ∈ S, a j * b j) := by ring
    rw [this]
    refine (abs_add_le _ _).trans ?_
    have : ε * |a i * b i + r| ≤ ε * (|a i * b i + ∑ j ∈ S, a j * b j| + e) := by gcongr
    linarith
  | @add d d' S T s t hST hd hd' ih ih' =>
    by_cases hne : S ∪ T = ∅
    · have hz := dot_empty (Arith.Dot.add hST hd hd') hne
      rw [hz, hne]
      exact ⟨0, ⟨false, 0, rfl, by simp⟩, by simp [dotErr]⟩
    rw [Finset.sum_union hST, Finset.card_union_of_disjoint hST] at hh ⊢
    rw [Finset.sum_union hST]
    have hN : 1 ≤ S.card + T.card := by
      rw [← Finset.card_union_of_disjoint hST]
      exact Finset.card_pos.2 (Finset.nonempty_iff_ne_empty.2 hne)
    set D := max d d' with hD
    have hsplit : dotErr ε η D (∑ j ∈ S, |a j * b j|) S.card + dotErr ε η D (∑ j ∈ T, |a j * b j|) T.card
        = dotErr ε η D (∑ j ∈ S, |a j * b j| + ∑ j ∈ T, |a j * b j|) (S.card + T.card) := by
      unfold dotErr
      push_cast
      ring
    have hm1 := dotErr_mono hε hη (le_max_left d d') (hT0 S) S.card
    have hm2 := dotErr_mono hε hη (le_max_right d d') (hT0 T) T.card
    rw [← hD] at hm1 hm2
    have hp1 := dotErr_nonneg hε hη D (hT0 S) S.card
    have hp2 := dotErr_nonneg hε hη D (hT0 T) T.card
    have hmono := dotErr_mono hε hη (Nat.le_succ D) (add_nonneg (hT0 S) (hT0 T)) (S.card + T.card)
    simp only [Nat.succ_eq_add_one] at hmono
    obtain ⟨r, h1, h2⟩ := ih (by linarith [hT0 T])
    obtain ⟨r', h1', h2'⟩ := ih' (by linarith [hT0 S])
    have hle : |∑ j ∈ S, a j * b j + ∑ j ∈ T, a j * b j| ≤ ∑ j ∈ S, |a j * b j| + ∑ j ∈ T, |a j * b j| :=
      (abs_add_le _ _).trans (add_le_add (Finset.abs_sum_le_sum_abs _ _) (Finset.abs_sum_le_sum_abs _ _))
    have hstep := dotErr_step (η := η) (D := D) (σ := ∑ j ∈ S, a j * b j + ∑ j ∈ T, a j * b j)
      (e := dotErr ε η D (∑ j ∈ S, |a j * b j|) S.card + dotErr ε η D (∑ j ∈ T, |a j * b j|) T.card) hε hη hN hle hsplit.le (by linarith)
    set e := dotErr ε η D (∑ j ∈ S, |a j * b j|) S.card + dotErr ε η D (∑ j ∈ T, |a j * b j|) T.card with he
    have habs : |r + r'| ≤ |∑ j ∈ S, a j * b j + ∑ j ∈ T, a j * b j| + e := by
      have : r + r' = (∑ j ∈ S, a j * b j + ∑ j ∈ T, a j * b j) + ((r - ∑ j ∈ S, a j * b j) + (r' - ∑ j ∈ T, a j * b j)) := by ring
      rw [this]
      refine (abs_add_le _ _).trans (add_le_add le_rfl ((abs_add_le _ _).trans ?_))
      linarith
    obtain ⟨z, h3, h4⟩ := add_is hA h1 h1' (by
      have : 0 ≤ ε * (|∑ j ∈ S, a j * b j + ∑ j ∈ T, a j * b j| + e) := mul_nonneg hε (by positivity)
      linarith)
    refine ⟨z, h3, ?_⟩
    have : z - (∑ j ∈ S, a j * b j + ∑ j ∈ T, a j * b j) = (z - (r + r')) + ((r - ∑ j ∈ S, a j * b j) + (r' - ∑ j ∈ T, a j * b j)) := by ring
    rw [this]
    refine (abs_add_le _ _).trans ?_
    have h5 := abs_add_le (r - ∑ j ∈ S, a j * b j) (r' - ∑ j ∈ T, a j * b j)
    have : ε * |r + r'| ≤ ε * (|∑ j ∈ S, a j * b j + ∑ j ∈ T, a j * b j| + e) := by gcongr
    linarith

end arithmetic

/-! ## Binary formats -/

/-- C225: rounding to nearest in a binary format of `p` bits: the error is at most `2^-p` times the magnitude, plus half the distance of the
subnormal numbers. -/
theorem C225_format (F : Format) (hp : 1 ≤ F.prec) (he : F.emin ≤ F.emax) :
    Close F.arith (2 ^ (-(F.prec : ℤ))) (2 ^ (F.emin - F.prec)) (2 ^ F.emax) := by
  refine ⟨by positivity, by positivity, fun x hx => ?_⟩
  have hx0 : (0 : ℚ) ≤ x := x.2
  obtain ⟨r1, r2⟩ := rne_near (x / F.ulp (Int.log 2 x))
  have hu0 : F.ulp (Int.log 2 x) ≠ 0 := (zpow_pos two_pos _).ne'
  have hu0' : (0 : ℚ) < F.ulp (Int.log 2 x) := NNRat.coe_pos.2 (pos_iff_ne_zero.2 hu0)
  set y := F.nearest x with hy
  have e1 : x / F.ulp (Int.log 2 x) * F.ulp (Int.log 2 x) = x := div_mul_cancel₀ x hu0
  have n1 : 2 * (y : ℚ) ≤ 2 * x + F.ulp (Int.log 2 x) := by
    have := mul_le_mul_left r1 (F.ulp (Int.log 2 x))
    rw [add_mul, one_mul, mul_assoc, mul_assoc, e1] at this
    exact_mod_cast this
  have n2 : 2 * (x : ℚ) ≤ 2 * y + F.ulp (Int.log 2 x) := by
    have := mul_le_mul_left r2 (F.ulp (Int.log 2 x))
    rw [add_mul, one_mul, mul_assoc, mul_assoc, e1] at this
    exact_mod_cast this
  have hul : (F.ulp (Int.log 2 x) : ℚ) = 2 * 2 ^ (max (Int.log 2 x) F.emin - F.prec) := by
    unfold Format.ulp
    push_cast
    rw [← zpow_one_add₀ two_ne_zero]
    congr 1
    ring
  have hprec : (2 : ℚ) ^ (-(F.prec : ℤ)) ≤ 1 / 2 := by
    calc (2 : ℚ) ^ (-(F.prec : ℤ)) ≤ 2 ^ (-1 : ℤ) := zpow_le_zpow_right₀ (by norm_num) (by omega)
      _ = 1 / 2 := by norm_num
  have hη0 : (0 : ℚ) < 2 ^ (F.emin - F.prec) := by positivity
  have hε0 : (0 : ℚ) < 2 ^ (-(F.prec : ℤ)) := by positivity
  have herr : x = 0 ∨ (F.ulp (Int.log 2 x) : ℚ) ≤ 2 * (2 ^ (-(F.prec : ℤ)) * x) ∨
      (F.ulp (Int.log 2 x) : ℚ) = 2 * 2 ^ (F.emin - F.prec) := by
    rcases le_total F.emin (Int.log 2 x) with h | h
    · rcases eq_or_ne x 0 with h0 | h0
      · exact .inl h0
      refine .inr (.inl ?_)
      have hlog : (2 : ℚ) ^ Int.log 2 x ≤ x := by
        have : (2 : ℚ≥0) ^ Int.log 2 x ≤ x := by
          have := Int.zpow_log_le_self (b := 2) (by norm_num) (pos_iff_ne_zero.2 h0)
          exact_mod_cast this
        exact_mod_cast this
      rw [hul, max_eq_left h, sub_eq_add_neg, zpow_add₀ two_ne_zero, mul_comm ((2 : ℚ) ^ Int.log 2 x)]
      gcongr
    · exact .inr (.inr (by rw [hul, max_eq_right h]))
  have hemax : (2 : ℚ) ^ (F.emin - F.prec) ≤ 2 ^ F.emax / 2 := by
    calc (2 : ℚ) ^ (F.emin - F.prec) ≤ 2 ^ (F.emax - 1) := zpow_le_zpow_right₀ (by norm_num) (by omega)
      _ = 2 ^ F.emax / 2 := by rw [zpow_sub_one₀ two_ne_zero]; ring
  have hM : (0 : ℚ) < 2 ^ F.emax := by positivity
  have hexz : x = 0 → y = 0 := fun h => by rw [hy, h]; simp [Format.nearest, Format.rne]
  have hbig : y < 2 ^ (F.emax + 1) := by
    rw [zpow_add_one₀ two_ne_zero, ← NNRat.coe_lt_coe]
    push_cast
    rcases herr with h | h | h
    · rw [hexz h]; push_cast; linarith
    · have : (2 : ℚ) ^ (-(F.prec : ℤ)) * x ≤ 1 / 2 * x := by gcongr
      linarith
    · linarith
  refine ⟨y, ?_, ?_⟩
  · show F.rnd x = some y
    rw [Format.rnd, if_neg (not_le.mpr hbig)]
  · rw [abs_le]
    rcases herr with h | h | h
    · rw [hexz h, h]
      constructor <;> simpa using hη0.le
    · constructor <;> linarith
    · have : 0 ≤ (2 : ℚ) ^ (-(F.prec : ℤ)) * x := by positivity
      constructor <;> linarith

/-- C225: single precision. -/
theorem C225_binary32 : Close binary32.arith (1 / 16777216) (2 ^ (-150 : ℤ)) (2 ^ (127 : ℤ)) := by
  have h := C225_format binary32 (by decide) (by decide)
  have e : (2 : ℚ) ^ (-(binary32.prec : ℤ)) = 1 / 16777216 := by norm_num [binary32, zpow_neg]
  rw [e] at h
  exact h

/-- C225: double precision. -/
theorem C225_binary64 : Close binary64.arith (1 / 9007199254740992) (2 ^ (-1075 : ℤ)) (2 ^ (1023 : ℤ)) := by
  have h := C225_format binary64 (by decide) (by decide)
  have e : (2 : ℚ) ^ (-(binary64.prec : ℤ)) = 1 / 9007199254740992 := by norm_num [binary64, zpow_neg]
  rw [e] at h
  exact h

/-! ## The loss -/

section loss
variable {A : Arith} {ε η hi : ℚ} {m n k : ℕ}

/-- The exact weighted residual. -/
def exactResid (v u : Mat m n ℚ) (w : Mat m k ℚ) (h : Mat k n ℚ) (i : Fin m) (j : Fin n) : ℚ := (v i j - ∑ a, w i a * h a j) / u i j

/-- The error of one entry of `W H`. -/
def prodErr (ε η : ℚ) (d : ℕ) (w : Mat m k ℚ) (h : Mat k n ℚ) (i : Fin m) (j : Fin n) : ℚ := dotErr ε η d (∑ a, |w i a * h a j|) k

/-- The error of one weighted residual. -/
def residErr (ε η : ℚ) (d : ℕ) (v u : Mat m n ℚ) (w : Mat m k ℚ) (h : Mat k n ℚ) (i : Fin m) (j : Fin n) : ℚ :=
  ((1 + ε) ^ 2 - 1) * |exactResid v u w h i j| + ((1 + ε) ^ 2 * prodErr ε η d w h i j + (1 + ε) * η) / |u i j| + η

/-- The error of the loss; `e` is the number of roundings a squared residual passes in the sum. -/
def lossErr (ε η : ℚ) (d e : ℕ) (v u : Mat m n ℚ) (w : Mat m k ℚ) (h : Mat k n ℚ) : ℚ :=
  (1 + ε) ^ e * (∑ i, ∑ j, (|exactResid v u w h i j| + residErr ε η d v u w h i j) ^ 2) - (∑ i, ∑ j, exactResid v u w h i j ^ 2) +
    m * n * e * η * (1 + ε) ^ e

/-- No overflow in the residuals: the magnitudes with their errors are at most `hi`. -/
structure ResidRange (ε η hi : ℚ) (d : ℕ) (v u : Mat m n ℚ) (w : Mat m k ℚ) (h : Mat k n ℚ) : Prop where
  prod : ∀ i j, ∑ a, |w i a * h a j| + prodErr ε η d w h i j ≤ hi
  diff : ∀ i j, |v i j - ∑ a, w i a * h a j| + prodErr ε η d w h i j ≤ hi
  quot : ∀ i j, |exactResid v u w h i j| + residErr ε η d v u w h i j ≤ hi

/-- No overflow in the loss. -/
structure NoOverflow (ε η hi : ℚ) (d e : ℕ) (v u : Mat m n ℚ) (w : Mat m k ℚ) (h : Mat k n ℚ) : Prop extends
    ResidRange ε η hi d v u w h where
  sum : (1 + ε) ^ e * (∑ i, ∑ j, (|exactResid v u w h i j| + residErr ε η d v u w h i j) ^ 2) + m * n * e * η * (1 + ε) ^ e ≤ hi

theorem prodErr_nonneg (hε : 0 ≤ ε) (hη : 0 ≤ η) (d : ℕ) (w : Mat m k ℚ) (h : Mat k n ℚ) (i : Fin m) (j : Fin n) :
    0 ≤ prodErr ε η d w h i j := dotErr_nonneg hε hη _ (Finset.sum_nonneg fun _ _ => abs_nonneg _) _

theorem residErr_nonneg (hε : 0 ≤ ε) (hη : 0 ≤ η) (d : ℕ) (v u : Mat m n ℚ) (w : Mat m k ℚ) (h : Mat k n ℚ) (i : Fin m) (j : Fin n) :
    0 ≤ residErr ε η d v u w h i j := by
  have := prodErr_nonneg hε hη d w h i j
  have h2 : 0 ≤ (1 + ε) ^ 2 - 1 := by nlinarith
  unfold residErr
  positivity

/-- Each entry of `V - WH` is finite; divided by the uncertainty it is close to the exact weighted residual. -/
theorem diff_is (hA : Close A ε η hi) {d : ℕ} {V : Mat m n Fl} {W : Mat m k Fl} {H : Mat k n Fl}
    {v u : Mat m n ℚ} {w : Mat m k ℚ} {h : Mat k n ℚ} (hV : ∀ i j, IsVal (V i j) (v i j))
    (hW : ∀ i a, IsVal (W i a) (w i a)) (hH : ∀ a j, IsVal (H a j) (h a j)) (hu : ∀ i j, u i j ≠ 0)
    (hr : ResidRange ε η hi d v u w h) {WH : Mat m n Fl} (hWH : A.MatMul d W H WH) (i : Fin m) (j : Fin n) :
    ∃ z, IsVal (A.sub (V i j) (WH i j)) z ∧
      |z / u i j - exactResid v u w h i j| ≤ ε * |exactResid v u w h i j| + ((1 + ε) * prodErr ε η d w h i j + η) / |u i j| := by
  have hε := hA.eps
  have hη := hA.eta
  obtain ⟨d', hd', hdot⟩ := hWH i j
  have hT0 : 0 ≤ ∑ a, |w i a * h a j| := Finset.sum_nonneg fun _ _ => abs_nonneg _
  have hmono := dotErr_mono hε hη hd' hT0 k
  have hpr := hr.prod i j
  obtain ⟨x, hx, hxe⟩ := dot_is hA (hW i) (fun a => hH a j) hdot (by
    rw [Finset.card_univ, Fintype.card_fin]
    unfold prodErr at hpr
    linarith)
  rw [Finset.card_univ, Fintype.card_fin] at hxe
  replace hxe : |x - ∑ a, w i a * h a j| ≤ prodErr ε η d w h i j := hxe.trans hmono
  set E := prodErr ε η d w h i j with hE
  set t := ∑ a, w i a * h a j with ht
  have h1 : |v i j + -x| ≤ |v i j - t| + E := by
    have : v i j + -x = (v i j - t) + (t - x) := by ring
    rw [this]
    refine (abs_add_le _ _).trans ?_
    rw [abs_sub_comm t x]
    linarith
  obtain ⟨z, hz, hze⟩ := add_is hA (hV i j) (neg_is hx) (h1.trans (hr.diff i j))
  have hzt : |z - (v i j - t)| ≤ ε * (|v i j - t| + E) + η + E := by
    have : z - (v i j - t) = (z - (v i j + -x)) + (t - x) := by ring
    rw [this]
    refine (abs_add_le _ _).trans ?_
    rw [abs_sub_comm t x]
    have : ε * |v i j + -x| ≤ ε * (|v i j - t| + E) := by gcongr
    linarith
  have hu0 : 0 < |u i j| := abs_pos.2 (hu i j)
  have hR : |exactResid v u w h i j| * |u i j| = |v i j - t| := by
    unfold exactResid
    rw [abs_div, div_mul_cancel₀ _ hu0.ne']
  refine ⟨z, hz, ?_⟩
  have e1 : z / u i j - exactResid v u w h i j = (z - (v i j - t)) / u i j := by
    unfold exactResid
    ring
  rw [e1, abs_div, div_le_iff₀ hu0, add_mul, div_mul_cancel₀ _ hu0.ne', mul_assoc, hR]
  linarith

theorem residErr_eq (ε η : ℚ) (d : ℕ) (v u : Mat m n ℚ) (w : Mat m k ℚ) (h : Mat k n ℚ) (i : Fin m) (j : Fin n) :
    residErr ε η d v u w h i j = ε * |exactResid v u w h i j| + ((1 + ε) * prodErr ε η d w h i j + η) / |u i j| +
      (ε * (|exactResid v u w h i j| + (ε * |exactResid v u w h i j| + ((1 + ε) * prodErr ε η d w h i j + η) / |u i j|)) + η) := by
  unfold residErr
  ring

/-- C225: each computed weighted residual differs from the exact one by at most `residErr`. -/
theorem C225_residual (hA : Close A ε η hi) {d : ℕ} {V U : Mat m n Fl} {W : Mat m k Fl} {H : Mat k n Fl}
    {v u : Mat m n ℚ} {w : Mat m k ℚ} {h : Mat k n ℚ} (hV : ∀ i j, IsVal (V i j) (v i j)) (hU : ∀ i j, IsVal (U i j) (u i j))
    (hW : ∀ i a, IsVal (W i a) (w i a)) (hH : ∀ a j, IsVal (H a j) (h a j)) (hu : ∀ i j, u i j ≠ 0)
    (hr : ResidRange ε η hi d v u w h) {WH : Mat m n Fl} (hWH : A.MatMul d W H WH) (i : Fin m) (j : Fin n) :
    ∃ r, IsVal (A.resid V U WH i j) r ∧ |r - exactResid v u w h i j| ≤ residErr ε η d v u w h i j := by
  have hε := hA.eps
  have hη := hA.eta
  have hE0 := prodErr_nonneg hε hη d w h i j
  obtain ⟨z, hz, hzu⟩ := diff_is hA hV hW hH hu hr hWH i j
  have hu0 : 0 < |u i j| := abs_pos.2 (hu i j)
  have hre := residErr_eq ε η d v u w h i j
  have hq := hr.quot i j
  set E := prodErr ε η d w h i j with hE
  have hR0 : 0 ≤ |exactResid v u w h i j| := abs_nonneg _
  have hzR : |z / u i j| ≤ |exactResid v u w h i j| + (ε * |exactResid v u w h i j| + ((1 + ε) * E + η) / |u i j|) := by
    have : z / u i j = exactResid v u w h i j + (z / u i j - exactResid v u w h i j) := by ring
    rw [this]
    exact (abs_add_le _ _).trans (by linarith)
  set R := |exactResid v u w h i j| with hRdef
  have hA0 : 0 ≤ ((1 + ε) * E + η) / |u i j| := by positivity
  have hεR : 0 ≤ ε * (R + (ε * R + ((1 + ε) * E + η) / |u i j|)) := by positivity
  obtain ⟨r, hr1, hr2⟩ := div_is hA hz (hU i j) (hu i j) (by rw [hre] at hq; linarith)
  refine ⟨r, hr1, ?_⟩
  have e2 : r - exactResid v u w h i j = (z / u i j - exactResid v u w h i j) + (r - z / u i j) := by ring
  rw [e2, hre]
  refine (abs_add_le _ _).trans ?_
  have : ε * |z / u i j| ≤ ε * (R + (ε * R + ((1 + ε) * E + η) / |u i j|)) := by gcongr
  linarith

/-- C225: the computed loss is finite and differs from the exact loss, the sum of the squared weighted residuals, by at most `lossErr`. -/
theorem C225_loss (hA : Close A ε η hi) {d e : ℕ} {V U : Mat m n Fl} {W : Mat m k Fl} {H : Mat k n Fl}
    {v u : Mat m n ℚ} {w : Mat m k ℚ} {h : Mat k n ℚ} (hV : ∀ i j, IsVal (V i j) (v i j)) (hU : ∀ i j, IsVal (U i j) (u i j))
    (hW : ∀ i a, IsVal (W i a) (w i a)) (hH : ∀ a j, IsVal (H a j) (h a j)) (hu : ∀ i j, u i j ≠ 0)
    (hr : NoOverflow ε η hi d e v u w h) {q : Fl} (hq : A.QEval d e V U W H q) :
    ∃ Q, IsVal q Q ∧ |Q - qLoss v u w h| ≤ lossErr ε η d e v u w h := by
  have hε := hA.eps
  have hη := hA.eta
  obtain ⟨WH, hWH, e', he', hdot⟩ := hq
  have hres := fun p : Fin m × Fin n => C225_residual hA hV hU hW hH hu hr.toResidRange hWH p.1 p.2
  choose r hr1 hr2 using hres
  have hδ := residErr_nonneg hε hη d v u w h
  have hpos : ∀ e : ℕ, (1 : ℚ) ≤ (1 + ε) ^ e := fun e => one_le_pow₀ (by linarith)
  have hab : ∀ p : Fin m × Fin n, |r p| ≤ |exactResid v u w h p.1 p.2| + residErr ε η d v u w h p.1 p.2 := fun p => by
    have : r p = exactResid v u w h p.1 p.2 + (r p - exactResid v u w h p.1 p.2) := by ring
    rw [this]
    exact (abs_add_le _ _).trans (by linarith [hr2 p])
  have hsq : ∀ p : Fin m × Fin n, r p ^ 2 ≤ (|exactResid v u w h p.1 p.2| + residErr ε η d v u w h p.1 p.2) ^ 2 := fun p => by
    rw [← sq_abs (r p)]
    exact pow_le_pow_left₀ (abs_nonneg _) (hab p) 2
  have hdiff : ∀ p : Fin m × Fin n, |r p ^ 2 - exactResid v u w h p.1 p.2 ^ 2| ≤
      (|exactResid v u w h p.1 p.2| + residErr ε η d v u w h p.1 p.2) ^ 2 - exactResid v u w h p.1 p.2 ^ 2 := fun p => by
    have e1 : r p ^ 2 - exactResid v u w h p.1 p.2 ^ 2 =
        (r p - exactResid v u w h p.1 p.2) * (r p + exactResid v u w h p.1 p.2) := by ring
    rw [e1, abs_mul]
    have e2 : |r p + exactResid v u w h p.1 p.2| ≤ 2 * |exactResid v u w h p.1 p.2| + residErr ε η d v u w h p.1 p.2 :=
      (abs_add_le _ _).trans (by linarith [hab p])
    have e3 : exactResid v u w h p.1 p.2 ^ 2 = |exactResid v u w h p.1 p.2| ^ 2 := (sq_abs _).symm
    calc |r p - exactResid v u w h p.1 p.2| * |r p + exactResid v u w h p.1 p.2|
        ≤ residErr ε η d v u w h p.1 p.2 * (2 * |exactResid v u w h p.1 p.2| + residErr ε η d v u w h p.1 p.2) :=
          mul_le_mul (hr2 p) e2 (abs_nonneg _) (hδ _ _)
      _ = _ := by rw [e3]; ring
  have hS : ∑ p : Fin m × Fin n, |r p * r p| = ∑ p : Fin m × Fin n, r p ^ 2 := Finset.sum_congr rfl fun p _ => by
    rw [abs_mul_self]; ring
  have hS' : ∑ p : Fin m × Fin n, r p * r p = ∑ p : Fin m × Fin n, r p ^ 2 := Finset.sum_congr rfl fun p _ => by ring
  have hB : ∑ p : Fin m × Fin n, r p ^ 2 ≤ ∑ i, ∑ j, (|exactResid v u w h i j| + residErr ε η d v u w h i j) ^ 2 := by
    rw [← Fintype.sum_prod_type' (f := fun i j => (|exactResid v u w h i j| + residErr ε η d v u w h i j) ^ 2)]
    exact Finset.sum_le_sum fun p _ => hsq p
  have hD : |∑ p : Fin m × Fin n, r p ^ 2 - ∑ i, ∑ j, exactResid v u w h i j ^ 2| ≤
      (∑ i, ∑ j, (|exactResid v u w h i j| + residErr ε η d v u w h i j) ^ 2) - ∑ i, ∑ j, exactResid v u w h i j ^ 2 := by
    rw [← Fintype.sum_prod_type' (f := fun i j => exactResid v u w h i j ^ 2),
      ← Fintype.sum_prod_type' (f := fun i j => (|exactResid v u w h i j| + residErr ε η d v u w h i j) ^ 2),
      ← Finset.sum_sub_distrib, ← Finset.sum_sub_distrib]
    exact (Finset.abs_sum_le_sum_abs _ _).trans (Finset.sum_le_sum fun p _ => hdiff p)
  set B := ∑ i, ∑ j, (|exactResid v u w h i j| + residErr ε η d v u w h i j) ^ 2 with hBdef
  set S := ∑ p : Fin m × Fin n, r p ^ 2 with hSdef
  have hS0 : 0 ≤ S := Finset.sum_nonneg fun _ _ => sq_nonneg _
  have hcard : (Finset.univ : Finset (Fin m × Fin n)).card = m * n := by simp
  have hE : S + dotErr ε η e S (m * n) ≤ (1 + ε) ^ e * B + m * n * e * η * (1 + ε) ^ e := by
    unfold dotErr
    have : (1 + ε) ^ e * S ≤ (1 + ε) ^ e * B := mul_le_mul_of_nonneg_left hB (by linarith [hpos e])
    push_cast
    linarith
  have hm := dotErr_mono hε hη he' hS0 (m * n)
  have hsum := hr.sum
  rw [← hBdef] at hsum
  obtain ⟨Q, hQ1, hQ2⟩ := dot_is hA hr1 hr1 hdot (by rw [hS, hcard]; linarith)
  rw [hS, hS', hcard] at hQ2
  refine ⟨Q, hQ1, ?_⟩
  have hq : qLoss v u w h = ∑ i, ∑ j, exactResid v u w h i j ^ 2 := by
    simp only [qLoss, exactResid, mmul, if_true]
    exact Finset.sum_congr rfl fun i _ => Finset.sum_congr rfl fun j _ => by ring
  rw [hq]
  have e2 : Q - ∑ i, ∑ j, exactResid v u w h i j ^ 2 = (Q - S) + (S - ∑ i, ∑ j, exactResid v u w h i j ^ 2) := by ring
  rw [e2]
  refine (abs_add_le _ _).trans ?_
  have hE2 : dotErr ε η e S (m * n) ≤ ((1 + ε) ^ e - 1) * B + m * n * e * η * (1 + ε) ^ e := by
    unfold dotErr
    have : ((1 + ε) ^ e - 1) * S ≤ ((1 + ε) ^ e - 1) * B := mul_le_mul_of_nonneg_left hB (by linarith [hpos e])
    push_cast
    linarith
  unfold lossErr
  rw [← hBdef]
  linarith

/-- C225: such evaluations exist, for instance the summation one after the other; an evaluation with a bounded number of roundings is one of
those considered before (C141, C143). -/
theorem C225_evaluations {d e : ℕ} (hd : k ≤ d) (he : m * n ≤ e) (V U : Mat m n Fl) (W : Mat m k Fl) (H : Mat k n Fl) :
    (∃ q, A.QEval d e V U W H q) ∧ ∀ q, A.QOf d V U W H q ↔ ∃ e, A.QEval d e V U W H q := by
  constructor
  · obtain ⟨WH, h⟩ := matMul_exists (A := A) hd W H
    obtain ⟨q, hq⟩ := dot_exists (A := A) (fun p : Fin m × Fin n => A.resid V U WH p.1 p.2) (fun p => A.resid V U WH p.1 p.2) Finset.univ
    exact ⟨q, WH, h, _, by simpa using he, hq⟩
  · intro q
    constructor
    · rintro ⟨WH, h, d', hd'⟩
      exact ⟨d', WH, h, d', le_rfl, hd'⟩
    · rintro ⟨_, WH, h, d', _, hd'⟩
      exact ⟨WH, h, d', hd'⟩

/-- Comparison of finite numbers. -/
theorem lt_is {x y : Fl} {a b : ℚ} (hx : IsVal x a) (hy : IsVal y b) : x.lt y = true ↔ a < b := by
  obtain ⟨s, p, rfl, ha⟩ := hx
  obtain ⟨t, q, rfl, hb⟩ := hy
  have hp : (0 : ℚ) ≤ p := p.2
  have hq : (0 : ℚ) ≤ q := q.2
  rw [ha, hb]
  cases s <;> cases t <;> simp only [Fl.lt, decide_eq_true_eq, if_true, Bool.false_eq_true, if_false]
  · exact NNRat.coe_lt_coe.symm
  · constructor
    · exact False.elim
    · intro h; linarith
  · constructor
    · rintro (h | h)
      · have : (0 : ℚ) < p := NNRat.coe_pos.2 (pos_iff_ne_zero.2 h)
        linarith
      · have : (0 : ℚ) < q := NNRat.coe_pos.2 (pos_iff_ne_zero.2 h)
        linarith
    · intro h
      by_contra hc
      push Not at hc
      rw [hc.1, hc.2] at h
      simp at h
  · rw [neg_lt_neg_iff]
    exact NNRat.coe_lt_coe.symm

/-- C225: the test for the end of the training compares the exact decrease of the loss with `delta`, up to the errors: `B` bounds the errors of the
two losses. -/
theorem C225_stop (hA : Close A ε η hi) {front back delta : Fl} {f b Q Q' B δ : ℚ} (hf : IsVal front f) (hb : IsVal back b)
    (hd : IsVal delta δ) (h1 : |f - Q| + |b - Q'| ≤ B) (hr : |Q - Q'| + B ≤ hi) :
    (A.converges front back delta = true → Q - Q' < δ + B + (ε * (|Q - Q'| + B) + η)) ∧
      (A.converges front back delta = false → δ ≤ Q - Q' + B + (ε * (|Q - Q'| + B) + η)) := by
  have hε := hA.eps
  have h2 : |(f + -b) - (Q - Q')| ≤ B := by
    have : (f + -b) - (Q - Q') = (f - Q) + (Q' - b) := by ring
    rw [this]
    refine (abs_add_le _ _).trans ?_
    rwa [abs_sub_comm Q' b]
  have h3 : |f + -b| ≤ |Q - Q'| + B := by
    have : f + -b = (Q - Q') + ((f + -b) - (Q - Q')) := by ring
    rw [this]
    exact (abs_add_le _ _).trans (by linarith)
  obtain ⟨z, hz, hze⟩ := add_is hA hf (neg_is hb) (h3.trans hr)
  have h4 : ε * |f + -b| ≤ ε * (|Q - Q'| + B) := by gcongr
  have hl := lt_is hz hd
  rw [abs_le] at h2 hze
  unfold Arith.converges Arith.sub
  constructor
  · intro h
    have := hl.1 h
    linarith
  · intro h
    have : ¬ z < δ := fun hc => by rw [hl.2 hc] at h; cases h
    linarith

end loss

/-- One sample, two features, one factor of single precision numbers: the conditions hold, and the bound is below 0.001. -/
example :
    let v : Mat 1 2 ℚ := ![![3, -5]]
    let u : Mat 1 2 ℚ := ![![1 / 2, 1]]
    let w : Mat 1 1 ℚ := ![![2]]
    let h : Mat 1 2 ℚ := ![![1, -2]]
    NoOverflow (1 / 16777216) (2 ^ (-150 : ℤ)) (2 ^ (127 : ℤ)) 2 4 v u w h ∧ qLoss v u w h = 5 ∧
      0 < lossErr (1 / 16777216) (2 ^ (-150 : ℤ)) 2 4 v u w h ∧ lossErr (1 / 16777216) (2 ^ (-150 : ℤ)) 2 4 v u w h < 1 / 1000 := by
  refine ⟨⟨⟨?_, ?_, ?_⟩, ?_⟩, ?_, ?_, ?_⟩ <;> decide +kernel

end Esat
