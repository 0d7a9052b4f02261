import Verif.Props.IeeeLoss
import Verif.Props.IeeeWs
import Verif.Props.Metrics

/-!
# Accuracy of the robust loss in floating point arithmetic (C226)
-/

namespace Esat
open Fl

section branch
variable {A : Arith} {c lo hi : ℚ≥0}

theorem rnd_rel (hA : Accurate A c lo hi) {x : ℚ≥0} (h1 : lo ≤ x) (h2 : x ≤ hi) : ∃ y, A.rnd x = some y ∧ Rel c 1 x y := by
  obtain ⟨y, e, r1, r2⟩ := hA.rnd x h1 h2
  exact ⟨y, e, by simpa [Rel] using ⟨r1, r2⟩⟩

theorem rel_symm {p : ℕ} {x y : ℚ≥0} (h : Rel c p x y) : Rel c p y x := ⟨h.2, h.1⟩

/-- The relative errors of the chain, put together. -/
theorem robust_assemble (c1 : 1 ≤ c) {x u al s τ ru t : ℚ≥0} (hxp : 0 < x) (hu0 : 0 < u) (hal0 : 0 < al) (hs0 : 0 < s) (hτ0 : 0 < τ)
    (hs : Rel c 1 (x / u) s) (r12 : Rel c 3 (s / al) (τ ^ 2)) (r3 : Rel c 1 (τ * u) ru) (r4 : Rel c 1 (x / ru) t) :
    Rel c 9 (al * s) (t ^ 2) := by
  have q1 : Rel c 2 ((x / ru) ^ 2) (t ^ 2) := by simpa [pow_two] using rel_mul r4 r4
  have q2 : Rel c 2 ((τ * u) ^ 2) (ru ^ 2) := by simpa [pow_two] using rel_mul r3 r3
  have q3 : Rel c 2 (x ^ 2 / (τ * u) ^ 2) (x ^ 2 / ru ^ 2) := by
    have := (rel_div (rel_refl c1 0 (x ^ 2)) (pow_ne_zero 2 (mul_pos hτ0 hu0).ne') q2).2
    simpa using this
  have q4 : Rel c 3 (x ^ 2 / (s / al * u ^ 2)) (x ^ 2 / (τ ^ 2 * u ^ 2)) := by
    have h5 : Rel c 3 (s / al * u ^ 2) (τ ^ 2 * u ^ 2) := by simpa using rel_mul r12 (rel_refl c1 0 (u ^ 2))
    have := (rel_div (rel_refl c1 0 (x ^ 2)) (mul_pos (div_pos hs0 hal0) (pow_pos hu0 2)).ne' h5).2
    simpa using this
  have q5 : Rel c 2 (s ^ 2 * (al / s)) ((x / u) ^ 2 * (al / s)) := by
    have h5 : Rel c 2 (s ^ 2) ((x / u) ^ 2) := by simpa [pow_two] using rel_mul (rel_symm hs) (rel_symm hs)
    simpa using rel_mul h5 (rel_refl c1 0 (al / s))
  have f1 : s ^ 2 * (al / s) = al * s := by field_simp
  have f2 : (x / u) ^ 2 * (al / s) = x ^ 2 / (s / al * u ^ 2) := by field_simp
  have f3 : (x / ru) ^ 2 = x ^ 2 / ru ^ 2 := by rw [div_pow]
  rw [f1, f2] at q5
  rw [f3] at q1
  rw [mul_pow] at q3
  have := rel_trans (rel_trans (rel_trans q5 q4) q3) q1
  exact this

/-- The chain of operations for an entry above `alpha`: the square of the result is `alpha` times the scaled residual, up to `c ^ 9`. -/
theorem robust_branch (hA : Accurate A c lo hi) (hS : AccurateSqrt A c lo hi) {x u al s : ℚ≥0} (hu : u ≠ 0) (hal : al ≠ 0)
    (hs : Rel c 1 (x / u) s) (hgt : al < s) (l1 : lo * c ≤ 1) (l2 : lo * c ^ 2 ≤ u) (l3 : lo * c ^ 5 ≤ al)
    (u1 : x / u / al * c ^ 2 ≤ hi) (u2 : x / al * c ^ 4 ≤ hi) (u3 : x / u * c ^ 3 ≤ hi) :
    ∃ σ ru t, A.rnd (s / al) = some σ ∧ σ ≠ 0 ∧ A.rnd (A.sqrt σ * u) = some ru ∧ ru ≠ 0 ∧ A.rnd (x / ru) = some t ∧
      Rel c 9 (al * s) (t ^ 2) := by
  have c1 := hA.one_le
  have c0 : 0 < c := lt_of_lt_of_le one_pos c1
  have hu0 : 0 < u := pos_iff_ne_zero.2 hu
  have hal0 : 0 < al := pos_iff_ne_zero.2 hal
  have hs0 : 0 < s := hal0.trans hgt
  have hx0 : x ≠ 0 := by
    rintro rfl
    have := hs.2
    simp at this
    exact hs0.ne' this
  have hxp : 0 < x := pos_iff_ne_zero.2 hx0
  have hpow : ∀ p : ℕ, 1 ≤ c ^ p := fun p => one_le_pow₀ c1
  -- s / al
  have h1 : 1 ≤ s / al := (one_le_div hal0).2 hgt.le
  have hs1 : s ≤ x / u * c := by simpa using hs.2
  have h2 : s / al * c ≤ hi := by
    refine le_trans ?_ u1
    rw [pow_two, ← mul_assoc]
    refine mul_le_mul_left ?_ c
    rw [div_mul_eq_mul_div]
    exact div_le_div_of_nonneg_right hs1 zero_le
  have hlo1 : lo ≤ 1 := (le_mul_of_one_le_right zero_le c1).trans l1
  obtain ⟨σ, e1, r1⟩ := rnd_rel hA (hlo1.trans h1) ((le_mul_of_one_le_right zero_le c1).trans h2)
  have hσ1 : 1 ≤ σ * c := by simpa using h1.trans r1.1
  have hσ0 : σ ≠ 0 := by rintro rfl; simp at hσ1
  have hσlo : lo ≤ σ := le_of_mul_le_mul_right (l1.trans hσ1) c0
  have hσhi : σ ≤ hi := by have := r1.2; rw [pow_one] at this; exact this.trans h2
  have r2 := hS σ hσlo hσhi
  obtain ⟨τ, hτ⟩ : ∃ τ, A.sqrt σ = τ := ⟨_, rfl⟩
  rw [hτ] at r2
  have r12 : Rel c 3 (s / al) (τ ^ 2) := rel_trans (p := 1) (q := 2) r1 r2
  have hτ2 : 1 ≤ τ * c ^ 2 := by
    have : 1 ≤ (τ * c ^ 2) ^ 2 := by
      calc 1 ≤ τ ^ 2 * c ^ 3 := h1.trans r12.1
        _ ≤ τ ^ 2 * c ^ 4 := mul_le_mul_right (pow_le_pow_right₀ c1 (by norm_num)) _
        _ = (τ * c ^ 2) ^ 2 := by ring
    by_contra hc
    have := pow_lt_one₀ zero_le (not_le.1 hc) (two_ne_zero)
    exact absurd this (not_lt.2 ‹1 ≤ (τ * c ^ 2) ^ 2›)
  have hτ0 : 0 < τ := by
    rcases eq_or_ne τ 0 with h | h
    · rw [h] at hτ2; simp at hτ2
    · exact pos_iff_ne_zero.2 h
  have hτs : τ ≤ s / al * c ^ 3 := by
    rcases le_total τ 1 with h | h
    · exact h.trans (one_le_mul_of_one_le_of_one_le h1 (hpow 3))
    · exact (by simpa [pow_two] using mul_le_mul_right h τ : τ ≤ τ ^ 2).trans r12.2
  have hτu1 : lo ≤ τ * u := by
    have : lo * c ^ 2 ≤ τ * u * c ^ 2 := by
      calc lo * c ^ 2 ≤ u := l2
        _ ≤ u * (τ * c ^ 2) := le_mul_of_one_le_right zero_le hτ2
        _ = τ * u * c ^ 2 := by ring
    exact le_of_mul_le_mul_right this (pow_pos c0 2)
  have hτu3 : τ * u ≤ x / al * c ^ 4 := by
    calc τ * u ≤ s / al * c ^ 3 * u := mul_le_mul_left hτs u
      _ ≤ (x / u * c) / al * c ^ 3 * u := by
        refine mul_le_mul_left (mul_le_mul_left (div_le_div_of_nonneg_right hs1 zero_le) _) _
      _ = x / al * c ^ 4 := by field_simp
  obtain ⟨ru, e2, r3⟩ := rnd_rel hA hτu1 (hτu3.trans u2)
  have hru1 : τ * u ≤ ru * c := by simpa using r3.1
  have hru0 : 0 < ru := by
    rcases eq_or_ne ru 0 with h | h
    · rw [h, zero_mul] at hru1
      exact absurd hru1 (not_le.2 (mul_pos hτ0 hu0))
    · exact pos_iff_ne_zero.2 h
  have hru2 : ru ≤ τ * u * c := by simpa using r3.2
  have hq1 : lo ≤ x / ru := by
    rw [le_div_iff₀ hru0]
    calc lo * ru ≤ lo * (x / al * c ^ 4 * c) := mul_le_mul_right (hru2.trans (mul_le_mul_left hτu3 c)) _
      _ = lo * c ^ 5 * (x / al) := by ring
      _ ≤ al * (x / al) := mul_le_mul_left l3 _
      _ = x := by field_simp
  have hq2 : x / ru ≤ hi := by
    refine le_trans ?_ u3
    rw [div_mul_eq_mul_div, div_le_div_iff₀ hru0 hu0]
    calc x * u ≤ x * (u * (τ * c ^ 2)) := mul_le_mul_right (le_mul_of_one_le_right zero_le hτ2) _
      _ = x * (τ * u) * c ^ 2 := by ring
      _ ≤ x * (ru * c) * c ^ 2 := mul_le_mul_left (mul_le_mul_right hru1 _) _
      _ = x * c ^ 3 * ru := by ring
  obtain ⟨t, e3, r4⟩ := rnd_rel hA hq1 hq2
  rw [← hτ] at e2
  refine ⟨σ, ru, t, e1, hσ0, e2, hru0.ne', e3, ?_⟩
  exact robust_assemble c1 hxp hu0 hal0 hs0 hτ0 hs r12 r3 r4

end branch

/-- The exact contribution of a scaled residual to the robust loss. -/
def huberQ (α s : ℚ) : ℚ := if s ≤ α then s ^ 2 else α * s

/-- The error of the square of one entry; `R` is the scaled residual, `δ` its error. -/
def entryErr (c α R δ : ℚ) : ℚ := δ * (2 * R + δ) + (c ^ 9 - 1) * (α * (R + δ))

/-- An entry that is not reduced. -/
theorem huber_low {α R δ s : ℚ} (hR : 0 ≤ R) (hδ : 0 ≤ δ) (hs0 : 0 ≤ s) (hs : |s - R| ≤ δ) (hle : s ≤ α) :
    |s ^ 2 - huberQ α R| ≤ δ * (2 * R + δ) := by
  rw [abs_le] at hs
  unfold huberQ
  rw [abs_le]
  split
  · constructor <;> nlinarith
  · rename_i h
    constructor <;> nlinarith

/-- An entry that is reduced. -/
theorem huber_high {α R δ s : ℚ} (hα : 0 ≤ α) (hR : 0 ≤ R) (hδ : 0 ≤ δ) (hs : |s - R| ≤ δ) (hlt : α < s) :
    |α * s - huberQ α R| ≤ δ * (2 * R + δ) := by
  rw [abs_le] at hs
  unfold huberQ
  rw [abs_le]
  split
  · rename_i h
    constructor <;> nlinarith
  · rename_i h
    constructor <;> nlinarith

theorem rel_abs {c : ℚ≥0} (hc : 1 ≤ c) {p : ℕ} {x y : ℚ≥0} (h : Rel c p x y) : |(y : ℚ) - x| ≤ ((c : ℚ) ^ p - 1) * x := by
  obtain ⟨h1, h2⟩ := h
  rw [← NNRat.coe_le_coe] at h1 h2
  push_cast at h1 h2
  have hc' : (1 : ℚ) ≤ (c : ℚ) ^ p := one_le_pow₀ (by exact_mod_cast hc)
  have hx : (0 : ℚ) ≤ x := x.2
  have hy : (0 : ℚ) ≤ y := y.2
  rw [abs_le]
  constructor
  · by_contra hcon
    push Not at hcon
    nlinarith
  · linarith

section entry
variable {A : Arith} {c lo hi : ℚ≥0} {ε η : ℚ}

/-- One entry. -/
theorem robust_entry (hA : Close A ε η hi) (hB : Accurate A c lo hi) (hS : AccurateSqrt A c lo hi) {fl : Fl → Fl}
    (hfl : ∀ x : ℚ≥0, x ≠ 0 → fl (fin false x) = fin false x) {x : Fl} {z : ℚ} (hx : IsVal x z) {u α : ℚ≥0} (hu : u ≠ 0) (hα : α ≠ 0)
    {R δ r : ℚ} (hR : 0 ≤ R) (hδ : 0 ≤ δ) (hr : IsVal (A.div x (fin false u)) r) (hs : |(|r| - R)| ≤ δ) (hy : |z / u| ≤ R + δ)
    (l1 : lo * c ≤ 1) (l2 : lo * c ^ 2 ≤ u) (l3 : lo * c ^ 5 ≤ α) (l4 : lo * (1 + ε) + η ≤ α) (u1 : (R + δ) / α * c ^ 2 ≤ hi)
    (u2 : (R + δ) * u / α * c ^ 4 ≤ hi) (u3 : (R + δ) * c ^ 3 ≤ hi) :
    ∃ t : ℚ≥0, A.robustEntry fl (fin false α) x (fin false u) = fin false t ∧ |(t : ℚ) ^ 2 - huberQ α R| ≤ entryErr c α R δ := by
  have c1 := hB.one_le
  have c1' : (1 : ℚ) ≤ c := by exact_mod_cast c1
  have hu0 : (0 : ℚ) < u := NNRat.coe_pos.2 (pos_iff_ne_zero.2 hu)
  have hα0 : (0 : ℚ) < α := NNRat.coe_pos.2 (pos_iff_ne_zero.2 hα)
  obtain ⟨sg, p, rfl, hp, -⟩ := is_abs hx
  have hpu : ((p / u : ℚ≥0) : ℚ) = |z / u| := by
    rw [abs_div, abs_of_pos hu0, ← hp]
    push_cast
    rfl
  have hdiv : A.div (fin sg p) (fin false u) = A.round (xor sg false) (p / u) := by simp [Arith.div, hu]
  have hc3 : (1 : ℚ) ≤ (c : ℚ) ^ 3 := one_le_pow₀ c1'
  have hYhi : R + δ ≤ hi := by nlinarith
  obtain ⟨s, hrnd, hse⟩ := hA.rnd (p / u) (by rw [hpu]; linarith)
  have hround : A.round (xor sg false) (p / u) = fin (xor sg false) s := by simp [Arith.round, hrnd]
  have hsr : (s : ℚ) = |r| := by
    rw [hdiv, hround] at hr
    obtain ⟨s', y, e, hy', -⟩ := is_abs hr
    cases e
    exact hy'
  rw [← hsr] at hs
  have hs0 : (0 : ℚ) ≤ s := s.2
  have hκ : (0 : ℚ) ≤ (c : ℚ) ^ 9 - 1 := by
    have : (1 : ℚ) ≤ (c : ℚ) ^ 9 := one_le_pow₀ c1'
    linarith
  have hκ2 : 0 ≤ ((c : ℚ) ^ 9 - 1) * (α * (R + δ)) := mul_nonneg hκ (by positivity)
  unfold Arith.robustEntry
  rw [hdiv, hround]
  simp only [Fl.abs, Fl.lt, decide_eq_true_eq]
  by_cases hlt : α < s
  · have hlt' : (α : ℚ) < s := by exact_mod_cast hlt
    have hlo : lo ≤ p / u := by
      rw [← NNRat.coe_le_coe]
      rw [abs_le] at hse
      have h1 : (s : ℚ) ≤ (1 + ε) * ((p / u : ℚ≥0) : ℚ) + η := by linarith
      have h2 : (lo : ℚ) * (1 + ε) < (1 + ε) * ((p / u : ℚ≥0) : ℚ) := by linarith
      have h3 : (0 : ℚ) < 1 + ε := by linarith [hA.eps]
      rw [mul_comm] at h2
      exact (lt_of_mul_lt_mul_left h2 h3.le).le
    have hhi : p / u ≤ hi := by
      rw [← NNRat.coe_le_coe, hpu]
      linarith
    obtain ⟨s', e', rl⟩ := rnd_rel hB hlo hhi
    rw [hrnd] at e'
    cases e'
    have hpq : ((p : ℚ≥0) : ℚ) ≤ (R + δ) * u := by
      rw [← hpu] at hy
      push_cast at hy
      rwa [div_le_iff₀ hu0] at hy
    obtain ⟨σ, ru, t, e1, hσ, e2, hru, e3, hrel⟩ := robust_branch hB hS hu hα rl hlt l1 l2 l3
      (by
        rw [← NNRat.coe_le_coe]
        push_cast
        refine le_trans ?_ u1
        rw [← hpu] at hy
        push_cast at hy
        gcongr)
      (by
        rw [← NNRat.coe_le_coe]
        push_cast
        refine le_trans ?_ u2
        gcongr)
      (by
        rw [← NNRat.coe_le_coe]
        push_cast
        refine le_trans ?_ u3
        rw [← hpu] at hy
        push_cast at hy
        gcongr)
    refine ⟨t, ?_, ?_⟩
    · rw [if_pos hlt]
      have d1 : A.div (fin false s) (fin false α) = fin false σ := by simp [Arith.div, hα, Arith.round, e1]
      have d2 : A.sqrtF (fin false σ) = fin false (A.sqrt σ) := by simp [Arith.sqrtF, hσ]
      have d3 : A.mul (fin false (A.sqrt σ)) (fin false u) = fin false ru := by simp [Arith.mul, Arith.mulWith, Arith.round, e2]
      have d4 : A.div (fin sg p) (fin false ru) = fin (xor sg false) t := by simp [Arith.div, hru, Arith.round, e3]
      rw [d1, d2, d3, hfl ru hru, d4]
    · have h1 := rel_abs c1 hrel
      push_cast at h1
      have h2 := huber_high hα0.le hR hδ hs hlt'
      have h3 : ((c : ℚ) ^ 9 - 1) * (α * s) ≤ ((c : ℚ) ^ 9 - 1) * (α * (R + δ)) := by
        rw [abs_le] at hs
        have : (s : ℚ) ≤ R + δ := by linarith
        gcongr
      have e4 : (t : ℚ) ^ 2 - huberQ α R = ((t : ℚ) ^ 2 - α * s) + (α * s - huberQ α R) := by ring
      rw [e4]
      unfold entryErr
      exact (abs_add_le _ _).trans (by linarith)
  · refine ⟨s, by rw [if_neg hlt], ?_⟩
    have hle : (s : ℚ) ≤ α := by exact_mod_cast not_lt.1 hlt
    have := huber_low hR hδ hs0 hs hle
    unfold entryErr
    linarith

end entry

section loss
variable {A : Arith} {c lo hi : ℚ≥0} {ε η : ℚ} {m n k : ℕ}

/-- The exact robust loss. -/
def exactRobust (α : ℚ) (v u : Mat m n ℚ) (w : Mat m k ℚ) (h : Mat k n ℚ) : ℚ := ∑ i, ∑ j, huberQ α |exactResid v u w h i j|

/-- The sum of the errors of the squared entries. -/
def entriesErr (ε η c α : ℚ) (d : ℕ) (v u : Mat m n ℚ) (w : Mat m k ℚ) (h : Mat k n ℚ) : ℚ :=
  ∑ i, ∑ j, entryErr c α |exactResid v u w h i j| (residErr ε η d v u w h i j)

/-- The error of the robust loss. -/
def robustErr (ε η c α : ℚ) (d e : ℕ) (v u : Mat m n ℚ) (w : Mat m k ℚ) (h : Mat k n ℚ) : ℚ :=
  (1 + ε) ^ e * (exactRobust α v u w h + entriesErr ε η c α d v u w h) - exactRobust α v u w h + m * n * e * η * (1 + ε) ^ e

/-- No overflow and no underflow in the entries above `α`, and no overflow of the sum. -/
structure RobustRange (ε η : ℚ) (c lo hi α : ℚ≥0) (d e : ℕ) (v : Mat m n ℚ) (u : Mat m n ℚ≥0) (w : Mat m k ℚ) (h : Mat k n ℚ) : Prop extends
    ResidRange ε η hi d v (fun i j => (u i j : ℚ)) w h where
  low1 : lo * c ≤ 1
  low2 : ∀ i j, lo * c ^ 2 ≤ u i j
  low3 : lo * c ^ 5 ≤ α
  low4 : lo * (1 + ε) + η ≤ α
  high1 : ∀ i j, (|exactResid v (fun i j => (u i j : ℚ)) w h i j| + residErr ε η d v (fun i j => (u i j : ℚ)) w h i j) / α * c ^ 2 ≤ hi
  high2 : ∀ i j, (|exactResid v (fun i j => (u i j : ℚ)) w h i j| + residErr ε η d v (fun i j => (u i j : ℚ)) w h i j) * u i j / α * c ^ 4 ≤ hi
  high3 : ∀ i j, (|exactResid v (fun i j => (u i j : ℚ)) w h i j| + residErr ε η d v (fun i j => (u i j : ℚ)) w h i j) * c ^ 3 ≤ hi
  sum : (1 + ε) ^ e * (exactRobust α v (fun i j => (u i j : ℚ)) w h + entriesErr ε η c α d v (fun i j => (u i j : ℚ)) w h) +
    m * n * e * η * (1 + ε) ^ e ≤ hi

/-- C226: the computed robust loss is finite and differs from the exact one by at most `robustErr`. -/
theorem C226_loss (hA : Close A ε η hi) (hB : Accurate A c lo hi) (hS : AccurateSqrt A c lo hi) {fl : Fl → Fl}
    (hfl : ∀ x : ℚ≥0, x ≠ 0 → fl (fin false x) = fin false x) {d e : ℕ} {V : Mat m n Fl} {W : Mat m k Fl} {H : Mat k n Fl}
    {v : Mat m n ℚ} {u : Mat m n ℚ≥0} {w : Mat m k ℚ} {h : Mat k n ℚ} {α : ℚ≥0} (hα : α ≠ 0) (hV : ∀ i j, IsVal (V i j) (v i j))
    (hW : ∀ i a, IsVal (W i a) (w i a)) (hH : ∀ a j, IsVal (H a j) (h a j)) (hu : ∀ i j, u i j ≠ 0)
    (hr : RobustRange ε η c lo hi α d e v u w h) {q : Fl}
    (hq : A.QRobustEval fl d e (fin false α) V (fun i j => fin false (u i j)) W H q) :
    ∃ Q, IsVal q Q ∧ |Q - exactRobust α v (fun i j => (u i j : ℚ)) w h| ≤ robustErr ε η c α d e v (fun i j => (u i j : ℚ)) w h := by
  have hε := hA.eps
  have hη := hA.eta
  obtain ⟨WH, hWH, e', he', hdot⟩ := hq
  have hu' : ∀ i j, (fun i j => (u i j : ℚ)) i j ≠ 0 := fun i j => NNRat.coe_ne_zero.2 (hu i j)
  set u' : Mat m n ℚ := fun i j => (u i j : ℚ) with hu'def
  have hU : ∀ i j, IsVal ((fun i j => fin false (u i j)) i j) (u' i j) := fun i j => ⟨false, u i j, rfl, by simp [hu'def]⟩
  have hent : ∀ p : Fin m × Fin n, ∃ t : ℚ≥0,
      A.robustEntry fl (fin false α) (A.sub (V p.1 p.2) (WH p.1 p.2)) (fin false (u p.1 p.2)) = fin false t ∧
      |(t : ℚ) ^ 2 - huberQ α (|exactResid v u' w h p.1 p.2|)| ≤ entryErr c α |exactResid v u' w h p.1 p.2| (residErr ε η d v u' w h p.1 p.2) := by
    intro p
    obtain ⟨z, hz, hze⟩ := diff_is hA hV hW hH hu' hr.toResidRange hWH p.1 p.2
    obtain ⟨r, hr1, hr2⟩ := C225_residual hA hV hU hW hH hu' hr.toResidRange hWH p.1 p.2
    have hδ := residErr_nonneg hε hη d v u' w h p.1 p.2
    refine robust_entry hA hB hS hfl hz (hu p.1 p.2) hα (abs_nonneg _) hδ hr1 ((abs_abs_sub_abs_le_abs_sub _ _).trans hr2) ?_ hr.low1
      (hr.low2 _ _) hr.low3 hr.low4 (hr.high1 _ _) (hr.high2 _ _) (hr.high3 _ _)
    have hE0 := prodErr_nonneg hε hη d w h p.1 p.2
    have hpos : 0 ≤ ε * (|exactResid v u' w h p.1 p.2| + (ε * |exactResid v u' w h p.1 p.2| +
        ((1 + ε) * prodErr ε η d w h p.1 p.2 + η) / |u' p.1 p.2|)) := by positivity
    rw [residErr_eq]
    have e1 : z / (u p.1 p.2 : ℚ) = exactResid v u' w h p.1 p.2 + (z / u' p.1 p.2 - exactResid v u' w h p.1 p.2) := by
      simp only [hu'def]; ring
    rw [e1]
    refine (abs_add_le _ _).trans ?_
    linarith
  choose t ht hte using hent
  have hval : ∀ p : Fin m × Fin n, IsVal (A.robustEntry fl (fin false α) (A.sub (V p.1 p.2) (WH p.1 p.2)) (fin false (u p.1 p.2))) (t p : ℚ) :=
    fun p => ⟨false, t p, ht p, by simp⟩
  have hS1 : ∑ p : Fin m × Fin n, |(t p : ℚ) * t p| = ∑ p : Fin m × Fin n, (t p : ℚ) ^ 2 := Finset.sum_congr rfl fun p _ => by
    rw [abs_mul_self]; ring
  have hS2 : ∑ p : Fin m × Fin n, (t p : ℚ) * t p = ∑ p : Fin m × Fin n, (t p : ℚ) ^ 2 := Finset.sum_congr rfl fun p _ => by ring
  have hD : |∑ p : Fin m × Fin n, (t p : ℚ) ^ 2 - exactRobust α v u' w h| ≤ entriesErr ε η c α d v u' w h := by
    unfold exactRobust entriesErr
    rw [← Fintype.sum_prod_type' (f := fun i j => huberQ α |exactResid v u' w h i j|),
      ← Fintype.sum_prod_type' (f := fun i j => entryErr c α |exactResid v u' w h i j| (residErr ε η d v u' w h i j)),
      ← Finset.sum_sub_distrib]
    exact (Finset.abs_sum_le_sum_abs _ _).trans (Finset.sum_le_sum fun p _ => hte p)
  set S := ∑ p : Fin m × Fin n, (t p : ℚ) ^ 2 with hSdef
  have hS0 : 0 ≤ S := Finset.sum_nonneg fun _ _ => sq_nonneg _
  have hB' : S ≤ exactRobust α v u' w h + entriesErr ε η c α d v u' w h := by
    rw [abs_le] at hD
    linarith
  have hcard : (Finset.univ : Finset (Fin m × Fin n)).card = m * n := by simp
  have hpos : (1 : ℚ) ≤ (1 + ε) ^ e := one_le_pow₀ (by linarith)
  have hE : dotErr ε η e S (m * n) ≤ ((1 + ε) ^ e - 1) * (exactRobust α v u' w h + entriesErr ε η c α d v u' w h) +
      m * n * e * η * (1 + ε) ^ e := by
    unfold dotErr
    have : ((1 + ε) ^ e - 1) * S ≤ ((1 + ε) ^ e - 1) * (exactRobust α v u' w h + entriesErr ε η c α d v u' w h) :=
      mul_le_mul_of_nonneg_left hB' (by linarith)
    push_cast
    linarith
  have hm := dotErr_mono hε hη he' hS0 (m * n)
  have hsum := hr.sum
  obtain ⟨Q, hQ1, hQ2⟩ := dot_is hA hval hval hdot (by rw [hS1, hcard]; linarith)
  rw [hS1, hS2, hcard] at hQ2
  refine ⟨Q, hQ1, ?_⟩
  have e2 : Q - exactRobust α v u' w h = (Q - S) + (S - exactRobust α v u' w h) := by ring
  rw [e2]
  refine (abs_add_le _ _).trans ?_
  unfold robustErr
  linarith

/-- C226: both programs: the identity of the compiled one and the floor of the other one leave positive uncertainties alone. -/
theorem C226_floor (eps x : ℚ≥0) (hx : x ≠ 0) : Arith.floorU eps (fin false x) = fin false x ∧ id (fin false x) = fin false x := by
  refine ⟨?_, rfl⟩
  unfold Arith.floorU
  rw [if_pos (.inl (by simp [Fl.lt, pos_iff_ne_zero.2 hx]))]

/-- C226: the exact robust loss is that of `qr_loss` in exact arithmetic. -/
theorem C226_exact (α : ℚ) (hα : 0 < α) (v u : Mat m n ℚ) (hu : ∀ i j, 0 < u i j) (w : Mat m k ℚ) (h : Mat k n ℚ) :
    (qrLoss (fun i j => (v i j : ℝ)) (fun i j => (u i j : ℝ)) (fun i a => (w i a : ℝ)) (fun a j => (h a j : ℝ)) α).1
      = (exactRobust α v u w h : ℝ) := by
  rw [C10_is_huber _ _ _ _ _ (by exact_mod_cast hα) (fun i j => by exact_mod_cast hu i j)]
  unfold exactRobust huberQ huber exactResid residual
  push_cast
  refine Finset.sum_congr rfl fun i _ => Finset.sum_congr rfl fun j _ => ?_
  have e : |((v i j : ℝ) - ∑ a, (w i a : ℝ) * (h a j : ℝ)) / (u i j : ℝ)| = ((|(v i j - ∑ a, w i a * h a j) / u i j| : ℚ) : ℝ) := by push_cast; rfl
  rw [e]
  by_cases hc : |(v i j - ∑ a, w i a * h a j) / u i j| ≤ α
  · rw [if_pos hc, if_pos (by exact_mod_cast hc)]
    push_cast
    rfl
  · rw [if_neg hc, if_neg (by exact_mod_cast hc)]
    push_cast
    rfl

end loss

/-- Single precision, `alpha = 4`, one residual of 6 and one of -1: the conditions hold, and the bound is below 0.001. -/
example :
    let v : Mat 1 2 ℚ := ![![5, -5]]
    let u : Mat 1 2 ℚ≥0 := ![![1 / 2, 1]]
    let w : Mat 1 1 ℚ := ![![2]]
    let h : Mat 1 2 ℚ := ![![1, -2]]
    RobustRange (1 / 16777216) (2 ^ (-150 : ℤ)) (16777216 / 16777215) (2 ^ (-126 : ℤ)) (2 ^ (127 : ℤ)) 4 2 4 v u w h ∧
      exactRobust 4 v (fun i j => (u i j : ℚ)) w h = 25 ∧
      robustErr (1 / 16777216) (2 ^ (-150 : ℤ)) (16777216 / 16777215) 4 2 4 v (fun i j => (u i j : ℚ)) w h < 1 / 1000 := by
  refine ⟨⟨⟨?_, ?_, ?_⟩, ?_, ?_, ?_, ?_, ?_, ?_, ?_, ?_⟩, ?_, ?_⟩ <;> decide +kernel

end Esat
