import Verif.Props.Constrained
import Mathlib.Algebra.BigOperators.Intervals
import Mathlib.Algebra.Order.BigOperators.Ring.Finset

/-!
# C242: by which factor a pull down or up changes an element

`_pull_down_value` and `_pull_up_value` for limits up to one hundred, where the band below the limit has no lower end.
-/

namespace Esat
variable {K : Type*} [Field K] [LinearOrder K] [IsStrictOrderedRing K]

/-! ## Pull down -/

/-- `1/2 · 3/4 · 7/8 ⋯` with `t` factors. -/
def shrink (K : Type*) [Field K] (t : ℕ) : K := ∏ s ∈ Finset.range t, (1 - 1 / 2 ^ (s + 1))

theorem shrink_succ (t : ℕ) : shrink K (t + 1) = shrink K t * (1 - 1 / 2 ^ (t + 1)) := Finset.prod_range_succ _ _

theorem shrink_pos (t : ℕ) : 0 < shrink K t := by
  refine Finset.prod_pos fun s _ => ?_
  rw [sub_pos, div_lt_one (by positivity)]
  exact one_lt_pow₀ (by norm_num) (by omega)

theorem shrink_anti {s t : ℕ} (h : s ≤ t) : shrink K t ≤ shrink K s := by
  induction t, h using Nat.le_induction with
  | base => exact le_rfl
  | succ t _ ih =>
    rw [shrink_succ]
    refine le_trans (mul_le_of_le_one_right (shrink_pos t).le ?_) ih
    have : (0 : K) ≤ 1 / 2 ^ (t + 1) := by positivity
    linarith

theorem pullDownLoop_up (f : K → K) (lim eps slack cur : K) (hf : ∀ v, 0 ≤ f v) (hs : lim ≤ slack) (e1 : 1 / 2 ^ 27 ≤ eps) (e2 : eps < 1 / 2 ^ 26) :
    ∀ r t, t + r = 31 → t ≤ 25 → ∃ u, t ≤ u ∧ u ≤ 25 ∧
      pullDownLoop f lim eps slack r (1 - 1 / 2 ^ t) 1 (1 - 1 / 2 ^ (t + 1)) (if t = 0 then 0 else 1 - 1 / 2 ^ (t + 1)) (cur * shrink K t) = cur * shrink K (u + 1) ∧
      (∀ s, t ≤ s → s < u → lim < f (cur * shrink K (s + 1))) ∧ (u < 25 → f (cur * shrink K (u + 1)) ≤ lim) := by
  intro r
  induction r with
  | zero => intro t h1 h2; omega
  | succ r ih =>
    intro t h1 h2
    have hv : cur * shrink K t * (1 - 1 / 2 ^ (t + 1)) = cur * shrink K (t + 1) := by rw [shrink_succ]; ring
    have hm : (1 - 1 / 2 ^ (t + 1) + 1) / 2 = (1 - 1 / 2 ^ (t + 1 + 1) : K) := by
      rw [pow_succ 2 (t + 1)]
      field_simp
      ring
    rw [pullDownLoop]
    dsimp only
    rw [hv, hm]
    by_cases hl : lim < f (cur * shrink K (t + 1))
    · rw [if_pos hl]
      have hstop : (|(if t = 0 then 0 else 1 - 1 / 2 ^ (t + 1)) - (1 - 1 / 2 ^ (t + 1 + 1) : K)| ≤ eps ∨ r = 0) ↔ t = 25 := by
        constructor
        · rintro (h | h)
          · by_contra hne
            refine absurd h (not_le.2 ?_)
            by_cases ht : t = 0
            · subst ht
              rw [if_pos rfl]
              have : (1 : K) / 2 ^ 26 < 1 / 2 := by norm_num
              norm_num
              linarith
            · rw [if_neg ht]
              have e : (1 - 1 / 2 ^ (t + 1) : K) - (1 - 1 / 2 ^ (t + 1 + 1)) = -(1 / 2 ^ (t + 2)) := by
                rw [pow_succ 2 (t + 1)]
                field_simp
                ring
              rw [e, abs_neg, abs_of_pos (by positivity)]
              refine lt_of_lt_of_le e2 ?_
              exact one_div_le_one_div_of_le (by positivity) (pow_le_pow_right₀ (by norm_num) (by omega))
          · omega
        · rintro rfl
          left
          rw [if_neg (by omega)]
          refine le_trans (le_of_eq ?_) e1
          norm_num
      by_cases h25 : t = 25
      · rw [if_pos (hstop.2 h25)]
        exact ⟨t, le_rfl, h2, rfl, fun s a b => by omega, fun h => by omega⟩
      · rw [if_neg (fun h => h25 (hstop.1 h))]
        obtain ⟨u, a, b, c, d, e⟩ := ih (t + 1) (by omega) (by omega)
        rw [if_neg (by omega)] at c
        refine ⟨u, by omega, b, c, fun s p q => ?_, e⟩
        rcases Nat.lt_or_ge t s with h | h
        · exact d s h q
        · obtain rfl : s = t := by omega
          exact hl
    · rw [if_neg hl, if_neg (not_lt.2 (le_trans (by linarith) (hf _)))]
      exact ⟨t, le_rfl, h2, rfl, fun s a b => by omega, fun _ => not_lt.1 hl⟩

/-- **C242 (pull down).** With an allowed change of Q of at most one hundred, pulling an element down multiplies it by `1/2`, or by `1/2 · 3/4`, … : by the first of these products at which the change of Q respects the limit, or by the
product of 26 factors if none of them does. `eps` is `1e-8`. -/
theorem C242_down (f : K → K) (lim eps slack cur : K) (hc : cur ≠ 0) (hf : ∀ v, 0 ≤ f v) (hs : lim ≤ slack) (e1 : 1 / 2 ^ 27 ≤ eps) (e2 : eps < 1 / 2 ^ 26) :
    ∃ t, t ≤ 25 ∧ pullDown f lim eps slack cur = cur * ∏ s ∈ Finset.range (t + 1), (1 - 1 / 2 ^ (s + 1)) ∧ (∀ s < t, lim < f (cur * ∏ s ∈ Finset.range (s + 1), (1 - 1 / 2 ^ (s + 1)))) ∧
      (t < 25 → f (pullDown f lim eps slack cur) ≤ lim) := by
  obtain ⟨u, -, b, c, d, e⟩ := pullDownLoop_up f lim eps slack cur hf hs e1 e2 31 0 rfl (by omega)
  have hp : pullDown f lim eps slack cur = cur * shrink K (u + 1) := by
    have h0 : shrink K 0 = 1 := rfl
    rw [if_pos rfl, h0, mul_one] at c
    unfold pullDown
    have e : pullDownLoop f lim eps slack 31 0 1 ((1 + 0) / 2) 0 cur = cur * shrink K (u + 1) := by
      rw [← c]
      congr 1 <;> norm_num
    rw [e, if_neg (mul_ne_zero hc (shrink_pos _).ne')]
  refine ⟨u, b, hp, fun s hs => d s (Nat.zero_le _) hs, fun h => ?_⟩
  rw [hp]
  exact e h

/-- **C242 (pull down, monotone response).** If moreover larger pulls change Q more, the element is halved whenever that respects the limit. Otherwise, although only a smaller pull would be allowed, the pull is *larger*: the element is
multiplied by a constant between 0.2887 and 0.2889, whatever the limit. **Disagreement** with "pull down" within a limit of Q. -/
theorem C242_down_monotone (f : K → K) (lim eps slack cur : K) (hc : 0 < cur) (hf : ∀ v, 0 ≤ f v) (hmono : ∀ v w, 0 < v → v ≤ w → w ≤ cur / 2 → f w ≤ f v) (hs : lim ≤ slack) (e1 : 1 / 2 ^ 27 ≤ eps) (e2 : eps < 1 / 2 ^ 26) :
    (f (cur / 2) ≤ lim → pullDown f lim eps slack cur = cur / 2) ∧
    (lim < f (cur / 2) → ∃ c : K, 2887 / 10000 < c ∧ c < 2889 / 10000 ∧ c = ∏ s ∈ Finset.range 26, (1 - 1 / 2 ^ (s + 1)) ∧ pullDown f lim eps slack cur = cur * c ∧ lim < f (pullDown f lim eps slack cur)) := by
  obtain ⟨t, h1, h2, h3, h4⟩ := C242_down f lim eps slack cur hc.ne' hf hs e1 e2
  have hone : ∀ x : K, x * ∏ s ∈ Finset.range (0 + 1), (1 - 1 / 2 ^ (s + 1)) = x / 2 := fun x => by
    rw [Nat.zero_add, Finset.prod_range_one]; norm_num; ring
  constructor
  · intro h
    by_cases ht : t = 0
    · subst ht
      rw [h2, hone]
    · have := h3 0 (by omega)
      rw [hone] at this
      exact absurd h (not_le.2 this)
  · intro h
    have hall : ∀ s, lim < f (cur * shrink K (s + 1)) := fun s => by
      refine lt_of_lt_of_le h (hmono _ _ (mul_pos hc (shrink_pos _)) ?_ le_rfl)
      have : shrink K (s + 1) ≤ shrink K 1 := shrink_anti (by omega)
      have e : shrink K 1 = 1 / 2 := by rw [shrink, Finset.prod_range_one]; norm_num
      rw [e] at this
      calc cur * shrink K (s + 1) ≤ cur * (1 / 2) := mul_le_mul_of_nonneg_left this hc.le
        _ = cur / 2 := by ring
    have ht : t = 25 := by
      by_contra hne
      have := h4 (by omega)
      rw [h2] at this
      exact absurd this (not_le.2 (hall t))
    subst ht
    refine ⟨_, ?_, ?_, rfl, h2, by rw [h2]; exact hall 25⟩
    · simp only [Finset.prod_range_succ, Finset.prod_range_zero]
      norm_num
    · simp only [Finset.prod_range_succ, Finset.prod_range_zero]
      norm_num

/-- **C242 (requested change).** Whatever the data, a `pull down` constraint with a limit of at most one hundred on a positive profile element asks for a decrease of at least half of the element and at most 71.13 % of it. -/
theorem C242_requested {m n k : ℕ} (E : CEnv m n k K) (W : Mat m k K) (H : Mat k n K) (D : Mat m k K × Mat k n K) (c : Constraint K) (a : Fin k) (j : Fin n) (lim : K) (hk : c.kind = .pullDown lim) (he : cEntry m n k c = some (.inl (a, j)))
    (hc : 0 < H a j) (hs : lim ≤ E.slack) (e1 : 1 / 2 ^ 27 ≤ E.eps) (e2 : E.eps < 1 / 2 ^ 26) :
    ∃ d, applyOne E W H D c = some (D.1, setEntry D.2 a j d) ∧ -(7113 / 10000 * H a j) < d ∧ d ≤ -(H a j / 2) := by
  refine ⟨cDelta E c.kind (fun v => |qLoss E.V E.U W H - qLoss E.V E.U W (setEntry H a j v)|) (H a j) (E.H0 a j), by simp only [applyOne, he], ?_⟩
  rw [hk, cDelta]
  obtain ⟨t, h1, h2, -, -⟩ := C242_down (fun v => |qLoss E.V E.U W H - qLoss E.V E.U W (setEntry H a j v)|) lim E.eps E.slack (H a j) hc.ne' (fun v => abs_nonneg _) hs e1 e2
  rw [h2]
  have g1 : shrink K (t + 1) ≤ shrink K 1 := shrink_anti (by omega)
  have g2 : shrink K 26 ≤ shrink K (t + 1) := shrink_anti (by omega)
  have g3 : shrink K 1 = 1 / 2 := by rw [shrink, Finset.prod_range_one]; norm_num
  have g4 : (2887 / 10000 : K) < shrink K 26 := by
    simp only [shrink, Finset.prod_range_succ, Finset.prod_range_zero]
    norm_num
  change _ < H a j * shrink K (t + 1) - H a j ∧ H a j * shrink K (t + 1) - H a j ≤ _
  constructor <;> nlinarith

/-! ## Pull up -/

theorem pullUpBound_run (f : K → K) (lim base : K) : ∀ r i, i + r = 30 → 0 < r →
    ∃ j, i + 1 ≤ j ∧ j ≤ 30 ∧ (∀ l, i + 1 ≤ l → l < j → f (base * 2 ^ l) < lim) ∧
      pullUpBound f lim base r (if i = 0 then 0 else 2 ^ i) (2 ^ (i + 1)) = (if j = 30 then .inl (base * 2 ^ 30) else .inr (if j = 1 then 0 else 2 ^ (j - 1), 2 ^ j)) ∧ (j < 30 → lim ≤ f (base * 2 ^ j)) := by
  intro r
  induction r with
  | zero => intro i _ h; omega
  | succ r ih =>
    intro i h _
    rw [pullUpBound]
    by_cases hr : r = 0
    · obtain rfl : i = 29 := by omega
      refine ⟨30, le_rfl, le_rfl, fun l a b => by omega, ?_, fun h => by omega⟩
      simp [hr]
    · by_cases hl : f (base * 2 ^ (i + 1)) < lim
      · rw [if_pos hl, if_neg hr]
        obtain ⟨j, a, b, c, d, e⟩ := ih (i + 1) (by omega) (by omega)
        rw [if_neg (by omega), pow_succ 2 (i + 1)] at d
        refine ⟨j, by omega, b, fun l p q => ?_, d, e⟩
        rcases Nat.lt_or_ge (i + 1) l with h' | h'
        · exact c l h' q
        · obtain rfl : l = i + 1 := by omega
          exact hl
      · rw [if_neg hl, if_neg hr]
        refine ⟨i + 1, le_rfl, by omega, fun l a b => by omega, ?_, fun _ => not_lt.1 hl⟩
        rw [if_neg (show ¬ i + 1 = 30 by omega), Nat.add_sub_cancel]
        simp

theorem pullUpLoop_down (f : K → K) (lim slack base low : K) (hf : ∀ v, 0 ≤ f v) (hs : lim ≤ slack) : ∀ r t high, t + r = 30 → 0 < r →
    ∃ u, t ≤ u ∧ u ≤ 29 ∧ pullUpLoop f lim slack base r low high (low * (1 + 1 / 2 ^ (t + 1))) = base * (low * (1 + 1 / 2 ^ (u + 1))) ∧ (∀ s, t ≤ s → s < u → lim < f (base * (low * (1 + 1 / 2 ^ (s + 1))))) ∧
      (u < 29 → f (base * (low * (1 + 1 / 2 ^ (u + 1)))) ≤ lim) := by
  intro r
  induction r with
  | zero => intro t _ _ h; omega
  | succ r ih =>
    intro t high h _
    rw [pullUpLoop]
    by_cases hl : lim < f (base * (low * (1 + 1 / 2 ^ (t + 1))))
    · rw [if_pos hl]
      by_cases hr : r = 0
      · rw [if_pos hr]
        exact ⟨t, le_rfl, by omega, rfl, fun s a b => by omega, fun h => by omega⟩
      · rw [if_neg hr]
        have e : (low * (1 + 1 / 2 ^ (t + 1)) + low) / 2 = low * (1 + 1 / 2 ^ (t + 1 + 1)) := by
          rw [pow_succ 2 (t + 1)]
          field_simp
          ring
        rw [e]
        obtain ⟨u, a, b, c, d, g⟩ := ih (t + 1) (low * (1 + 1 / 2 ^ (t + 1))) (by omega) (by omega)
        refine ⟨u, by omega, b, c, fun s p q => ?_, g⟩
        rcases Nat.lt_or_ge t s with h' | h'
        · exact d s h' q
        · obtain rfl : s = t := by omega
          exact hl
    · rw [if_neg hl, if_neg (not_lt.2 (le_trans (by linarith) (hf _)))]
      exact ⟨t, le_rfl, by omega, rfl, fun s a b => by omega, fun _ => not_lt.1 hl⟩

/-- **C242 (pull up).** With an allowed change of Q of at most one hundred: an element whose doubling is not below the limit is not changed at all. Otherwise let `2^j` be the first power of two, up to `2^30`, that is not below the
limit; the element is multiplied by `2^30` for `j = 30`, and else by the first of `2^(j-1) (1 + 1/2), 2^(j-1) (1 + 1/4), …` that respects the limit (or the thirtieth). -/
theorem C242_up (f : K → K) (lim slack base : K) (hb : f base ≤ lim) (hf : ∀ v, 0 ≤ f v) (hs : lim ≤ slack) :
    (lim ≤ f (base * 2) → pullUp f lim slack base = base) ∧
    (f (base * 2) < lim → ∃ j, 2 ≤ j ∧ j ≤ 30 ∧ (∀ l, 1 ≤ l → l < j → f (base * 2 ^ l) < lim) ∧
      ((j = 30 ∧ pullUp f lim slack base = base * 2 ^ 30) ∨
       (j < 30 ∧ lim ≤ f (base * 2 ^ j) ∧ ∃ t ≤ 29, pullUp f lim slack base = base * (2 ^ (j - 1) * (1 + 1 / 2 ^ (t + 1))) ∧ (∀ s < t, lim < f (base * (2 ^ (j - 1) * (1 + 1 / 2 ^ (s + 1))))) ∧
        (t < 29 → f (pullUp f lim slack base) ≤ lim)))) := by
  obtain ⟨j, a, b, c, d, e⟩ := pullUpBound_run f lim base 30 0 rfl (by omega)
  rw [if_pos rfl, Nat.zero_add, pow_one] at d
  constructor
  · intro h
    have hj : j = 1 := by
      by_contra hne
      have := c 1 le_rfl (by omega)
      rw [pow_one] at this
      exact absurd h (not_le.2 this)
    subst hj
    unfold pullUp
    rw [d, if_neg (by omega), if_pos rfl]
    dsimp only
    rw [pow_one, show ((2 : K) + 0) / 2 = 1 by norm_num, pullUpLoop]
    rw [mul_one, if_neg (not_lt.2 hb), if_neg (not_lt.2 (le_trans (by linarith) (hf _)))]
  · intro h
    have hj : 2 ≤ j := by
      by_contra hne
      obtain rfl : j = 1 := by omega
      have := e (by omega)
      rw [pow_one] at this
      exact absurd h (not_lt.2 this)
    refine ⟨j, hj, b, fun l p q => c l p q, ?_⟩
    by_cases h30 : j = 30
    · left
      refine ⟨h30, ?_⟩
      unfold pullUp
      rw [d, if_pos h30]
    · right
      obtain ⟨u, -, u1, u2, u3, u4⟩ := pullUpLoop_down f lim slack base (2 ^ (j - 1)) hf hs 30 0 (2 ^ j) rfl (by omega)
      have hp : pullUp f lim slack base = base * (2 ^ (j - 1) * (1 + 1 / 2 ^ (u + 1))) := by
        unfold pullUp
        rw [d, if_neg h30, if_neg (by omega)]
        dsimp only
        rw [← u2]
        congr 1
        obtain ⟨i, rfl⟩ : ∃ i, j = i + 1 := ⟨j - 1, by omega⟩
        rw [Nat.add_sub_cancel, pow_succ]
        norm_num
        ring
      refine ⟨by omega, e (by omega), u, u1, hp, fun s hs => u3 s (Nat.zero_le _) hs, fun hlt => ?_⟩
      rw [hp]
      exact u4 hlt

/-! ## Cases -/

/-- An element 10 with the response `(10 - v)²`: limit 50 halves it, limit 4 (which allows 8) takes it to less than 3. -/
example : pullDown (K := ℚ) (fun v => (10 - v) * (10 - v)) 50 (1 / 100000000) 100 10 = 5 ∧
    ∃ c : ℚ, c < 2889 / 10000 ∧ pullDown (K := ℚ) (fun v => (10 - v) * (10 - v)) 4 (1 / 100000000) 100 10 = 10 * c := by
  have mono : ∀ v w : ℚ, 0 < v → v ≤ w → w ≤ 10 / 2 → (10 - w) * (10 - w) ≤ (10 - v) * (10 - v) := fun v w h1 h2 h3 => by nlinarith
  refine ⟨?_, ?_⟩
  · rw [(C242_down_monotone (K := ℚ) (fun v => (10 - v) * (10 - v)) 50 (1 / 100000000) 100 10 (by norm_num) (fun v => mul_self_nonneg _) mono (by norm_num) (by norm_num) (by norm_num)).1 (by norm_num)]
    norm_num
  · obtain ⟨c, -, h2, -, h4, -⟩ := (C242_down_monotone (K := ℚ) (fun v => (10 - v) * (10 - v)) 4 (1 / 100000000) 100 10 (by norm_num) (fun v => mul_self_nonneg _) mono (by norm_num) (by norm_num) (by norm_num)).2 (by norm_num)
    exact ⟨c, h2, h4⟩

/-- An element 1 with the response `(v - 1)²`: limit 1 (which allows 2) changes nothing, limit 30 (which allows 6.47) takes it to 6. -/
example : pullUp (K := ℚ) (fun v => (v - 1) * (v - 1)) 1 100 1 = 1 ∧ pullUp (K := ℚ) (fun v => (v - 1) * (v - 1)) 30 100 1 = 1 * (2 ^ (3 - 1) * (1 + 1 / 2 ^ (0 + 1))) := by
  refine ⟨(C242_up (K := ℚ) _ 1 100 1 (by norm_num) (fun v => mul_self_nonneg _) (by norm_num)).1 (by norm_num), ?_⟩
  decide +kernel

/-- A constraint on the only element of a profile, which is 2: the requested change is between -1.4226 and -1. -/
example : ∃ d : ℚ, applyOne (K := ℚ) (m := 1) (n := 1) (k := 1) ⟨fun _ _ => 2, fun _ _ => 1, fun _ _ => 1, fun _ _ => 2, 1 / 100000000, 100⟩ (fun _ _ => 1) (fun _ _ => 2) (fun _ _ => 0, fun _ _ => 0) ⟨.pullDown (1 / 10), (0, 0), .feature⟩ =
    some (fun _ _ => 0, setEntry (fun _ _ => 0) 0 0 d) ∧ -(7113 / 10000 * 2) < d ∧ d ≤ -(2 / 2) :=
  C242_requested (K := ℚ) (m := 1) (n := 1) (k := 1) _ _ _ _ _ 0 0 (1 / 10) rfl (by decide +kernel) (by norm_num) (by norm_num) (by norm_num) (by norm_num)

end Esat
