import Verif.Props.Constrained

/-!
# C241: the search for a pull to a value

`_pull_to_value` looks for a value between the current one and the target at which Q changes by about the allowed amount. Which value it returns, in closed form.
-/

namespace Esat
variable {K : Type*} [Field K] [LinearOrder K] [IsStrictOrderedRing K]

/-! ## Specification -/

/-- Bracket after `t` halvings of `[lo, hi]`: the half above the middle is kept where the change of Q exceeds the limit, otherwise the half below. -/
def halved (f : K → K) (lim lo hi : K) : ℕ → K × K
  | 0 => (lo, hi)
  | t + 1 =>
    if lim < f (((halved f lim lo hi t).1 + (halved f lim lo hi t).2) / 2) then (((halved f lim lo hi t).1 + (halved f lim lo hi t).2) / 2, (halved f lim lo hi t).2)
    else ((halved f lim lo hi t).1, ((halved f lim lo hi t).1 + (halved f lim lo hi t).2) / 2)

/-- The middle of the bracket. -/
def middle (f : K → K) (lim lo hi : K) (t : ℕ) : K := ((halved f lim lo hi t).1 + (halved f lim lo hi t).2) / 2

/-- The search ends at the `t`-th middle: the change is within the band below the limit, or the next middle is within `eps` of this one (of zero, for the first), or it is the 31st. -/
def SearchEnds (f : K → K) (lim eps slack lo hi : K) (t : ℕ) : Prop :=
  (lim - slack ≤ f (middle f lim lo hi t) ∧ f (middle f lim lo hi t) ≤ lim) ∨ |(if t = 0 then 0 else middle f lim lo hi t) - middle f lim lo hi (t + 1)| ≤ eps ∨ t = 30

/-! ## The loop -/

theorem pullToLoop_search (f : K → K) (lim eps slack lo hi : K) : ∀ (r t : ℕ), t + r = 31 → 0 < r →
    ∃ u, t ≤ u ∧ u ≤ 30 ∧ pullToLoop f lim eps slack r (halved f lim lo hi t).1 (halved f lim lo hi t).2 (middle f lim lo hi t) (if t = 0 then 0 else middle f lim lo hi t) = middle f lim lo hi u ∧
      SearchEnds f lim eps slack lo hi u ∧ ∀ s, t ≤ s → s < u → ¬ SearchEnds f lim eps slack lo hi s := by
  intro r
  induction r with
  | zero => intro t _ h; omega
  | succ r ih =>
    intro t ht _
    have ih' := fun h => ih (t + 1) (by omega) h
    rw [if_neg (by omega)] at ih'
    by_cases h1 : lim < f (middle f lim lo hi t)
    · have e : halved f lim lo hi (t + 1) = (middle f lim lo hi t, (halved f lim lo hi t).2) := by
        rw [halved]; exact if_pos h1
      have em : middle f lim lo hi (t + 1) = (middle f lim lo hi t + (halved f lim lo hi t).2) / 2 := by
        rw [middle, e]
      rw [pullToLoop, if_pos h1]
      dsimp only
      rw [← em]
      by_cases hst : |(if t = 0 then 0 else middle f lim lo hi t) - middle f lim lo hi (t + 1)| ≤ eps ∨ r = 0
      · rw [if_pos hst]
        refine ⟨t, le_rfl, by omega, rfl, ?_, fun s a b => by omega⟩
        rcases hst with h | h
        · exact .inr (.inl h)
        · exact .inr (.inr (by omega))
      · rw [if_neg hst]
        rw [not_or, not_le] at hst
        obtain ⟨u, a, b, c, d, g⟩ := ih' (by omega)
        rw [e] at c
        refine ⟨u, by omega, b, c, d, fun s p q => ?_⟩
        rcases Nat.lt_or_ge t s with h | h
        · exact g s h q
        · obtain rfl : s = t := by omega
          rintro (h' | h' | h')
          · exact absurd h'.2 (not_le.2 h1)
          · exact absurd h' (not_le.2 hst.1)
          · omega
    · have e : halved f lim lo hi (t + 1) = ((halved f lim lo hi t).1, middle f lim lo hi t) := by
        rw [halved]; exact if_neg h1
      have em : middle f lim lo hi (t + 1) = ((halved f lim lo hi t).1 + middle f lim lo hi t) / 2 := by
        rw [middle, e]
      rw [pullToLoop, if_neg h1]
      by_cases h2 : f (middle f lim lo hi t) < lim - slack
      · rw [if_pos h2]
        dsimp only
        rw [← em]
        by_cases hst : |(if t = 0 then 0 else middle f lim lo hi t) - middle f lim lo hi (t + 1)| ≤ eps ∨ r = 0
        · rw [if_pos hst]
          refine ⟨t, le_rfl, by omega, rfl, ?_, fun s a b => by omega⟩
          rcases hst with h | h
          · exact .inr (.inl h)
          · exact .inr (.inr (by omega))
        · rw [if_neg hst]
          rw [not_or, not_le] at hst
          obtain ⟨u, a, b, c, d, g⟩ := ih' (by omega)
          rw [e] at c
          refine ⟨u, by omega, b, c, d, fun s p q => ?_⟩
          rcases Nat.lt_or_ge t s with h | h
          · exact g s h q
          · obtain rfl : s = t := by omega
            rintro (h' | h' | h')
            · exact absurd h'.1 (not_le.2 h2)
            · exact absurd h' (not_le.2 hst.1)
            · omega
      · rw [if_neg h2]
        exact ⟨t, le_rfl, by omega, rfl, .inl ⟨not_lt.1 h2, not_lt.1 h1⟩, fun s a b => by omega⟩

/-- **C241 (search).** A target that is not within the limit is replaced by the first of the 31 bisection points at which the search may end; above the middle is searched whenever the change of Q exceeds the limit. -/
theorem C241_search (f : K → K) (lim eps slack cur target : K) (h : ¬ f target < lim) :
    ∃ t, t ≤ 30 ∧ pullTo f lim eps slack cur target = middle f lim (min cur target) (max cur target) t ∧ SearchEnds f lim eps slack (min cur target) (max cur target) t ∧
      ∀ s < t, ¬ SearchEnds f lim eps slack (min cur target) (max cur target) s := by
  obtain ⟨u, -, b, c, d, g⟩ := pullToLoop_search f lim eps slack (min cur target) (max cur target) 31 0 rfl (by omega)
  refine ⟨u, b, ?_, d, fun s hs => g s (Nat.zero_le _) hs⟩
  rw [← c]
  unfold pullTo
  rw [if_neg h]
  simp only [halved, middle, if_true]
  split
  · rename_i hc
    rw [min_eq_left hc.le, max_eq_right hc.le, add_comm]
  · rename_i hc
    rw [min_eq_right (not_lt.1 hc), max_eq_left (not_lt.1 hc), add_comm target cur]

theorem halved_width (f : K → K) (lim lo hi : K) (t : ℕ) : (halved f lim lo hi t).2 - (halved f lim lo hi t).1 = (hi - lo) / 2 ^ t := by
  induction t with
  | zero => simp [halved]
  | succ t ih =>
    rw [halved, pow_succ, ← div_div, ← ih]
    split <;> ring

theorem halved_ends (f : K → K) (lim lo hi : K) (t : ℕ) : ((halved f lim lo hi t).1 = lo ∨ lim < f (halved f lim lo hi t).1) ∧ ((halved f lim lo hi t).2 = hi ∨ f (halved f lim lo hi t).2 ≤ lim) := by
  induction t with
  | zero => exact ⟨.inl rfl, .inl rfl⟩
  | succ t ih =>
    rw [halved]
    split
    · rename_i h
      exact ⟨.inr h, ih.2⟩
    · rename_i h
      exact ⟨ih.1, .inr (not_lt.1 h)⟩

theorem halved_le (f : K → K) (lim lo hi : K) (h : lo ≤ hi) (t : ℕ) : (halved f lim lo hi t).1 ≤ (halved f lim lo hi t).2 := by
  have := halved_width f lim lo hi t
  have h2 : 0 ≤ (hi - lo) / 2 ^ t := div_nonneg (by linarith) (by positivity)
  linarith

/-- **C241 (precision).** The returned value is in the band below the limit, or it lies in a bracket no wider than four tolerances or the thirtieth halving, whose upper end respects the limit (or is the upper end of the range) and whose
lower end exceeds it (or is the lower end of the range); only if the second point is within the tolerance of zero the search may end at the first one. For a pull downwards this is where the limit is reached. -/
theorem C241_precision (f : K → K) (lim eps slack cur target : K) (h : ¬ f target < lim) :
    let r := pullTo f lim eps slack cur target
    (lim - slack ≤ f r ∧ f r ≤ lim) ∨ (∃ l u, l ≤ r ∧ r ≤ u ∧ u - l ≤ max (4 * eps) (|cur - target| / 2 ^ 30) ∧ (l = min cur target ∨ lim < f l) ∧ (u = max cur target ∨ f u ≤ lim)) ∨
      (r = (cur + target) / 2 ∧ |middle f lim (min cur target) (max cur target) 1| ≤ eps) := by
  intro r
  obtain ⟨t, -, hr, hend, -⟩ := C241_search f lim eps slack cur target h
  have hle : min cur target ≤ max cur target := min_le_max
  have hwid : max cur target - min cur target = |cur - target| := max_sub_min_eq_abs' _ _
  have hw := halved_width f lim (min cur target) (max cur target) t
  have hl := halved_le f lim (min cur target) (max cur target) hle t
  have he := halved_ends f lim (min cur target) (max cur target) t
  rw [hwid] at hw
  have hr' : r = ((halved f lim (min cur target) (max cur target) t).1 + (halved f lim (min cur target) (max cur target) t).2) / 2 := hr
  have key : (halved f lim (min cur target) (max cur target) t).2 - (halved f lim (min cur target) (max cur target) t).1 ≤ max (4 * eps) (|cur - target| / 2 ^ 30) →
      ∃ l u, l ≤ r ∧ r ≤ u ∧ u - l ≤ max (4 * eps) (|cur - target| / 2 ^ 30) ∧ (l = min cur target ∨ lim < f l) ∧ (u = max cur target ∨ f u ≤ lim) :=
    fun hb => ⟨_, _, by rw [hr']; linarith, by rw [hr']; linarith, hb, he.1, he.2⟩
  rcases hend with hb | hb | hb
  · exact .inl (by rw [show r = _ from hr]; exact hb)
  · by_cases ht : t = 0
    · subst ht
      refine .inr (.inr ⟨?_, ?_⟩)
      · rw [hr']
        simp only [halved]
        rw [min_add_max]
      · simpa using hb
    · refine .inr (.inl (key ?_))
      rw [if_neg ht] at hb
      refine le_max_of_le_left ?_
      have e : |middle f lim (min cur target) (max cur target) t - middle f lim (min cur target) (max cur target) (t + 1)| =
          ((halved f lim (min cur target) (max cur target) t).2 - (halved f lim (min cur target) (max cur target) t).1) / 4 := by
        by_cases h1 : lim < f (middle f lim (min cur target) (max cur target) t)
        · have e1 : halved f lim (min cur target) (max cur target) (t + 1) = (middle f lim (min cur target) (max cur target) t, (halved f lim (min cur target) (max cur target) t).2) := by
            rw [halved]; exact if_pos h1
          simp only [middle] at e1 ⊢
          rw [e1, abs_sub_comm, abs_of_nonneg] <;> dsimp only <;> first | linarith | ring
        · have e1 : halved f lim (min cur target) (max cur target) (t + 1) = ((halved f lim (min cur target) (max cur target) t).1, middle f lim (min cur target) (max cur target) t) := by
            rw [halved]; exact if_neg h1
          simp only [middle] at e1 ⊢
          rw [e1, abs_of_nonneg] <;> dsimp only <;> first | linarith | ring
      rw [e] at hb
      linarith
  · refine .inr (.inl (key ?_))
    rw [hw, hb]
    exact le_max_right _ _

/-! ## Limits up to one hundred -/

theorem halved_up (f : K → K) (lim lo hi : K) (t : ℕ) (h : ∀ s < t, lim < f (hi - (hi - lo) / 2 ^ (s + 1))) : halved f lim lo hi t = (hi - (hi - lo) / 2 ^ t, hi) := by
  induction t with
  | zero => simp [halved]
  | succ t ih =>
    have hi' := ih fun s hs => h s (by omega)
    have h1 : (hi - (hi - lo) / 2 ^ t + hi) / 2 = hi - (hi - lo) / 2 ^ (t + 1) := by
      rw [pow_succ, ← div_div]; ring
    rw [halved, hi']
    dsimp only
    rw [h1, if_pos (h t (by omega))]

/-- **C241 (limits up to one hundred).** With an allowed change of Q of at most one hundred the band below the limit has no lower end: the search does not look for the largest pull allowed, but returns the first of the values
`hi - (hi - lo)/2, hi - (hi - lo)/4, …` (`lo`, `hi`: the smaller and larger of current value and target) that respects the limit, or at which it runs into its tolerance or its thirty-first evaluation. For a target below the current
value the pull is thus the target's distance divided by a power of two; for one above, the values approach the target. -/
theorem C241_usual (f : K → K) (lim eps slack cur target : K) (hf : ∀ v, 0 ≤ f v) (hlim : lim ≤ slack) (h : ¬ f target < lim) :
    ∃ t, t ≤ 30 ∧ pullTo f lim eps slack cur target = max cur target - |cur - target| / 2 ^ (t + 1) ∧ (∀ s < t, lim < f (max cur target - |cur - target| / 2 ^ (s + 1))) ∧
      (t < 30 → f (max cur target - |cur - target| / 2 ^ (t + 1)) ≤ lim ∨ (0 < t ∧ |cur - target| / 2 ^ (t + 2) ≤ eps) ∨ (t = 0 ∧ |max cur target - |cur - target| / 4| ≤ eps)) := by
  have hwid : max cur target - min cur target = |cur - target| := max_sub_min_eq_abs' _ _
  obtain ⟨t, t1, t2, t3, t4⟩ := C241_search f lim eps slack cur target h
  have hmid : ∀ s, (∀ u < s, lim < f (max cur target - |cur - target| / 2 ^ (u + 1))) → middle f lim (min cur target) (max cur target) s = max cur target - |cur - target| / 2 ^ (s + 1) := by
    intro s hs'
    rw [middle, halved_up f lim _ _ s (by rw [hwid]; exact hs')]
    dsimp only
    rw [hwid, pow_succ, ← div_div]
    ring
  have hall : ∀ s ≤ t, ∀ u < s, lim < f (max cur target - |cur - target| / 2 ^ (u + 1)) := by
    intro s
    induction s with
    | zero => intro _ u hu; omega
    | succ s ih =>
      intro hst u hu
      have ih' := ih (by omega)
      rcases Nat.lt_or_ge u s with h1 | h1
      · exact ih' u h1
      · obtain rfl : u = s := by omega
        have := t4 u (by omega)
        rw [← hmid u ih']
        by_contra hc
        exact this (.inl ⟨le_trans (by linarith) (hf _), not_lt.1 hc⟩)
  refine ⟨t, t1, by rw [t2, hmid t (hall t le_rfl)], hall t le_rfl, fun ht => ?_⟩
  by_cases hle : f (max cur target - |cur - target| / 2 ^ (t + 1)) ≤ lim
  · exact .inl hle
  · have hup : ∀ u < t + 1, lim < f (max cur target - |cur - target| / 2 ^ (u + 1)) := by
      intro u hu
      rcases Nat.lt_or_ge u t with h1 | h1
      · exact hall t le_rfl u h1
      · obtain rfl : u = t := by omega
        exact not_le.1 hle
    have m1 := hmid (t + 1) hup
    have m0 := hmid t (hall t le_rfl)
    rcases t3 with h1 | h1 | h1
    · rw [m0] at h1
      exact absurd h1.2 hle
    · rw [m1, m0] at h1
      by_cases ht0 : t = 0
      · subst ht0
        refine .inr (.inr ⟨rfl, ?_⟩)
        rw [if_pos rfl, zero_sub, abs_neg] at h1
        have : (2 : K) ^ (0 + 1 + 1) = 4 := by norm_num
        rw [this] at h1
        exact h1
      · refine .inr (.inl ⟨by omega, ?_⟩)
        rw [if_neg ht0] at h1
        have e : max cur target - |cur - target| / 2 ^ (t + 1) - (max cur target - |cur - target| / 2 ^ (t + 1 + 1)) = -(|cur - target| / 2 ^ (t + 2)) := by
          rw [pow_succ 2 (t + 1), ← div_div]
          ring
        rw [e, abs_neg, abs_of_nonneg (by positivity)] at h1
        exact h1
    · omega

/-! ## Cases -/

/-- Pull down from 10 to 0 with response `(10 - v)²` and limit 4: the largest pull allowed ends at 8, the search returns 8.75. -/
example : pullTo (K := ℚ) (fun v => (10 - v) * (10 - v)) 4 (1 / 100000000) 100 10 0 = 10 - 10 / 2 ^ (2 + 1) ∧ (10 - 8 : ℚ) * (10 - 8) ≤ 4 := by decide +kernel

/-- Pull up from 0 to 4 with response `v²` and limit 1: the values approach the target. -/
example : ∃ t, t ≤ 30 ∧ pullTo (K := ℚ) (fun v => v * v) 1 (1 / 100000000) 100 0 4 = 4 - 4 / 2 ^ (t + 1) := by
  obtain ⟨t, h1, h2, -⟩ := C241_usual (K := ℚ) (fun v => v * v) 1 (1 / 100000000) 100 0 4 (fun v => mul_self_nonneg v) (by norm_num) (by norm_num)
  refine ⟨t, h1, ?_⟩
  rw [h2]
  norm_num

/-- A limit above one hundred: the search is a bisection with a lower end of the band. -/
example : let r := pullTo (K := ℚ) (fun v => (100 - v) * (100 - v)) 1000 (1 / 100000000) 100 100 0
    r = 68.75 ∧ 900 ≤ (100 - r) * (100 - r) ∧ (100 - r) * (100 - r) ≤ 1000 := by decide +kernel

end Esat
