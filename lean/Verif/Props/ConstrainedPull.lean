import Verif.Props.Constrained

/-!
# What the constraints hand to the update, and the search of 'pull up'

* C43: the value of a constrained entry that `train` hands to the update (`constrained.py:313-358, 498-501`), exactly.
* C83: the value returned by `_pull_up_value` (`constrained.py:623-675`).
-/

namespace Esat

section handed
variable {K : Type*} [Field K] [LinearOrder K] [IsStrictOrderedRing K] {m n k : ℕ}

theorem applyConstraints_append (E : CEnv m n k K) (W : Mat m k K) (H : Mat k n K) (l1 l2 : List (Constraint K)) :
    ∀ D, applyConstraints E W H (l1 ++ l2) D = (applyConstraints E W H l1 D).bind (applyConstraints E W H l2) := by
  induction l1 with
  | nil => intro D; rfl
  | cons c l1 ih =>
    intro D
    simp only [List.cons_append, applyConstraints, Option.bind_assoc]
    congr 1
    funext D'
    exact ih D'

theorem applyConstraints_keep (E : CEnv m n k K) (W : Mat m k K) (H : Mat k n K) (l : List (Constraint K)) :
    ∀ D D', applyConstraints E W H l D = some D' →
    (∀ a j, (∀ c ∈ l, cEntry m n k c ≠ some (.inl (a, j))) → D'.2 a j = D.2 a j) ∧
    (∀ i a, (∀ c ∈ l, cEntry m n k c ≠ some (.inr (i, a))) → D'.1 i a = D.1 i a) := by
  induction l with
  | nil =>
    intro D D' h
    simp only [applyConstraints, Option.some.injEq] at h
    subst h
    exact ⟨fun _ _ _ => rfl, fun _ _ _ => rfl⟩
  | cons c l ih =>
    intro D D' h
    simp only [applyConstraints, Option.bind_eq_some_iff] at h
    obtain ⟨D1, hD1, h⟩ := h
    obtain ⟨i1, i2⟩ := ih D1 D' h
    unfold applyOne at hD1
    split at hD1
    · simp at hD1
    · rename_i a' j' he
      simp only [Option.some.injEq] at hD1
      subst hD1
      refine ⟨fun a j hn => ?_, fun i a hn => ?_⟩
      · rw [i1 a j fun c' hc' => hn c' (List.mem_cons_of_mem _ hc')]
        simp only [setEntry]
        rw [if_neg]
        rintro ⟨rfl, rfl⟩
        exact hn c List.mem_cons_self he
      · exact i2 i a fun c' hc' => hn c' (List.mem_cons_of_mem _ hc')
    · rename_i i' a' he
      simp only [Option.some.injEq] at hD1
      subst hD1
      refine ⟨fun a j hn => ?_, fun i a hn => ?_⟩
      · exact i1 a j fun c' hc' => hn c' (List.mem_cons_of_mem _ hc')
      · rw [i2 i a fun c' hc' => hn c' (List.mem_cons_of_mem _ hc')]
        simp only [setEntry]
        rw [if_neg]
        rintro ⟨rfl, rfl⟩
        exact hn c List.mem_cons_self he

theorem applyConstraints_at (E : CEnv m n k K) (W : Mat m k K) (H : Mat k n K) (l1 l2 : List (Constraint K)) (c : Constraint K)
    (D D' : Mat m k K × Mat k n K) (h : applyConstraints E W H (l1 ++ c :: l2) D = some D') :
    (∀ a j, cEntry m n k c = some (.inl (a, j)) → (∀ c' ∈ l2, cEntry m n k c' ≠ some (.inl (a, j))) →
      D'.2 a j = cDelta E c.kind (fun v => |qLoss E.V E.U W H - qLoss E.V E.U W (setEntry H a j v)|) (H a j) (E.H0 a j)) ∧
    (∀ i a, cEntry m n k c = some (.inr (i, a)) → (∀ c' ∈ l2, cEntry m n k c' ≠ some (.inr (i, a))) →
      D'.1 i a = cDelta E c.kind (fun v => |qLoss E.V E.U W H - qLoss E.V E.U (setEntry W i a v) H|) (W i a) (E.W0 i a)) := by
  rw [applyConstraints_append, Option.bind_eq_some_iff] at h
  obtain ⟨D1, -, h⟩ := h
  simp only [applyConstraints, Option.bind_eq_some_iff] at h
  obtain ⟨D2, h2, h⟩ := h
  obtain ⟨k1, k2⟩ := applyConstraints_keep E W H l2 D2 D' h
  refine ⟨fun a j he hl => ?_, fun i a he hl => ?_⟩
  · rw [k1 a j hl]
    unfold applyOne at h2
    rw [he] at h2
    simp only [Option.some.injEq] at h2
    subst h2
    simp [setEntry]
  · rw [k2 i a hl]
    unfold applyOne at h2
    rw [he] at h2
    simp only [Option.some.injEq] at h2
    subst h2
    simp [setEntry]

/-- The value a 'define limits' constraint should hand over: the current value moved into the limits. -/
def clampSpec (lo hi cur : K) : K := min hi (max lo cur)

/-- What is handed to the update for an entry whose last constraint is 'define limits', exactly, whatever the other constraints, the
expressions and the data are: below the lower limit the limit itself, inside the limits twice the value, above the upper limit the value
plus its distance to the limit; for profiles the absolute value of these.

What is missing: the values are those asked for only in the cases of `C43_iff_partial`. -/
theorem C43_handed_partial (E : CEnv m n k K) (W : Mat m k K) (H : Mat k n K) (l1 l2 : List (Constraint K)) (c : Constraint K)
    (lo hi : K) (hk : c.kind = .limits lo hi) (D D' : Mat m k K × Mat k n K)
    (h : applyConstraints E W H (l1 ++ c :: l2) D = some D') :
    (∀ a j, cEntry m n k c = some (.inl (a, j)) → (∀ c' ∈ l2, cEntry m n k c' ≠ some (.inl (a, j))) →
      (pulled W H D').2 a j =
        |if H a j < lo then lo else if hi < H a j then H a j + (H a j - hi) else 2 * H a j|) ∧
    (∀ i a, cEntry m n k c = some (.inr (i, a)) → (∀ c' ∈ l2, cEntry m n k c' ≠ some (.inr (i, a))) →
      (pulled W H D').1 i a =
        if W i a < lo then lo else if hi < W i a then W i a + (W i a - hi) else 2 * W i a) := by
  obtain ⟨h1, h2⟩ := applyConstraints_at E W H l1 l2 c D D' h
  refine ⟨fun a j he hl => ?_, fun i a he hl => ?_⟩
  · simp only [pulled]
    rw [h1 a j he hl, hk]
    simp only [cDelta]
    congr 1
    split_ifs <;> ring
  · simp only [pulled]
    rw [h2 i a he hl, hk]
    simp only [cDelta]
    split_ifs <;> ring

/-- Exactly when the value handed over for a profile entry (`0 ≤ lo ≤ hi`) is the current value moved into the limits: below the lower
limit, at zero when zero is inside the limits, and when the value is inside the limits only at zero. It lies inside the limits exactly
when it was below the lower limit or twice the value is not above the upper one.

What is missing: all other values, for which the claim fails. -/
theorem C43_iff_partial (E : CEnv m n k K) (W : Mat m k K) (H : Mat k n K) (l1 l2 : List (Constraint K)) (c : Constraint K)
    (lo hi : K) (h0 : 0 ≤ lo) (hlh : lo ≤ hi) (hk : c.kind = .limits lo hi) (D D' : Mat m k K × Mat k n K)
    (h : applyConstraints E W H (l1 ++ c :: l2) D = some D') (a : Fin k) (j : Fin n) (hH : 0 ≤ H a j)
    (he : cEntry m n k c = some (.inl (a, j))) (hl : ∀ c' ∈ l2, cEntry m n k c' ≠ some (.inl (a, j))) :
    ((pulled W H D').2 a j = clampSpec lo hi (H a j) ↔ H a j < lo ∨ H a j = 0) ∧
    (lo ≤ (pulled W H D').2 a j ∧ (pulled W H D').2 a j ≤ hi ↔ H a j < lo ∨ 2 * H a j ≤ hi) := by
  rw [(C43_handed_partial E W H l1 l2 c lo hi hk D D' h).1 a j he hl]
  generalize H a j = x at hH
  unfold clampSpec
  by_cases hx : x < lo
  · rw [if_pos hx, abs_of_nonneg h0, max_eq_left hx.le, min_eq_right hlh]
    exact ⟨by simp [hx], by simp [hx, hlh]⟩
  · have hx' := not_lt.1 hx
    rw [if_neg hx, max_eq_right hx']
    by_cases hy : hi < x
    · rw [if_pos hy, abs_of_nonneg (by linarith), min_eq_left hy.le]
      constructor
      · constructor
        · intro e; linarith
        · rintro (e | e)
          · exact absurd e hx
          · linarith
      · constructor
        · rintro ⟨-, e⟩; linarith
        · rintro (e | e)
          · exact absurd e hx
          · linarith
    · have hy' := not_lt.1 hy
      rw [if_neg hy, abs_of_nonneg (by linarith), min_eq_right hy']
      constructor
      · constructor
        · intro e; right; linarith
        · rintro (e | e)
          · exact absurd e hx
          · linarith
      · constructor
        · rintro ⟨-, e⟩; exact .inr e
        · rintro (e | e)
          · exact absurd e hx
          · exact ⟨by linarith, e⟩

/-- Concrete case: a profile entry 3 with limits 1 and 4 is handed over as 6; an entry 1/2 as 1. -/
example (E : CEnv 1 1 1 ℚ) : let c : Constraint ℚ := ⟨.limits 1 4, (0, 0), .feature⟩
    cEntry 1 1 1 c = some (.inl (0, 0)) ∧
    (applyConstraints E (fun _ _ => 1) (fun _ _ => 3) [c] (fun _ _ => 0, fun _ _ => 0)).map
      (fun D => (pulled (fun _ _ => 1) (fun _ _ => 3) D).2 0 0) = some 6 ∧
    (applyConstraints E (fun _ _ => 1) (fun _ _ => 1 / 2) [c] (fun _ _ => 0, fun _ _ => 0)).map
      (fun D => (pulled (fun _ _ => 1) (fun _ _ => 1 / 2) D).2 0 0) = some 1 := by
  have e : cEntry 1 1 1 (⟨.limits 1 4, (0, 0), .feature⟩ : Constraint ℚ) = some (.inl (0, 0)) := by decide
  refine ⟨e, ?_, ?_⟩ <;> simp [applyConstraints, applyOne, e, pulled, setEntry, cDelta] <;> norm_num

end handed

/-! ## The search of 'pull up' -/

section up
variable {K : Type*} [Field K] [LinearOrder K] [IsStrictOrderedRing K]

theorem pullUpLoop_spec (f : K → K) (lim slack base : K) (hb : 0 < base) : ∀ (n : ℕ) (low high : K), low < high → f (base * low) ≤ lim →
    let r := pullUpLoop f lim slack base (n + 1) low high ((high + low) / 2)
    base * low ≤ r ∧ r ≤ base * high ∧
    (f r ≤ lim ∨ ∃ w, base * low ≤ w ∧ w < r ∧ f w ≤ lim ∧ r - w = base * (high - low) / 2 ^ (n + 1)) := by
  intro n
  induction n with
  | zero =>
    intro low high hlt hlow
    have e : pullUpLoop f lim slack base (0 + 1) low high ((high + low) / 2) = base * ((high + low) / 2) := by
      unfold pullUpLoop
      simp
    simp only [e]
    have h1 : base * low < base * ((high + low) / 2) := mul_lt_mul_of_pos_left (by linarith) hb
    have h2 : base * ((high + low) / 2) < base * high := mul_lt_mul_of_pos_left (by linarith) hb
    exact ⟨h1.le, h2.le, .inr ⟨base * low, le_rfl, h1, hlow, by ring⟩⟩
  | succ n ih =>
    intro low high hlt hlow
    have h1 : base * low < base * ((high + low) / 2) := mul_lt_mul_of_pos_left (by linarith) hb
    have h2 : base * ((high + low) / 2) < base * high := mul_lt_mul_of_pos_left (by linarith) hb
    rw [pullUpLoop]
    simp only [Nat.add_eq_zero_iff, one_ne_zero, and_false, if_false]
    by_cases hv : lim < f (base * ((high + low) / 2))
    · rw [if_pos hv]
      obtain ⟨a, b, d⟩ := ih low ((high + low) / 2) (by linarith) hlow
      refine ⟨a, b.trans h2.le, d.imp id ?_⟩
      rintro ⟨w, w1, w2, w3, w4⟩
      exact ⟨w, w1, w2, w3, w4.trans (by rw [pow_succ 2 (n + 1)]; field_simp; ring)⟩
    · rw [if_neg hv]
      by_cases hv2 : f (base * ((high + low) / 2)) < lim - slack
      · rw [if_pos hv2]
        obtain ⟨a, b, d⟩ := ih ((high + low) / 2) high (by linarith) (not_lt.1 hv)
        refine ⟨h1.le.trans a, b, d.imp id ?_⟩
        rintro ⟨w, w1, w2, w3, w4⟩
        exact ⟨w, h1.le.trans w1, w2, w3, w4.trans (by rw [pow_succ 2 (n + 1)]; field_simp; ring)⟩
      · rw [if_neg hv2]
        exact ⟨h1.le, h2.le, .inl (not_lt.1 hv)⟩

theorem pullUpBound_exact (f : K → K) (lim base : K) : ∀ (r i : ℕ), 0 < r → ∃ j, i < j ∧ j ≤ i + r ∧
    (∀ l, i < l → l < j → f (base * 2 ^ l) < lim) ∧
    ((j = i + r ∧ ∀ low, pullUpBound f lim base r low (2 ^ (i + 1)) = .inl (base * 2 ^ (i + r))) ∨
     (j < i + r ∧ lim ≤ f (base * 2 ^ j) ∧
      ∀ low, pullUpBound f lim base r low (2 ^ (i + 1)) = .inr (if j = i + 1 then low else 2 ^ (j - 1), 2 ^ j))) := by
  intro r
  induction r with
  | zero => intro i h; omega
  | succ r ih =>
    intro i _
    by_cases hr : r = 0
    · subst hr
      refine ⟨i + 1, by omega, by omega, fun l h1 h2 => by omega, .inl ⟨rfl, fun low => ?_⟩⟩
      rw [pullUpBound]
      simp
    · by_cases hf : f (base * 2 ^ (i + 1)) < lim
      · obtain ⟨j, j1, j2, j3, j4⟩ := ih (i + 1) (by omega)
        refine ⟨j, by omega, by omega, fun l h1 h2 => ?_, ?_⟩
        · by_cases hl : l = i + 1
          · rw [hl]; exact hf
          · exact j3 l (by omega) h2
        · have e : ∀ low, pullUpBound f lim base (r + 1) low (2 ^ (i + 1)) = pullUpBound f lim base r (2 ^ (i + 1)) (2 ^ (i + 1 + 1)) := by
            intro low
            rw [pullUpBound]
            simp only [if_pos hf, if_neg hr]
            rw [pow_succ 2 (i + 1)]
          rcases j4 with ⟨a, b⟩ | ⟨a, b, c⟩
          · refine .inl ⟨by omega, fun low => ?_⟩
            rw [e, b, show i + 1 + r = i + (r + 1) by omega]
          · refine .inr ⟨by omega, b, fun low => ?_⟩
            rw [e, c, if_neg (show j ≠ i + 1 by omega)]
            by_cases hj : j = i + 1 + 1
            · rw [if_pos hj, hj]; rfl
            · rw [if_neg hj]
      · refine ⟨i + 1, by omega, by omega, fun l h1 h2 => by omega, .inr ⟨by omega, not_lt.1 hf, fun low => ?_⟩⟩
        rw [pullUpBound]
        simp only [if_neg hf, if_neg hr, if_true]

/-- 'Pull up' of a positive value, for every loss (`f base = 0`: the response is the change relative to the current value). Let `2^j` be
the first power of two (`1 ≤ j`) whose multiple of the value changes Q by at least the limit. If `j < 30`, the value returned lies between
`2^(j-1)` and `2^j` times the current one, and either it respects the limit or it exceeds a value that does by at most one part in `2^29`.
If the multiples up to `2^29` stay below the limit, `2^30` times the value is returned.

What is missing: the limit may be exceeded (`C83_up_refuted`), and for limits of at most 100 the value is often not moved at all
(`C83_up_none_refuted`). -/
theorem C83_up_partial (f : K → K) (lim slack base : K) (hb : 0 < base) (hlim : 0 ≤ lim) (hf : f base = 0) :
    ∃ j, 1 ≤ j ∧ j ≤ 30 ∧ (∀ l, 1 ≤ l → l < j → f (base * 2 ^ l) < lim) ∧
      (j = 30 ∧ pullUp f lim slack base = base * 2 ^ 30 ∨
       j < 30 ∧ lim ≤ f (base * 2 ^ j) ∧ base * 2 ^ (j - 1) ≤ pullUp f lim slack base ∧ pullUp f lim slack base ≤ base * 2 ^ j ∧
        (f (pullUp f lim slack base) ≤ lim ∨
          ∃ w, base * 2 ^ (j - 1) ≤ w ∧ w < pullUp f lim slack base ∧ f w ≤ lim ∧ pullUp f lim slack base - w ≤ w / 2 ^ 29)) := by
  obtain ⟨j, j1, j2, j3, j4⟩ := pullUpBound_exact f lim base 30 0 (by norm_num)
  refine ⟨j, j1, by omega, fun l h1 h2 => j3 l h1 h2, ?_⟩
  rcases j4 with ⟨a, b⟩ | ⟨a, b, c⟩
  · refine .inl ⟨by omega, ?_⟩
    have := b 0
    simp only [zero_add, pow_one] at this
    unfold pullUp
    rw [this]
  · refine .inr ⟨by omega, b, ?_⟩
    have hc := c 0
    simp only [zero_add, pow_one] at hc
    unfold pullUp
    rw [hc]
    simp only
    by_cases hj : j = 1
    · subst hj
      simp only [if_true, Nat.sub_self, pow_zero, mul_one, pow_one, add_zero]
      rw [show (30 : ℕ) = 29 + 1 from rfl, pullUpLoop]
      have e : base * (2 / 2) = base := by norm_num
      simp only [e, hf, if_neg (not_lt.2 hlim)]
      by_cases hs : 0 < lim - slack
      · simp only [if_pos hs, Nat.reduceEqDiff, if_false]
        have := pullUpLoop_spec f lim slack base hb 28 1 2 (by norm_num) (by rw [mul_one, hf]; exact hlim)
        rw [show (2 : K) / 2 = 1 by norm_num]
        simp only [mul_one, Nat.reduceAdd] at this
        obtain ⟨s1, s2, s3⟩ := this
        refine ⟨s1, s2, s3.imp id ?_⟩
        rintro ⟨w, w1, w2, w3, w4⟩
        refine ⟨w, w1, w2, w3, w4.le.trans ?_⟩
        rw [show (2 : K) - 1 = 1 by norm_num, mul_one]
        exact div_le_div_of_nonneg_right w1 (by positivity)
      · simp only [if_neg hs]
        exact ⟨le_rfl, by linarith, .inl (hf.le.trans hlim)⟩
    · simp only [if_neg hj]
      have hpow : (2 : K) ^ j = 2 ^ (j - 1) * 2 := by rw [← pow_succ]; congr 1; omega
      have hpos : (0 : K) < 2 ^ (j - 1) := by positivity
      have hlow : f (base * 2 ^ (j - 1)) ≤ lim := (j3 (j - 1) (by omega) (by omega)).le
      have := pullUpLoop_spec f lim slack base hb 29 (2 ^ (j - 1)) (2 ^ j) (by rw [hpow]; linarith) hlow
      simp only [Nat.reduceAdd] at this
      obtain ⟨s1, s2, s3⟩ := this
      refine ⟨s1, s2, s3.imp id ?_⟩
      rintro ⟨w, w1, w2, w3, w4⟩
      refine ⟨w, w1, w2, w3, w4.le.trans ?_⟩
      rw [show base * ((2 : K) ^ j - 2 ^ (j - 1)) = base * 2 ^ (j - 1) by rw [hpow]; ring]
      have hw : (0 : K) < w := lt_of_lt_of_le (mul_pos hb hpos) w1
      calc base * 2 ^ (j - 1) / 2 ^ 30 ≤ w / 2 ^ 30 := div_le_div_of_nonneg_right w1 (by positivity)
        _ ≤ w / 2 ^ 29 := div_le_div_of_nonneg_left hw.le (by positivity) (by norm_num)

/-- **Disagreement.** With a limit of at most 100 (`slack = 1e2`) a value whose double reaches the limit is not pulled up at all, although
smaller pulls respect the limit: the first trial of the bisection is the current value and the window `[limit - 100, limit]` contains its
change 0. -/
theorem C83_up_none_refuted (f : K → K) (lim slack base : K) (hf : f base = 0) (h0 : 0 ≤ lim) (hs : lim ≤ slack) (h2 : lim ≤ f (base * 2)) :
    pullUp f lim slack base = base := by
  have h29 : pullUpBound f lim base 30 0 2 = .inr (0, 2) := by
    rw [show (30 : ℕ) = 29 + 1 from rfl, pullUpBound]
    simp [not_lt.2 h2]
  unfold pullUp
  rw [h29]
  simp only
  rw [show (30 : ℕ) = 29 + 1 from rfl, pullUpLoop]
  have e : base * ((2 + 0) / 2) = base := by norm_num
  simp only [e, hf, if_neg (not_lt.2 h0)]
  rw [if_neg (by linarith)]

/-- **Disagreement.** With a limit above 100 the value returned exceeds the limit when every larger value does: leaving the value where it
is would respect it. -/
theorem C83_up_refuted (f : K → K) (lim slack base : K) (hb : 0 < base) (hf : f base = 0) (hs : slack < lim) (h0 : 0 ≤ lim)
    (hbig : ∀ v, base < v → lim < f v) : f base ≤ lim ∧ lim < f (pullUp f lim slack base) := by
  refine ⟨hf.le.trans h0, ?_⟩
  have key : ∀ (r : ℕ) (high md : K), 1 < md → lim < f (pullUpLoop f lim slack base r 1 high md) := by
    intro r
    induction r with
    | zero => intro high md h; exact hbig _ (lt_mul_of_one_lt_right hb h)
    | succ r ih =>
      intro high md h
      have hv := hbig _ (lt_mul_of_one_lt_right hb h)
      unfold pullUpLoop
      simp only [if_pos hv]
      split
      · exact hv
      · exact ih md _ (by linarith)
  have h29 : pullUpBound f lim base 30 0 2 = .inr (0, 2) := by
    rw [show (30 : ℕ) = 29 + 1 from rfl, pullUpBound]
    simp [not_lt.2 (hbig (base * 2) (by linarith)).le]
  unfold pullUp
  rw [h29]
  simp only
  rw [show (30 : ℕ) = 29 + 1 from rfl, pullUpLoop]
  have e : base * ((2 + 0) / 2) = base := by norm_num
  simp only [e, hf, if_neg (not_lt.2 h0)]
  rw [if_pos (by linarith)]
  simp only [Nat.reduceEqDiff, if_false]
  rw [show (2 + 0 : K) / 2 = 1 by norm_num]
  exact key 29 2 _ (by norm_num)

/-- Concrete cases: from 1 with response `100 (v - 1)^2`: with limit 50 nothing moves, although 1.5 changes Q by 25 only; with limit 200
the value returned lies in the window `[100, 200]`. -/
example : pullUp (K := ℚ) (fun v => 100 * (v - 1) * (v - 1)) 50 100 1 = 1 ∧
    (let r := pullUp (K := ℚ) (fun v => 100 * (v - 1) * (v - 1)) 200 100 1; 2 < r ∧ r < 5 / 2 ∧ 100 * (r - 1) * (r - 1) ≤ 200) := by
  decide +kernel

end up

end Esat
