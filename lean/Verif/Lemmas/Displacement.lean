import Verif.Model.Displacement
import Verif.Lemmas.PyDict
import Mathlib.Algebra.Order.Field.Basic
import Mathlib.Algebra.Order.AbsoluteValue.Basic
import Mathlib.Tactic.Linarith
import Mathlib.Tactic.Ring
import Mathlib.Tactic.NormNum
import Mathlib.Tactic.FieldSimp
import Mathlib.Tactic.SplitIfs

/-!
# Lemmas about displacement
-/

namespace Esat

section search
variable {K : Type*} [Field K] [LinearOrder K] [IsStrictOrderedRing K]

theorem upBound_spec (f : K → K) (t0 : K) : ∀ (n : ℕ) (h : K), 0 ≤ h →
    h ≤ (upBound f t0 n h).1 ∧ (upBound f t0 n h).1 ≤ h * 2 ^ n ∧ ((upBound f t0 n h).2 = true → t0 ≤ f (upBound f t0 n h).1) := by
  intro n
  induction n with
  | zero => intro h _; simp [upBound]
  | succ n ih =>
    intro h hh
    unfold upBound
    split
    · obtain ⟨h1, h2, h3⟩ := ih (h * 2) (by linarith)
      refine ⟨by linarith, ?_, h3⟩
      rw [pow_succ]
      calc _ ≤ h * 2 * 2 ^ n := h2
        _ = _ := by ring
    · rename_i hlt
      refine ⟨le_rfl, ?_, fun _ => not_lt.1 hlt⟩
      have : (1 : K) ≤ 2 ^ (n + 1) := one_le_pow₀ (by norm_num)
      nlinarith

theorem bisectUp_spec (f : K → K) (t thr : K) : ∀ (n : ℕ) (low high md : K) (s : ℕ), low ≤ md → md ≤ high →
    low ≤ (bisectUp f t thr n low high md s).1.modv ∧ (bisectUp f t thr n low high md s).1.modv ≤ high ∧
    low ≤ (bisectUp f t thr n low high md s).2 ∧ (bisectUp f t thr n low high md s).2 ≤ high ∧
    (bisectUp f t thr n low high md s).1.dQ = f (bisectUp f t thr n low high md s).1.modv ∧
    ((bisectUp f t thr n low high md s).1.met = true → t - thr ≤ (bisectUp f t thr n low high md s).1.dQ ∧
      (bisectUp f t thr n low high md s).1.dQ ≤ t) ∧
    (bisectUp f t thr n low high md s).1.steps ≤ s + n ∧
    ((bisectUp f t thr n low high md s).1.met = false → (bisectUp f t thr n low high md s).1.steps = s + n) := by
  intro n
  induction n with
  | zero => intro low high md s h1 h2; simp [bisectUp, h1, h2, h1.trans h2]
  | succ n ih =>
    intro low high md s h1 h2
    unfold bisectUp
    split
    · split
      · rename_i hn; subst hn; simp [h1, h2]
      · obtain ⟨q1, q2, q3, q4, q5, q6, q7, q8⟩ := ih low md ((md + low) / 2) (s + 1) (by linarith) (by linarith)
        exact ⟨q1, q2.trans h2, q3, q4.trans h2, q5, q6, by omega, fun h => by have := q8 h; omega⟩
    · split
      · split
        · rename_i hn; subst hn; simp [h1, h2, h1.trans h2]
        · obtain ⟨q1, q2, q3, q4, q5, q6, q7, q8⟩ := ih md high ((high + md) / 2) (s + 1) (by linarith) (by linarith)
          exact ⟨h1.trans q1, q2, h1.trans q3, q4, q5, q6, by omega, fun h => by have := q8 h; omega⟩
      · rename_i g1 g2
        refine ⟨h1, h2, h1.trans h2, le_rfl, rfl, fun _ => ⟨not_lt.1 g2, not_lt.1 g1⟩, by simp only; omega, by simp⟩

/-- With enough steps for the slope of `f`, the bisection meets the window. -/
theorem bisectUp_converges (f : K → K) (t thr L : K) : ∀ (n : ℕ) (low high : K) (s : ℕ), 0 < n → low ≤ high →
    f low < t - thr → t ≤ f high →
    (∀ a b, low ≤ a → a ≤ b → b ≤ high → f b - f a ≤ L * (b - a)) → L * (high - low) ≤ thr * 2 ^ n →
    (bisectUp f t thr n low high ((high + low) / 2) s).1.met = true ∧
    t ≤ f (bisectUp f t thr n low high ((high + low) / 2) s).2 := by
  intro n
  induction n with
  | zero => intro low high s h; omega
  | succ n ih =>
    intro low high s _ hle hlow hhigh hL hw
    have m1 : low ≤ (high + low) / 2 := by linarith
    have m2 : (high + low) / 2 ≤ high := by linarith
    unfold bisectUp
    split
    · rename_i hgt
      split
      · rename_i hn
        subst hn
        have := hL low ((high + low) / 2) le_rfl m1 m2
        have e : L * ((high + low) / 2 - low) = L * (high - low) / 2 := by ring
        rw [e] at this
        simp only [zero_add, pow_one] at hw
        linarith
      · refine ih low ((high + low) / 2) (s + 1) (by omega) m1 hlow hgt.le (fun a b ha hab hb => hL a b ha hab (hb.trans m2)) ?_
        rw [pow_succ] at hw
        have e : L * ((high + low) / 2 - low) = L * (high - low) / 2 := by ring
        rw [e]
        linarith
    · split
      · rename_i hlt
        split
        · rename_i hn
          subst hn
          have := hL ((high + low) / 2) high m1 m2 le_rfl
          have e : L * (high - (high + low) / 2) = L * (high - low) / 2 := by ring
          rw [e] at this
          simp only [zero_add, pow_one] at hw
          linarith
        · refine ih ((high + low) / 2) high (s + 1) (by omega) m2 hlt hhigh (fun a b ha hab hb => hL a b (m1.trans ha) hab hb) ?_
          rw [pow_succ] at hw
          have e : L * (high - (high + low) / 2) = L * (high - low) / 2 := by ring
          rw [e]
          linarith
      · exact ⟨rfl, hhigh⟩

theorem bisectDown_spec (f : K → K) (t thr eps : K) : ∀ (n : ℕ) (low high md pmd : K) (s : ℕ), low ≤ md → md ≤ high →
    low ≤ (bisectDown f t thr eps n low high md pmd s).modv ∧ (bisectDown f t thr eps n low high md pmd s).modv ≤ high ∧
    (bisectDown f t thr eps n low high md pmd s).dQ = f (bisectDown f t thr eps n low high md pmd s).modv ∧
    ((bisectDown f t thr eps n low high md pmd s).met = true →
      t - thr ≤ (bisectDown f t thr eps n low high md pmd s).dQ ∧ (bisectDown f t thr eps n low high md pmd s).dQ ≤ t) ∧
    ((bisectDown f t thr eps n low high md pmd s).met = false → 0 < n →
      (bisectDown f t thr eps n low high md pmd s).dQ < t - thr ∨ t < (bisectDown f t thr eps n low high md pmd s).dQ) := by
  intro n
  induction n with
  | zero => intro low high md pmd s h1 h2; simp [bisectDown, h1, h2]
  | succ n ih =>
    intro low high md pmd s h1 h2
    unfold bisectDown
    split
    · rename_i hgt
      simp only
      split
      · simp [h1, h2, hgt]
      · rename_i hc
        push Not at hc
        obtain ⟨q1, q2, q3, q4, q5⟩ := ih md high ((md + high) / 2) ((md + high) / 2) (s + 1) (by linarith) (by linarith)
        exact ⟨h1.trans q1, q2, q3, q4, fun h _ => q5 h (by omega)⟩
    · rename_i hgt
      split
      · rename_i hlt
        simp only
        split
        · simp [h1, h2, hlt]
        · rename_i hc
          push Not at hc
          obtain ⟨q1, q2, q3, q4, q5⟩ := ih low md ((low + md) / 2) ((low + md) / 2) (s + 1) (by linarith) (by linarith)
          exact ⟨q1, q2.trans h2, q3, q4, fun h _ => q5 h (by omega)⟩
      · rename_i hlt
        exact ⟨h1, h2, rfl, fun _ => ⟨not_lt.1 hlt, not_lt.1 hgt⟩, by simp⟩

theorem bisectDown_pos (f : K → K) (t thr eps : K) : ∀ (n : ℕ) (low high md pmd : K) (s : ℕ), 0 ≤ low → 0 < md → low ≤ md → md ≤ high →
    0 < (bisectDown f t thr eps n low high md pmd s).modv := by
  intro n
  induction n with
  | zero => intro low high md pmd s _ h2 _ _; simpa [bisectDown] using h2
  | succ n ih =>
    intro low high md pmd s h1 h2 h3 h4
    unfold bisectDown
    split
    · simp only
      split
      · exact h2
      · exact ih _ _ _ _ _ h2.le (by linarith) (by linarith) (by linarith)
    · split
      · simp only
        split
        · exact h2
        · exact ih _ _ _ _ _ h1 (by linarith) (by linarith) (by linarith)
      · exact h2

/-- The step test stops the downward bisection after `j + 1` more evaluations once the bracket is narrower than
`4 · eps · 2^j`. -/
theorem bisectDown_steps (f : K → K) (t thr eps : K) : ∀ (j n : ℕ) (low high : K) (s : ℕ), j < n → low ≤ high →
    high - low ≤ 4 * eps * 2 ^ j →
    (bisectDown f t thr eps n low high ((low + high) / 2) ((low + high) / 2) s).steps ≤ s + j + 1 := by
  intro j
  induction j with
  | zero =>
    intro n low high s hn hle hw
    obtain ⟨n, rfl⟩ : ∃ n', n = n' + 1 := ⟨n - 1, by omega⟩
    unfold bisectDown
    split
    · simp only
      rw [if_pos (Or.inl (by rw [abs_le]; constructor <;> linarith))]
    · split
      · simp only
        rw [if_pos (Or.inl (by rw [abs_le]; constructor <;> linarith))]
      · simp
  | succ j ih =>
    intro n low high s hn hle hw
    obtain ⟨n, rfl⟩ : ∃ n', n = n' + 1 := ⟨n - 1, by omega⟩
    rw [pow_succ] at hw
    unfold bisectDown
    split
    · simp only
      split
      · simp
      · refine (ih n ((low + high) / 2) high (s + 1) (by omega) (by linarith) (by linarith)).trans (by omega)
    · split
      · simp only
        split
        · simp
        · refine (ih n low ((low + high) / 2) (s + 1) (by omega) (by linarith) (by linarith)).trans (by omega)
      · simp

end search

/-! ## Dictionaries -/

section dict
variable {κ κ' β : Type*} [DecidableEq κ] [DecidableEq κ']

theorem dictGet2_foldl (out : κ → κ' → β) (l : List (κ × κ')) : ∀ (d : PyDict κ (PyDict κ' β)) (a : κ) (j : κ'),
    (dictGet (l.foldl (fun d p => dictSet2 d p.1 p.2 (out p.1 p.2)) d) a).bind (fun e => dictGet e j) =
      if (a, j) ∈ l then some (out a j) else (dictGet d a).bind fun e => dictGet e j := by
  induction l with
  | nil => intro d a j; simp
  | cons p l ih =>
    intro d a j
    rw [List.foldl_cons, ih]
    by_cases h1 : (a, j) ∈ l
    · simp [h1]
    · simp only [h1, if_false, dictSet2, dictGet_dictSet, List.mem_cons, or_false]
      by_cases ha : a = p.1
      · subst ha
        simp only [if_true, Option.bind_some, dictGet_dictSet]
        by_cases hj : j = p.2
        · subst hj; simp
        · have : ¬((p.1, j) = p) := fun h => hj (congrArg Prod.snd h)
          simp only [hj, this, if_false]
          cases dictGet d p.1 <;> simp [dictGet]
      · have : ¬((a, j) = p) := fun h => ha (congrArg Prod.fst h)
        simp [ha, this]

/-- The dictionary built by the parallel variants, for distinct tasks. -/
theorem foldl_dictSet2 (out : κ → κ' → β) (l : List (κ × κ')) (hl : l.Nodup) :
    l.foldl (fun d p => dictSet2 d p.1 p.2 (out p.1 p.2)) [] =
      (firsts l).map fun a => (a, (l.filter fun p => p.1 = a).map fun p => (p.2, out a p.2)) := by
  induction l using List.reverseRecOn with
  | nil => rfl
  | append_singleton l p ih =>
    have hl' : l.Nodup := (List.nodup_append.1 hl).1
    have hp : p ∉ l := by
      intro h
      exact (List.nodup_append.1 hl).2.2 p h p (by simp) rfl
    rw [List.foldl_append, ih hl', List.foldl_cons, List.foldl_nil, dictSet2, dictGet_map, firsts_append]
    have hfresh : dictSet ((l.filter fun q => q.1 = p.1).map fun q => (q.2, out p.1 q.2)) p.2 (out p.1 p.2) =
        ((l ++ [p]).filter fun q => q.1 = p.1).map fun q => (q.2, out p.1 q.2) := by
      unfold dictSet
      rw [if_neg]
      · simp [List.filter_append]
      · intro hc
        obtain ⟨q, hq, he⟩ := List.any_eq_true.1 hc
        obtain ⟨q', hq', rfl⟩ := List.mem_map.1 hq
        simp only [decide_eq_true_eq] at he
        rw [List.mem_filter] at hq'
        have h1 : q'.1 = p.1 := by simpa using hq'.2
        exact hp (by rw [← Prod.ext h1 he]; exact hq'.1)
    by_cases h : p.1 ∈ firsts l
    · rw [if_pos h, if_pos h, Option.getD_some, hfresh, dictSet_map, if_pos h]
      apply List.map_congr_left
      intro a _
      by_cases ha : a = p.1
      · subst ha
        simp
      · simp [ha, List.filter_append, Ne.symm ha]
    · have hempty : (l.filter fun q => decide (q.1 = p.1)) = [] := by
        rw [List.filter_eq_nil_iff]
        intro q hq he
        exact h ((mem_firsts l p.1).2 ⟨q, hq, by simpa using he⟩)
      have hf := hfresh
      rw [hempty, List.map_nil] at hf
      rw [if_neg h, if_neg h, Option.getD_none, hf, dictSet_map, if_neg h, List.map_append]
      congr 1
      apply List.map_congr_left
      intro a ha
      have : p.1 ≠ a := fun he => h (he ▸ ha)
      simp [List.filter_append, this]

end dict

/-! ## Tallies -/

section tally
variable {k n : ℕ} {L : Type*}

theorem tallyLevels_spec (sw : L → Bool) (c : ℕ) (ls : List L) : ∀ (i : ℕ) (t : SwapTables) (i' c' : ℕ),
    (tallyLevels sw c ls i t).count i' c' = t.count i' c' + (if c' = c ∧ i ≤ i' ∧ i' < i + ls.length then 1 else 0) ∧
    (tallyLevels sw c ls i t).swap i' c' = t.swap i' c' + (if c' = c ∧ i ≤ i' ∧ (ls[i' - i]?).any sw = true then 1 else 0) := by
  induction ls with
  | nil => intro i t i' c'; simp [tallyLevels]
  | cons l ls ih =>
    intro i t i' c'
    obtain ⟨h1, h2⟩ := ih (i + 1) (tallyOne c i (sw l) t) i' c'
    simp only [tallyLevels]
    rw [h1, h2]
    simp only [tallyOne, List.length_cons]
    by_cases hc : c' = c
    · subst hc
      simp only [and_true, true_and]
      by_cases hi : i' = i
      · subst hi
        have e1 : ¬(i' + 1 ≤ i') := by omega
        simp only [e1, false_and, if_false, le_refl, Nat.sub_self, List.getElem?_cons_zero, Option.any_some, true_and, if_true]
        constructor
        · rw [if_pos (by omega)]
        · cases sw l <;> simp
      · by_cases hlt : i ≤ i'
        · have hlt' : i + 1 ≤ i' := by omega
          have e : i' - i = (i' - (i + 1)) + 1 := by omega
          simp only [hi, hlt, hlt', e, false_and, if_false, List.getElem?_cons_succ, true_and]
          constructor
          · congr 1
            by_cases hx : i' < i + 1 + ls.length
            · rw [if_pos hx, if_pos (by omega)]
            · rw [if_neg hx, if_neg (by omega)]
          · trivial
        · have hlt' : ¬(i + 1 ≤ i') := by omega
          simp [hi, hlt, hlt']
    · simp [hc]

theorem tallyFactor_spec (sw : L → Bool) (c : ℕ) (e : PyDict (Fin n) (List L)) : ∀ (t : SwapTables) (i' c' : ℕ),
    (tallyFactor sw c e t).count i' c' = t.count i' c' +
      (if c' = c then e.countP (fun p => decide (i' < p.2.length)) else 0) ∧
    (tallyFactor sw c e t).swap i' c' = t.swap i' c' +
      (if c' = c then e.countP (fun p => (p.2[i']?).any sw) else 0) := by
  unfold tallyFactor
  induction e with
  | nil => intro t i' c'; simp
  | cons p e ih =>
    intro t i' c'
    rw [List.foldl_cons]
    obtain ⟨h1, h2⟩ := ih (tallyLevels sw c p.2 0 t) i' c'
    obtain ⟨g1, g2⟩ := tallyLevels_spec sw c p.2 0 t i' c'
    rw [h1, h2, g1, g2]
    simp only [List.countP_cons, Nat.zero_le, true_and, Nat.zero_add, Nat.sub_zero, decide_eq_true_eq]
    by_cases hc : c' = c
    · simp only [hc, if_true, true_and]
      omega
    · simp [hc]

/-- The tables after one dictionary: column `c` receives the counts of the dictionary entry number `c - c0`. -/
theorem tallyDict_spec (sw : L → Bool) (d : PyDict (Fin k) (PyDict (Fin n) (List L))) : ∀ (c0 : ℕ) (t : SwapTables) (i c : ℕ),
    (tallyDict sw d c0 t).count i c = t.count i c + (if c0 ≤ c then
      ((d[c - c0]?).map fun p => p.2.countP fun q => decide (i < q.2.length)).getD 0 else 0) ∧
    (tallyDict sw d c0 t).swap i c = t.swap i c + (if c0 ≤ c then
      ((d[c - c0]?).map fun p => p.2.countP fun q => (q.2[i]?).any sw).getD 0 else 0) := by
  induction d with
  | nil => intro c0 t i c; simp [tallyDict]
  | cons p d ih =>
    intro c0 t i c
    obtain ⟨h1, h2⟩ := ih (c0 + 1) (tallyFactor sw c0 p.2 t) i c
    obtain ⟨g1, g2⟩ := tallyFactor_spec sw c0 p.2 t i c
    simp only [tallyDict]
    rw [h1, h2, g1, g2]
    by_cases hc : c = c0
    · subst hc
      have e1 : ¬(c + 1 ≤ c) := by omega
      simp [e1]
    · by_cases hlt : c0 ≤ c
      · have hlt' : c0 + 1 ≤ c := by omega
        have e : c - c0 = (c - (c0 + 1)) + 1 := by omega
        simp [hc, hlt, hlt', e]
      · have hlt' : ¬(c0 + 1 ≤ c) := by omega
        simp [hc, hlt, hlt']

end tally

end Esat
