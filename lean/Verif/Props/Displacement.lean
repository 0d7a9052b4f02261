import Verif.Lemmas.Displacement
import Verif.Model.Batch
import Mathlib.Data.Rat.Defs
import Mathlib.Algebra.Order.Ring.Rat
import Mathlib.Algebra.Field.Rat
import Mathlib.Algebra.BigOperators.Fin
import Mathlib.Data.Fin.VecNotation
import Mathlib.Data.List.ProdSigma

/-!
# C33-C40, C79-C81: displacement and BS-DISP
-/

namespace Esat

/-! ## C33 -/

section search
variable {K : Type*} [Field K] [LinearOrder K] [IsStrictOrderedRing K]

theorem increaseLevels_spec (f : K → K) (thr : K) (ts : List K) : ∀ high : K, 1 ≤ high →
    (increaseLevels f thr ts high).length = ts.length ∧
    ∀ (i : ℕ) (t : K) (r : LevelRes K), ts[i]? = some t → (increaseLevels f thr ts high)[i]? = some r →
      1 ≤ r.modv ∧ r.modv ≤ high ∧ r.dQ = f r.modv ∧ (r.met = true → t - thr ≤ r.dQ ∧ r.dQ ≤ t) ∧ r.steps ≤ 100 ∧
      (r.met = false → r.steps = 100) := by
  induction ts with
  | nil => intro high _; simp [increaseLevels]
  | cons t0 ts ih =>
    intro high hh
    obtain ⟨q1, q2, q3, q4, q5, q6, q7, q8⟩ :=
      bisectUp_spec f t0 thr 100 1 high ((high + 1) / 2) 0 (by linarith) (by linarith)
    obtain ⟨g1, g2⟩ := ih _ q3
    refine ⟨by simp [increaseLevels, g1], fun i t r ht hr => ?_⟩
    cases i with
    | zero =>
      simp only [increaseLevels, List.getElem?_cons_zero, Option.some.injEq] at ht hr
      subst ht hr
      exact ⟨q1, q2, q5, q6, by omega, fun h => by have := q8 h; omega⟩
    | succ i =>
      simp only [increaseLevels, List.getElem?_cons_succ] at ht hr
      obtain ⟨r1, r2, r3⟩ := g2 i t r ht hr
      exact ⟨r1, r2.trans q4, r3⟩

/-- The bracket found by the doubling search: at least 2, at most `2^101`, and the loss has risen by at least the largest
level there if the search says so. -/
theorem C33_bracket (f : K → K) (t0 : K) :
    2 ≤ (upBound f t0 100 2).1 ∧ (upBound f t0 100 2).1 ≤ 2 ^ 101 ∧
    ((upBound f t0 100 2).2 = true → t0 ≤ f (upBound f t0 100 2).1) := by
  obtain ⟨h1, h2, h3⟩ := upBound_spec f t0 100 2 (by norm_num)
  refine ⟨h1, h2.trans (by norm_num), h3⟩

/-- For any response of the loss, any threshold and any levels: every level gets a record, the displaced value lies between
the base value and the bracket, the stored `dQ` is the change of Q at that value, and it lies in the window
`[target - threshold, target]` unless the search used up its 100 evaluations. -/
theorem C33_levels (f : K → K) (thr t0 : K) (ts : List K) (base : K) (hb : 0 ≤ base) :
    (increaseSearch f thr (t0 :: ts)).length = (t0 :: ts).length ∧
    ∀ (i : ℕ) (t : K) (r : LevelRes K), (t0 :: ts)[i]? = some t → (increaseSearch f thr (t0 :: ts))[i]? = some r →
      base ≤ base * r.modv ∧ base * r.modv ≤ base * (upBound f t0 100 2).1 ∧ r.dQ = f r.modv ∧
      ((t - thr ≤ r.dQ ∧ r.dQ ≤ t) ∨ (r.met = false ∧ r.steps = 100)) := by
  have hh : (1 : K) ≤ (upBound f t0 100 2).1 := le_trans (by norm_num) (C33_bracket f t0).1
  obtain ⟨g1, g2⟩ := increaseLevels_spec f thr (t0 :: ts) _ hh
  refine ⟨g1, fun i t r ht hr => ?_⟩
  obtain ⟨r1, r2, r3, r4, r5, r6⟩ := g2 i t r ht hr
  refine ⟨le_mul_of_one_le_right hb r1, mul_le_mul_of_nonneg_left r2 hb, r3, ?_⟩
  cases hm : r.met with
  | true => exact .inl (r4 hm)
  | false => exact .inr ⟨rfl, r6 hm⟩

theorem increaseLevels_met (f : K → K) (thr L : K) (hL0 : 0 ≤ L) (ts : List K) (hs : ts.Pairwise (fun a b => b ≤ a)) :
    ∀ high : K, 1 ≤ high → (∀ t ∈ ts, f 1 < t - thr ∧ t ≤ f high) →
    (∀ a b, 1 ≤ a → a ≤ b → b ≤ high → f b - f a ≤ L * (b - a)) → L * (high - 1) ≤ thr * 2 ^ 100 →
    ∀ (i : ℕ) (r : LevelRes K), (increaseLevels f thr ts high)[i]? = some r → r.met = true := by
  induction ts with
  | nil => intro high _ _ _ _ i r hr; simp [increaseLevels] at hr
  | cons t0 ts ih =>
    intro high hh ht hL hw i r hr
    rw [List.pairwise_cons] at hs
    obtain ⟨c1, c2⟩ := bisectUp_converges f t0 thr L 100 1 high 0 (by norm_num) hh (ht t0 List.mem_cons_self).1
      (ht t0 List.mem_cons_self).2 hL hw
    obtain ⟨_, _, q3, q4, _⟩ := bisectUp_spec f t0 thr 100 1 high ((high + 1) / 2) 0 (by linarith) (by linarith)
    cases i with
    | zero =>
      simp only [increaseLevels, List.getElem?_cons_zero, Option.some.injEq] at hr
      rw [← hr]
      exact c1
    | succ i =>
      simp only [increaseLevels, List.getElem?_cons_succ] at hr
      refine ih hs.2 _ q3 (fun t h => ⟨(ht t (List.mem_cons_of_mem _ h)).1, (hs.1 t h).trans c2⟩)
        (fun a b ha hab hb => hL a b ha hab (hb.trans q4)) ?_ i r hr
      refine le_trans (mul_le_mul_of_nonneg_left ?_ hL0) hw
      linarith

/-- If the doubling search found its bracket, the change of Q starts below every window and grows at most with slope `L`
over the bracket, where `L · (bracket - 1) ≤ threshold · 2^100`, then every level is met: no level is reported outside its
window. (The loss is a quadratic polynomial in one profile entry, so such a slope exists.) -/
theorem C33_met (f : K → K) (thr t0 : K) (ts : List K) (L : K) (hL0 : 0 ≤ L)
    (hdec : (t0 :: ts).Pairwise (fun a b => b ≤ a)) (hfound : (upBound f t0 100 2).2 = true)
    (h1 : ∀ t ∈ t0 :: ts, f 1 < t - thr)
    (hL : ∀ a b, 1 ≤ a → a ≤ b → b ≤ (upBound f t0 100 2).1 → f b - f a ≤ L * (b - a))
    (hw : L * ((upBound f t0 100 2).1 - 1) ≤ thr * 2 ^ 100) :
    ∀ (i : ℕ) (t : K) (r : LevelRes K), (t0 :: ts)[i]? = some t → (increaseSearch f thr (t0 :: ts))[i]? = some r → t - thr ≤ r.dQ ∧ r.dQ ≤ t := by
  intro i t r ht hr
  obtain ⟨b1, b2, b3⟩ := C33_bracket f t0
  have hh : (1 : K) ≤ (upBound f t0 100 2).1 := le_trans (by norm_num) b1
  have hge : ∀ t ∈ t0 :: ts, t ≤ t0 := by
    intro t ht
    rcases List.mem_cons.1 ht with rfl | h
    · exact le_rfl
    · exact (List.pairwise_cons.1 hdec).1 t h
  have hm := increaseLevels_met f thr L hL0 (t0 :: ts) hdec _ hh (fun t ht => ⟨h1 t ht, (hge t ht).trans (b3 hfound)⟩) hL hw i r hr
  exact (((increaseLevels_spec f thr (t0 :: ts) _ hh).2 i t r ht hr).2.2.2.1) hm

/-- Non-trivial case: a quadratic response with the levels of the code; all four levels are met. -/
example : ((increaseSearch (K := ℚ) (fun x => 5 * (x - 1) * (x - 1)) (1 / 10) [32, 16, 8, 4]).map fun r => (r.met, r.steps)) =
    [(true, 10), (true, 9), (true, 6), (true, 4)] := by decide +kernel

/-! ## C34 -/

/-- For any response of the loss: the displaced value lies strictly above zero and at most at the base value, and the
stored `dQ` is the change of Q at that value. -/
theorem C34_between (f : K → K) (t thr eps base : K) (hb : 0 < base) :
    0 < base * (bisectDown f t thr eps 50 0 1 (1 / 2) 0 0).modv ∧
    base * (bisectDown f t thr eps 50 0 1 (1 / 2) 0 0).modv ≤ base ∧
    (bisectDown f t thr eps 50 0 1 (1 / 2) 0 0).dQ = f (bisectDown f t thr eps 50 0 1 (1 / 2) 0 0).modv := by
  obtain ⟨q1, q2, q3, _⟩ := bisectDown_spec f t thr eps 50 0 1 (1 / 2) 0 0 (by norm_num) (by norm_num)
  have hp := bisectDown_pos f t thr eps 50 0 1 (1 / 2) 0 0 (le_refl _) (by norm_num) (by norm_num) (by norm_num)
  exact ⟨mul_pos hb hp, mul_le_of_le_one_right hb.le q2, q3⟩

/-- The downward search always stops after at most 26 evaluations, so its limit of 50 is never reached: the test on the
step of the modifier (`1e-8`) ends it first. -/
theorem C34_steps (f : K → K) (t thr : K) :
    (bisectDown f t thr (1 / 10 ^ 8) 50 0 1 (1 / 2) 0 0).steps ≤ 26 := by
  unfold bisectDown
  split
  · simp only
    split
    · simp
    · have := bisectDown_steps f t thr (1 / 10 ^ 8) 24 49 (1 / 2) 1 (0 + 1) (by norm_num) (by norm_num) (by norm_num)
      exact this.trans (by norm_num)
  · split
    · simp only
      split
      · simp
      · have := bisectDown_steps f t thr (1 / 10 ^ 8) 24 49 0 (1 / 2) (0 + 1) (by norm_num) (by norm_num) (by norm_num)
        exact this.trans (by norm_num)
    · simp

/-- A level is met exactly when the stored `dQ` is in its window.

What is missing for C34: the search may end outside the window without having reached its step limit
(`C34_window_refuted`). -/
theorem C34_window_partial (f : K → K) (t thr eps : K) :
    (bisectDown f t thr eps 50 0 1 (1 / 2) 0 0).met = true ↔
      t - thr ≤ (bisectDown f t thr eps 50 0 1 (1 / 2) 0 0).dQ ∧ (bisectDown f t thr eps 50 0 1 (1 / 2) 0 0).dQ ≤ t := by
  obtain ⟨_, _, _, q4, q5⟩ := bisectDown_spec f t thr eps 50 0 1 (1 / 2) 0 0 (by norm_num) (by norm_num)
  refine ⟨q4, fun h => ?_⟩
  by_contra hc
  rw [Bool.not_eq_true] at hc
  rcases q5 hc (by norm_num) with h' | h'
  · exact absurd h.1 (not_le.2 h')
  · exact absurd h.2 (not_le.2 h')

/-- **Disagreement.** For a loss that does not respond enough, the search stops outside the window, although its step
limit is not reached. -/
theorem C34_window_refuted (f : K → K) (t thr : K) (hf : ∀ x, 0 ≤ x → x ≤ 1 → f x < t - thr) :
    (bisectDown f t thr (1 / 10 ^ 8) 50 0 1 (1 / 2) 0 0).dQ < t - thr ∧
    (bisectDown f t thr (1 / 10 ^ 8) 50 0 1 (1 / 2) 0 0).steps < 50 := by
  obtain ⟨q1, q2, q3, _⟩ := bisectDown_spec f t thr (1 / 10 ^ 8) 50 0 1 (1 / 2) 0 0 (by norm_num) (by norm_num)
  exact ⟨q3 ▸ hf _ q1 q2, lt_of_le_of_lt (C34_steps f t thr) (by norm_num)⟩

theorem bisectDown_met_of_slope (f : K → K) (t thr eps L : K) (hL0 : 0 ≤ L) (hthr : 4 * L * eps ≤ thr) (he : 0 ≤ eps) :
    ∀ (n : ℕ) (low high pmd : K) (s : ℕ), low ≤ high → t ≤ f low → f high < t - thr → f low - f high ≤ L * (high - low) →
    (∀ a b, low ≤ a → a ≤ b → b ≤ high → f a - f b ≤ L * (b - a)) → high - low ≤ 4 * eps * 2 ^ n →
    (∀ x, x = ((low + high) / 2 + high) / 2 ∨ x = (low + (low + high) / 2) / 2 → |pmd - x| ≤ eps → high - low ≤ 4 * eps) →
    (bisectDown f t thr eps (n + 1) low high ((low + high) / 2) pmd s).met = true := by
  have key : ∀ low high : K, t ≤ f low → f high < t - thr → f low - f high ≤ L * (high - low) → ¬ high - low ≤ 4 * eps := by
    intro low high h1 h2 h3 h4
    have := mul_le_mul_of_nonneg_left h4 hL0
    linarith
  intro n
  induction n with
  | zero =>
    intro low high pmd s hlh h1 h2 h3 hl hw hp
    exact absurd (by simpa using hw) (key low high h1 h2 h3)
  | succ n ih =>
    intro low high pmd s hlh h1 h2 h3 hl hw hp
    have hnp := key low high h1 h2 h3
    have hw2 : (high - low) / 2 ≤ 4 * eps * 2 ^ n := by
      rw [pow_succ] at hw
      linarith
    have hstep : ∀ lo hi : K, hi - lo = (high - low) / 2 → lo ≤ hi → ∀ x, x = ((lo + hi) / 2 + hi) / 2 ∨ x = (lo + (lo + hi) / 2) / 2 →
        |(lo + hi) / 2 - x| ≤ eps → hi - lo ≤ 4 * eps := by
      intro lo hi _ hle x hx hxe
      have : |(lo + hi) / 2 - x| = (hi - lo) / 4 := by
        rcases hx with rfl | rfl
        · rw [show (lo + hi) / 2 - ((lo + hi) / 2 + hi) / 2 = -((hi - lo) / 4) by ring, abs_neg, abs_of_nonneg (by linarith)]
        · rw [show (lo + hi) / 2 - (lo + (lo + hi) / 2) / 2 = (hi - lo) / 4 by ring, abs_of_nonneg (by linarith)]
      rw [this] at hxe
      linarith
    unfold bisectDown
    dsimp only
    split
    · rename_i hc
      rw [if_neg (fun h => h.elim (fun h' => hnp (hp _ (.inl rfl) h')) (by omega))]
      refine ih _ high _ _ (by linarith) hc.le h2 (hl _ _ (by linarith) (by linarith) le_rfl)
        (fun a b ha hab hb => hl a b (by linarith) hab hb) (by linarith) (fun x hx hxe => hstep _ _ (by ring) (by linarith) x hx hxe)
    · split
      · rename_i hc
        rw [if_neg (fun h => h.elim (fun h' => hnp (hp _ (.inr rfl) h')) (by omega))]
        exact ih low _ _ _ (by linarith) h1 hc (hl _ _ le_rfl (by linarith) (by linarith))
          (fun a b ha hab hb => hl a b ha hab (by linarith)) (by linarith) (fun x hx hxe => hstep _ _ (by ring) (by linarith) x hx hxe)
      · rfl

/-- A sufficient condition for a level to be met: the change of Q reaches the level when the entry is removed, is below the window
at the base value, and falls at most with slope `L` in between, where `4e-8 · L` is at most the width of the window. The change
of Q need not be monotone. -/
theorem C34_met_partial (f : K → K) (t thr L : K) (hL0 : 0 ≤ L) (hthr : 4 * L * (1 / 10 ^ 8) ≤ thr) (h0 : t ≤ f 0) (h1 : f 1 < t - thr)
    (hL : ∀ a b, 0 ≤ a → a ≤ b → b ≤ 1 → f a - f b ≤ L * (b - a)) :
    (bisectDown f t thr (1 / 10 ^ 8) 50 0 1 (1 / 2) 0 0).met = true := by
  have := bisectDown_met_of_slope f t thr (1 / 10 ^ 8) L hL0 hthr (by positivity) 49 0 1 0 0 zero_le_one h0 h1
    (hL 0 1 le_rfl zero_le_one le_rfl) hL (by norm_num) (by
      rintro x (rfl | rfl) hx <;> norm_num [abs_le] at hx)
  rwa [show ((0 : K) + 1) / 2 = 1 / 2 by norm_num] at this

/-- Case for `C34_met_partial`: the quadratic response below with level 4. -/
example : (bisectDown (K := ℚ) (fun x => 6 * (1 - x) * (1 - x)) 4 (1 / 10) (1 / 10 ^ 8) 50 0 1 (1 / 2) 0 0).met = true :=
  C34_met_partial _ _ _ 12 (by norm_num) (by norm_num) (by norm_num) (by norm_num) (fun a b h1 h2 h3 => by nlinarith)

/-- The whole downward search: one result per level, each with a displaced value above zero and at most at the base value, the
change of Q at that value, and marked as met exactly if that change is in the window of its own level. -/
theorem C34_search (f : K → K) (thr base : K) (hb : 0 < base) (dQmax : List K) :
    (decreaseSearch f thr (1 / 10 ^ 8) dQmax).length = dQmax.length ∧
    ∀ (i : ℕ) (t : K) (r : LevelRes K), dQmax[i]? = some t → (decreaseSearch f thr (1 / 10 ^ 8) dQmax)[i]? = some r →
      0 < base * r.modv ∧ base * r.modv ≤ base ∧ r.dQ = f r.modv ∧ (r.met = true ↔ t - thr ≤ r.dQ ∧ r.dQ ≤ t) ∧ r.steps ≤ 26 := by
  refine ⟨by simp [decreaseSearch], fun i t r ht hr => ?_⟩
  simp only [decreaseSearch, List.getElem?_map, ht, Option.map_some, Option.some.injEq] at hr
  subst hr
  obtain ⟨q1, q2, q3⟩ := C34_between f t thr (1 / 10 ^ 8) base hb
  exact ⟨q1, q2, q3, C34_window_partial f t thr _, C34_steps f t thr⟩

/-- Non-trivial cases: a response that reaches level 4 (and is met), and level 8 (not reachable: 26 evaluations). -/
example : ((decreaseSearch (K := ℚ) (fun x => 6 * (1 - x) * (1 - x)) (1 / 10) (1 / 100000000) [8, 4]).map fun r => (r.met, r.steps)) =
    [(false, 26), (true, 4)] := by decide +kernel

end search

/-! ## C35 -/

section compile
variable {K : Type*} [Field K] [LinearOrder K] [IsStrictOrderedRing K] {k n m : ℕ} {L : Type*}

theorem seqResults_get (out : Fin k → Fin n → L) (features : List (Fin n)) (prev : PyDict (Fin k) (PyDict (Fin n) L))
    (a : Fin k) (j : Fin n) (hj : j ∈ features) :
    (dictGet (seqResults out features prev) a).bind (fun e => dictGet e j) = some (out a j) := by
  unfold seqResults
  rw [dictGet_foldl (fun a => features.foldl (fun e j => dictSet e j (out a j)) []), if_pos (List.mem_finRange a),
    Option.bind_some, dictGet_foldl, if_pos hj]

theorem parResults_get (out : Fin k → Fin n → L) (done : List (Fin k × Fin n)) (prev : PyDict (Fin k) (PyDict (Fin n) L))
    (a : Fin k) (j : Fin n) (h : (a, j) ∈ done) :
    (dictGet (parResults out done prev) a).bind (fun e => dictGet e j) = some (out a j) := by
  unfold parResults
  rw [dictGet2_foldl, if_pos h]

/-- All requested entries are in the dictionary, with one record per level. -/
def Complete (d : PyDict (Fin k) (PyDict (Fin n) (List (LevelOut K)))) (features : List (Fin n)) (levels : ℕ) : Prop :=
  ∀ a, ∀ j ∈ features, ∃ l, (dictGet d a).bind (fun e => dictGet e j) = some l ∧ l.length = levels

theorem mapM_some_map {α β : Type*} (g : α → Option β) (l : List α) (h : ∀ x ∈ l, ∃ y, g x = some y) :
    ∃ r, l.mapM g = some r ∧ r.length = l.length ∧ ∀ (p : ℕ) (x : α) (y : β), l[p]? = some x → r[p]? = some y → g x = some y := by
  induction l with
  | nil => exact ⟨[], rfl, rfl, by simp⟩
  | cons a l ih =>
    obtain ⟨y, hy⟩ := h a List.mem_cons_self
    obtain ⟨r, h1, h2, h3⟩ := ih fun x hx => h x (List.mem_cons_of_mem _ hx)
    refine ⟨y :: r, by simp [List.mapM_cons, hy, h1], by simp [h2], fun p x z hx hz => ?_⟩
    cases p with
    | zero =>
      simp only [List.getElem?_cons_zero, Option.some.injEq] at hx hz
      rw [← hx, ← hz, hy]
    | succ p =>
      simp only [List.getElem?_cons_succ] at hx hz
      exact h3 p x z hx hz

theorem compileRow_complete (E : DispEnv m k n K) (floor : K) (features : List (Fin n)) (levels : ℕ)
    (inc dec : PyDict (Fin k) (PyDict (Fin n) (List (LevelOut K)))) (hi : Complete inc features levels)
    (hd : Complete dec features levels) (i : ℕ) (h : i < levels) (a : Fin k) (j : Fin n) :
    ∃ r, compileRow E floor features inc dec i a j = some r ∧ r.level = i ∧ r.factor = a ∧ r.feature = j := by
  have lk : ∀ d : PyDict (Fin k) (PyDict (Fin n) (List (LevelOut K))), Complete d features levels → j ∈ features →
      ∃ x, lookupLevel d a j i = some x := by
    intro d hd hj
    obtain ⟨l, hl, hlen⟩ := hd a j hj
    refine ⟨l[i], ?_⟩
    unfold lookupLevel
    cases hg : dictGet d a with
    | none => rw [hg] at hl; simp at hl
    | some e =>
      rw [hg] at hl
      simp only [Option.bind_some] at hl ⊢
      rw [hl]
      simp [hlen, h]
  by_cases hj : j ∈ features
  · obtain ⟨x, hx⟩ := lk inc hi hj
    obtain ⟨y, hy⟩ := lk dec hd hj
    simp only [compileRow, if_pos hj, hx, hy]
    exact ⟨_, rfl, rfl, rfl, rfl⟩
  · simp only [compileRow, if_neg hj]
    exact ⟨_, rfl, rfl, rfl, rfl⟩

/-- For complete results the table has exactly one row for every (level, factor, feature), in the order of the loops. -/
theorem C35_complete (E : DispEnv m k n K) (floor : K) (features : List (Fin n)) (levels : ℕ)
    (inc dec : PyDict (Fin k) (PyDict (Fin n) (List (LevelOut K)))) (hi : Complete inc features levels)
    (hd : Complete dec features levels) :
    ∃ rows, compileRows E floor features levels inc dec = some rows ∧ rows.length = levels * k * n ∧
      ∀ i < levels, ∀ (a : Fin k) (j : Fin n), rows.countP (fun r => r.level = i ∧ r.factor = a ∧ r.feature = j) = 1 := by
  obtain ⟨rows, h1, h2, h3⟩ := mapM_some_map (fun t : ℕ × Fin k × Fin n => compileRow E floor features inc dec t.1 t.2.1 t.2.2)
    ((List.range levels).flatMap fun i => (List.finRange k).flatMap fun a => (List.finRange n).map fun j => (i, a, j)) (by
      rintro ⟨i, a, j⟩ ht
      simp only [List.mem_flatMap, List.mem_range, List.mem_map, Prod.mk.injEq] at ht
      obtain ⟨i', hi', a', _, j', _, rfl, rfl, rfl⟩ := ht
      obtain ⟨r, hr, _⟩ := compileRow_complete E floor features levels inc dec hi hd i' hi' a' j'
      exact ⟨r, hr⟩)
  have hkeys : rows.map (fun r => (r.level, r.factor, r.feature)) =
      (List.range levels).flatMap fun i => (List.finRange k).flatMap fun a => (List.finRange n).map fun j => (i, a, j) := by
    apply List.ext_getElem?
    intro p
    rw [List.getElem?_map]
    obtain ⟨keys, hk⟩ : ∃ keys, keys = (List.range levels).flatMap fun i => (List.finRange k).flatMap fun a =>
      (List.finRange n).map fun j => (i, a, j) := ⟨_, rfl⟩
    rw [← hk] at h2 h3 ⊢
    by_cases hp : p < keys.length
    · obtain ⟨t, ht⟩ : ∃ t, keys[p]? = some t := ⟨_, List.getElem?_eq_getElem hp⟩
      obtain ⟨r, hr⟩ : ∃ r, rows[p]? = some r := ⟨rows[p]'(by omega), List.getElem?_eq_getElem _⟩
      have hrow := h3 p t r ht hr
      have htm : t ∈ keys := List.mem_of_getElem? ht
      rw [hk] at htm
      simp only [List.mem_flatMap, List.mem_range, List.mem_map] at htm
      obtain ⟨i', hi', a', _, j', _, rfl⟩ := htm
      obtain ⟨r', hr', e1, e2, e3⟩ := compileRow_complete E floor features levels inc dec hi hd i' hi' a' j'
      simp only at hrow
      rw [hr', Option.some.injEq] at hrow
      subst hrow
      rw [hr, ht]
      simp [e1, e2, e3]
    · rw [List.getElem?_eq_none (by omega), List.getElem?_eq_none (by omega)]
      rfl
  have hnd : ((List.range levels).flatMap fun i => (List.finRange k).flatMap fun a => (List.finRange n).map fun j => (i, a, j)).Nodup := by
    have e : ((List.range levels).flatMap fun i => (List.finRange k).flatMap fun a => (List.finRange n).map fun j => (i, a, j)) =
        (List.range levels) ×ˢ ((List.finRange k) ×ˢ (List.finRange n)) := by
      simp only [SProd.sprod, List.product, List.map_flatMap, List.map_map]
      rfl
    rw [e]
    exact List.Nodup.product List.nodup_range ((List.nodup_finRange k).product (List.nodup_finRange n))
  refine ⟨rows, h1, ?_, fun i hi' a j => ?_⟩
  · rw [h2]
    simp [List.length_flatMap, Nat.mul_assoc]
  · have hc : rows.countP (fun r => r.level = i ∧ r.factor = a ∧ r.feature = j) =
        (rows.map fun r => (r.level, r.factor, r.feature)).count (i, a, j) := by
      rw [List.count, List.countP_map]
      apply List.countP_congr
      intro r _
      simp
    rw [hc, hkeys]
    exact List.count_eq_one_of_mem hnd (by simp [hi'])

/-- The results of a sequential run are complete. -/
theorem C35_sequential (out : Fin k → Fin n → List (LevelOut K)) (features : List (Fin n)) (levels : ℕ)
    (prev : PyDict (Fin k) (PyDict (Fin n) (List (LevelOut K)))) (hl : ∀ a j, (out a j).length = levels) :
    Complete (seqResults out features prev) features levels :=
  fun a j hj => ⟨out a j, seqResults_get out features prev a j hj, hl a j⟩

/-- The results of a parallel run are complete, whatever the order in which the workers finish. -/
theorem C35_parallel (out : Fin k → Fin n → List (LevelOut K)) (features : List (Fin n)) (levels : ℕ)
    (prev : PyDict (Fin k) (PyDict (Fin n) (List (LevelOut K)))) (hl : ∀ a j, (out a j).length = levels)
    (done : List (Fin k × Fin n)) (hdone : ∀ a, ∀ j ∈ features, (a, j) ∈ done) :
    Complete (parResults out done prev) features levels :=
  fun a j hj => ⟨out a j, parResults_get out done prev a j (hdone a j hj), hl a j⟩

/-- The searches of the code provide one record per level. -/
theorem C35_levels (E : DispEnv m k n K) (dQmax : List K) (a : Fin k) (j : Fin n) :
    (incEntry E dQmax a j).length = dQmax.length ∧ (decEntry E dQmax a j).length = dQmax.length := by
  constructor
  · cases dQmax with
    | nil => rfl
    | cons t0 ts =>
      rw [incEntry, List.length_map]
      exact (C33_levels _ E.thr t0 ts 0 le_rfl).1
  · simp [decEntry, decreaseSearch]

/-- A feature that was not requested carries the base profile value as minimum and maximum, and no loss drop. For the
concentrations this holds when the base concentration is above the floor `1e-4`.

What is missing: smaller concentrations (`C35_conc_refuted`). -/
theorem C35_excluded_partial (E : DispEnv m k n K) (floor : K) (features : List (Fin n))
    (inc dec : PyDict (Fin k) (PyDict (Fin n) (List (LevelOut K)))) (i : ℕ) (a : Fin k) (j : Fin n) (hj : j ∉ features) :
    ∃ r, compileRow E floor features inc dec i a j = some r ∧ r.profile = E.H a j / ∑ b, E.H b j ∧
      r.pmax = r.profile ∧ r.pmin = r.profile ∧ r.drop = 0 ∧ (floor < r.conc → r.cmax = r.conc ∧ r.cmin = r.conc) := by
  simp only [compileRow, if_neg hj]
  refine ⟨_, rfl, rfl, rfl, rfl, by simp, fun h => ?_⟩
  simp only at h ⊢
  simp [h]

/-- **Disagreement.** A base concentration below the floor is reported with minimum and maximum at the floor, so the base
value lies outside its own interval. -/
theorem C35_conc_refuted (E : DispEnv m k n K) (floor : K) (features : List (Fin n))
    (inc dec : PyDict (Fin k) (PyDict (Fin n) (List (LevelOut K)))) (i : ℕ) (a : Fin k) (j : Fin n) (hj : j ∉ features)
    (hc : ∑ s, E.W s a * E.H a j < floor) :
    ∃ r, compileRow E floor features inc dec i a j = some r ∧ r.conc < r.cmin ∧ r.cmin = floor ∧ r.cmax = floor := by
  simp only [compileRow, if_neg hj]
  refine ⟨_, rfl, ?_⟩
  simp only [not_lt.2 hc.le, if_false]
  exact ⟨hc, trivial, trivial⟩

/-- The concentration of a feature that was not requested: minimum and maximum are the larger one of base value and floor, so they are the base value exactly if it is not below the floor. -/
theorem C35_conc_iff (E : DispEnv m k n K) (floor : K) (features : List (Fin n))
    (inc dec : PyDict (Fin k) (PyDict (Fin n) (List (LevelOut K)))) (i : ℕ) (a : Fin k) (j : Fin n) (hj : j ∉ features) :
    ∃ r, compileRow E floor features inc dec i a j = some r ∧ r.conc = ∑ s, E.W s a * E.H a j ∧ r.cmax = max r.conc floor ∧
      r.cmin = max r.conc floor ∧ (r.cmin = r.conc ∧ r.cmax = r.conc ↔ floor ≤ r.conc) := by
  have key : ∀ c : K, (if floor < c then c else floor) = max c floor := by
    intro c
    split_ifs with h
    · rw [max_eq_left h.le]
    · rw [max_eq_right (not_lt.1 h)]
  simp only [compileRow, if_neg hj, key]
  exact ⟨_, rfl, rfl, rfl, rfl, by simp⟩

/-! ## C80, C81 -/

theorem dispH_colsum (E : DispEnv m k n K) (a : Fin k) (j : Fin n) (md : K) :
    ∑ b, dispH E a j md b j = (∑ b, E.H b j) + E.H a j * (md - 1) := by
  have : ∀ b, dispH E a j md b j = E.H b j + if b = a then E.H a j * (md - 1) else 0 := by
    intro b
    unfold dispH
    by_cases hb : b = a
    · subst hb; simp; ring
    · simp [hb]
  simp only [this, Finset.sum_add_distrib]
  simp

/-- The share of the displaced entry is at least the base share for a modifier above one, and at most for a positive
modifier below one. -/
theorem percent_mono (E : DispEnv m k n K) (hH : ∀ a j, 0 < E.H a j) (a : Fin k) (j : Fin n) (r : LevelRes K)
    (h0 : 0 < r.modv) :
    (1 ≤ r.modv → E.H a j / ∑ b, E.H b j ≤ (levelOut E a j r).percent) ∧
    (r.modv ≤ 1 → (levelOut E a j r).percent ≤ E.H a j / ∑ b, E.H b j) := by
  have hS : E.H a j ≤ ∑ b, E.H b j :=
    Finset.single_le_sum (f := fun b => E.H b j) (fun b _ => (hH b j).le) (Finset.mem_univ a)
  have hpos : 0 < ∑ b, E.H b j := lt_of_lt_of_le (hH a j) hS
  have hp : (levelOut E a j r).percent = E.H a j * r.modv / ((∑ b, E.H b j) + E.H a j * (r.modv - 1)) := by
    simp only [levelOut, dispH_colsum]
    simp [dispH]
  have hnew : 0 < (∑ b, E.H b j) + E.H a j * (r.modv - 1) := by
    have := mul_pos (hH a j) h0
    have e : E.H a j * (r.modv - 1) = E.H a j * r.modv - E.H a j := by ring
    rw [e]
    linarith
  rw [hp]
  have hh := hH a j
  constructor
  · intro h1
    rw [div_le_div_iff₀ hpos hnew]
    nlinarith [mul_nonneg (mul_nonneg hh.le (sub_nonneg.2 h1)) (sub_nonneg.2 hS)]
  · intro h1
    rw [div_le_div_iff₀ hnew hpos]
    nlinarith [mul_nonneg (mul_nonneg hh.le (sub_nonneg.2 h1)) (sub_nonneg.2 hS)]

/-- For a requested feature the reported profile interval contains the base profile value, at every level, for any loss
and any outcome of the searches. (The displaced profiles are positive, `self.H = sa.H + EPSILON`.) -/
theorem C80_profile (E : DispEnv m k n K) (hH : ∀ a j, 0 < E.H a j) (floor : K) (features : List (Fin n)) (t0 : K) (ts : List K)
    (inc dec : PyDict (Fin k) (PyDict (Fin n) (List (LevelOut K)))) (i : ℕ) (a : Fin k) (j : Fin n) (hj : j ∈ features)
    (hinc : (dictGet inc a).bind (fun e => dictGet e j) = some (incEntry E (t0 :: ts) a j))
    (hdec : (dictGet dec a).bind (fun e => dictGet e j) = some (decEntry E (t0 :: ts) a j))
    (hi : i < (t0 :: ts).length) :
    ∃ r, compileRow E floor features inc dec i a j = some r ∧ r.pmin ≤ r.profile ∧ r.profile ≤ r.pmax := by
  have lk : ∀ (d : PyDict (Fin k) (PyDict (Fin n) (List (LevelOut K)))) l,
      (dictGet d a).bind (fun e => dictGet e j) = some l → lookupLevel d a j i = l[i]? := by
    intro d l h
    unfold lookupLevel
    cases hg : dictGet d a with
    | none => rw [hg] at h; simp at h
    | some e => rw [hg] at h; simp only [Option.bind_some] at h ⊢; rw [h]; rfl
  have h1 := lk inc _ hinc
  have h2 := lk dec _ hdec
  obtain ⟨u1, u2⟩ := C33_levels (fun md => E.Q (dispH E a j md) - E.baseQ) E.thr t0 ts 1 zero_le_one
  obtain ⟨ri, hri⟩ : ∃ ri, (increaseSearch (fun md => E.Q (dispH E a j md) - E.baseQ) E.thr (t0 :: ts))[i]? = some ri :=
    ⟨_, List.getElem?_eq_getElem (by omega)⟩
  obtain ⟨t, ht⟩ : ∃ t, (t0 :: ts)[i]? = some t := ⟨_, List.getElem?_eq_getElem hi⟩
  have hm1 := (u2 i t ri ht hri).1
  rw [one_mul] at hm1
  have g1 : lookupLevel inc a j i = some (levelOut E a j ri) := by
    rw [h1, incEntry, List.getElem?_map, hri]; rfl
  have g2 : lookupLevel dec a j i = some (levelOut E a j (bisectDown (fun md => |E.baseQ - E.Q (dispH E a j md)|) t E.thr E.eps 50 0 1
      (1 / 2) 0 0)) := by
    rw [h2, decEntry, decreaseSearch, List.map_map, List.getElem?_map, ht]; rfl
  simp only [compileRow, if_pos hj, g1, g2]
  refine ⟨_, rfl, ?_, ?_⟩
  · simp only
    obtain ⟨q1, q2, q3⟩ := C34_between (fun md => |E.baseQ - E.Q (dispH E a j md)|) t E.thr E.eps 1 zero_lt_one
    rw [one_mul] at q1 q2
    exact (percent_mono E hH a j _ q1).2 q2
  · simp only
    exact (percent_mono E hH a j ri (lt_of_lt_of_le zero_lt_one hm1)).1 hm1

theorem mem_incEntry (E : DispEnv m k n K) (dQmax : List K) (a : Fin k) (j : Fin n) (r : LevelOut K) :
    r ∈ incEntry E dQmax a j → ∃ q : LevelRes K, levelOut E a j q = r ∧ 1 ≤ q.modv ∧
      q.dQ = E.Q (dispH E a j q.modv) - E.baseQ := by
  intro h
  obtain ⟨q, hq, he⟩ := List.mem_map.1 h
  refine ⟨q, he, ?_⟩
  cases dQmax with
  | nil => simp [increaseSearch] at hq
  | cons t0 ts =>
    obtain ⟨g1, g2⟩ := C33_levels (fun md => E.Q (dispH E a j md) - E.baseQ) E.thr t0 ts 1 zero_le_one
    obtain ⟨i, hi, hq⟩ := List.mem_iff_getElem.1 hq
    obtain ⟨r1, -, r3, -⟩ := g2 i ((t0 :: ts)[i]'(g1 ▸ hi)) q (List.getElem?_eq_getElem _) (by rw [List.getElem?_eq_getElem hi, hq])
    exact ⟨by simpa using r1, r3⟩

theorem mem_decEntry (E : DispEnv m k n K) (dQmax : List K) (a : Fin k) (j : Fin n) (r : LevelOut K) :
    r ∈ decEntry E dQmax a j → ∃ q : LevelRes K, levelOut E a j q = r ∧ 0 < q.modv ∧ q.modv ≤ 1 ∧
      q.dQ = |E.baseQ - E.Q (dispH E a j q.modv)| := by
  intro h
  obtain ⟨q, hq, he⟩ := List.mem_map.1 h
  obtain ⟨t, -, hq⟩ := List.mem_map.1 hq
  obtain ⟨q1, q2, q3⟩ := C34_between (fun md => |E.baseQ - E.Q (dispH E a j md)|) t E.thr E.eps 1 zero_lt_one
  rw [one_mul] at q1 q2
  exact ⟨q, he, hq ▸ q1, hq ▸ q2, hq ▸ q3⟩

/-- What the two searches store for each of their levels, in terms of the displaced value only: the profiles `H'` are the base
profiles with the one entry replaced by the value; the change of the loss, the swap and the loss after retraining are those of
`H'`, the share is that of the value in its column of `H'`, and the concentration is the value times the total contribution of
the factor. The upward search stores values from the base value on, the downward search positive values up to it; hence, for
nonnegative contributions, the stored concentrations are on either side of the base concentration. -/
theorem C80_stored (E : DispEnv m k n K) (hH : ∀ a j, 0 < E.H a j) (dQmax : List K) (a : Fin k) (j : Fin n) (r : LevelOut K) :
    let H' := Function.update E.H a (Function.update (E.H a) j r.value)
    (r ∈ incEntry E dQmax a j → E.H a j ≤ r.value ∧ r.dQ = E.Q H' - E.baseQ) ∧
    (r ∈ decEntry E dQmax a j → (0 < r.value ∧ r.value ≤ E.H a j) ∧ r.dQ = |E.Q H' - E.baseQ|) ∧
    (r ∈ incEntry E dQmax a j ∨ r ∈ decEntry E dQmax a j →
      r.swap = (E.retrain H').1 ∧ r.qDrop = E.baseQ - (E.retrain H').2 ∧ r.percent = r.value / ∑ b, H' b j ∧
      r.conc = r.value * ∑ s, E.W s a) ∧
    ((∀ s, 0 ≤ E.W s a) →
      (r ∈ incEntry E dQmax a j → ∑ s, E.W s a * E.H a j ≤ r.conc) ∧
      (r ∈ decEntry E dQmax a j → r.conc ≤ ∑ s, E.W s a * E.H a j)) := by
  have hupd : ∀ md : K, dispH E a j md = Function.update E.H a (Function.update (E.H a) j (E.H a j * md)) := by
    intro md
    funext a' j'
    by_cases ha : a' = a
    · subst ha
      by_cases hj : j' = j
      · subst hj
        simp [dispH]
      · simp [dispH, hj]
    · simp [dispH, ha]
  have hrec : ∀ q : LevelRes K, levelOut E a j q = r →
      let H' := Function.update E.H a (Function.update (E.H a) j r.value)
      dispH E a j q.modv = H' ∧ r.value = E.H a j * q.modv ∧ r.dQ = q.dQ ∧
      r.swap = (E.retrain H').1 ∧ r.qDrop = E.baseQ - (E.retrain H').2 ∧ r.percent = r.value / ∑ b, H' b j ∧
      r.conc = r.value * ∑ s, E.W s a := by
    rintro q rfl
    have h1 : (levelOut E a j q).value = E.H a j * q.modv := rfl
    rw [h1]
    dsimp only
    rw [← hupd]
    refine ⟨rfl, rfl, rfl, rfl, rfl, ?_, ?_⟩
    · simp only [levelOut]
      congr 1
      simp [dispH]
    · simp only [levelOut, dispH, and_self, if_true]
      rw [← Finset.sum_mul, mul_comm]
  have hinc := mem_incEntry E dQmax a j r
  have hdec := mem_decEntry E dQmax a j r
  intro H'
  refine ⟨fun h => ?_, fun h => ?_, fun h => ?_, fun hW => ⟨fun h => ?_, fun h => ?_⟩⟩
  · obtain ⟨q, he, hm, hq⟩ := hinc h
    obtain ⟨e1, e2, e3, -⟩ := hrec q he
    exact ⟨by rw [e2]; exact le_mul_of_one_le_right (hH a j).le hm, by rw [e3, hq, e1]⟩
  · obtain ⟨q, he, hm0, hm1, hq⟩ := hdec h
    obtain ⟨e1, e2, e3, -⟩ := hrec q he
    exact ⟨⟨by rw [e2]; exact mul_pos (hH a j) hm0, by rw [e2]; exact mul_le_of_le_one_right (hH a j).le hm1⟩,
      by rw [e3, hq, e1, abs_sub_comm]⟩
  · obtain ⟨q, he⟩ : ∃ q, levelOut E a j q = r := by
      rcases h with h | h
      · obtain ⟨q, he, -⟩ := hinc h
        exact ⟨q, he⟩
      · obtain ⟨q, he, -⟩ := hdec h
        exact ⟨q, he⟩
    exact (hrec q he).2.2.2
  · obtain ⟨q, he, hm, -⟩ := hinc h
    obtain ⟨-, e2, -, -, -, -, e7⟩ := hrec q he
    rw [e7, e2, ← Finset.sum_mul, mul_comm]
    exact mul_le_mul_of_nonneg_right (le_mul_of_one_le_right (hH a j).le hm) (Finset.sum_nonneg fun s _ => hW s)
  · obtain ⟨q, he, -, hm, -⟩ := hdec h
    obtain ⟨-, e2, -, -, -, -, e7⟩ := hrec q he
    rw [e7, e2, ← Finset.sum_mul, mul_comm (∑ s, E.W s a)]
    exact mul_le_mul_of_nonneg_right (mul_le_of_le_one_right (hH a j).le hm) (Finset.sum_nonneg fun s _ => hW s)

/-- A case: two samples with contributions 1 and 2, level 4 of a quadratic loss. -/
example : let E : DispEnv 2 1 1 ℚ := ⟨fun _ _ => 1, fun s _ => s.val + 1, fun h => 9 * (h 0 0 - 1) ^ 2, 0, fun h => (decide (1 < h 0 0), 3), 1, 1 / 100⟩
    (incEntry E [4] 0 0).map (fun r => (r.value, r.conc, r.dQ, r.swap)) = [(13 / 8, 39 / 8, 225 / 64, true)] ∧
    (decEntry E [4] 0 0).map (fun r => (r.value, r.conc, r.swap)) = [(3 / 8, 9 / 8, false)] := by
  decide +kernel

theorem neg_part_le (x : K) : (if x < 0 then x else 0) ≤ 0 := by
  split
  · rename_i h; exact h.le
  · exact le_rfl

/-- The reported loss drop is never positive, and it is zero whenever neither displacement ended at a higher loss than
the base model. -/
theorem C81_sign (E : DispEnv m k n K) (floor : K) (features : List (Fin n))
    (inc dec : PyDict (Fin k) (PyDict (Fin n) (List (LevelOut K)))) (i : ℕ) (a : Fin k) (j : Fin n) (r : DispRow k n K)
    (h : compileRow E floor features inc dec i a j = some r) : r.drop ≤ 0 := by
  unfold compileRow at h
  simp only at h
  split at h
  · split at h
    · simp only [Option.some.injEq] at h
      subst h
      simp only
      exact neg_part_le _
    · simp at h
  · simp only [Option.some.injEq] at h
    subst h
    simp

/-- **Disagreement.** `Q_drop` is the base loss minus the new loss, a positive number when the loss drops, but only
negative values are kept: when both displacements lead to a lower loss than the base model, the reported drop is zero. -/
theorem C81_refuted (E : DispEnv m k n K) (floor : K) (features : List (Fin n))
    (inc dec : PyDict (Fin k) (PyDict (Fin n) (List (LevelOut K)))) (i : ℕ) (a : Fin k) (j : Fin n) (hj : j ∈ features)
    (ri rd : LevelRes K) (hi : lookupLevel inc a j i = some (levelOut E a j ri))
    (hd : lookupLevel dec a j i = some (levelOut E a j rd))
    (h1 : (E.retrain (dispH E a j ri.modv)).2 < E.baseQ) (h2 : (E.retrain (dispH E a j rd.modv)).2 < E.baseQ) :
    ∃ r, compileRow E floor features inc dec i a j = some r ∧ r.drop = 0 := by
  simp only [compileRow, if_pos hj, hi, hd]
  refine ⟨_, rfl, ?_⟩
  have e1 : 0 < (levelOut E a j ri).qDrop := by simp only [levelOut]; linarith
  have e2 : 0 < (levelOut E a j rd).qDrop := by simp only [levelOut]; linarith
  by_cases hx : (levelOut E a j ri).qDrop < (levelOut E a j rd).qDrop
  · simp only [if_pos hx, if_neg e1.not_gt]
  · simp only [if_neg hx, if_neg e2.not_gt]

/-- The exact value: the reported largest decrease is minus the larger of the two *increases* of the loss, or zero if the loss
did not increase in either direction. -/
theorem C81_value (E : DispEnv m k n K) (floor : K) (features : List (Fin n))
    (inc dec : PyDict (Fin k) (PyDict (Fin n) (List (LevelOut K)))) (i : ℕ) (a : Fin k) (j : Fin n) (hj : j ∈ features)
    (ri rd : LevelRes K) (hi : lookupLevel inc a j i = some (levelOut E a j ri))
    (hd : lookupLevel dec a j i = some (levelOut E a j rd)) :
    ∃ r, compileRow E floor features inc dec i a j = some r ∧
      r.drop = -max 0 (max ((E.retrain (dispH E a j ri.modv)).2 - E.baseQ) ((E.retrain (dispH E a j rd.modv)).2 - E.baseQ)) := by
  simp only [compileRow, if_pos hj, hi, hd]
  refine ⟨_, rfl, ?_⟩
  have hp : (levelOut E a j ri).qDrop = E.baseQ - (E.retrain (dispH E a j ri.modv)).2 := rfl
  have hq : (levelOut E a j rd).qDrop = E.baseQ - (E.retrain (dispH E a j rd.modv)).2 := rfl
  dsimp only
  rw [hp, hq]
  generalize (E.retrain (dispH E a j ri.modv)).2 = p
  generalize (E.retrain (dispH E a j rd.modv)).2 = q
  rcases le_total (p - E.baseQ) (q - E.baseQ) with h | h
  · rw [max_eq_right h, if_neg (by linarith : ¬ E.baseQ - p < E.baseQ - q)]
    split
    · rw [max_eq_right (by linarith)]; ring
    · rw [max_eq_left (by linarith)]; ring
  · rw [max_eq_left h]
    have e : (if E.baseQ - p < E.baseQ - q then E.baseQ - p else E.baseQ - q) = E.baseQ - p := by
      split
      · rfl
      · linarith
    rw [e]
    split
    · rw [max_eq_right (by linarith)]; ring
    · rw [max_eq_left (by linarith)]; ring

/-! ## C36-C38 -/

/-- Swaps seen while displacing factor `a`, at level `i`. -/
def swapsOf (sw : L → Bool) (out : Fin k → Fin n → List L) (features : List (Fin n)) (a : Fin k) (i : ℕ) : ℕ :=
  features.countP fun j => ((out a j)[i]?).any sw

theorem seqResults_eq (out : Fin k → Fin n → L) (features : List (Fin n)) (hf : features.Nodup) :
    seqResults out features [] = (List.finRange k).map fun a => (a, features.map fun j => (j, out a j)) := by
  unfold seqResults
  rw [foldl_dictSet_append (fun a => features.foldl (fun e j => dictSet e j (out a j)) []) (List.finRange k)
    (List.nodup_finRange k) [] (by simp), List.nil_append]
  apply List.map_congr_left
  intro a _
  rw [foldl_dictSet_append (out a) features hf [] (by simp), List.nil_append]

/-- After a sequential run, column `f` of the swap table counts the swaps seen while displacing factor `f`. -/
theorem C36_sequential (sw : L → Bool) (inc dec : Fin k → Fin n → List L) (features : List (Fin n)) (hf : features.Nodup)
    (t : SwapTables) (f : Fin k) (i : ℕ) :
    (tallyBoth sw (seqResults inc features []) (seqResults dec features []) t).swap i f =
      t.swap i f + swapsOf sw inc features f i + swapsOf sw dec features f i := by
  unfold tallyBoth
  rw [(tallyDict_spec sw _ 0 _ i f).2, (tallyDict_spec sw _ 0 _ i f).2, seqResults_eq inc features hf, seqResults_eq dec features hf]
  simp [swapsOf, List.countP_map, Function.comp_def]

theorem countP_filter_perm (sw : L → Bool) (out : Fin k → Fin n → List L) (features : List (Fin n))
    (done : List (Fin k × Fin n)) (hd : done.Perm ((List.finRange k).flatMap fun a => features.map fun j => (a, j)))
    (a : Fin k) (i : ℕ) :
    ((done.filter fun p => p.1 = a).map fun p => (p.2, out a p.2)).countP (fun q => (q.2[i]?).any sw) =
      swapsOf sw out features a i := by
  have hfil : ((List.finRange k).flatMap fun a => features.map fun j => (a, j)).filter (fun p => p.1 = a) =
      features.map fun j => (a, j) := by
    rw [List.filter_flatMap]
    have hg : ∀ b : Fin k, (features.map fun j => (b, j)).filter (fun p => decide (p.1 = a)) =
        if b = a then features.map fun j => (a, j) else [] := by
      intro b
      by_cases hb : b = a
      · subst hb; simp
      · simp [hb]
    simp only [hg]
    have key : ∀ l : List (Fin k), l.Nodup →
        (l.flatMap fun b => if b = a then features.map fun j => (a, j) else []) =
          if a ∈ l then features.map fun j => (a, j) else [] := by
      intro l
      induction l with
      | nil => intro _; simp
      | cons b l ih =>
        intro hl
        rw [List.nodup_cons] at hl
        rw [List.flatMap_cons, ih hl.2]
        by_cases hb : b = a
        · subst hb; simp [hl.1]
        · simp [hb, Ne.symm hb]
    rw [key _ (List.nodup_finRange k), if_pos (List.mem_finRange a)]
  have hp := (hd.filter fun p => decide (p.1 = a)).map fun p => (p.2, out a p.2)
  rw [hp.countP_eq, hfil, swapsOf, List.map_map, List.countP_map]
  rfl

/-- After a parallel run, column `c` counts the swaps of the factor whose first task finished as number `c`, separately for
the increasing and the decreasing displacements. -/
theorem C36_parallel_actual (sw : L → Bool) (inc dec : Fin k → Fin n → List L) (features : List (Fin n)) (hf : features.Nodup)
    (d1 d2 : List (Fin k × Fin n)) (h1 : d1.Perm ((List.finRange k).flatMap fun a => features.map fun j => (a, j)))
    (h2 : d2.Perm ((List.finRange k).flatMap fun a => features.map fun j => (a, j))) (t : SwapTables) (c i : ℕ) :
    (tallyBoth sw (parResults inc d1 []) (parResults dec d2 []) t).swap i c =
      t.swap i c + (((firsts d1)[c]?).map fun a => swapsOf sw inc features a i).getD 0 +
        (((firsts d2)[c]?).map fun a => swapsOf sw dec features a i).getD 0 := by
  have hnd : ((List.finRange k).flatMap fun a => features.map fun j => (a, j)).Nodup := by
    have e : ((List.finRange k).flatMap fun a => features.map fun j => (a, j)) = (List.finRange k) ×ˢ features := rfl
    rw [e]
    exact (List.nodup_finRange k).product hf
  unfold tallyBoth parResults
  rw [(tallyDict_spec sw _ 0 _ i c).2, (tallyDict_spec sw _ 0 _ i c).2, foldl_dictSet2 inc d1 (h1.nodup_iff.2 hnd),
    foldl_dictSet2 dec d2 (h2.nodup_iff.2 hnd)]
  simp only [Nat.zero_le, if_true, Nat.sub_zero, List.getElem?_map, Option.map_map, Function.comp_def]
  simp only [countP_filter_perm sw inc features d1 h1, countP_filter_perm sw dec features d2 h2]

/-- If the factors happen to finish in order, the parallel table is the right one. What is missing: other orders, where the
columns are wrong (`C36_refuted`). -/
theorem C36_parallel_partial (sw : L → Bool) (inc dec : Fin k → Fin n → List L) (features : List (Fin n)) (hf : features.Nodup)
    (d1 d2 : List (Fin k × Fin n)) (h1 : d1.Perm ((List.finRange k).flatMap fun a => features.map fun j => (a, j)))
    (h2 : d2.Perm ((List.finRange k).flatMap fun a => features.map fun j => (a, j))) (t : SwapTables) (f : Fin k) (i : ℕ)
    (o1 : firsts d1 = List.finRange k) (o2 : firsts d2 = List.finRange k) :
    (tallyBoth sw (parResults inc d1 []) (parResults dec d2 []) t).swap i f =
      t.swap i f + swapsOf sw inc features f i + swapsOf sw dec features f i := by
  rw [C36_parallel_actual sw inc dec features hf d1 d2 h1 h2, o1, o2]
  simp

/-- C36, exactly: with at least one feature, a pair of completion orders gives the right swap table for all possible outcomes iff in both of them the first answers of the factors come in the order of their numbers. Missing: the
other orders, where the statement is false. -/
theorem C36_iff_partial (features : List (Fin n)) (hf : features.Nodup) (hne : features ≠ [])
    (d1 d2 : List (Fin k × Fin n)) (h1 : d1.Perm ((List.finRange k).flatMap fun a => features.map fun j => (a, j)))
    (h2 : d2.Perm ((List.finRange k).flatMap fun a => features.map fun j => (a, j))) (t : SwapTables) :
    (∀ (inc dec : Fin k → Fin n → List Bool) (f : Fin k) (i : ℕ), (tallyBoth id (parResults inc d1 []) (parResults dec d2 []) t).swap i f =
      t.swap i f + swapsOf id inc features f i + swapsOf id dec features f i) ↔
    ∀ f : Fin k, (firsts d1)[f.1]? = some f ∧ (firsts d2)[f.1]? = some f := by
  have hpos : 0 < features.length := List.length_pos_iff.2 hne
  constructor
  · intro h f
    have key : ∀ d : List (Fin k × Fin n), (((firsts d)[f.1]?).map fun a => swapsOf id (fun a (_ : Fin n) => [decide (a = f)]) features a 0).getD 0 = swapsOf id (fun a (_ : Fin n) => [decide (a = f)]) features f 0 →
        (firsts d)[f.1]? = some f := fun d hd => by
      cases hc : (firsts d)[f.1]? with
      | none => rw [hc] at hd; simp [swapsOf] at hd; omega
      | some a =>
        rw [hc] at hd
        by_cases ha : a = f
        · rw [ha]
        · simp [swapsOf, ha] at hd; omega
    have z : ∀ a : Fin k, swapsOf id (fun (_ : Fin k) (_ : Fin n) => ([] : List Bool)) features a 0 = 0 := fun a => by simp [swapsOf]
    have zz : ∀ d : List (Fin k × Fin n), (((firsts d)[f.1]?).map fun a => swapsOf id (fun (_ : Fin k) (_ : Fin n) => ([] : List Bool)) features a 0).getD 0 = 0 := fun d => by
      cases (firsts d)[f.1]? <;> simp [z]
    have e1 := h (fun a _ => [decide (a = f)]) (fun _ _ => []) f 0
    have e2 := h (fun _ _ => []) (fun a _ => [decide (a = f)]) f 0
    rw [C36_parallel_actual id _ _ features hf d1 d2 h1 h2, zz, z] at e1
    rw [C36_parallel_actual id _ _ features hf d1 d2 h1 h2, zz, z] at e2
    exact ⟨key d1 (by omega), key d2 (by omega)⟩
  · intro h inc dec f i
    rw [C36_parallel_actual id inc dec features hf d1 d2 h1 h2, (h f).1, (h f).2]
    simp

/-- **Disagreement.** The swap table depends on the order in which the workers finish: with two factors, one feature and one
level, only factor 0 swapping, the swap is booked under factor 1 when factor 1 finishes first. -/
theorem C36_refuted : ∃ (inc dec : Fin 2 → Fin 1 → List Bool) (d1 d2 : List (Fin 2 × Fin 1)),
    d1.Perm ((List.finRange 2).flatMap fun a => [0].map fun j => (a, j)) ∧
    d2.Perm ((List.finRange 2).flatMap fun a => [0].map fun j => (a, j)) ∧
    swapsOf id inc [0] 0 0 = 1 ∧ swapsOf id inc [0] 1 0 = 0 ∧ swapsOf id dec [0] 0 0 = 0 ∧ swapsOf id dec [0] 1 0 = 0 ∧
    (tallyBoth id (parResults inc d1 []) (parResults dec d2 []) ⟨fun _ _ => 0, fun _ _ => 0⟩).swap 0 0 = 0 ∧
    (tallyBoth id (parResults inc d1 []) (parResults dec d2 []) ⟨fun _ _ => 0, fun _ _ => 0⟩).swap 0 1 = 1 :=
  ⟨fun a _ => [decide (a = 0)], fun _ _ => [false], [(1, 0), (0, 0)], [(0, 0), (1, 0)], by decide +kernel⟩

/-- **Disagreement.** In the displayed and saved table row `i` (accumulated for level `dQmax[i]`) is labelled with the level
at the mirrored position. -/
theorem C37_refuted {β : Type*} (dQmax : List K) (row : ℕ → β) (i : ℕ) (hi : i < dQmax.length) :
    (summaryRows dQmax row)[i]? = some (dQmax[dQmax.length - 1 - i]'(by omega), row i) := by
  simp only [summaryRows, List.getElem?_map, List.getElem?_zipIdx]
  rw [List.getElem?_reverse hi, List.getElem?_eq_getElem (by omega)]
  simp

/-- With the levels of the code: the row accumulated for level 4 is shown as level 32 and vice versa. -/
example : summaryRows (K := ℚ) [32, 16, 8, 4] (fun i => i) = [(4, 0), (8, 1), (16, 2), (32, 3)] := by decide +kernel

example : summaryRows (K := ℚ) [4, 2, 1, 1/2] (fun i => i) = [(1/2, 0), (1, 1), (2, 2), (4, 3)] := by decide +kernel

/-- The only correctly labelled rows of a table with distinct levels are middle rows: with an even number of levels every
row is mislabelled. -/
theorem C37_even_refuted {β : Type*} (dQmax : List K) (hnd : dQmax.Nodup) (heven : dQmax.length % 2 = 0) (row : ℕ → β) (i : ℕ)
    (hi : i < dQmax.length) (q : K) (hq : dQmax[i]? = some q) (r : β) : (summaryRows dQmax row)[i]? ≠ some (q, r) := by
  rw [C37_refuted dQmax row i hi]
  intro h
  simp only [Option.some.injEq, Prod.mk.injEq] at h
  rw [List.getElem?_eq_getElem hi, Option.some.injEq] at hq
  have := (List.Nodup.getElem_inj_iff hnd).1 (h.1.trans hq.symm)
  omega

/-- Exactly which rows are labelled correctly: row `i` if its level equals the level at the mirrored position, all rows if the
list of levels reads the same in both directions. -/
theorem C37_correct_iff {β : Type*} (dQmax : List K) (row : ℕ → β) :
    (∀ i (hi : i < dQmax.length), (summaryRows dQmax row)[i]? = some (dQmax[i], row i) ↔
      dQmax[i] = dQmax[dQmax.length - 1 - i]'(by omega)) ∧
    ((∀ i (hi : i < dQmax.length), (summaryRows dQmax row)[i]? = some (dQmax[i], row i)) ↔ dQmax.reverse = dQmax) := by
  have h1 : ∀ i (hi : i < dQmax.length), (summaryRows dQmax row)[i]? = some (dQmax[i], row i) ↔
      dQmax[i] = dQmax[dQmax.length - 1 - i]'(by omega) := by
    intro i hi
    rw [C37_refuted dQmax row i hi]
    simp only [Option.some.injEq, Prod.mk.injEq, and_true]
    exact eq_comm
  refine ⟨h1, ?_, ?_⟩
  · intro h
    apply List.ext_getElem (by simp)
    intro i hi hi'
    rw [List.getElem_reverse]
    exact ((h1 i hi').1 (h i hi')).symm
  · intro h i hi
    rw [h1 i hi]
    have : dQmax.reverse[i]'(by simpa using hi) = dQmax[i] := by simp only [h]
    rw [← this, List.getElem_reverse]

/-- Over any history of displacement runs with any results, every swap entry is at most its count entry. -/
theorem C38_history (sw : L → Bool) (hist : List (PyDict (Fin k) (PyDict (Fin n) (List L)) × PyDict (Fin k) (PyDict (Fin n) (List L))))
    (i c : ℕ) :
    (hist.foldl (fun t h => tallyBoth sw h.1 h.2 t) ⟨fun _ _ => 0, fun _ _ => 0⟩).swap i c ≤
      (hist.foldl (fun t h => tallyBoth sw h.1 h.2 t) ⟨fun _ _ => 0, fun _ _ => 0⟩).count i c := by
  have one : ∀ (d : PyDict (Fin k) (PyDict (Fin n) (List L))) (t : SwapTables), t.swap i c ≤ t.count i c →
      (tallyDict sw d 0 t).swap i c ≤ (tallyDict sw d 0 t).count i c := by
    intro d t h
    rw [(tallyDict_spec sw d 0 t i c).1, (tallyDict_spec sw d 0 t i c).2]
    simp only [Nat.zero_le, if_true]
    cases d[c - 0]? with
    | none => simpa using h
    | some p =>
      simp only [Option.map_some, Option.getD_some]
      have : p.2.countP (fun q => (q.2[i]?).any sw) ≤ p.2.countP (fun q => decide (i < q.2.length)) := by
        apply List.countP_mono_left
        intro q _ hq
        by_cases hlt : i < q.2.length
        · simpa using hlt
        · rw [List.getElem?_eq_none (by omega)] at hq
          simp at hq
      omega
  have key : ∀ (t : SwapTables), t.swap i c ≤ t.count i c →
      (hist.foldl (fun t h => tallyBoth sw h.1 h.2 t) t).swap i c ≤
        (hist.foldl (fun t h => tallyBoth sw h.1 h.2 t) t).count i c := by
    induction hist with
    | nil => intro t h; exact h
    | cons h hist ih =>
      intro t ht
      rw [List.foldl_cons]
      exact ih _ (one h.2 _ (one h.1 t ht))
  exact key _ le_rfl

/-- The count entries of one sequential run: two per requested feature, so the percentages are defined as soon as a feature
was requested. -/
theorem C38_count (sw : L → Bool) (inc dec : Fin k → Fin n → List L) (features : List (Fin n)) (hf : features.Nodup)
    (levels : ℕ) (h1 : ∀ a j, (inc a j).length = levels) (h2 : ∀ a j, (dec a j).length = levels)
    (t : SwapTables) (f : Fin k) (i : ℕ) (hi : i < levels) :
    (tallyBoth sw (seqResults inc features []) (seqResults dec features []) t).count i f =
      t.count i f + 2 * features.length := by
  unfold tallyBoth
  rw [(tallyDict_spec sw _ 0 _ i f).1, (tallyDict_spec sw _ 0 _ i f).1, seqResults_eq inc features hf, seqResults_eq dec features hf]
  simp [List.countP_map, Function.comp_def, h1, h2, hi]
  omega

example : let inc : Fin 2 → Fin 3 → List Bool := fun a j => [decide (a = 0), decide (j = 1)]
    let t := tallyBoth id (seqResults inc [0, 2, 1] []) (seqResults inc [0, 2, 1] []) ⟨fun _ _ => 0, fun _ _ => 0⟩
    t.swap 0 0 = 6 ∧ t.swap 0 1 = 0 ∧ t.swap 1 0 = 2 ∧ t.swap 1 1 = 2 ∧ t.count 1 1 = 6 := by decide +kernel

/-- Two factors and two features with a quadratic response: a search on feature 1 only, with two levels. -/
def dispDemo (drop : ℚ) : DispEnv 1 2 2 ℚ :=
  { H := fun a j => a.1 + j.1 + 1, W := fun _ _ => 1, Q := fun H => 5 * (H 0 1 - 2) ^ 2 + 3 * (H 1 1 - 3) ^ 2, baseQ := 0,
    retrain := fun H => (decide (H 1 1 < 1), drop), thr := 1 / 10, eps := 1 / 10 ^ 8 }

/-- C35, C80 on the example: eight rows; for the searched feature the interval around the base profile 2/5 is proper, for the other one it is a
point. -/
example : let E := dispDemo 0
    let inc := seqResults (incEntry E [8, 4]) [1] []
    let dec := seqResults (decEntry E [8, 4]) [1] []
    ((compileRows E (1 / 10 ^ 4) [1] 2 inc dec).map fun rows => (rows.length, rows.map fun r => decide (r.pmin < r.profile ∧ r.profile < r.pmax))) =
      some (8, [false, true, false, true, false, true, false, true]) := by decide +kernel

/-- C81 on the example: retraining that lowers the loss by one is reported as no drop, retraining that raises it by two as a drop of minus two. -/
example : let rows := fun q : ℚ => let E := dispDemo q
      compileRows E (1 / 10 ^ 4) [1] 2 (seqResults (incEntry E [8, 4]) [1] []) (seqResults (decEntry E [8, 4]) [1] [])
    ((rows (-1)).map fun l => l.map fun r => r.drop) = some [0, 0, 0, 0, 0, 0, 0, 0] ∧
    ((rows 2).map fun l => l.map fun r => r.drop) = some [0, -2, 0, -2, 0, -2, 0, -2] := by decide +kernel

end compile

/-! ## C39, C40 -/

section bsdisp
variable {K : Type*} [LinearOrder K] {R : Type*}

theorem bsFold_spec (ds : List (DispCols R K)) : ∀ (t : BsMerged R K) (r : R),
    (t.pmax r ≤ (ds.foldl bsStep t).pmax r ∧ (ds.foldl bsStep t).pmin r ≤ t.pmin r ∧
      t.cmax r ≤ (ds.foldl bsStep t).cmax r ∧ (ds.foldl bsStep t).cmin r ≤ t.cmin r ∧ (ds.foldl bsStep t).drop r ≤ t.drop r) ∧
    ∀ d ∈ ds, d.pmax r ≤ (ds.foldl bsStep t).pmax r ∧ (ds.foldl bsStep t).pmin r ≤ d.profile r ∧
      d.cmax r ≤ (ds.foldl bsStep t).cmax r ∧ (ds.foldl bsStep t).cmin r ≤ d.cmin r ∧ (ds.foldl bsStep t).drop r ≤ d.drop r := by
  induction ds with
  | nil => intro t r; simp
  | cons d ds ih =>
    intro t r
    rw [List.foldl_cons]
    obtain ⟨⟨a1, a2, a3, a4, a5⟩, h⟩ := ih (bsStep t d) r
    simp only [bsStep] at a1 a2 a3 a4 a5
    refine ⟨⟨(le_max_left _ _).trans a1, a2.trans (min_le_left _ _), (le_max_left _ _).trans a3, a4.trans (min_le_left _ _),
      a5.trans (min_le_left _ _)⟩, fun d' hd' => ?_⟩
    rcases List.mem_cons.1 hd' with rfl | hd'
    · exact ⟨(le_max_right _ _).trans a1, a2.trans (min_le_right _ _), (le_max_right _ _).trans a3, a4.trans (min_le_right _ _),
        a5.trans (min_le_right _ _)⟩
    · exact h d' hd'

/-- The merged upper profile end, the concentration interval and the drop cover every run with a key in `1 … len-1`, and the
lower profile end covers its base profile.

What is missing: the lower profile end of the runs (`C39_min_refuted`), and the run with the largest key
(`C39_last_refuted`). -/
theorem C39_partial (results : PyDict ℕ (DispCols R K)) (t : BsMerged R K) (h : bsCompile results = some t) (i : ℕ)
    (hi : 1 ≤ i) (hi' : i < results.length) (d : DispCols R K) (hd : dictGet results i = some d) (r : R) :
    d.pmax r ≤ t.pmax r ∧ t.pmin r ≤ d.profile r ∧ d.cmax r ≤ t.cmax r ∧ t.cmin r ≤ d.cmin r ∧ t.drop r ≤ d.drop r := by
  unfold bsCompile at h
  split at h
  · simp at h
  · rename_i k0 d0 rest
    simp only [Option.map_eq_some_iff] at h
    obtain ⟨ds, h1, rfl⟩ := h
    refine (bsFold_spec ds _ r).2 d ?_
    have : ∀ (l : List ℕ) (ds : List (DispCols R K)), (l.mapM fun i => dictGet ((k0, d0) :: rest) i) = some ds →
        ∀ i ∈ l, ∀ d, dictGet ((k0, d0) :: rest) i = some d → d ∈ ds := by
      intro l
      induction l with
      | nil => intro ds _ i hi; simp at hi
      | cons a l ih =>
        intro ds h i hi d hd
        simp only [List.mapM_cons, Option.bind_eq_bind, Option.bind_eq_some_iff, Option.pure_def, Option.some.injEq] at h
        obtain ⟨x, hx, xs, hxs, rfl⟩ := h
        rcases List.mem_cons.1 hi with rfl | hi
        · rw [hx, Option.some.injEq] at hd
          exact hd ▸ List.mem_cons_self
        · exact List.mem_cons_of_mem _ (ih xs hxs i hi d hd)
    exact this _ ds h1 i (List.mem_range'_1.2 ⟨hi, by omega⟩) d hd

/-- The first run of the dictionary is covered completely. -/
theorem C39_first (results : PyDict ℕ (DispCols R K)) (t : BsMerged R K) (h : bsCompile results = some t)
    (p : ℕ × DispCols R K) (hp : results.head? = some p) (r : R) :
    p.2.pmax r ≤ t.pmax r ∧ t.pmin r ≤ p.2.pmin r ∧ p.2.cmax r ≤ t.cmax r ∧ t.cmin r ≤ p.2.cmin r ∧ t.drop r ≤ p.2.drop r := by
  unfold bsCompile at h
  split at h
  · simp at h
  · rename_i k0 d0 rest
    simp only [Option.map_eq_some_iff] at h
    obtain ⟨ds, _, rfl⟩ := h
    simp only [List.head?_cons, Option.some.injEq] at hp
    subst hp
    exact (bsFold_spec ds ⟨d0.pmax, d0.pmin, d0.cmax, d0.cmin, d0.drop⟩ r).1

/-- **Disagreement.** With the runs stored under `1 … N` in order (`N ≥ 2`), the last run has no influence on the merged
intervals at all: replacing it by anything gives the same result. -/
theorem C39_last_refuted (runs : List (DispCols R K)) (hne : runs ≠ []) (d d' : DispCols R K) :
    bsCompile ((runs ++ [d]).zipIdx 1 |>.map fun p => (p.2, p.1)) =
      bsCompile ((runs ++ [d']).zipIdx 1 |>.map fun p => (p.2, p.1)) := by
  have get : ∀ (x : DispCols R K) (i : ℕ), i < 1 + runs.length → 
      dictGet ((runs ++ [x]).zipIdx 1 |>.map fun p => (p.2, p.1)) i = dictGet (runs.zipIdx 1 |>.map fun p => (p.2, p.1)) i := by
    intro x i hi
    rw [List.zipIdx_append, List.map_append]
    unfold dictGet
    rw [List.find?_append]
    have : ((([x] : List (DispCols R K)).zipIdx (1 + runs.length)).map fun p => (p.2, p.1)).find? (fun p => decide (p.1 = i)) = none := by
      simp
      omega
    rw [this, Option.or_none]
  obtain ⟨d0, rest, rfl⟩ := List.exists_cons_of_ne_nil hne
  have hl : ∀ x : DispCols R K, (((d0 :: rest) ++ [x]).zipIdx 1 |>.map fun p => (p.2, p.1)).length - 1 = rest.length + 1 := by
    intro x; simp
  have e : ∀ x : DispCols R K, bsCompile (((d0 :: rest) ++ [x]).zipIdx 1 |>.map fun p => (p.2, p.1)) =
      ((List.range' 1 (rest.length + 1)).mapM fun i => dictGet ((d0 :: rest).zipIdx 1 |>.map fun p => (p.2, p.1)) i).map fun ds =>
        ds.foldl bsStep ⟨d0.pmax, d0.pmin, d0.cmax, d0.cmin, d0.drop⟩ := by
    intro x
    have hmap : ∀ l : List ℕ, (∀ i ∈ l, i < 1 + (d0 :: rest).length) →
        (l.mapM fun i => dictGet (((d0 :: rest) ++ [x]).zipIdx 1 |>.map fun p => (p.2, p.1)) i) =
        l.mapM fun i => dictGet ((d0 :: rest).zipIdx 1 |>.map fun p => (p.2, p.1)) i := by
      intro l
      induction l with
      | nil => intro _; rfl
      | cons a l ih =>
        intro h
        rw [List.mapM_cons, List.mapM_cons, get x a (h a List.mem_cons_self), ih fun i hi => h i (List.mem_cons_of_mem _ hi)]
    have := hmap (List.range' 1 (rest.length + 1)) (by intro i hi; rw [List.mem_range'_1] at hi; simp; omega)
    rw [← this, ← hl x]
    rfl
  rw [e d, e d']

/-- Non-trivial case: three runs of one row; the third run reaches up to 9, the merged interval ends at 5. -/
example : let c (p hi lo : ℕ) : DispCols Unit ℕ := ⟨fun _ => p, fun _ => hi, fun _ => lo, fun _ => hi, fun _ => lo, fun _ => 0⟩
    ((bsCompile [(1, c 3 4 2), (2, c 3 5 2), (3, c 3 9 0)]).map fun t => (t.pmax (), t.cmin ())) = some (5, 2) := by decide +kernel

/-- **Disagreement.** For runs other than the first one the lower profile end is merged with the base profile instead of the
lower end: with three runs, the interval of the second run (which is merged) is not covered. -/
theorem C39_min_refuted : ∃ (d1 d2 d3 : DispCols Unit ℕ) (t : BsMerged Unit ℕ),
    bsCompile [(1, d1), (2, d2), (3, d3)] = some t ∧ d2.pmin () < t.pmin () ∧ d2.pmin () ≤ d2.profile () :=
  ⟨⟨fun _ => 3, fun _ => 4, fun _ => 2, fun _ => 0, fun _ => 0, fun _ => 0⟩,
   ⟨fun _ => 3, fun _ => 4, fun _ => 1, fun _ => 0, fun _ => 0, fun _ => 0⟩,
   ⟨fun _ => 3, fun _ => 4, fun _ => 2, fun _ => 0, fun _ => 0, fun _ => 0⟩,
   ⟨fun _ => 4, fun _ => 2, fun _ => 0, fun _ => 0, fun _ => 0⟩, by rfl, by decide, by decide⟩

theorem bsFold_mem (ds : List (DispCols R K)) : ∀ (t : BsMerged R K) (r : R),
    ((ds.foldl bsStep t).pmax r = t.pmax r ∨ ∃ d ∈ ds, (ds.foldl bsStep t).pmax r = d.pmax r) ∧
    ((ds.foldl bsStep t).pmin r = t.pmin r ∨ ∃ d ∈ ds, (ds.foldl bsStep t).pmin r = d.profile r) ∧
    ((ds.foldl bsStep t).cmax r = t.cmax r ∨ ∃ d ∈ ds, (ds.foldl bsStep t).cmax r = d.cmax r) ∧
    ((ds.foldl bsStep t).cmin r = t.cmin r ∨ ∃ d ∈ ds, (ds.foldl bsStep t).cmin r = d.cmin r) ∧
    ((ds.foldl bsStep t).drop r = t.drop r ∨ ∃ d ∈ ds, (ds.foldl bsStep t).drop r = d.drop r) := by
  induction ds with
  | nil => intro t r; simp
  | cons d ds ih =>
    intro t r
    rw [List.foldl_cons]
    obtain ⟨h1, h2, h3, h4, h5⟩ := ih (bsStep t d) r
    have step : ∀ (x a b : K) (f : DispCols R K → K), b = f d → (a = x ∨ b = x) → ∀ y, (y = x ∨ ∃ d' ∈ ds, y = f d') → y = a ∨ ∃ d' ∈ d :: ds, y = f d' := by
      rintro x a b f rfl hx y (rfl | ⟨d', hd', rfl⟩)
      · rcases hx with rfl | hx
        · exact .inl rfl
        · exact .inr ⟨d, List.mem_cons_self, hx.symm⟩
      · exact .inr ⟨d', List.mem_cons_of_mem _ hd', rfl⟩
    exact ⟨step _ _ _ (fun d => d.pmax r) rfl ((max_choice _ _).imp Eq.symm Eq.symm) _ h1, step _ _ _ (fun d => d.profile r) rfl ((min_choice _ _).imp Eq.symm Eq.symm) _ h2,
      step _ _ _ (fun d => d.cmax r) rfl ((max_choice _ _).imp Eq.symm Eq.symm) _ h3, step _ _ _ (fun d => d.cmin r) rfl ((min_choice _ _).imp Eq.symm Eq.symm) _ h4,
      step _ _ _ (fun d => d.drop r) rfl ((min_choice _ _).imp Eq.symm Eq.symm) _ h5⟩

theorem dictGet_zipIdx {α : Type*} (l : List α) : ∀ s i : ℕ, dictGet ((l.zipIdx s).map fun p => (p.2, p.1)) (s + i) = l[i]? := by
  induction l with
  | nil => intro s i; rfl
  | cons a l ih =>
    intro s i
    rw [List.zipIdx_cons, List.map_cons]
    cases i with
    | zero => simp [dictGet]
    | succ i =>
      rw [List.getElem?_cons_succ, ← ih (s + 1) i]
      unfold dictGet
      rw [List.find?_cons_of_neg (by simp), show s + (i + 1) = s + 1 + i by omega]

/-- With the runs stored under `1 … N` in order, the merged columns are exactly: upper ends, lower concentration ends and drops over the first run and all runs but the last one; the lower profile end is the
smallest one of the lower end of the first run and the base profiles of all runs but the last one. So the run `d` is covered at the lower profile end exactly if one of these is not above its lower end. -/
theorem C39_exact_partial (d0 : DispCols R K) (rest : List (DispCols R K)) :
    ∃ t, bsCompile (((d0 :: rest).zipIdx 1).map fun p => (p.2, p.1)) = some t ∧ ∀ r,
      IsGreatest {x | x = d0.pmax r ∨ ∃ d ∈ (d0 :: rest).dropLast, x = d.pmax r} (t.pmax r) ∧
      IsLeast {x | x = d0.pmin r ∨ ∃ d ∈ (d0 :: rest).dropLast, x = d.profile r} (t.pmin r) ∧
      IsGreatest {x | x = d0.cmax r ∨ ∃ d ∈ (d0 :: rest).dropLast, x = d.cmax r} (t.cmax r) ∧
      IsLeast {x | x = d0.cmin r ∨ ∃ d ∈ (d0 :: rest).dropLast, x = d.cmin r} (t.cmin r) ∧
      IsLeast {x | x = d0.drop r ∨ ∃ d ∈ (d0 :: rest).dropLast, x = d.drop r} (t.drop r) ∧
      ∀ d : DispCols R K, t.pmin r ≤ d.pmin r ↔ d0.pmin r ≤ d.pmin r ∨ ∃ e ∈ (d0 :: rest).dropLast, e.profile r ≤ d.pmin r := by
  have key : ∀ L, L ≤ (d0 :: rest).length →
      (List.range' 1 L).mapM (fun i => dictGet (((d0 :: rest).zipIdx 1).map fun p => (p.2, p.1)) i) = some ((d0 :: rest).take L) := by
    intro L
    induction L with
    | zero => intro _; rfl
    | succ L ih =>
      intro hL
      rw [List.range'_1_concat, List.mapM_append, ih (by omega), List.mapM_cons, List.mapM_nil, dictGet_zipIdx,
        List.getElem?_eq_getElem (by omega), List.take_add_one, List.getElem?_eq_getElem (by omega)]
      rfl
  have hc : bsCompile (((d0 :: rest).zipIdx 1).map fun p => (p.2, p.1)) =
      some ((d0 :: rest).dropLast.foldl bsStep ⟨d0.pmax, d0.pmin, d0.cmax, d0.cmin, d0.drop⟩) := by
    have := key rest.length (by simp)
    have hl : (((d0 :: rest).zipIdx 1).map fun p => (p.2, p.1)).length - 1 = rest.length := by simp
    rw [← hl] at this
    have e : bsCompile (((d0 :: rest).zipIdx 1).map fun p => (p.2, p.1)) = ((List.range' 1 ((((d0 :: rest).zipIdx 1).map fun p => (p.2, p.1)).length - 1)).mapM
        fun i => dictGet (((d0 :: rest).zipIdx 1).map fun p => (p.2, p.1)) i).map fun ds => ds.foldl bsStep ⟨d0.pmax, d0.pmin, d0.cmax, d0.cmin, d0.drop⟩ := rfl
    rw [e, this, Option.map_some, hl, List.dropLast_eq_take]
    rfl
  refine ⟨_, hc, fun r => ?_⟩
  obtain ⟨⟨a1, a2, a3, a4, a5⟩, h⟩ := bsFold_spec (d0 :: rest).dropLast ⟨d0.pmax, d0.pmin, d0.cmax, d0.cmin, d0.drop⟩ r
  obtain ⟨m1, m2, m3, m4, m5⟩ := bsFold_mem (d0 :: rest).dropLast ⟨d0.pmax, d0.pmin, d0.cmax, d0.cmin, d0.drop⟩ r
  refine ⟨⟨m1, ?_⟩, ⟨m2, ?_⟩, ⟨m3, ?_⟩, ⟨m4, ?_⟩, ⟨m5, ?_⟩, fun d => ⟨fun hd => ?_, ?_⟩⟩
  · rintro x (rfl | ⟨d, hd, rfl⟩)
    · exact a1
    · exact (h d hd).1
  · rintro x (rfl | ⟨d, hd, rfl⟩)
    · exact a2
    · exact (h d hd).2.1
  · rintro x (rfl | ⟨d, hd, rfl⟩)
    · exact a3
    · exact (h d hd).2.2.1
  · rintro x (rfl | ⟨d, hd, rfl⟩)
    · exact a4
    · exact (h d hd).2.2.2.1
  · rintro x (rfl | ⟨d, hd, rfl⟩)
    · exact a5
    · exact (h d hd).2.2.2.2
  · rcases m2 with e | ⟨d', hd', e⟩
    · exact .inl (le_of_eq_of_le e.symm hd)
    · exact .inr ⟨d', hd', e ▸ hd⟩
  · rintro (hd | ⟨e, he, hd⟩)
    · exact a2.trans hd
    · exact (h e he).2.1.trans hd

/-- **Disagreement.** The parallel displacement stage of BS-DISP raises for every non-empty set of bootstrap runs. -/
theorem C40_refuted {D : Type} (disp : ℕ → D) (keys done : List ℕ) (h : done ≠ []) : bsStage true disp keys done = none := by
  obtain ⟨b, rest, rfl⟩ := List.exists_cons_of_ne_nil h
  simp [bsStage, List.mapM_cons, pyCall]

/-- The sequential stage stores the displacement of every run under its key. -/
theorem C40_sequential_partial {D : Type} (disp : ℕ → D) (keys done : List ℕ) :
    ∃ d, bsStage false disp keys done = some d ∧ ∀ b, dictGet d b = if b ∈ keys then some (disp b) else none := by
  refine ⟨_, rfl, fun b => ?_⟩
  rw [dictGet_foldl]
  simp [dictGet]

example : bsStage true (fun b => b * 10) [1, 2] [2, 1] = none ∧
    bsStage false (fun b => b * 10) [1, 2] [] = some [(1, 10), (2, 20)] := by decide +kernel

end bsdisp

/-! ## C79 -/

section numbers
variable {k n : ℕ} {L : Type*}

/-- The model number of a parallel displacement task (`displacement.py:354,510`). -/
def dispModelNumber (nf : ℕ) (a : Fin k) (j : Fin n) : ℕ := a * nf + j + 1

/-- The tasks of the parallel displacement with a signed-byte model number: `none` = a task raised, which ends the run. -/
def parTasks (out : Fin k → Fin n → L) (nf : ℕ) (done : List (Fin k × Fin n)) : Option (List ((Fin k × Fin n) × L)) :=
  done.mapM fun p => if 127 < dispModelNumber nf p.1 p.2 then none else some (p, out p.1 p.2)

/-- The bootstrap runs `1 … bootstrap_n` with a signed-byte model number (`bootstrap.py:415,447,480`). -/
def bootRuns {M : Type*} (train : ℕ → M) (bn : ℕ) : Option (List M) :=
  (List.range' 1 bn).mapM fun i => if 127 < i then none else some (train i)

theorem mapM_none {α β : Type*} (g : α → Option β) (l : List α) (x : α) (hx : x ∈ l) (h : g x = none) : l.mapM g = none := by
  induction l with
  | nil => simp at hx
  | cons a l ih =>
    rw [List.mapM_cons]
    rcases List.mem_cons.1 hx with rfl | hx
    · simp [h]
    · simp [ih hx]

/-- **Disagreement.** Displacement of all features in parallel (the default) raises as soon as factors times features exceeds
127: the compiled training takes the model number as a signed byte. -/
theorem C79_displacement_refuted (out : Fin k → Fin n → L) (done : List (Fin k × Fin n)) (hdone : ∀ a j, (a, j) ∈ done)
    (h : 127 < k * n) : parTasks out n done = none := by
  have hk : 0 < k := by rcases Nat.eq_zero_or_pos k with rfl | h' <;> omega
  have hn : 0 < n := by rcases Nat.eq_zero_or_pos n with rfl | h' <;> omega
  refine mapM_none _ _ (⟨k - 1, by omega⟩, ⟨n - 1, by omega⟩) (hdone _ _) ?_
  rw [if_pos]
  simp only [dispModelNumber]
  obtain ⟨k', rfl⟩ : ∃ k', k = k' + 1 := ⟨k - 1, by omega⟩
  rw [Nat.add_mul, Nat.one_mul] at h
  simp only [Nat.add_sub_cancel]
  omega

/-- **Disagreement.** More than 127 bootstrap runs raise. -/
theorem C79_bootstrap_refuted {M : Type*} (train : ℕ → M) (bn : ℕ) (h : 127 < bn) : bootRuns train bn = none := by
  refine mapM_none _ _ 128 (List.mem_range'_1.2 ⟨by omega, by omega⟩) ?_
  rw [if_pos (by omega)]

/-- Up to 127 tasks the parallel displacement goes through. What is missing is refuted above. -/
theorem C79_small_partial (out : Fin k → Fin n → L) (done : List (Fin k × Fin n)) (h : k * n ≤ 127) :
    ∃ r, parTasks out n done = some r ∧ r.length = done.length := by
  have hs : ∀ p ∈ done, ∃ y, (fun p : Fin k × Fin n => if 127 < dispModelNumber n p.1 p.2 then none else some (p, out p.1 p.2)) p = some y := by
    intro p _
    refine ⟨(p, out p.1 p.2), ?_⟩
    simp only
    rw [if_neg]
    have h1 : (p.1 : ℕ) * n + p.2 + 1 ≤ k * n := by
      have h2 : ((p.1 : ℕ) + 1) * n ≤ k * n := Nat.mul_le_mul_right _ p.1.2
      have h3 := p.2.2
      rw [Nat.add_mul, Nat.one_mul] at h2
      omega
    simp only [dispModelNumber]
    omega
  obtain ⟨r, h1, h2, _⟩ := mapM_some_map _ done hs
  exact ⟨r, h1, h2⟩

/-- Exactly when the two stages go through: the parallel displacement of all pairs, in whatever order the tasks complete, succeeds
iff there are at most 127 of them, and the bootstrap iff at most 127 runs were asked for; it then returns the runs `1 … bn` in order. -/
theorem C79_iff_partial {M : Type*} (out : Fin k → Fin n → L) (done : List (Fin k × Fin n)) (hdone : ∀ a j, (a, j) ∈ done)
    (train : ℕ → M) (bn : ℕ) :
    ((∃ r, parTasks out n done = some r) ↔ k * n ≤ 127) ∧
      ((∃ r, bootRuns train bn = some r) ↔ bn ≤ 127) ∧
      (bn ≤ 127 → ∃ r, bootRuns train bn = some r ∧ r.length = bn ∧ ∀ i, i < bn → r[i]? = some (train (i + 1))) := by
  have hb : bn ≤ 127 → bootRuns train bn = some ((List.range' 1 bn).map train) := by
    intro h
    have : ∀ l : List ℕ, (∀ i ∈ l, i ≤ 127) →
        l.mapM (fun i => if 127 < i then none else some (train i)) = some (l.map train) := by
      intro l
      induction l with
      | nil => intro _; rfl
      | cons a l ih =>
        intro hl
        have ha : ¬ 127 < a := by have := hl a (by simp); omega
        rw [List.mapM_cons, ih fun i hi => hl i (List.mem_cons_of_mem _ hi)]
        simp [ha]
    exact this _ fun i hi => by have := List.mem_range'_1.1 hi; omega
  refine ⟨⟨fun ⟨r, hr⟩ => ?_, fun h => ?_⟩, ⟨fun ⟨r, hr⟩ => ?_, fun h => ⟨_, hb h⟩⟩, fun h => ⟨_, hb h, by simp, fun i hi => ?_⟩⟩
  · by_contra hc
    rw [C79_displacement_refuted out done hdone (by omega)] at hr
    exact absurd hr (by simp)
  · obtain ⟨r, hr, _⟩ := C79_small_partial out done h
    exact ⟨r, hr⟩
  · by_contra hc
    rw [C79_bootstrap_refuted train bn (by omega)] at hr
    exact absurd hr (by simp)
  · simp [hi, Nat.add_comm]

example : (parTasks (fun (a : Fin 2) (j : Fin 2) => a.1 + j.1) 2 [(1, 1), (0, 0), (1, 0), (0, 1)]).isSome = true ∧
    bootRuns (fun i => i) 3 = some [1, 2, 3] := by decide +kernel

end numbers

/-! ### The theorems applied to the examples -/

/-- Case for `C33_levels`: the first of two levels, for a quadratic response and the base value 3. -/
example : ∃ r, (increaseSearch (K := ℚ) (fun x => 5 * (x - 1) * (x - 1)) (1 / 10) [32, 16])[0]? = some r ∧ 3 ≤ 3 * r.modv := by
  obtain ⟨hl, h⟩ := C33_levels (K := ℚ) (fun x => 5 * (x - 1) * (x - 1)) (1 / 10) 32 [16] 3 (by norm_num)
  have h0 : 0 < (increaseSearch (K := ℚ) (fun x => 5 * (x - 1) * (x - 1)) (1 / 10) [32, 16]).length := by rw [hl]; decide
  exact ⟨_, List.getElem?_eq_getElem h0, (h 0 32 _ rfl (List.getElem?_eq_getElem h0)).1⟩

/-- Case for `C34_between`. -/
example : 0 < 3 * (bisectDown (K := ℚ) (fun x => 6 * (1 - x) * (1 - x)) 4 (1 / 10) (1 / 10 ^ 8) 50 0 1 (1 / 2) 0 0).modv :=
  (C34_between _ _ _ _ _ (by norm_num)).1

/-- Case for `C35_complete`, `C35_sequential`, `C35_parallel`: one searched feature, two levels. -/
example : let E := dispDemo 0
    ∃ rows, compileRows E (1 / 10 ^ 4) [1] 2 (seqResults (incEntry E [8, 4]) [1] [])
        (parResults (decEntry E [8, 4]) [(1, 1), (0, 1)] []) = some rows ∧ rows.length = 2 * 2 * 2 := by
  intro E
  have hi : ∀ a j, (incEntry E [8, 4] a j).length = 2 := fun a j => by
    simpa [incEntry] using (C33_levels (K := ℚ) _ _ 8 [4] 0 le_rfl).1
  have hd : ∀ a j, (decEntry E [8, 4] a j).length = 2 := fun a j => rfl
  obtain ⟨rows, h1, h2, -⟩ := C35_complete E (1 / 10 ^ 4) [1] 2 _ _ (C35_sequential (incEntry E [8, 4]) [1] 2 [] hi)
    (C35_parallel (decEntry E [8, 4]) [1] 2 [] hd [(1, 1), (0, 1)] (by decide))
  exact ⟨rows, h1, h2⟩

/-- Case for `C35_conc_iff` and `C35_excluded_partial`: feature 0 is not searched. -/
example : let E := dispDemo 0
    ∃ r, compileRow E (1 / 10 ^ 4) [1] [] [] 0 1 0 = some r ∧ r.profile = 2 / 3 ∧ r.pmax = r.profile ∧ r.cmax = r.conc := by
  intro E
  obtain ⟨r, h1, h2, h3, -, -, h4⟩ := C35_excluded_partial E (1 / 10 ^ 4) [1] [] [] 0 1 0 (by decide)
  obtain ⟨r', h1', h5, -⟩ := C35_conc_iff E (1 / 10 ^ 4) [1] [] [] 0 1 0 (by decide)
  obtain rfl : r = r' := Option.some.inj (h1.symm.trans h1')
  refine ⟨r, h1, ?_, h3, (h4 ?_).1⟩
  · rw [h2]; decide +kernel
  · rw [h5]; decide +kernel

/-- Case for `C36_sequential` and `C36_parallel_partial`: two factors, three features, workers in order. -/
example : let inc : Fin 2 → Fin 3 → List Bool := fun a j => [decide (a = 0), decide (j = 1)]
    (tallyBoth id (seqResults inc [0, 2, 1] []) (seqResults inc [0, 2, 1] []) ⟨fun _ _ => 0, fun _ _ => 0⟩).swap 1 ((1 : Fin 2) : ℕ) = 2 ∧
    (tallyBoth id (parResults inc [(0, 2), (0, 0), (1, 1), (0, 1), (1, 0), (1, 2)] [])
      (parResults inc [(0, 0), (0, 1), (0, 2), (1, 2), (1, 1), (1, 0)] []) ⟨fun _ _ => 0, fun _ _ => 0⟩).swap 1 ((1 : Fin 2) : ℕ) = 2 := by
  intro inc
  have e : swapsOf id inc [0, 2, 1] 1 1 = 1 := by decide
  have h1 := C36_sequential id inc inc [0, 2, 1] (by decide) ⟨fun _ _ => 0, fun _ _ => 0⟩ 1 1
  have h2 := C36_parallel_partial id inc inc [0, 2, 1] (by decide) [(0, 2), (0, 0), (1, 1), (0, 1), (1, 0), (1, 2)]
    [(0, 0), (0, 1), (0, 2), (1, 2), (1, 1), (1, 0)] (by decide) (by decide) ⟨fun _ _ => 0, fun _ _ => 0⟩ 1 1 (by decide) (by decide)
  rw [e] at h1 h2
  exact ⟨h1, h2⟩

/-- Case for `C36_iff_partial`: with these completion orders the table is right whatever the outcomes, with the factors exchanged in one of them it is not. -/
example : (∀ (inc dec : Fin 2 → Fin 3 → List Bool) (f : Fin 2) (i : ℕ), (tallyBoth id (parResults inc [(0, 2), (0, 0), (1, 1), (0, 1), (1, 0), (1, 2)] [])
      (parResults dec [(0, 0), (0, 1), (0, 2), (1, 2), (1, 1), (1, 0)] []) ⟨fun _ _ => 0, fun _ _ => 0⟩).swap i f = 0 + swapsOf id inc [0, 2, 1] f i + swapsOf id dec [0, 2, 1] f i) ∧
    ¬ ∀ (inc dec : Fin 2 → Fin 3 → List Bool) (f : Fin 2) (i : ℕ), (tallyBoth id (parResults inc [(1, 2), (0, 0), (1, 1), (0, 1), (1, 0), (0, 2)] [])
      (parResults dec [(0, 0), (0, 1), (0, 2), (1, 2), (1, 1), (1, 0)] []) ⟨fun _ _ => 0, fun _ _ => 0⟩).swap i f = 0 + swapsOf id inc [0, 2, 1] f i + swapsOf id dec [0, 2, 1] f i :=
  ⟨(C36_iff_partial [0, 2, 1] (by decide) (by decide) _ _ (by decide) (by decide) ⟨fun _ _ => 0, fun _ _ => 0⟩).2 (by decide),
    fun h => absurd ((C36_iff_partial [0, 2, 1] (by decide) (by decide) _ _ (by decide) (by decide) ⟨fun _ _ => 0, fun _ _ => 0⟩).1 h) (by decide)⟩

/-- Case for `C36_parallel_actual`: the second factor answers first, so its three swaps are counted for position 0. -/
example : let inc : Fin 2 → Fin 3 → List Bool := fun a _ => [decide (a = 1)]
    (tallyBoth id (parResults inc [(1, 2), (0, 0), (1, 1), (0, 1), (1, 0), (0, 2)] [])
      (parResults inc [(1, 0), (0, 1), (0, 2), (1, 2), (1, 1), (0, 0)] []) ⟨fun _ _ => 0, fun _ _ => 0⟩).swap 0 ((0 : Fin 2) : ℕ) = 6 := by
  intro inc
  exact (C36_parallel_actual id inc inc [0, 2, 1] (by decide) _ _ (by decide) (by decide) ⟨fun _ _ => 0, fun _ _ => 0⟩ 0 0).trans
    (by decide)

/-- Case for `C39_first` and `C39_partial`: three runs. -/
example : let c (p hi lo : ℕ) : DispCols Unit ℕ := ⟨fun _ => p, fun _ => hi, fun _ => lo, fun _ => hi, fun _ => lo, fun _ => 0⟩
    ∃ t, bsCompile [(1, c 3 4 2), (2, c 3 5 2), (3, c 3 9 0)] = some t ∧ 4 ≤ t.pmax () ∧ 5 ≤ t.pmax () ∧ t.cmin () ≤ 2 := by
  intro c
  obtain ⟨t, ht⟩ : ∃ t, bsCompile [(1, c 3 4 2), (2, c 3 5 2), (3, c 3 9 0)] = some t := ⟨_, rfl⟩
  have h1 := C39_first _ t ht (1, c 3 4 2) rfl ()
  have h2 := C39_partial _ t ht 2 (by decide) (by decide) (c 3 5 2) rfl ()
  exact ⟨t, ht, h1.1, h2.1, h2.2.2.2.1⟩

/-- Case for `C80_profile`, `C81_sign` and `C81_value`: the searched feature of the first factor. -/
example : let E := dispDemo 2
    ∃ r, compileRow E (1 / 10 ^ 4) [1] (seqResults (incEntry E [8, 4]) [1] []) (seqResults (decEntry E [8, 4]) [1] []) 1 0 1 = some r ∧
      r.pmin ≤ r.profile ∧ r.profile ≤ r.pmax ∧ r.drop ≤ 0 ∧ r.drop = -2 := by
  intro E
  obtain ⟨r, h1, h2, h3⟩ := C80_profile E (fun a j => by show (0 : ℚ) < a.1 + j.1 + 1; positivity) (1 / 10 ^ 4) [1] 8 [4]
    (seqResults (incEntry E [8, 4]) [1] []) (seqResults (decEntry E [8, 4]) [1] []) 1 0 1 (by decide) rfl rfl (by decide)
  refine ⟨r, h1, h2, h3, C81_sign _ _ _ _ _ _ _ _ _ h1, ?_⟩
  obtain ⟨r', h1', h4⟩ := C81_value E (1 / 10 ^ 4) [1] (seqResults (incEntry E [8, 4]) [1] []) (seqResults (decEntry E [8, 4]) [1] [])
    1 0 1 (by decide) _ _ rfl rfl
  obtain rfl : r = r' := Option.some.inj (h1.symm.trans h1')
  rw [h4]
  decide +kernel

end Esat
