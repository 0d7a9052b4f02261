import Verif.Props.Displacement
import Verif.Model.Metrics
import Mathlib.Tactic.LinearCombination
import Mathlib.Algebra.BigOperators.Field

/-!
# C163-C165: displacement of a profile entry under the loss of the model

`C33` and `C34` hold for every response of the loss. Here the response is that of `q_loss`, which is a quadratic polynomial in a single
profile entry.
-/

namespace Esat
open Finset

variable {K : Type*} [Field K] [LinearOrder K] [IsStrictOrderedRing K] {m n k : ℕ}

/-- The matrix `H` with the entry `a, j` replaced by `v`. -/
def putEntry (H : Mat k n K) (a : Fin k) (j : Fin n) (v : K) : Mat k n K := fun b l => if b = a ∧ l = j then v else H b l

/-- The weighted squared residual of the data (`q_loss`, `metrics.py:14-23`). -/
def wssq (V U : Mat m n K) (W : Mat m k K) (H : Mat k n K) : K := ∑ i, ∑ j, ((V i j - ∑ a, W i a * H a j) / U i j) ^ 2

/-- The slope of the loss in the entry `a, j`. -/
def entrySlope (V U : Mat m n K) (W : Mat m k K) (H : Mat k n K) (a : Fin k) (j : Fin n) : K :=
  ∑ i, 2 * ((∑ b, W i b * H b j) - V i j) * W i a / U i j ^ 2

/-- Half of the second derivative of the loss in an entry of row `a` and column `j`. -/
def entryCurv (U : Mat m n K) (W : Mat m k K) (a : Fin k) (j : Fin n) : K := ∑ i, (W i a / U i j) ^ 2

theorem qLoss_eq_wssq (V U : Mat m n K) (W : Mat m k K) (H : Mat k n K) : qLoss V U W H = wssq V U W H := by
  unfold qLoss wssq
  simp only [if_true, mmul]
  exact Finset.sum_congr rfl fun i _ => Finset.sum_congr rfl fun j _ => by ring

theorem sum_putEntry (W : Mat m k K) (H : Mat k n K) (a : Fin k) (j : Fin n) (x : K) (i : Fin m) (l : Fin n) :
    ∑ b, W i b * putEntry H a j (H a j + x) b l = (∑ b, W i b * H b l) + if l = j then W i a * x else 0 := by
  by_cases hl : l = j
  · subst hl
    rw [if_pos rfl, ← Finset.add_sum_erase _ _ (Finset.mem_univ a), 
      ← Finset.add_sum_erase _ (fun b => W i b * H b l) (Finset.mem_univ a)]
    have : ∑ b ∈ univ.erase a, W i b * putEntry H a l (H a l + x) b l = ∑ b ∈ univ.erase a, W i b * H b l :=
      Finset.sum_congr rfl fun b hb => by simp [putEntry, Finset.ne_of_mem_erase hb]
    rw [this]
    simp only [putEntry, and_self, if_true]
    ring
  · rw [if_neg hl, add_zero]
    exact Finset.sum_congr rfl fun b _ => by simp [putEntry, hl]

/-- The loss is a quadratic polynomial in each profile entry. -/
theorem wssq_putEntry (V U : Mat m n K) (W : Mat m k K) (H : Mat k n K) (a : Fin k) (j : Fin n) (x : K) :
    wssq V U W (putEntry H a j (H a j + x)) = wssq V U W H + entrySlope V U W H a j * x + entryCurv U W a j * x ^ 2 := by
  have col : ∀ H' : Mat k n K, wssq V U W H' = ∑ l, ∑ i, ((V i l - ∑ b, W i b * H' b l) / U i l) ^ 2 := fun H' => Finset.sum_comm
  rw [col, col, ← Finset.add_sum_erase _ _ (Finset.mem_univ j),
    ← Finset.add_sum_erase _ (fun l => ∑ i, ((V i l - ∑ b, W i b * H b l) / U i l) ^ 2) (Finset.mem_univ j)]
  have h1 : ∑ l ∈ univ.erase j, ∑ i, ((V i l - ∑ b, W i b * putEntry H a j (H a j + x) b l) / U i l) ^ 2 =
      ∑ l ∈ univ.erase j, ∑ i, ((V i l - ∑ b, W i b * H b l) / U i l) ^ 2 :=
    Finset.sum_congr rfl fun l hl => Finset.sum_congr rfl fun i _ => by
      rw [sum_putEntry, if_neg (Finset.ne_of_mem_erase hl), add_zero]
  have h2 : ∑ i, ((V i j - ∑ b, W i b * putEntry H a j (H a j + x) b j) / U i j) ^ 2 =
      ∑ i, ((V i j - ∑ b, W i b * H b j) / U i j) ^ 2 + entrySlope V U W H a j * x + entryCurv U W a j * x ^ 2 := by
    unfold entrySlope entryCurv
    rw [Finset.sum_mul, Finset.sum_mul, ← Finset.sum_add_distrib, ← Finset.sum_add_distrib]
    refine Finset.sum_congr rfl fun i _ => ?_
    rw [sum_putEntry, if_pos rfl]
    generalize ∑ b, W i b * H b j = s
    by_cases hu : U i j = 0
    · simp [hu]
    · field_simp
      ring
  rw [h1, h2]
  ring

theorem dispH_putEntry (E : DispEnv m k n K) (a : Fin k) (j : Fin n) (md : K) :
    dispH E a j md = putEntry E.H a j (E.H a j + E.H a j * (md - 1)) := by
  funext b l
  unfold dispH putEntry
  split_ifs
  · ring
  · rfl

/-! ## C163 -/

/-- **C163.** The change of Q seen by both searches, exactly: with `x` the displacement of the entry, `Q(base profiles) - base_Q` plus
slope times `x` plus curvature times `x²`, where the curvature is the sum of `(W / U)²` over the samples. (`base_Q` is the loss
before EPSILON is added to the profiles, hence the first term.) -/
theorem C163_quadratic (E : DispEnv m k n K) (V U : Mat m n K) (hQ : ∀ H, E.Q H = qLoss V U E.W H) (a : Fin k) (j : Fin n) (md : K) :
    E.Q (dispH E a j md) - E.baseQ = (wssq V U E.W E.H - E.baseQ) + entrySlope V U E.W E.H a j * (E.H a j * md - E.H a j) +
      (∑ i, (E.W i a / U i j) ^ 2) * (E.H a j * md - E.H a j) ^ 2 := by
  rw [hQ, qLoss_eq_wssq, dispH_putEntry, wssq_putEntry]
  unfold entryCurv
  ring

/-- **C163.** The slope is zero for every positive entry of a model which an ls-nmf step on the profiles leaves unchanged, that is, for
which numerator and denominator of the update agree. -/
theorem C163_stationary (V U : Mat m n K) (W : Mat m k K) (H : Mat k n K) (a : Fin k) (j : Fin n)
    (hs : ∑ i, W i a * (1 / U i j ^ 2 * V i j) = ∑ i, W i a * (1 / U i j ^ 2 * ∑ b, W i b * H b j)) : entrySlope V U W H a j = 0 := by
  have : entrySlope V U W H a j =
      2 * (∑ i, W i a * (1 / U i j ^ 2 * ∑ b, W i b * H b j) - ∑ i, W i a * (1 / U i j ^ 2 * V i j)) := by
    unfold entrySlope
    rw [← Finset.sum_sub_distrib, Finset.mul_sum]
    exact Finset.sum_congr rfl fun i _ => by ring
  rw [this, hs, sub_self, mul_zero]

/-! ## C164: a stationary model -/

theorem upBound_last (f : K → K) (t0 : K) : ∀ (r : ℕ) (h : K),
    (upBound f t0 r h).1 = h ∨ f ((upBound f t0 r h).1 / 2) < t0 := by
  intro r
  induction r with
  | zero => intro h; exact .inl rfl
  | succ r ih =>
    intro h
    unfold upBound
    split
    · rename_i hlt
      rcases ih (h * 2) with e | e
      · right
        rw [e, mul_div_assoc, div_self two_ne_zero, mul_one]
        exact hlt
      · exact .inr e
    · exact .inl rfl

theorem upBound_found (f : K → K) (t0 : K) : ∀ (r : ℕ) (h : K), 0 < r → (∀ i < r, f (h * 2 ^ i) < t0 → i + 1 < r) →
    (upBound f t0 r h).2 = true := by
  intro r
  induction r with
  | zero => intro h hr; omega
  | succ r ih =>
    intro h _ hc
    unfold upBound
    split
    · rename_i hlt
      have h0 := hc 0 (by omega) (by simpa using hlt)
      refine ih (h * 2) (by omega) fun i hi hf => ?_
      have := hc (i + 1) (by omega) (by rw [pow_succ, mul_comm (2 ^ i), ← mul_assoc]; exact hf)
      omega
    · rfl

theorem upBound_pow (f : K → K) (t0 : K) : ∀ (r : ℕ) (h : K), ∃ i ≤ r, (upBound f t0 r h).1 = h * 2 ^ i := by
  intro r
  induction r with
  | zero => intro h; exact ⟨0, le_rfl, by simp [upBound]⟩
  | succ r ih =>
    intro h
    unfold upBound
    split
    · obtain ⟨i, hi, e⟩ := ih (h * 2)
      exact ⟨i + 1, by omega, by rw [e, pow_succ]; ring⟩
    · exact ⟨0, by omega, by simp⟩

/-- The upward search with the response `c (md - 1)²`. -/
theorem increase_quadratic (c thr t0 : K) (ts : List K) (hc : 0 < c) (hthr : 0 < thr) (hlev : ∀ t ∈ t0 :: ts, thr < t)
    (hdec : (t0 :: ts).Pairwise (fun a b => b ≤ a)) (hbig : t0 ≤ c * (2 ^ 100 - 1) ^ 2) (h1 : 2 * c ≤ thr * 2 ^ 100)
    (h2 : 18 * t0 ≤ thr * 2 ^ 100) :
    ∀ (i : ℕ) (t : K) (r : LevelRes K), (t0 :: ts)[i]? = some t →
      (increaseSearch (fun md => c * (md - 1) ^ 2) thr (t0 :: ts))[i]? = some r → t - thr ≤ r.dQ ∧ r.dQ ≤ t := by
  set f : K → K := fun md => c * (md - 1) ^ 2 with hf
  have hfound : (upBound f t0 100 2).2 = true := by
    refine upBound_found f t0 100 2 (by norm_num) fun i hi hlt => ?_
    by_contra hge
    have : i = 99 := by omega
    subst this
    have : f (2 * 2 ^ 99) = c * (2 ^ 100 - 1) ^ 2 := by simp only [hf]; norm_num
    linarith
  obtain ⟨b1, -, -⟩ := C33_bracket f t0
  set b := (upBound f t0 100 2).1 with hb
  have hbound : 2 * c * (b - 1) * (b - 1) ≤ thr * 2 ^ 100 := by
    obtain ⟨i, -, hi⟩ := upBound_pow f t0 100 2
    rw [← hb] at hi
    rcases upBound_last f t0 100 2 with e | e
    · rw [← hb] at e
      rw [e]
      linarith
    · rw [← hb] at e
      rcases Nat.eq_zero_or_pos i with rfl | hp
      · rw [pow_zero, mul_one] at hi
        rw [hi]
        linarith
      · have h4 : 4 ≤ b := by
          have : (2 : K) ≤ 2 ^ i := by
            calc (2 : K) = 2 ^ 1 := (pow_one _).symm
              _ ≤ 2 ^ i := pow_le_pow_right₀ (by norm_num) hp
          rw [hi]; linarith
        have e' : c * (b / 2 - 1) ^ 2 < t0 := e
        have h3 : (b - 1) ^ 2 ≤ 9 * (b / 2 - 1) ^ 2 := by nlinarith
        have := mul_le_mul_of_nonneg_left h3 hc.le
        nlinarith
  refine C33_met f thr t0 ts (2 * c * (b - 1)) (by have : (0:K) ≤ b - 1 := by linarith
                                                   positivity) hdec hfound ?_ ?_ ?_
  · intro t ht
    have := hlev t ht
    simp only [hf, sub_self]
    nlinarith
  · intro x y hx hxy hy
    rw [← hb] at hy
    have e : f y - f x = c * (y - x) * ((y - 1) + (x - 1)) := by simp only [hf]; ring
    rw [e]
    have h0 : 0 ≤ c * (y - x) := mul_nonneg hc.le (by linarith)
    have : (y - 1) + (x - 1) ≤ 2 * (b - 1) := by linarith
    nlinarith
  · rw [← hb]
    exact hbound

theorem bisectDown_converges (f : K → K) (t thr eps L : K) (hL0 : 0 ≤ L) (heps : 4 * (L * eps) ≤ thr) : ∀ (r : ℕ) (low high : K) (s : ℕ), 0 < r → low ≤ high →
    t ≤ f low → f high < t - thr → (∀ a b, low ≤ a → a ≤ b → b ≤ high → f a - f b ≤ L * (b - a)) → L * (high - low) ≤ thr * 2 ^ r →
    (bisectDown f t thr eps r low high ((low + high) / 2) ((low + high) / 2) s).met = true := by
  intro r
  induction r with
  | zero => intro low high s h; omega
  | succ r ih =>
    intro low high s _ hle hlow hhigh hL hw
    have m1 : low ≤ (low + high) / 2 := by linarith
    have m2 : (low + high) / 2 ≤ high := by linarith
    have gap := hL low high le_rfl hle le_rfl
    have wide : ¬ (high - low) / 4 ≤ eps := fun h => by
      have : L * (high - low) ≤ L * (4 * eps) := mul_le_mul_of_nonneg_left (by linarith) hL0
      linarith
    rw [pow_succ] at hw
    unfold bisectDown
    split
    · rename_i hgt
      have hn : ¬ (|(low + high) / 2 - ((low + high) / 2 + high) / 2| ≤ eps ∨ r = 0) := by
        rintro (h | rfl)
        · apply wide
          rw [abs_of_nonpos (by linarith)] at h
          linarith
        · have := hL _ high m1 m2 le_rfl
          simp only [pow_zero, one_mul] at hw
          linarith
      dsimp only
      rw [if_neg hn]
      refine ih _ high _ (by omega) m2 hgt.le hhigh (fun a b ha hab hb => hL a b (m1.trans ha) hab hb) (by linarith)
    · split
      · rename_i hlt
        have hn : ¬ (|(low + high) / 2 - (low + (low + high) / 2) / 2| ≤ eps ∨ r = 0) := by
          rintro (h | rfl)
          · apply wide
            rw [abs_of_nonneg (by linarith)] at h
            linarith
          · have := hL low _ le_rfl m1 m2
            simp only [pow_zero, one_mul] at hw
            linarith
        dsimp only
        rw [if_neg hn]
        refine ih low _ _ (by omega) m1 hlow hlt (fun a b ha hab hb => hL a b ha hab (hb.trans m2)) (by linarith)
      · rfl

/-- The downward search with the response `c (1 - md)²`. -/
theorem decrease_quadratic (c thr t : K) (hthr : 0 < thr) (ht : thr < t) (htc : t ≤ c) (hc : 8 * c * (1 / 10 ^ 8) ≤ thr) :
    (bisectDown (fun md => |c * (md - 1) ^ 2|) t thr (1 / 10 ^ 8) 50 0 1 (1 / 2) 0 0).met = true := by
  have hc0 : 0 < c := by linarith
  set f : K → K := fun md => |c * (md - 1) ^ 2| with hf
  have habs : ∀ x, f x = c * (x - 1) ^ 2 := fun x => abs_of_nonneg (mul_nonneg hc0.le (sq_nonneg _))
  have hL : ∀ a b, 0 ≤ a → a ≤ b → b ≤ 1 → f a - f b ≤ 2 * c * (b - a) := by
    intro a b ha hab hb
    rw [habs, habs]
    have e : c * (a - 1) ^ 2 - c * (b - 1) ^ 2 = c * (b - a) * (2 - a - b) := by ring
    rw [e]
    have h0 : 0 ≤ c * (b - a) := mul_nonneg hc0.le (by linarith)
    nlinarith
  have heps : 4 * (2 * c * (1 / 10 ^ 8)) ≤ thr := by linarith
  have hcw : c ≤ thr * 2 ^ 49 := by
    have : c ≤ thr * (10 ^ 8 / 8) := by
      have := mul_le_mul_of_nonneg_right hc (show (0 : K) ≤ 10 ^ 8 / 8 by norm_num)
      have e : 8 * c * (1 / 10 ^ 8) * (10 ^ 8 / 8) = c := by field_simp
      rwa [e] at this
    exact this.trans (mul_le_mul_of_nonneg_left (by norm_num) hthr.le)
  have hf0 : f 0 = c := by rw [habs]; ring
  have hf1 : f 1 = 0 := by rw [habs]; ring
  have conv := fun (low high : K) (s : ℕ) (h1 : low ≤ high) (h2 : t ≤ f low) (h3 : f high < t - thr) (h4 : 0 ≤ low) (h5 : high ≤ 1) h6 => bisectDown_converges f t thr (1 / 10 ^ 8) (2 * c) (by linarith) heps 49 low high s
    (by norm_num) h1 h2 h3 (fun a b ha hab hb => hL a b (h4.trans ha) hab (hb.trans h5)) h6
  unfold bisectDown
  split
  · rename_i hgt
    dsimp only
    rw [if_neg (by norm_num [abs_of_neg, abs_of_pos])]
    have := conv (1 / 2) 1 1 (by norm_num) hgt.le (by rw [hf1]; linarith) (by norm_num) le_rfl (by linarith)
    rwa [show ((1 : K) / 2 + 1) / 2 = (1 / 2 + 1) / 2 from rfl]
  · split
    · rename_i hlt
      dsimp only
      rw [if_neg (by norm_num [abs_of_neg, abs_of_pos])]
      exact conv 0 (1 / 2) 1 (by norm_num) (by rw [hf0]; exact htc) hlt le_rfl (by norm_num) (by linarith)
    · rfl

theorem bisectDown_floor (f : K → K) (t thr eps : K) (hf : ∀ x, 0 ≤ x → x ≤ 1 → f x < t - thr) (hthr : 0 ≤ thr) :
    ∀ (r : ℕ) (high : K) (s : ℕ), 0 < r → 0 ≤ high → high ≤ 1 → high ≤ 4 * eps * 2 ^ (r - 1) →
    (bisectDown f t thr eps r 0 high (high / 2) (high / 2) s).modv ≤ 2 * eps := by
  intro r
  induction r with
  | zero => intro high s h; omega
  | succ r ih =>
    intro high s _ h0 h1 hw
    have hlt := hf (high / 2) (by linarith) (by linarith)
    unfold bisectDown
    rw [if_neg (by linarith), if_pos hlt]
    dsimp only
    split
    · rename_i hc
      dsimp only
      rcases hc with hc | rfl
      · rw [abs_of_nonneg (by linarith)] at hc
        linarith
      · simp at hw
        linarith
    · rename_i hc
      push Not at hc
      have e : (0 + high / 2) / 2 = high / 2 / 2 := by ring
      rw [e]
      refine ih (high / 2) _ (by omega) (by linarith) (by linarith) ?_
      obtain ⟨r, rfl⟩ : ∃ q, r = q + 1 := ⟨r - 1, by omega⟩
      simp only [Nat.add_sub_cancel] at hw ⊢
      rw [pow_succ] at hw
      linarith

/-- **C164.** A stationary positive entry `h` (slope zero, `base_Q` the loss of the displaced profiles' base), sensitivity
`A = ∑ (W / U)²`. If the sensitivity is within the reach of the hundred doublings and halvings, every level is met upwards: the
square of the displacement times `A` lies between the level minus the threshold and the level, so that the upper end of the interval is
`h + √(dQ / A)` up to the threshold. -/
theorem C164_upper (E : DispEnv m k n K) (V U : Mat m n K) (hQ : ∀ H, E.Q H = qLoss V U E.W H) (a : Fin k) (j : Fin n)
    (hb : E.baseQ = wssq V U E.W E.H) (hs : entrySlope V U E.W E.H a j = 0) (hh : 0 < E.H a j) (A : K) (hA : A = ∑ i, (E.W i a / U i j) ^ 2)
    (hpos : 0 < A) (hthr : 0 < E.thr) (t0 : K) (ts : List K) (hlev : ∀ t ∈ t0 :: ts, E.thr < t)
    (hdec : (t0 :: ts).Pairwise (fun a b => b ≤ a)) (hbig : t0 ≤ A * E.H a j ^ 2 * (2 ^ 100 - 1) ^ 2)
    (h1 : 2 * (A * E.H a j ^ 2) ≤ E.thr * 2 ^ 100) (h2 : 18 * t0 ≤ E.thr * 2 ^ 100)
    (i : ℕ) (t : K) (o : LevelOut K) (ht : (t0 :: ts)[i]? = some t) (ho : (incEntry E (t0 :: ts) a j)[i]? = some o) :
    E.H a j ≤ o.value ∧ t - E.thr ≤ A * (o.value - E.H a j) ^ 2 ∧ A * (o.value - E.H a j) ^ 2 ≤ t := by
  have hf : (fun md => E.Q (dispH E a j md) - E.baseQ) = fun md => A * E.H a j ^ 2 * (md - 1) ^ 2 := by
    funext md
    rw [C163_quadratic E V U hQ, ← hb, hs, ← hA]
    ring
  unfold incEntry at ho
  rw [hf, List.getElem?_map, Option.map_eq_some_iff] at ho
  obtain ⟨r, hr, rfl⟩ := ho
  have hw := increase_quadratic (A * E.H a j ^ 2) E.thr t0 ts (by positivity) hthr hlev hdec hbig h1 h2 i t r ht hr
  obtain ⟨q1, q2, q3, -⟩ := (C33_levels (fun md => A * E.H a j ^ 2 * (md - 1) ^ 2) E.thr t0 ts (E.H a j) hh.le).2 i t r ht hr
  refine ⟨q1, ?_⟩
  rw [q3] at hw
  show t - E.thr ≤ A * (E.H a j * r.modv - E.H a j) ^ 2 ∧ A * (E.H a j * r.modv - E.H a j) ^ 2 ≤ t
  have e : A * (E.H a j * r.modv - E.H a j) ^ 2 = A * E.H a j ^ 2 * (r.modv - 1) ^ 2 := by ring
  rw [e]
  exact hw

/-- **C164.** Downwards: if setting the entry to zero raises the loss by at least the level, the level is met in the same sense (as
long as the sensitivity is below the resolution of the search), so that the lower end is `h - √(dQ / A)` up to the threshold; if even zero
does not raise the loss to the window, the entry is displaced to zero up to two parts in 10⁸. -/
theorem C164_lower (E : DispEnv m k n K) (V U : Mat m n K) (hQ : ∀ H, E.Q H = qLoss V U E.W H) (a : Fin k) (j : Fin n)
    (hb : E.baseQ = wssq V U E.W E.H) (hs : entrySlope V U E.W E.H a j = 0) (hh : 0 < E.H a j) (A : K) (hA : A = ∑ i, (E.W i a / U i j) ^ 2)
    (hthr : 0 < E.thr) (heps : E.eps = 1 / 10 ^ 8) (dQmax : List K)
    (i : ℕ) (t : K) (o : LevelOut K) (ht : dQmax[i]? = some t) (ho : (decEntry E dQmax a j)[i]? = some o) :
    0 < o.value ∧ o.value ≤ E.H a j ∧
    (E.thr < t → t ≤ A * E.H a j ^ 2 → 8 * (A * E.H a j ^ 2) * (1 / 10 ^ 8) ≤ E.thr →
      t - E.thr ≤ A * (E.H a j - o.value) ^ 2 ∧ A * (E.H a j - o.value) ^ 2 ≤ t) ∧
    (A * E.H a j ^ 2 < t - E.thr → o.value ≤ 2 / 10 ^ 8 * E.H a j) := by
  have hf : (fun md => |E.baseQ - E.Q (dispH E a j md)|) = fun md => |A * E.H a j ^ 2 * (md - 1) ^ 2| := by
    funext md
    rw [← abs_neg, neg_sub, C163_quadratic E V U hQ, ← hb, hs, ← hA]
    congr 1
    ring
  unfold decEntry at ho
  rw [hf, heps, List.getElem?_map, Option.map_eq_some_iff] at ho
  obtain ⟨r, hr, rfl⟩ := ho
  obtain ⟨q1, q2, q3, q4, -⟩ := (C34_search (fun md => |A * E.H a j ^ 2 * (md - 1) ^ 2|) E.thr (E.H a j) hh dQmax).2 i t r ht hr
  have hA0 : 0 ≤ A := hA ▸ Finset.sum_nonneg fun i _ => sq_nonneg _
  have hval : (levelOut E a j r).value = E.H a j * r.modv := rfl
  have hr' : r = bisectDown (fun md => |A * E.H a j ^ 2 * (md - 1) ^ 2|) t E.thr (1 / 10 ^ 8) 50 0 1 (1 / 2) 0 0 := by
    simp only [decreaseSearch, List.getElem?_map, ht, Option.map_some, Option.some.injEq] at hr
    exact hr.symm
  refine ⟨q1, q2, fun h1 h2 h3 => ?_, fun h1 => ?_⟩
  · have hm := decrease_quadratic (A * E.H a j ^ 2) E.thr t hthr h1 h2 h3
    rw [← hr'] at hm
    have hw := q4.1 hm
    rw [q3] at hw
    rw [abs_of_nonneg (by positivity)] at hw
    rw [hval]
    have e : A * (E.H a j - E.H a j * r.modv) ^ 2 = A * E.H a j ^ 2 * (r.modv - 1) ^ 2 := by ring
    rw [e]
    exact hw
  · have hlow : ∀ x : K, 0 ≤ x → x ≤ 1 → |A * E.H a j ^ 2 * (x - 1) ^ 2| < t - E.thr := fun x hx hx1 => by
      rw [abs_of_nonneg (by positivity)]
      refine lt_of_le_of_lt ?_ h1
      exact mul_le_of_le_one_right (by positivity) (by nlinarith)
    have hmod : r.modv ≤ 2 * (1 / 10 ^ 8) := by
      rw [hr']
      have h12 := hlow (1 / 2) (by norm_num) (by norm_num)
      unfold bisectDown
      rw [if_neg (by linarith), if_pos h12]
      dsimp only
      rw [if_neg (by norm_num [abs_of_neg])]
      have := bisectDown_floor (fun md => |A * E.H a j ^ 2 * (md - 1) ^ 2|) t E.thr (1 / 10 ^ 8) hlow hthr.le 49 (1 / 2) 1 (by norm_num)
        (by norm_num) (by norm_num) (by norm_num)
      rw [show ((0 : K) + 1 / 2) / 2 = 1 / 2 / 2 by norm_num]
      exact this
    rw [hval]
    have := mul_le_mul_of_nonneg_left hmod hh.le
    linarith

/-- A model with one sample, factor and feature. -/
def oneCell : DispEnv 1 1 1 ℚ := ⟨fun _ _ => 10, fun _ _ => 1, fun H => qLoss (m := 1) (fun _ _ => 10) (fun _ _ => 1) (fun _ _ => 1) H, 0,
  fun _ => (false, 0), 1 / 10, 1 / 10 ^ 8⟩

/-- The hypotheses of both theorems hold for it (sensitivity 1, level 16): the interval is `10 ± 4` up to the threshold. -/
example : oneCell.baseQ = wssq (fun _ _ => 10) (fun _ _ => 1) oneCell.W oneCell.H ∧
    entrySlope (fun _ _ => 10) (fun _ _ => 1) oneCell.W oneCell.H 0 0 = 0 ∧ (∑ i, (oneCell.W i 0 / (1 : ℚ)) ^ 2) = 1 ∧
    ((incEntry oneCell [32, 16, 8, 4] 0 0).map fun o => decide (15.9 ≤ (o.value - 10) ^ 2 ∧ (o.value - 10) ^ 2 ≤ 16)) =
      [false, true, false, false] ∧
    ((decEntry oneCell [32, 16, 8, 4] 0 0).map fun o => decide (15.9 ≤ (10 - o.value) ^ 2 ∧ (10 - o.value) ^ 2 ≤ 16)) =
      [false, true, false, false] := by decide +kernel

/-! ## C165: what the interval means -/

theorem quad_le_max (A B C x y z : K) (hA : 0 ≤ A) (h1 : x ≤ y) (h2 : y ≤ z) :
    C + B * y + A * y ^ 2 ≤ max (C + B * x + A * x ^ 2) (C + B * z + A * z ^ 2) := by
  rcases eq_or_lt_of_le (h1.trans h2) with e | hlt
  · have : y = x := le_antisymm (e ▸ h2) h1
    rw [this]
    exact le_max_left _ _
  · by_contra hc
    push Not at hc
    obtain ⟨c1, c2⟩ := max_lt_iff.1 hc
    -- the convex combination of the ends
    have hz : 0 < z - x := by linarith
    have key : (z - y) * (C + B * x + A * x ^ 2) + (y - x) * (C + B * z + A * z ^ 2) =
        (z - x) * (C + B * y + A * y ^ 2) + A * (y - x) * (z - y) * (z - x) := by ring
    have hn : 0 ≤ A * (y - x) * (z - y) * (z - x) :=
      mul_nonneg (mul_nonneg (mul_nonneg hA (by linarith)) (by linarith)) hz.le
    have b1 : (z - y) * (C + B * x + A * x ^ 2) ≤ (z - y) * (C + B * y + A * y ^ 2) := mul_le_mul_of_nonneg_left c1.le (by linarith)
    have b2 : (y - x) * (C + B * z + A * z ^ 2) ≤ (y - x) * (C + B * y + A * y ^ 2) := mul_le_mul_of_nonneg_left c2.le (by linarith)
    rcases eq_or_lt_of_le h1 with e | hx
    · rw [← e] at c1
      exact lt_irrefl _ c1
    · have b2' : (y - x) * (C + B * z + A * z ^ 2) < (y - x) * (C + B * y + A * y ^ 2) := mul_lt_mul_of_pos_left c2 (by linarith)
      linarith

/-- **C165.** The interval reported for an entry is sound for every base model, stationary or not: every value between the two
displaced values of a level, put into the base profiles in place of the entry, raises the loss over `base_Q` by at most the larger of the
two recorded changes (and of the change due to EPSILON). In particular, if both are in their window, there are factors with this entry and a
loss of at most `base_Q + dQ`: the interval is contained in the one obtained by refitting all other entries. -/
theorem C165_sound (E : DispEnv m k n K) (V U : Mat m n K) (hQ : ∀ H, E.Q H = qLoss V U E.W H) (a : Fin k) (j : Fin n)
    (hh : 0 < E.H a j) (heps : E.eps = 1 / 10 ^ 8) (t0 : K) (ts : List K) (i : ℕ) (t : K) (p q : LevelOut K) (ht : (t0 :: ts)[i]? = some t)
    (hp : (incEntry E (t0 :: ts) a j)[i]? = some p) (hq : (decEntry E (t0 :: ts) a j)[i]? = some q) (v : K)
    (h1 : q.value ≤ v) (h2 : v ≤ p.value) :
    wssq V U E.W (putEntry E.H a j v) - E.baseQ ≤ max (wssq V U E.W E.H - E.baseQ) (max p.dQ q.dQ) := by
  unfold incEntry at hp
  rw [List.getElem?_map, Option.map_eq_some_iff] at hp
  obtain ⟨r, hr, rfl⟩ := hp
  unfold decEntry at hq
  rw [heps, List.getElem?_map, Option.map_eq_some_iff] at hq
  obtain ⟨r', hr', rfl⟩ := hq
  obtain ⟨u1, -, u3, -⟩ := (C33_levels _ E.thr t0 ts (E.H a j) hh.le).2 i t r ht hr
  obtain ⟨-, d2, d3, -⟩ := (C34_search _ E.thr (E.H a j) hh (t0 :: ts)).2 i t r' ht hr'
  have hA : 0 ≤ ∑ i, (E.W i a / U i j) ^ 2 := Finset.sum_nonneg fun i _ => sq_nonneg _
  change E.H a j * r'.modv ≤ v at h1
  change v ≤ E.H a j * r.modv at h2
  show _ ≤ max _ (max r.dQ r'.dQ)
  have hv : wssq V U E.W (putEntry E.H a j v) - E.baseQ = (wssq V U E.W E.H - E.baseQ) +
      entrySlope V U E.W E.H a j * (v - E.H a j) + (∑ i, (E.W i a / U i j) ^ 2) * (v - E.H a j) ^ 2 := by
    have := wssq_putEntry V U E.W E.H a j (v - E.H a j)
    rw [add_sub_cancel] at this
    rw [this]
    unfold entryCurv
    ring
  rw [C163_quadratic E V U hQ] at u3
  have d4 : E.Q (dispH E a j r'.modv) - E.baseQ ≤ r'.dQ := by
    rw [d3, ← neg_sub]
    exact neg_le_abs _
  rw [C163_quadratic E V U hQ] at d4
  rw [hv]
  set B := entrySlope V U E.W E.H a j
  set A := ∑ i, (E.W i a / U i j) ^ 2
  set C := wssq V U E.W E.H - E.baseQ
  rcases le_total (E.H a j) v with hc | hc
  · have := quad_le_max A B C 0 (v - E.H a j) (E.H a j * r.modv - E.H a j) hA (by linarith) (by linarith)
    rw [← u3] at this
    refine this.trans (max_le ?_ ?_)
    · rw [mul_zero, add_zero, zero_pow two_ne_zero, mul_zero, add_zero]
      exact le_max_left _ _
    · exact (le_max_left _ _).trans (le_max_right _ _)
  · have := quad_le_max A B C (E.H a j * r'.modv - E.H a j) (v - E.H a j) 0 hA (by linarith) (by linarith)
    refine this.trans (max_le ?_ ?_)
    · exact (d4.trans (le_max_right _ _)).trans (le_max_right _ _)
    · rw [mul_zero, add_zero, zero_pow two_ne_zero, mul_zero, add_zero]
      exact le_max_left _ _

/-- **C165.** The consequence for refitting: every such value occurs in non-negative factors whose loss exceeds `base_Q` by at most the
level, if both searches met their window and EPSILON costs at most the level. -/
theorem C165_refit (E : DispEnv m k n K) (V U : Mat m n K) (hQ : ∀ H, E.Q H = qLoss V U E.W H) (hW : ∀ i b, 0 ≤ E.W i b)
    (hH : ∀ b l, 0 < E.H b l) (a : Fin k) (j : Fin n) (heps : E.eps = 1 / 10 ^ 8) (t0 : K) (ts : List K) (i : ℕ) (t : K) (p q : LevelOut K)
    (ht : (t0 :: ts)[i]? = some t) (hp : (incEntry E (t0 :: ts) a j)[i]? = some p) (hq : (decEntry E (t0 :: ts) a j)[i]? = some q)
    (hpt : p.dQ ≤ t) (hqt : q.dQ ≤ t) (h0 : wssq V U E.W E.H - E.baseQ ≤ t) (v : K) (h1 : q.value ≤ v) (h2 : v ≤ p.value) :
    ∃ (W' : Mat m k K) (H' : Mat k n K), (∀ i b, 0 ≤ W' i b) ∧ (∀ b l, 0 ≤ H' b l) ∧ H' a j = v ∧ wssq V U W' H' ≤ E.baseQ + t := by
  refine ⟨E.W, putEntry E.H a j v, hW, fun b l => ?_, by simp [putEntry], ?_⟩
  · unfold putEntry
    split_ifs
    · unfold decEntry at hq
      rw [heps, List.getElem?_map, Option.map_eq_some_iff] at hq
      obtain ⟨r', hr', rfl⟩ := hq
      have := ((C34_search _ E.thr (E.H a j) (hH a j) (t0 :: ts)).2 i t r' ht hr').1
      change E.H a j * r'.modv ≤ v at h1
      linarith
    · exact (hH b l).le
  · have := C165_sound E V U hQ a j (hH a j) heps t0 ts i t p q ht hp hq v h1 h2
    have := this.trans (max_le h0 (max_le hpt hqt))
    linarith

end Esat
