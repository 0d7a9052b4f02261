import Verif.Model.SimState
import Verif.Props.Simulator
import Mathlib.Tactic.Linarith

/-!
# A simulator object over several calls (C200)
-/

namespace Esat

/-! ### The time axis -/

theorem minuteRange_length (start stop : ℤ) : ((minuteRange start stop).length : ℤ) = if stop < start then 0 else (stop - start) / 60000000 + 1 := by
  unfold minuteRange
  split_ifs with h
  · rfl
  · rw [List.length_map, List.length_range]
    have : 0 ≤ (stop - start) / 60000000 := Int.ediv_nonneg (by omega) (by norm_num)
    omega

/-- **C200.** The time axis: with `t1` and `t2` the two readings of the clock, there is one step for each sample exactly if there are no samples or the midnight before `t2` is not earlier than one day and one minute before `t1`; in particular whenever the clock
does not run backwards. Then the steps are one minute apart and the last one is at most a minute before that midnight, and never after it. -/
theorem C200_times (t1 t2 : ℤ) (samples : ℕ) :
    ((simTimes t1 t2 samples).length = samples ↔ samples = 0 ∨ t1 - 86400000000 - 60000000 ≤ t2 / 86400000000 * 86400000000) ∧
    (t1 ≤ t2 → (simTimes t1 t2 samples).length = samples) ∧
    ((simTimes t1 t2 samples).length = samples → ∀ i, i < samples → ∃ x, (simTimes t1 t2 samples)[i]? = some x ∧
      t2 / 86400000000 * 86400000000 - ((samples - i : ℕ) : ℤ) * 60000000 < x ∧ x ≤ t2 / 86400000000 * 86400000000 - ((samples - 1 - i : ℕ) : ℤ) * 60000000 ∧
      ∀ y, (simTimes t1 t2 samples)[i + 1]? = some y → y = x + 60000000) := by
  have hlen := minuteRange_length (t1 - 86400000000 - (samples : ℤ) * 60000000) (t2 / 86400000000 * 86400000000)
  set start := t1 - 86400000000 - (samples : ℤ) * 60000000 with hstart
  set stop := t2 / 86400000000 * 86400000000 with hstop
  have hsim : simTimes t1 t2 samples = if 0 ≤ ((minuteRange start stop).length : ℤ) - samples then (minuteRange start stop).drop (((minuteRange start stop).length : ℤ) - samples).toNat
      else (minuteRange start stop).drop (((minuteRange start stop).length : ℤ) + (((minuteRange start stop).length : ℤ) - samples)).toNat := rfl
  have h1 : (simTimes t1 t2 samples).length = samples ↔ samples = 0 ∨ t1 - 86400000000 - 60000000 ≤ stop := by
    rw [hsim]
    split_ifs at hlen ⊢ with ha hb hb
    · rw [List.length_drop]; omega
    · rw [List.length_drop]; omega
    · rw [List.length_drop]; omega
    · rw [List.length_drop]; omega
  refine ⟨h1, fun hle => h1.2 (.inr ?_), ?_⟩
  · have := Int.emod_lt_of_pos t2 (show (0 : ℤ) < 86400000000 by norm_num)
    have h3 := Int.emod_add_mul_ediv t2 86400000000
    omega
  · intro hl i hi
    have hs : start ≤ stop := by
      have := h1.1 hl
      omega
    have hge : 0 ≤ ((minuteRange start stop).length : ℤ) - samples := by
      by_contra hc
      rw [hsim, if_neg hc, List.length_drop] at hl
      omega
    rw [if_neg (by omega)] at hlen
    have hget : ∀ i, i < samples → (simTimes t1 t2 samples)[i]? = some (start + (((stop - start) / 60000000 + 1 - samples : ℤ) + i) * 60000000) := by
      intro i hi
      rw [hsim, if_pos hge, List.getElem?_drop]
      unfold minuteRange at hlen ⊢
      rw [if_neg (by omega)] at hlen ⊢
      rw [List.length_map, List.length_range] at hlen ⊢
      rw [List.getElem?_map, List.getElem?_range (by omega), Option.map_some]
      congr 3
      omega
    refine ⟨_, hget i hi, ?_, ?_, ?_⟩
    · have := Int.emod_lt_of_pos (stop - start) (show (0 : ℤ) < 60000000 by norm_num)
      have h3 := Int.emod_add_mul_ediv (stop - start) 60000000
      push_cast [Nat.cast_sub hi.le]
      linarith
    · have := Int.emod_nonneg (stop - start) (show (60000000 : ℤ) ≠ 0 by norm_num)
      have h3 := Int.emod_add_mul_ediv (stop - start) 60000000
      have h4 : ((samples - 1 - i : ℕ) : ℤ) = samples - 1 - i := by omega
      rw [h4]
      linarith
    · intro y hy
      have hi' : i + 1 < samples := by
        have := (List.getElem?_eq_some_iff.1 hy).1
        omega
      rw [hget (i + 1) hi'] at hy
      obtain rfl := Option.some.inj hy
      push_cast
      ring

/-- Three samples, the clock at noon of the second day: the last three minutes up to midnight. -/
example : simTimes (86400000000 + 43200000000) (86400000000 + 43200000001) 3 = [86400000000 - 120000000, 86400000000 - 60000000, 86400000000] := by
  decide +kernel

/-! ### The object -/

section state
variable {m n f : ℕ}

/-- **C200.** Right after `get_data`: `syn_sa` has the contributions and profiles of the simulator, their product, the data and uncertainties of the simulator, which are positive, and the losses of these. -/
theorem C200_fresh (s s' : SimRec m n f) (cfg : OutlierCfg ℝ) (d : DataDraws m n ℝ) (h : simCall s (.getData cfg d) = some s') :
    ∃ H V U sa, s.heap[s.prof]? = some H ∧ s'.out = some (V, U, sa) ∧ saFactors s' = some (s.W, H) ∧ s'.W = s.W ∧ s'.heap = s.heap ∧ s'.prof = s.prof ∧
      sa.V = V ∧ sa.U = U ∧ (∀ t j, sa.WH t j = ∑ a, s.W t a * H a j) ∧ (∀ t j, 0 < V t j ∧ 0 < U t j) ∧
      sa.qTrue = ∑ t, ∑ j, ((V t j - ∑ a, s.W t a * H a j) / U t j) ^ 2 ∧ sa.qRobust = qrLoss V U s.W H 4 ∧
      ∀ t j, generateData cfg s.W H d t j = some (V t j, U t j) := by
  unfold simCall at h
  rw [Option.bind_eq_some_iff] at h
  obtain ⟨H, hH, h⟩ := h
  dsimp only at h
  split at h
  · rename_i hs
    obtain rfl := Option.some.inj h
    have hg : ∀ t j, generateData cfg s.W H d t j = some (((generateData cfg s.W H d t j).get (hs t j)).1, ((generateData cfg s.W H d t j).get (hs t j)).2) := fun t j => by
      simp
    refine ⟨H, _, _, _, hH, rfl, ?_, rfl, rfl, rfl, rfl, rfl, fun t j => rfl, fun t j => ?_, ?_, rfl, hg⟩
    · show (s.heap[s.prof]?).map _ = _
      rw [hH]
      rfl
    · exact C63_data_positive cfg s.W H d t j _ _ (hg t j)
    · show qLoss _ _ _ _ = _
      unfold qLoss
      simp only [if_true]
      refine Finset.sum_congr rfl fun t _ => Finset.sum_congr rfl fun j _ => ?_
      rw [sq]
      rfl
  · cases h

/-- A call other than `get_data`. -/
def SimCall.NoData : SimCall m n f → Prop
  | .getData _ _ => False
  | _ => True

/-- **Disagreement.** Only `get_data` changes the data, the uncertainties and `syn_sa`: after updates of the contributions and new profiles they are the old ones, although the documentation of `update_contribution` says that the data are recalculated. -/
theorem C200_stale (calls : List (SimCall m n f)) : ∀ (s s' : SimRec m n f), (∀ c ∈ calls, c.NoData) → simRun s calls = some s' → s'.out = s.out := by
  induction calls with
  | nil =>
    intro s s' _ h
    rw [Option.some.inj h]
  | cons c cs ih =>
    intro s s' hc h
    unfold simRun at h
    rw [Option.bind_eq_some_iff] at h
    obtain ⟨s1, h1, h2⟩ := h
    rw [ih s1 s' (fun c' h' => hc c' (List.mem_cons_of_mem _ h')) h2]
    have hn := hc c List.mem_cons_self
    cases c with
    | random P => rw [← Option.some.inj h1]
    | custom a =>
      simp only [simCall, Option.map_eq_some_iff] at h1
      obtain ⟨P, -, rfl⟩ := h1
      rfl
    | update i y => rw [← Option.some.inj h1]
    | getData cfg d => exact absurd hn id

/-- **Disagreement.** After `get_data` and then `update_contribution`, `syn_sa` has the new contributions, but the old product: with positive profiles and at least one feature, its product is the one of its factors exactly if the update did not change anything. -/
theorem C200_update (hn : 0 < n) (s s1 s2 : SimRec m n f) (cfg : OutlierCfg ℝ) (d : DataDraws m n ℝ) (i : Fin f) (y : Fin m → ℝ)
    (h1 : simCall s (.getData cfg d) = some s1) (h2 : simCall s1 (.update i y) = some s2) (H : Mat f n ℝ) (hH : s.heap[s.prof]? = some H) (hp : ∀ a j, 0 < H a j) :
    ∃ W' V U sa, saFactors s2 = some (W', H) ∧ (∀ t a, W' t a = if a = i then y t else s.W t a) ∧ s2.out = some (V, U, sa) ∧
      ((∀ t j, sa.WH t j = ∑ a, W' t a * H a j) ↔ ∀ t, y t = s.W t i) := by
  obtain ⟨H', V, U, sa, e1, e2, e3, e4, e5, e6, e7, e8, e9, -⟩ := C200_fresh s s1 cfg d h1
  rw [hH] at e1
  obtain rfl := Option.some.inj e1
  obtain rfl := Option.some.inj h2
  have e3' : (s1.heap[sa.H]?) = some H := by
    unfold saFactors at e3
    rw [e2, Option.bind_some, Option.map_eq_some_iff] at e3
    obtain ⟨H', a, b⟩ := e3
    have hb : H' = H := (Prod.ext_iff.1 b).2
    rw [a, hb]
  refine ⟨fun t a => if a = i then y t else s.W t a, V, U, sa, ?_, fun t a => rfl, e2, ?_⟩
  · unfold saFactors
    simp only
    rw [e2, Option.bind_some, e3', Option.map_some, e4]
  · have key : ∀ t j, (∑ a, s.W t a * H a j) - (∑ a, (if a = i then y t else s.W t a) * H a j) = (s.W t i - y t) * H i j := by
      intro t j
      rw [← Finset.sum_sub_distrib, Finset.sum_eq_single i]
      · rw [if_pos rfl]; ring
      · intro a _ ha
        rw [if_neg ha]; ring
      · intro ha
        exact absurd (Finset.mem_univ i) ha
    constructor
    · intro hh t
      have h3 := hh t ⟨0, hn⟩
      rw [e9] at h3
      have h4 := key t ⟨0, hn⟩
      rw [h3, sub_self] at h4
      rcases mul_eq_zero.1 h4.symm with h5 | h5
      · linarith
      · exact absurd h5 (hp _ _).ne'
    · intro hh t j
      have h4 := key t j
      have h5 : (s.W t i - y t) * H i j = 0 := by rw [hh t, sub_self, zero_mul]
      rw [h5] at h4
      rw [e9]
      exact sub_eq_zero.1 h4

/-- **C200.** A custom array of profiles of the right shape is used itself and changed: the entries that are not positive become `1e-12`, in the array of the caller as well, and the profiles of a `syn_sa` made from it before change with it. Every other array stays as it is. -/
theorem C200_custom (s s' : SimRec m n f) (a : ℕ) (P : Mat f n ℝ) (hP : s.heap[a]? = some P) (h : simCall s (.custom a) = some s') :
    s'.prof = a ∧ (∃ Q, s'.heap[a]? = some Q ∧ ∀ b j, (P b j ≤ 0 → Q b j = 1 / 10 ^ 12) ∧ (0 < P b j → Q b j = P b j)) ∧ (∀ b, b ≠ a → s'.heap[b]? = s.heap[b]?) ∧
    ∀ o, s.out = some o → o.2.2.H = a → (saFactors s').map (fun x => x.2) = s'.heap[a]? := by
  simp only [simCall, hP, Option.map_some, Option.some.injEq] at h
  subst h
  have ha : a < s.heap.length := (List.getElem?_eq_some_iff.1 hP).1
  refine ⟨rfl, ⟨clipMat P, by simp [ha], fun b j => ⟨fun hb => if_pos hb, fun hb => if_neg (not_le.2 hb)⟩⟩, fun b hb => ?_, fun o ho hoa => ?_⟩
  · simp only
    rw [List.getElem?_set_ne (Ne.symm hb)]
  · unfold saFactors
    simp only [ho, Option.bind_some, hoa]
    cases (s.heap.set a (clipMat P))[a]? <;> rfl

/-- **C200.** Random profiles are a new array, so that an earlier `syn_sa` and the array of a caller keep theirs; all profiles in use are positive, whatever the calls, if they were to begin with. -/
theorem C200_random (s s' : SimRec m n f) (P : Mat f n ℝ) (h : simCall s (.random P) = some s') :
    (∀ b, b < s.heap.length → s'.heap[b]? = s.heap[b]?) ∧ s'.prof = s.heap.length ∧
    ∃ Q, s'.heap[s'.prof]? = some Q ∧ ∀ b j, 0 < Q b j ∧ (0 < P b j → Q b j = P b j) := by
  obtain rfl := Option.some.inj h
  refine ⟨fun b hb => ?_, rfl, clipMat P, ?_, fun b j => ⟨clipPos_pos (by norm_num) _, fun hb => if_neg (not_le.2 hb)⟩⟩
  · simp only
    rw [List.getElem?_append_left hb]
  · simp

/-- The profiles in use exist and are positive. -/
def ProfilesPos (s : SimRec m n f) : Prop := ∃ H, s.heap[s.prof]? = some H ∧ ∀ a j, 0 < H a j

/-- **C200.** In every state reachable from one with positive profiles the profiles are positive, and after the last `get_data` the data and uncertainties are. -/
theorem C200_positive (calls : List (SimCall m n f)) : ∀ (s s' : SimRec m n f), ProfilesPos s → (∀ o, s.out = some o → ∀ t j, 0 < o.1 t j ∧ 0 < o.2.1 t j) →
    simRun s calls = some s' → ProfilesPos s' ∧ ∀ o, s'.out = some o → ∀ t j, 0 < o.1 t j ∧ 0 < o.2.1 t j := by
  induction calls with
  | nil =>
    intro s s' h1 h2 h
    obtain rfl := Option.some.inj h
    exact ⟨h1, h2⟩
  | cons c cs ih =>
    intro s s' h1 h2 h
    unfold simRun at h
    rw [Option.bind_eq_some_iff] at h
    obtain ⟨s1, hs1, h⟩ := h
    have hstep : ProfilesPos s1 ∧ ∀ o, s1.out = some o → ∀ t j, 0 < o.1 t j ∧ 0 < o.2.1 t j := by
      cases c with
      | random P =>
        obtain ⟨-, -, Q, hQ, hpos⟩ := C200_random s s1 P hs1
        refine ⟨⟨Q, hQ, fun a j => (hpos a j).1⟩, ?_⟩
        rw [← Option.some.inj hs1]
        exact h2
      | custom a =>
        have hs1' := hs1
        simp only [simCall, Option.map_eq_some_iff] at hs1'
        obtain ⟨P, hP, e⟩ := hs1'
        obtain ⟨hp, ⟨Q, hQ, hq⟩, -, -⟩ := C200_custom s s1 a P hP hs1
        refine ⟨⟨Q, by rw [hp]; exact hQ, fun b j => ?_⟩, ?_⟩
        · rcases le_or_gt (P b j) 0 with hb | hb
          · rw [(hq b j).1 hb]; norm_num
          · rw [(hq b j).2 hb]; exact hb
        · rw [← e]
          exact h2
      | update i y =>
        obtain rfl := Option.some.inj hs1
        exact ⟨h1, h2⟩
      | getData cfg d =>
        obtain ⟨H, V, U, sa, e1, e2, -, -, e5, e6, -, -, -, e10, -⟩ := C200_fresh s s1 cfg d hs1
        obtain ⟨H', hH', hpos⟩ := h1
        refine ⟨⟨H', by rw [e5, e6]; exact hH', hpos⟩, ?_⟩
        intro o ho
        rw [e2] at ho
        obtain rfl := Option.some.inj ho
        exact e10
    exact ih s1 s' hstep.1 hstep.2 h

/-- A case in which `get_data` succeeds and then an update leaves the product behind: one sample, one feature and one factor, no outliers, draws that are zero. -/
example : ∃ (s s1 s2 : SimRec 1 1 1) (cfg : OutlierCfg ℝ) (d : DataDraws 1 1 ℝ), simCall s (.getData cfg d) = some s1 ∧ simCall s1 (.update 0 fun _ => 5) = some s2 ∧
    ProfilesPos s ∧ (5 : ℝ) ≠ s.W 0 0 := by
  let s : SimRec 1 1 1 := ⟨[fun _ _ => 1], 0, fun _ _ => 2, none⟩
  let d : DataDraws 1 1 ℝ := ⟨fun _ _ => 0, fun _ _ => 0, fun _ _ => 0, fun _ _ => 0⟩
  have h : (simCall s (.getData ⟨false, 0, 0⟩ d)).isSome := by
    simp [simCall, s, generateData, dataCell]
  obtain ⟨s1, h1⟩ := Option.isSome_iff_exists.1 h
  exact ⟨s, s1, _, ⟨false, 0, 0⟩, d, h1, rfl, ⟨fun _ _ => 1, rfl, fun _ _ => one_pos⟩, by norm_num [s]⟩

end state

end Esat
