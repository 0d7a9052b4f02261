import Verif.Model.Workflow
import Verif.Props.Pipeline
import Verif.Props.Simulator
import Verif.Props.StartValues
import Verif.Props.Training
import Verif.Props.Converged
import Verif.Props.Batch
import Std.Data.String.ToNat

/-!
# C237: the example program as a whole

`esat/main.py` from the draws of the simulator to the results of the batch.
-/

namespace Esat

section tables
variable {m n f : ℕ}

theorem featureName_injective : Function.Injective featureName := by
  intro a b h
  have := Nat.repr_injective (String.append_right_inj _ |>.1 h)
  omega

theorem simColumns_nodup (n : ℕ) : (simColumns n).Nodup :=
  (List.nodup_finRange n).map fun a b h => Fin.ext (featureName_injective h)

theorem simRow_name (x : Fin n → ℚ) (j : Fin n) : simRow x (featureName j.1) = .num (some (x j)) := by
  have : ((List.finRange n).find? fun l => featureName l.1 = featureName j.1) = some j := by
    rw [List.find?_eq_some_iff_append]
    refine ⟨by simp, ?_⟩
    obtain ⟨as, bs, h⟩ := List.append_of_mem (List.mem_finRange j)
    refine ⟨as, bs, h, fun a ha => ?_⟩
    have hne : a ≠ j := by
      rintro rfl
      have := List.nodup_finRange n
      rw [h] at this
      exact (List.nodup_append.1 this).2.2 a ha a (by simp) rfl
    simpa using fun hc => hne (Fin.ext (featureName_injective hc))
  unfold simRow
  rw [this]
  rfl

theorem simRow_num (x : Fin n → ℚ) (c : String) : ∃ v, simRow x c = .num v := ⟨_, rfl⟩

theorem sim_loaded (hm : 0 < m) (hn : 0 < n) (V U : Mat m n ℚ) :
    loadDataframe (simColumns n) (simColumns n) (simRows V U) = some (loadFrames (simColumns n) (simColumns n) (simRows V U) none none) ∧
      (loadFrames (simColumns n) (simColumns n) (simRows V U) none none).rows = simRows V U := by
  have hrows : (loadFrames (simColumns n) (simColumns n) (simRows V U) none none).rows = simRows V U := by
    unfold loadFrames
    rw [List.filter_eq_self]
    intro r hr
    obtain ⟨i, -, rfl⟩ := List.mem_map.1 hr
    have hmem : featureName (⟨0, hn⟩ : Fin n).1 ∈ simColumns n := List.mem_map.2 ⟨⟨0, hn⟩, List.mem_finRange _, rfl⟩
    have h1 : ∀ x : Fin n → ℚ, allNaN (simColumns n) (simRow x) = false := by
      intro x
      unfold allNaN
      rw [Bool.eq_false_iff]
      intro hc
      have := List.all_eq_true.1 hc _ hmem
      rw [simRow_name] at this
      simp [Cell.isNaN] at this
    simp [h1]
  refine ⟨?_, hrows⟩
  unfold loadDataframe
  rw [if_neg]
  rintro (h | h | h)
  · exact h rfl
  · rw [hrows, List.any_eq_true] at h
    obtain ⟨r, hr, h⟩ := h
    rw [List.any_eq_true] at h
    obtain ⟨c, -, h⟩ := h
    obtain ⟨i, -, rfl⟩ := List.mem_map.1 hr
    simp [simRow, Cell.isText] at h
  · rw [hrows] at h
    have := congrArg List.length h
    simp [simRows] at this
    omega

/-- **C237.** The arrays of `get_data` for the tables of the simulator, whatever they contain: one row per sample and one column per feature, in order, every value and every uncertainty rounded to single precision and otherwise
unchanged. -/
theorem C237_arrays (hm : 0 < m) (hn : 0 < n) (parse : String → Option ℚ) (V U : Mat m n ℚ) (hV : ∀ i j, 0 ≤ V i j) :
    exampleArrays parse V U = some ((List.finRange m).map fun i => (List.finRange n).map fun j => some (float32 (V i j)),
      (List.finRange m).map fun i => (List.finRange n).map fun j => some (float32 (U i j))) := by
  obtain ⟨hl, hrows⟩ := sim_loaded hm hn V U
  have ho : HandlerOk (loadFrames (simColumns n) (simColumns n) (simRows V U) none none) := by
    refine ⟨by simp [loadFrames], by simp [loadFrames], fun c hc => hc, ?_⟩
    rw [hrows]
    intro r hr c
    obtain ⟨i, -, rfl⟩ := List.mem_map.1 hr
    exact ⟨simRow_num _ c, simRow_num _ c⟩
  have hD := C50_categories float32 C190_rounding.2.2 parse (1 / 2 ^ 1022) (simColumns n) (simColumns n) (simColumns_nodup n) (simRows V U) none none ho []
    (fun f hf => absurd rfl hf)
  have huse : usedCols (loadFrames (simColumns n) (simColumns n) (simRows V U) none none) (lastCat []) (simColumns n) = simColumns n := by
    unfold usedCols
    rw [List.filter_eq_self]
    intro c _
    simp [loadFrames, lastCat]
  have ht : TableOk (loadFrames (simColumns n) (simColumns n) (simRows V U) none none)
      (usedCols (loadFrames (simColumns n) (simColumns n) (simRows V U) none none) (lastCat []) (simColumns n)) := by
    rw [huse]
    refine ⟨?_, ?_, ?_⟩
    · rw [hrows]
      intro h
      have := congrArg List.length h
      simp [simRows] at this
      omega
    · intro h
      have := congrArg List.length h
      simp [simColumns] at this
      omega
    · rw [hrows]
      intro r hr c hc
      obtain ⟨i, -, rfl⟩ := List.mem_map.1 hr
      obtain ⟨j, -, rfl⟩ := List.mem_map.1 hc
      exact ⟨V i j, U i j, by dsimp only; rw [simRow_name]; rfl, by dsimp only; rw [simRow_name]; rfl, hV i j⟩
  have hS := specData_full float32 float32_ok (loadFrames (simColumns n) (simColumns n) (simRows V U) none none) (lastCat []) rfl ht
  unfold exampleArrays
  rw [hl, Option.bind_some]
  have hset : setAll (loadFrames (simColumns n) (simColumns n) (simRows V U) none none) [] = loadFrames (simColumns n) (simColumns n) (simRows V U) none none := rfl
  rw [hset] at hD
  rw [hD, hS]
  have hv : (loadFrames (simColumns n) (simColumns n) (simRows V U) none none).vcols = simColumns n := rfl
  rw [hv, huse, hrows]
  congr 1
  refine Prod.ext ?_ ?_
  · simp only [simRows, simColumns, List.map_map]
    refine List.map_congr_left fun i _ => List.map_congr_left fun j _ => ?_
    simp only [Function.comp, simRow_name]
    rfl
  · simp only [simRows, simColumns, List.map_map]
    refine List.map_congr_left fun i _ => List.map_congr_left fun j _ => ?_
    simp only [Function.comp, simRow_name]
    rfl

end tables

/-! ## The batch -/

section batch
variable {m n k : ℕ}

/-- The data of the models: rounded to single precision. -/
noncomputable def realData (V : Mat m n ℚ) : Mat m n ℝ := fun i j => ((float32 (V i j) : ℚ) : ℝ)

/-- The uncertainties of the models: rounded, at least `1e-12`. -/
noncomputable def realUnc (U : Mat m n ℚ) : Mat m n ℝ := fun i j => max ((float32 (U i j) : ℚ) : ℝ) (1 / 10 ^ 12)

/-- Specification of Q(true). -/
noncomputable def qTrueOf (V U : Mat m n ℚ) (W : Mat m k ℝ) (H : Mat k n ℝ) : ℝ :=
  ∑ i, ∑ j, ((realData V i j - ∑ a, W i a * H a j) / realUnc U i j) ^ 2

/-- Specification of Q(robust): above four uncertainties the residual counts linearly. -/
noncomputable def qRobustOf (V U : Mat m n ℚ) (W : Mat m k ℝ) (H : Mat k n ℝ) : ℝ :=
  ∑ i, ∑ j, if |(realData V i j - ∑ a, W i a * H a j) / realUnc U i j| ≤ 4 then |(realData V i j - ∑ a, W i a * H a j) / realUnc U i j| ^ 2
    else 4 * |(realData V i j - ∑ a, W i a * H a j) / realUnc U i j|

/-- A model holds these factors. -/
def Holds (s : ModelR m n k) (W : Mat m k ℝ) (H : Mat k n ℝ) : Prop :=
  s.W = some ⟨m, k, fun i a => some (W i a)⟩ ∧ s.H = some ⟨k, n, fun a j => some ((H a j : ℝ) : WithTop ℝ)⟩

theorem realData_pos (V : Mat m n ℚ) (hV : ∀ i j, 0 ≤ V i j) (i : Fin m) (j : Fin n) :
    0 ≤ realData V i j ∧ (1 / 2 ^ 150 < V i j → 0 < realData V i j) := by
  have h0 : 0 ≤ float32 (V i j) := by
    have h := C190_rounding.1 (hV i j)
    rwa [show float32 0 = 0 from (float32_ok.zero 0).2 (by rw [abs_zero]; positivity)] at h
  unfold realData
  refine ⟨by exact_mod_cast h0, fun h => ?_⟩
  have hne : float32 (V i j) ≠ 0 := by
    rw [Ne, float32_ok.zero, abs_of_nonneg (hV i j), not_le]
    exact h
  exact_mod_cast lt_of_le_of_ne h0 (Ne.symm hne)

theorem example_model (V U : Mat m n ℚ) :
    (modelOf m n k (realRows ((List.finRange m).map fun i => (List.finRange n).map fun j => some (float32 (V i j))),
      realRows ((List.finRange m).map fun i => (List.finRange n).map fun j => some (float32 (U i j)))) "ls-nmf" : ModelR m n k) =
    SA.construct k (fun i j => some (realData V i j)) ⟨m, n, fun i j => some ((float32 (U i j) : ℚ) : ℝ)⟩ "ls-nmf" := by
  have key : ∀ A : Mat m n ℚ, frameArray m n (realRows ((List.finRange m).map fun i => (List.finRange n).map fun j => some (float32 (A i j)))) =
      fun i j => some ((float32 (A i j) : ℚ) : ℝ) := by
    intro A
    funext i j
    simp [frameArray, realRows, List.getD_eq_getElem?_getD]
  unfold modelOf
  simp only [key]
  rfl

theorem rootOf_nonneg (x : ℝ) (h : 0 ≤ x) : ∃ y, rootOf x = some y := ⟨Real.sqrt x, if_neg (not_lt.2 h)⟩

/-- A model after `initialize`. -/
theorem example_init (V U : Mat m n ℚ) (hV : ∀ i j, 0 ≤ V i j) (wsU : Mat k n (Option ℝ) → Mat m k (Option ℝ)) (d : InitDraws m n k ℝ) (s : ModelR m n k)
    (hs : s = SA.construct k (fun i j => some (realData V i j)) ⟨m, n, fun i j => some ((float32 (U i j) : ℚ) : ℝ)⟩ "ls-nmf") :
    ∃ s' W H, s.initialize rootOf wsU (defaultArgs d) = .ok s' ∧ Holds s' W H ∧ (∀ i a, 0 < W i a) ∧ (∀ a j, 0 < H a j) ∧ s'.initialized = true ∧ s'.validated = true ∧
      s'.algorithm true = .ls ∧ s'.V = (fun i j => some (realData V i j)) ∧ s'.U = ⟨m, n, fun i j => some (realUnc U i j)⟩ ∧
      Reachable rootOf wsU (fun i j => some (realData V i j)) ⟨m, n, fun i j => some ((float32 (U i j) : ℚ) : ℝ)⟩ "ls-nmf" s' := by
  have hr : Reachable rootOf wsU (fun i j => some (realData V i j)) ⟨m, n, fun i j => some ((float32 (U i j) : ℚ) : ℝ)⟩ "ls-nmf" s := ⟨[], hs⟩
  obtain ⟨s', H, W, hi, hH, hW, hHp, hWp, hv⟩ := C19_default_partial rootOf rootOf_nonneg wsU (fun i j => some (realData V i j))
    (fun i j => ⟨_, rfl, (realData_pos V hV i j).1⟩) ⟨m, n, fun i j => some ((float32 (U i j) : ℚ) : ℝ)⟩ ⟨rfl, rfl⟩ (fun i j => by simp) "ls-nmf" _ hr d
  have hr' := hr.initialized hi
  choose H' hH' hHp' using hHp
  choose W' hW' hWp' using hWp
  have hm : "ls-nmf".toLower ≠ "ws-nmf" := by decide +kernel
  have hp : parseMethod "ls-nmf" = .ls := by
    unfold parseMethod
    rw [if_neg hm]
  refine ⟨s', W', H', hi, ⟨?_, ?_⟩, fun i a => hWp' i a hp, hHp', ?_, hv, ?_, hr'.data.1, ?_, hr'⟩
  · rw [hW]
    congr 2
    funext i a
    exact hW' i a
  · rw [hH]
    congr 2
    funext a j
    exact hH' a j
  · unfold SA.initialize at hi
    split at hi
    · cases hi
      rfl
    · cases hi
  · exact (C22_algorithm rootOf wsU _ _ "ls-nmf" s' hr' hv true).1.2 ⟨hm, fun i j => ⟨_, rfl, (realData_pos V hV i j).1⟩⟩
  · rw [hr'.data.2, floorU_some]
    rfl

/-- Specification of the training: at most 20000 multiplicative updates, each of the profiles and then of the contributions; the last one is the 20000th or the first after which Q(true) is less than 0.1 below its
value 24 updates before, there being at least 25. -/
def ExampleCourse (V U : Mat m n ℚ) (W0 : Mat m k ℝ) (H0 : Mat k n ℝ) (W : Mat m k ℝ) (H : Mat k n ℝ) : Prop :=
  ∃ (N : ℕ) (Ws : ℕ → Mat m k ℝ) (Hs : ℕ → Mat k n ℝ), 0 < N ∧ N ≤ 20000 ∧ Ws 0 = W0 ∧ Hs 0 = H0 ∧ Ws N = W ∧ Hs N = H ∧
    (∀ t a j, Hs (t + 1) a j = Hs t a j * ((∑ i, Ws t i a * (realData V i j / realUnc U i j ^ 2)) / ∑ i, Ws t i a * ((∑ b, Ws t i b * Hs t b j) / realUnc U i j ^ 2))) ∧
    (∀ t i a, Ws (t + 1) i a = Ws t i a * ((∑ j, realData V i j / realUnc U i j ^ 2 * Hs (t + 1) a j) / ∑ j, (∑ b, Ws t i b * Hs (t + 1) b j) / realUnc U i j ^ 2 * Hs (t + 1) a j)) ∧
    (N < 20000 → 25 ≤ N ∧ qTrueOf V U (Ws (N - 24)) (Hs (N - 24)) - qTrueOf V U (Ws N) (Hs N) < 1 / 10) ∧
    ∀ t, 25 ≤ t → t < N → 1 / 10 ≤ qTrueOf V U (Ws (t - 24)) (Hs (t - 24)) - qTrueOf V U (Ws t) (Hs t)

/-- The course of a run of the example program. -/
theorem example_course (V U : Mat m n ℚ) (W : Mat m k ℝ) (H : Mat k n ℝ) (g : GoodStart (realData V) (realUnc U) W H) (hq : ∀ (W : Mat m k ℝ) (H : Mat k n ℝ), qLoss (realData V) (realUnc U) W H = qTrueOf V U W H)
    (delay : ℤ) (clock : ℕ → Bool) (W' : Mat m k ℝ) (H' : Mat k n ℝ)
    (h : (rustLoop (lsLoopStep (realData V) (Esat.weights (realUnc U))) (lsQ (realData V) (realUnc U)) (exampleLoop false delay) clock (some W, some H)).factors = (some W', some H')) :
    ExampleCourse V U W H W' H' := by
  obtain ⟨N, h1, h2, h3, -, -, -, h7, h8, h9, -⟩ := rustLoop_spec (lsLoopStep (realData V) (Esat.weights (realUnc U))) (lsQ (realData V) (realUnc U)) (exampleLoop false delay) clock (some W, some H)
    (by norm_num [exampleLoop])
  obtain ⟨Ws, Hs, e1, e2, e3, -, e5⟩ := traj_updates g (rustUpdatesH (exampleLoop false delay))
  rw [h3, e3, Prod.mk.injEq, Option.some.injEq, Option.some.injEq] at h
  have hcrit : ∀ i, Crit (lossAt (lsLoopStep (realData V) (Esat.weights (realUnc U))) (lsQ (realData V) (realUnc U)) (rustUpdatesH (exampleLoop false delay)) (some W, some H)) (effN (exampleLoop false delay).convergeN)
      (exampleLoop false delay).delta i ↔ 25 ≤ i + 1 ∧ qTrueOf V U (Ws (i + 1 - 24)) (Hs (i + 1 - 24)) - qTrueOf V U (Ws (i + 1)) (Hs (i + 1)) < 1 / 10 := by
    intro i
    unfold Crit lossAt
    rw [show effN (exampleLoop false delay).convergeN = 25 from rfl, show (exampleLoop false delay).delta = 1 / 10 from rfl]
    refine and_congr_right fun hi => ?_
    rw [e3, e3, show i + 1 - 25 + 1 = i + 1 - 24 by omega]
    simp only [lsQ, hq, Option.some.injEq]
    constructor
    · rintro ⟨a, b, rfl, rfl, h⟩
      exact h
    · intro h
      exact ⟨_, _, rfl, rfl, h⟩
  have hupd : ∀ t, lsUpdate (realData V) (Esat.weights (realUnc U)) false (Ws t) (Hs t) = some (Ws (t + 1), Hs (t + 1)) := e5
  refine ⟨N, Ws, Hs, h1, h2, e1, e2, h.1, h.2, fun t a j => ?_, fun t i a => ?_, fun hN => ?_, fun t ht htN => ?_⟩
  · obtain ⟨hH | hH, -⟩ := lsUpdate_eq_some.1 (hupd t)
    · cases hH.1
    · rw [(lsStepH_eq_some.1 hH.2).2]
      simp only [lsHNum, lsHDen, mmul, tr, emul, Esat.weights, one_div_mul_eq_div]
  · obtain ⟨-, hW⟩ := lsUpdate_eq_some.1 (hupd t)
    rw [(lsStepW_eq_some.1 hW).2]
    simp only [lsWNum, lsWDen, mmul, tr, emul, Esat.weights, one_div_mul_eq_div]
  · have hc : (rustLoop (lsLoopStep (realData V) (Esat.weights (realUnc U))) (lsQ (realData V) (realUnc U)) (exampleLoop false delay) clock (some W, some H)).converged = true := by
      by_contra hc
      rw [Bool.not_eq_true] at hc
      have := h9 hc
      simp only [exampleLoop] at this
      omega
    have := (hcrit _).1 (h7.1 hc)
    rwa [Nat.sub_add_cancel h1] at this
  · have := h8 (t - 1) (by omega)
    rw [hcrit, Nat.sub_add_cancel (by omega)] at this
    push Not at this
    exact this ht

/-- One training of the batch. -/
theorem example_train (hm : 0 < m) (hn : 0 < n) (V U : Mat m n ℚ) (hV : ∀ i j, 0 ≤ V i j) (hrow : ∀ i, ∃ j, 1 / 2 ^ 150 < V i j) (hcol : ∀ j, ∃ i, 1 / 2 ^ 150 < V i j)
    (wsU : Mat k n (Option ℝ) → Mat m k (Option ℝ)) (clock : ℕ → Bool) (other : Alg → DMat (Option ℝ) → DMat (PEntry ℝ) → Option (DMat (Option ℝ) × DMat (PEntry ℝ)))
    (d : InitDraws m n k ℝ) (hold : Bool) (delay : ℤ) (s : ModelR m n k) (W : Mat m k ℝ) (H : Mat k n ℝ) (hs : Holds s W H) (hW : ∀ i a, 0 < W i a) (hH : ∀ a j, 0 < H a j)
    (hi : s.initialized = true) (hv : s.validated = true) (ha : s.algorithm true = .ls) (hsV : s.V = fun i j => some (realData V i j))
    (hsU : s.U = ⟨m, n, fun i j => some (realUnc U i j)⟩) :
    ∃ s' W' H' r, s.train (fun s => s.initialize rootOf wsU (defaultArgs d)) true (compiledRun k (dataOf s) (uncOf s) (exampleLoop hold delay) clock other)
        (finishOf k (dataOf s) (uncOf s) 4) = .ok (s', .none) ∧ Holds s' W' H' ∧ (∀ i a, 0 < W' i a) ∧ (∀ a j, 0 < H' a j) ∧ s'.results = some (some r) ∧
      (∀ i j, r.WH i j = ∑ a, W' i a * H' a j) ∧ r.Qtrue = qTrueOf V U W' H' ∧ r.Qrobust = qRobustOf V U W' H' ∧ qTrueOf V U W' H' ≤ qTrueOf V U W H ∧ (hold = false → ExampleCourse V U W H W' H') := by
  have hd : dataOf s = realData V := by
    funext i j
    simp [dataOf, hsV]
  have hu : uncOf s = realUnc U := by
    funext i j
    unfold uncOf
    rw [hsU]
    simp [asShape]
  have hq : ∀ (W : Mat m k ℝ) (H : Mat k n ℝ), qLoss (realData V) (realUnc U) W H = qTrueOf V U W H := by
    intro W H
    simp only [qLoss, if_true, ← pow_two]
    rfl
  have hupos : ∀ i j, 0 < realUnc U i j := fun i j => lt_of_lt_of_le (by positivity) (le_max_right _ _)
  have g : GoodStart (realData V) (realUnc U) W H := ⟨hm, hn, fun i j => (realData_pos V hV i j).1, fun i => (hrow i).imp fun j h => (realData_pos V hV i j).2 h,
    fun j => (hcol j).imp fun i h => (realData_pos V hV i j).2 h, fun i j => (hupos i j).ne', hW, hH⟩
  obtain ⟨hfac, -⟩ := rustLoop_factors (lsLoopStep (realData V) (Esat.weights (realUnc U))) (lsQ (realData V) (realUnc U)) (exampleLoop hold delay) clock (some W, some H)
  obtain ⟨W', H', ht, hW', hH', hle, -⟩ := traj_good g (rustUpdatesH (exampleLoop hold delay))
    (rustLoop (lsLoopStep (realData V) (Esat.weights (realUnc U))) (lsQ (realData V) (realUnc U)) (exampleLoop hold delay) clock (some W, some H)).losses.length
  rw [ht] at hfac
  rw [hd, hu]
  have hrun : compiledRun k (realData V) (realUnc U) (exampleLoop hold delay) clock other .ls ⟨m, k, fun i a => some (W i a)⟩
      ⟨k, n, fun a j => some ((H a j : ℝ) : WithTop ℝ)⟩ = some (⟨m, k, fun i a => some (W' i a)⟩, ⟨k, n, fun a j => some ((H' a j : ℝ) : WithTop ℝ)⟩) := by
    unfold compiledRun
    simp only [asShape, and_self, dite_true, Fin.cast_refl, id_eq]
    rw [if_neg (by simp [anyNaN, PEntry.num?])]
    have : (lsTrain (realData V) (realUnc U) (exampleLoop hold delay) clock false 0 W H).factors = (some W', some H') := hfac
    simp only [Option.getD_some, PEntry.num?]
    rw [this]
    rfl
  have hfin : finishOf k (realData V) (realUnc U) 4 ⟨m, k, fun i a => some (W' i a)⟩ ⟨k, n, fun a j => some ((H' a j : ℝ) : WithTop ℝ)⟩ =
      some (saFinish (realData V) (realUnc U) 4 W' H') := by
    unfold finishOf
    simp only [asShape, and_self, dite_true, Fin.cast_refl, id_eq]
    rw [if_neg (by simp [anyNaN, PEntry.num?])]
    rfl
  let s' : ModelR m n k :=
    { s with
      W := some ⟨m, k, fun i a => some (W' i a)⟩
      H := some ⟨k, n, fun a j => some ((H' a j : ℝ) : WithTop ℝ)⟩
      results := some (some (saFinish (realData V) (realUnc U) 4 W' H')) }
  refine ⟨s', W', H', saFinish (realData V) (realUnc U) 4 W' H', ?_, ⟨rfl, rfl⟩, hW', hH', rfl, fun i j => rfl, hq W' H', ?_, ?_, ?_⟩
  · unfold SA.train
    rw [hi]
    simp only [if_true, hv, hs.1, hs.2, ha, hrun, hfin, s']
  · simp only [saFinish, C10_is_huber _ _ _ _ 4 (by norm_num) hupos, huber, residual, qRobustOf]
    rfl
  · rw [← hq, ← hq]
    exact hle
  · rintro rfl
    exact example_course V U W H g hq delay clock W' H' hfac

/-- **C237.** The batch of the example program: for tables without negative values in which every sample and every feature has a value above `2^-150`, any draws, any order in which the workers finish and any number of models
from 1 to 127, `train` succeeds with one result per model. Each has positive factors, `WH` is their product, Q(true) and Q(robust) are those of the factors with the data and uncertainties rounded to single precision, and Q(true) is
not larger than at the start of this model. The training is a sequence of at most 20000 updates of both factors that ends with the first at which the criterion of the settings holds. `best_model` is the first with the smallest Q(robust). -/
theorem C237_batch {α G : Type*} (hm : 0 < m) (hn : 0 < n) (V U : Mat m n ℚ) (hV : ∀ i j, 0 ≤ V i j) (hrow : ∀ i, ∃ j, 1 / 2 ^ 150 < V i j) (hcol : ∀ j, ∃ i, 1 / 2 ^ 150 < V i j)
    (parse : String → Option ℚ) (draw : G → ℕ × G) (draws : ℕ → InitDraws m n k ℝ) (clock : ℕ → Bool) (wsU : Mat k n (Option ℝ) → Mat m k (Option ℝ))
    (other : Alg → DMat (Option ℝ) → DMat (PEntry ℝ) → Option (DMat (Option ℝ) × DMat (PEntry ℝ))) (models : ℕ) (h1 : 1 ≤ models) (h127 : models ≤ 127)
    (order : List ℕ) (ho : ∀ t < models, t ∈ order) (prev : List (Option (ModelR m n k))) (g : G) :
    ∃ D, exampleArrays parse V U = some D ∧
      let E : BatchEnv (ModelR m n k) α ℝ G := exampleEnv D draw draws clock wsU other
      let out := batchParallel E (exampleBatch α models) order prev g
      out.ok = true ∧ out.results.length = models ∧
      (∀ t < models, ∃ s0 W0 H0 s W H r, E.init (draw ((fun g => (draw g).2)^[t] g)).1 none none = some s0 ∧ Holds s0 W0 H0 ∧ out.results[t]? = some (some s) ∧ Holds s W H ∧ (∀ i a, 0 < W i a) ∧ (∀ a j, 0 < H a j) ∧
        s.results = some (some r) ∧ (∀ i j, r.WH i j = ∑ a, W i a * H a j) ∧ r.Qtrue = qTrueOf V U W H ∧ r.Qrobust = qRobustOf V U W H ∧ qTrueOf V U W H ≤ qTrueOf V U W0 H0 ∧
        ExampleCourse V U W0 H0 W H) ∧
      ∃ b : ℕ, out.best = some (b : ℤ) ∧ ∃ s r, out.results[b]? = some (some s) ∧ s.results = some (some r) ∧
        ∀ t s' r', out.results[t]? = some (some s') → s'.results = some (some r') → r.Qrobust ≤ r'.Qrobust ∧ (t < b → r.Qrobust < r'.Qrobust) := by
  refine ⟨_, C237_arrays hm hn parse V U hV, ?_⟩
  intro E out
  have hinit : ∀ seed h w, ∃ s' W H, E.init seed h w = some s' ∧ Holds s' W H ∧ (∀ i a, 0 < W i a) ∧ (∀ a j, 0 < H a j) ∧ s'.initialized = true ∧ s'.validated = true ∧
      s'.algorithm true = .ls ∧ s'.V = (fun i j => some (realData V i j)) ∧ s'.U = ⟨m, n, fun i j => some (realUnc U i j)⟩ := by
    intro seed h w
    obtain ⟨s', W, H, h0, h1, h2, h3, h4, h5, h6, h7, h8, -⟩ := example_init V U hV wsU (draws seed) _ (example_model V U)
    refine ⟨s', W, H, ?_, h1, h2, h3, h4, h5, h6, h7, h8⟩
    change Except.toOption _ = _
    rw [h0]
    rfl
  let P : ModelR m n k → ModelR m n k → Prop := fun s0 s => ∃ W0 H0 W H r, Holds s0 W0 H0 ∧ Holds s W H ∧ (∀ i a, 0 < W i a) ∧ (∀ a j, 0 < H a j) ∧
        s.results = some (some r) ∧ (∀ i j, r.WH i j = ∑ a, W i a * H a j) ∧ r.Qtrue = qTrueOf V U W H ∧ r.Qrobust = qRobustOf V U W H ∧ qTrueOf V U W H ≤ qTrueOf V U W0 H0 ∧ ExampleCourse V U W0 H0 W H
  have htrain : ∀ i, i ≤ 127 → ∀ seed h w x, E.init seed h w = some x → ∃ y, E.train i false (-1) x = some y ∧ P x y := by
    intro i hi seed h w x hx
    obtain ⟨s', W, H, h0, h1, h2, h3, h4, h5, h6, h7, h8⟩ := hinit seed h w
    rw [hx] at h0
    obtain rfl := Option.some.inj h0
    obtain ⟨y, W', H', r, ht, k1, k2, k3, k4, k5, k6, k7, k8, k9⟩ := example_train hm hn V U hV hrow hcol wsU clock other (draws 0) false (-1) x W H h1 h2 h3 h4 h5 h6 h7 h8
    refine ⟨y, ?_, W, H, W', H', r, h1, k1, k2, k3, k4, k5, k6, k7, k8, k9 rfl⟩
    change (if 127 < i then none else _) = _
    rw [if_neg (by omega), ht]
    rfl
  have hqv : ∀ y r, y.results = some (some r) → batchQ E (exampleBatch α models) y = .val r.Qrobust := by
    intro y r hr
    change lossAttr FinalResults.Qrobust y = _
    unfold lossAttr
    rw [hr]
  have hok : out.ok = true := by
    refine C27_partial E (exampleBatch α models) order prev g ho h1 (fun l h => by cases h) (fun l h => by cases h) (fun s h w => ?_)
      (fun _ hold delay s => ((s.train (fun s => s.initialize rootOf wsU (defaultArgs (draws 0))) true (compiledRun k (dataOf s) (uncOf s) (exampleLoop hold delay) clock other)
        (finishOf k (dataOf s) (uncOf s) 4)).toOption).map Prod.fst) rfl h127 (fun i s h w x hx => ?_)
    · obtain ⟨s', W, H, h0, -⟩ := hinit s h w
      exact ⟨s', h0⟩
    · obtain ⟨y, hy, -, -, -, -, r, -, -, -, -, hr, -⟩ := htrain 1 (by norm_num) s h w x hx
      refine ⟨y, ?_, r.Qrobust, hqv y r hr⟩
      change (if 127 < 1 then none else _) = _ at hy
      rw [if_neg (by norm_num)] at hy
      exact hy
  obtain ⟨l, b', hl, hb, hout⟩ := parallel_ok E (exampleBatch α models) order prev g ho hok
  have hP : ∀ t (ht : t < l.length), ∃ s0, E.init (draw ((fun g => (draw g).2)^[t] g)).1 none none = some s0 ∧ P s0 l[t] := by
    intro t ht
    have hlt := trainAll_length _ _ _ _ _ _ _ _ _ hl
    obtain ⟨h, w, x, q1, q2, q3, q4⟩ := trainAll_get _ _ _ _ _ _ _ _ _ hl t l[t] (by simp [ht])
    obtain ⟨y, hy, hp⟩ := htrain (1 + t) (by have : models ≤ 127 := h127; have : l.length = models := hlt; omega) _ _ _ x q3
    obtain rfl := Option.some.inj (hy.symm.trans q4)
    obtain rfl := Option.some.inj q1
    obtain rfl := Option.some.inj q2
    exact ⟨x, q3, hp⟩
  have hlen := trainAll_length _ _ _ _ _ _ _ _ _ hl
  have hres : out.results = l.map some := by rw [show out = _ from hout]
  have hbest : out.best = some (b'.2 - 1) := by rw [show out = _ from hout]
  refine ⟨hok, ?_, ?_, ?_⟩
  · rw [hres, List.length_map]
    exact hlen
  · intro t ht
    have htl : t < l.length := by rw [hlen]; exact ht
    obtain ⟨s0, p1, W0, H0, W, H, r, p2, p3⟩ := hP t htl
    exact ⟨s0, W0, H0, l[t], W, H, r, p1, p2, by rw [hres]; simp [htl], p3⟩
  · have h0 : 0 < l.length := by rw [hlen]; exact h1
    obtain ⟨b, x, e1, e2, e3⟩ := best_firstMin E (exampleBatch α models) l b' hb ⟨_, List.getElem_mem h0, by
      obtain ⟨-, -, -, -, -, -, r, -, -, -, -, hr, -⟩ := hP 0 h0
      exact ⟨_, hqv _ r hr⟩⟩
    have hget : ∀ (t : ℕ) (s' : ModelR m n k) (r' : FinalResults m n), out.results[t]? = some (some s') → s'.results = some (some r') →
        ((l.map some).map (Option.map (batchQ E (exampleBatch α models))))[t]? = some (some (QV.val r'.Qrobust)) := by
      intro t s' r' h hr
      rw [hres] at h
      rw [List.getElem?_map, h]
      simp [hqv s' r' hr]
    refine ⟨b, by rw [hbest, e1], ?_⟩
    have hbl : b < l.length := by
      by_contra hc
      rw [List.getElem?_eq_none (by simpa using hc)] at e2
      simp at e2
    obtain ⟨-, -, -, -, -, -, r, -, -, -, -, hr, -⟩ := hP b hbl
    have hb2 : out.results[b]? = some (some l[b]) := by rw [hres]; simp [hbl]
    have hx : x = r.Qrobust := by
      have := hget b _ r hb2 hr
      rw [e2] at this
      simpa using this
    refine ⟨l[b], r, hb2, hr, fun t s' r' h hr' => ?_⟩
    have := e3 t r'.Qrobust (hget t s' r' h hr')
    rwa [hx] at this

/-- **C237, Disagreement.** With more than 127 models the batch fails, whatever the data. -/
theorem C237_limit {α G : Type*} (D : List (List (Option ℚ)) × List (List (Option ℚ))) (draw : G → ℕ × G) (draws : ℕ → InitDraws m n k ℝ) (clock : ℕ → Bool)
    (wsU : Mat k n (Option ℝ) → Mat m k (Option ℝ)) (other : Alg → DMat (Option ℝ) → DMat (PEntry ℝ) → Option (DMat (Option ℝ) × DMat (PEntry ℝ))) (models : ℕ) (h : 127 < models)
    (order : List ℕ) (ho : ∀ t < models, t ∈ order) (prev : List (Option (ModelR m n k))) (g : G) :
    (batchParallel (exampleEnv D draw draws clock wsU other : BatchEnv (ModelR m n k) α ℝ G) (exampleBatch α models) order prev g).ok = false :=
  (C27_refuted _ _ rfl (exampleBatch α models) h order prev (fun _ => false) g ho).1

end batch

section data
variable {m n f k : ℕ}

/-- Specification of the profiles: the last value drawn for the factor, `1e-12` if there is none or it is not positive. -/
def profileOf (sel : Fin n → List (Fin f × ℚ)) (a : Fin f) (j : Fin n) : ℚ :=
  let x := (((sel j).filter fun p => p.1 = a).getLast?.map Prod.snd).getD 0
  if 0 < x then x else 1 / 10 ^ 12

/-- Specification of the data: twice the uniform draws times the profiles, with the noise of the cell, multiplied by 1.25 for draws below 0.05 and divided by it for draws above 0.95; `1e-12` if this is not positive. -/
def cellOf (r : Mat m f ℚ) (sel : Fin n → List (Fin f × ℚ)) (d : DataDraws m n ℚ) (i : Fin m) (j : Fin n) : ℚ :=
  let x := (∑ a, 2 * r i a * profileOf sel a j) * (if d.sgn i j < 1 / 2 then 1 - d.z i j else 1 + d.z i j) *
    (if d.out i j < 1 / 20 then 5 / 4 else if 19 / 20 < d.out i j then 4 / 5 else 1)
  if 0 < x then x else 1 / 10 ^ 12

theorem foldl_last {a : Fin f} : ∀ (l : List (Fin f × ℚ)) (x : ℚ), l.foldl (fun acc p => if p.1 = a then p.2 else acc) x = ((l.filter fun p => p.1 = a).getLast?.map Prod.snd).getD x
  | [], x => rfl
  | p :: l, x => by
    rw [List.foldl_cons, foldl_last l]
    by_cases h : p.1 = a
    · rw [if_pos h, List.filter_cons_of_pos (by simpa using h), List.getLast?_cons]
      cases (l.filter fun p => p.1 = a).getLast? <;> rfl
    · rw [if_neg h, List.filter_cons_of_neg (by simpa using h)]

/-- **C237.** The tables of the example program, cell by cell, for any draws. -/
theorem C237_cells (hf : 2 ≤ f) (r : Mat m f ℚ) (sel : Fin n → List (Fin f × ℚ)) (d : DataDraws m n ℚ) :
    exampleData r sel d = some (cellOf r sel d, fun i j => if 0 < d.unc i j then cellOf r sel d i j * d.unc i j else 1 / 10 ^ 4) := by
  have hprof : generateProfiles f n none sel = some (profileOf sel) := by
    unfold generateProfiles randomProfiles
    simp only
    rw [if_neg (by omega), Option.map_some]
    congr 1
    funext a j
    dsimp only
    rw [foldl_last]
    unfold clipPos profileOf
    dsimp only
    by_cases h : 0 < (((sel j).filter fun p => p.1 = a).getLast?.map Prod.snd).getD 0
    · rw [if_neg (not_le.2 h), if_pos h]
    · rw [if_pos (not_lt.1 h), if_neg h]
  have hcell : ∀ i j, generateData exampleCfg (exampleContributions r) (profileOf sel) d i j =
      some (cellOf r sel d i j, if 0 < d.unc i j then cellOf r sel d i j * d.unc i j else 1 / 10 ^ 4) := by
    intro i j
    refine C211_cell exampleCfg (by norm_num [exampleCfg]) (by norm_num [exampleCfg]) _ _ d i j _ _ _ _ rfl rfl rfl ?_
    unfold cellOf exampleContributions
    norm_num [exampleCfg, mul_comm (2 : ℚ)]
  unfold exampleData
  rw [hprof, Option.bind_some]
  dsimp only
  rw [dif_pos (fun i j => by rw [hcell]; rfl)]
  congr 2
  · funext i j
    simp only [hcell, Option.get_some]
  · funext i j
    simp only [hcell, Option.get_some]

/-- Uniform draws are multiples of `2^-53`: with relative noise of at most one half the data are well above the smallest single precision number. -/
theorem C237_positive (hf : 2 ≤ f) (r : Mat m f ℚ) (sel : Fin n → List (Fin f × ℚ)) (d : DataDraws m n ℚ) (hr : ∀ i a, r i a = 0 ∨ 1 / 2 ^ 53 ≤ r i a)
    (hsel : ∀ j, ∀ p ∈ sel j, p.2 = 0 ∨ 1 / 2 ^ 53 ≤ p.2) (hz : ∀ i j, |d.z i j| ≤ 1 / 2) (V U : Mat m n ℚ) (h : exampleData r sel d = some (V, U)) (i : Fin m) (j : Fin n) :
    1 / 2 ^ 150 < V i j ∧ 0 < U i j := by
  rw [C237_cells hf, Option.some.injEq, Prod.mk.injEq] at h
  obtain ⟨rfl, rfl⟩ := h
  have hp : ∀ a, 1 / 2 ^ 53 ≤ profileOf sel a j := by
    intro a
    unfold profileOf
    dsimp only
    split_ifs with h0
    · cases hl : ((sel j).filter fun p => p.1 = a).getLast? with
      | none => rw [hl] at h0; simp at h0
      | some p =>
        rw [hl] at h0
        have hm := (List.mem_filter.1 (List.mem_of_getLast? hl)).1
        rcases hsel j p hm with h1 | h1
        · simp [h1] at h0
        · simpa using h1
    · norm_num
  have hs : (∑ a, 2 * r i a * profileOf sel a j) = 0 ∨ 1 / 2 ^ 106 ≤ ∑ a, 2 * r i a * profileOf sel a j := by
    have hr0 : ∀ a, 0 ≤ r i a := fun a => (hr i a).elim (fun h => h.ge) (le_trans (by positivity))
    have hp0 : ∀ a, 0 ≤ profileOf sel a j := fun a => le_trans (by positivity) (hp a)
    by_cases hall : ∀ a, r i a = 0
    · exact .inl (Finset.sum_eq_zero fun a _ => by rw [hall a]; ring)
    · right
      push Not at hall
      obtain ⟨a, ha⟩ := hall
      have h1 := (hr i a).resolve_left ha
      calc (1 / 2 ^ 106 : ℚ) ≤ 2 * r i a * profileOf sel a j := by
            have : (1 / 2 ^ 53 : ℚ) * (1 / 2 ^ 53) ≤ r i a * profileOf sel a j := mul_le_mul h1 (hp a) (by positivity) (hr0 a)
            nlinarith
        _ ≤ _ := Finset.single_le_sum (f := fun a => 2 * r i a * profileOf sel a j) (fun a _ => mul_nonneg (mul_nonneg (by norm_num) (hr0 a)) (hp0 a)) (Finset.mem_univ a)
  have hv : 1 / 2 ^ 150 < cellOf r sel d i j := by
    unfold cellOf
    dsimp only
    rcases hs with h0 | h0
    · rw [h0]
      norm_num
    · have hz' := abs_le.1 (hz i j)
      have he : (1 / 2 : ℚ) ≤ if d.sgn i j < 1 / 2 then 1 - d.z i j else 1 + d.z i j := by
        split_ifs <;> linarith
      have ho : (4 / 5 : ℚ) ≤ if d.out i j < 1 / 20 then 5 / 4 else if 19 / 20 < d.out i j then 4 / 5 else 1 := by
        split_ifs <;> norm_num
      have h1 : (1 / 2 ^ 106 : ℚ) * (1 / 2) ≤ _ := mul_le_mul h0 he (by norm_num) (le_trans (by positivity) h0)
      have h2 : (1 / 2 ^ 106 : ℚ) * (1 / 2) * (4 / 5) ≤ _ := mul_le_mul h1 ho (by norm_num) (le_trans (by positivity) h1)
      have h3 : (1 / 2 ^ 150 : ℚ) < 1 / 2 ^ 106 * (1 / 2) * (4 / 5) := by norm_num
      rw [if_pos (lt_of_lt_of_le (by positivity) h2)]
      exact lt_of_lt_of_le h3 h2
  refine ⟨hv, ?_⟩
  dsimp only
  split_ifs with hu
  · exact mul_pos (lt_trans (by positivity) hv) hu
  · norm_num

/-- **C237.** The program from the draws to the end: with at least two factors in the simulated data and between 1 and 127 models, the data are generated and loaded, and the batch succeeds with a best model. -/
theorem C237_program {α G : Type*} (hf : 2 ≤ f) (hm : 0 < m) (hn : 0 < n) (r : Mat m f ℚ) (sel : Fin n → List (Fin f × ℚ)) (d : DataDraws m n ℚ) (hr : ∀ i a, r i a = 0 ∨ 1 / 2 ^ 53 ≤ r i a)
    (hsel : ∀ j, ∀ p ∈ sel j, p.2 = 0 ∨ 1 / 2 ^ 53 ≤ p.2) (hz : ∀ i j, |d.z i j| ≤ 1 / 2)
    (parse : String → Option ℚ) (draw : G → ℕ × G) (draws : ℕ → InitDraws m n k ℝ) (clock : ℕ → Bool) (wsU : Mat k n (Option ℝ) → Mat m k (Option ℝ))
    (other : Alg → DMat (Option ℝ) → DMat (PEntry ℝ) → Option (DMat (Option ℝ) × DMat (PEntry ℝ))) (models : ℕ) (h1 : 1 ≤ models) (h127 : models ≤ 127)
    (order : List ℕ) (ho : ∀ t < models, t ∈ order) (g : G) :
    ∃ V U D, exampleData r sel d = some (V, U) ∧ exampleArrays parse V U = some D ∧
      let out := batchParallel (exampleEnv D draw draws clock wsU other : BatchEnv (ModelR m n k) α ℝ G) (exampleBatch α models) order [] g
      out.ok = true ∧ out.results.length = models ∧ ∃ b : ℕ, out.best = some (b : ℤ) ∧ b < models := by
  have hpos := C237_positive hf r sel d hr hsel hz _ _ (C237_cells hf r sel d)
  have hpv : ∀ i j, 1 / 2 ^ 150 < cellOf r sel d i j := fun i j => (hpos i j).1
  obtain ⟨D, hD, hok, hlen, -, b, hb, s, -, hs, -⟩ := C237_batch (α := α) hm hn (cellOf r sel d) (fun i j => if 0 < d.unc i j then cellOf r sel d i j * d.unc i j else 1 / 10 ^ 4)
    (fun i j => le_trans (by positivity) (hpv i j).le) (fun i => ⟨⟨0, hn⟩, hpv _ _⟩) (fun j => ⟨⟨0, hm⟩, hpv _ _⟩) parse draw draws clock wsU other models h1 h127 order ho [] g
  refine ⟨_, _, D, C237_cells hf r sel d, hD, hok, hlen, b, hb, ?_⟩
  rw [← hlen]
  by_contra hc
  rw [List.getElem?_eq_none (not_lt.1 hc)] at hs
  simp at hs

/-- Draws of the cases below: two samples, two features, two factors. -/
def caseDraws : DataDraws 2 2 ℚ := ⟨fun i _ => if i = 0 then 1 / 10 else 1 / 5, fun _ j => if j = 0 then 1 / 4 else 3 / 4, fun i j => if i = j then 1 / 2 else 1 / 100, fun _ _ => 1 / 20⟩

/-- Case for `C237_cells`: the first sample has noise downwards in the first feature, an outlier in the second; only the first factor is drawn for the features. -/
example : ∃ V U, exampleData (fun _ a => if a = 0 then 1 / 2 else 0 : Mat 2 2 ℚ) (fun _ => [(0, 1 / 2)]) caseDraws = some (V, U) ∧
    V 0 0 = 9 / 20 ∧ V 0 1 = 11 / 16 ∧ U 0 0 = 9 / 400 :=
  ⟨_, _, C237_cells le_rfl _ _ _, by decide +kernel, by decide +kernel, by decide +kernel⟩

/-- Case for `C237_positive` and `C237_program`: three models, the workers finish in reverse order. -/
example (draws : ℕ → InitDraws 2 2 1 ℝ) :
    ∃ V U D, exampleData (fun _ a => if a = 0 then 1 / 2 else 0 : Mat 2 2 ℚ) (fun _ => [(0, 1 / 2)]) caseDraws = some (V, U) ∧ exampleArrays (fun _ => none) V U = some D ∧
      let out := batchParallel (exampleEnv D (fun g => (g, g + 1)) draws (fun _ => false) (fun _ _ _ => none) (fun _ _ _ => none) : BatchEnv (ModelR 2 2 1) Unit ℝ ℕ) (exampleBatch Unit 3) [2, 1, 0] [] 42
      out.ok = true ∧ out.results.length = 3 ∧ ∃ b : ℕ, out.best = some (b : ℤ) ∧ b < 3 := by
  refine C237_program le_rfl (by norm_num) (by norm_num) _ _ _ (fun i a => ?_) (fun j p hp => ?_) (fun i j => ?_) _ _ draws _ _ _ 3 (by norm_num) (by norm_num) _ (by decide) 42
  · by_cases h : a = 0
    · right
      rw [if_pos h]
      norm_num
    · exact .inl (if_neg h)
  · right
    rw [List.mem_singleton.1 hp]
    norm_num
  · unfold caseDraws
    dsimp only
    split_ifs <;> norm_num [abs_of_pos]

/-- Case for `C237_limit`: 200 models. -/
example (D : List (List (Option ℚ)) × List (List (Option ℚ))) (draws : ℕ → InitDraws 2 2 1 ℝ) :
    (batchParallel (exampleEnv D (fun g => (g, g + 1)) draws (fun _ => false) (fun _ _ _ => none) (fun _ _ _ => none) : BatchEnv (ModelR 2 2 1) Unit ℝ ℕ) (exampleBatch Unit 200) (List.range 200) [] 42).ok
      = false :=
  C237_limit D _ draws _ _ _ 200 (by norm_num) _ (fun t ht => List.mem_range.2 ht) _ _

end data

end Esat
