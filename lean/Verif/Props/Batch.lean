import Verif.Lemmas.Batch
import Mathlib.Data.Rat.Defs
import Mathlib.Tactic.NormNum
import Mathlib.Logic.Function.Iterate

/-!
# C24-C28: batch training

The hypothesis `∀ t < cfg.models, t ∈ order` says that every task of the pool finishes at some point; nothing is assumed
about the order.
-/

namespace Esat

section
variable {σ α K G : Type*} [LinearOrder K]

/-! ## What a run leaves behind -/

theorem prepare_length (E : BatchEnv σ α K G) (cfg : BatchCfg α) : ∀ n i g l g', prepare E cfg n i g = (some l, g') →
    l.length = n ∧ g' = (fun g => (E.draw g).2)^[n] g := by
  intro n
  induction n with
  | zero => intro i g l g' h; simp only [prepare, Prod.mk.injEq, Option.some.injEq] at h; simp [← h.1, ← h.2]
  | succ n ih =>
    intro i g l g' h
    simp only [prepare] at h
    split at h
    · simp at h
    · split at h
      · simp at h
      · split at h
        · simp at h
        · split at h
          · simp at h
          · rename_i hp
            simp only [Prod.mk.injEq, Option.some.injEq] at h
            have := ih _ _ _ _ hp
            rw [← h.1, ← h.2]
            exact ⟨by simp [this.1], by rw [this.2, Function.iterate_succ_apply]⟩

theorem parallel_ok (E : BatchEnv σ α K G) (cfg : BatchCfg α) (order : List ℕ) (prev : List (Option σ)) (g : G)
    (ho : ∀ t < cfg.models, t ∈ order) (hok : (batchParallel E cfg order prev g).ok = true) :
    ∃ l b', trainAll E (sliceArg cfg.H) (sliceArg cfg.W) cfg.holdH cfg.delayH cfg.models 1 g = some l ∧
      bestAll (l.map (batchQ E cfg)) 1 (none, -1) = some b' ∧
      batchParallel E cfg order prev g = ⟨true, l.map some, some (b'.2 - 1), (fun g => (E.draw g).2)^[cfg.models] g⟩ := by
  have hpm := prepare_mapM E cfg cfg.models 1 g
  unfold batchParallel at hok ⊢
  split at hok
  · simp at hok
  · rename_i tasks g' hp
    have hl := prepare_length _ _ _ _ _ _ _ hp
    rw [hp] at hpm
    simp only [Option.bind_some] at hpm
    rw [starmap_eq _ _ _ (by rw [hl.1]; exact ho), hpm] at hok ⊢
    cases ht : trainAll E (sliceArg cfg.H) (sliceArg cfg.W) cfg.holdH cfg.delayH cfg.models 1 g with
    | none => rw [ht] at hok; simp at hok
    | some l =>
      rw [ht] at hok
      simp only [Option.map_some] at hok ⊢
      have hc := collect_number E cfg l [] 1 (none, -1) rfl
      rw [List.nil_append] at hc
      rw [number_length, hc] at hok ⊢
      cases hb : bestAll (l.map (batchQ E cfg)) 1 (none, -1) with
      | none => rw [hb] at hok; simp [finishBatch] at hok
      | some b' =>
        rw [hb] at hok
        refine ⟨l, b', rfl, hb, ?_⟩
        simp only [Option.map_some, finishBatch, List.nil_append, List.getLast?_append, List.getLast?_singleton,
          Option.some_or, List.dropLast_concat] at hok ⊢
        split at hok
        · simp at hok
        · rename_i hv
          rw [if_neg hv, hl.2]

theorem sequential_ok (E : BatchEnv σ α K G) (cfg : BatchCfg α) (tooLong : ℕ → Bool) (g : G)
    (hok : (batchSequential E cfg tooLong g).ok = true) :
    ∃ l b', trainAll E (fun _ => some cfg.H) (fun _ => some cfg.W) cfg.holdH (-1) cfg.models 1 g = some l ∧
      bestAll (l.map (batchQ E cfg)) 1 (none, -1) = some b' ∧
      (batchSequential E cfg tooLong g).results = l.map some ∧
      (batchSequential E cfg tooLong g).best = some (b'.2 - 1) ∧ l ≠ [] := by
  unfold batchSequential at hok ⊢
  split at hok
  · simp at hok
  · rename_i b rs g' hs
    have hs1 : (seqLoop E cfg tooLong cfg.models 1 [] (none, -1) g).1 = (some b, rs) := by rw [hs]
    obtain ⟨l, b', h1, h2, h3, h4⟩ := seqLoop_some _ _ _ _ _ _ _ _ _ _ hs1
    rw [List.nil_append] at h4
    subst h4 h3
    refine ⟨l, b', h1, h2, ?_⟩
    simp only [finishBatch] at hok ⊢
    split at hok
    · simp at hok
    · rename_i hv
      rw [if_neg hv]
      rcases List.eq_nil_or_concat l with rfl | ⟨l', s, rfl⟩
      · simp at hok
      · simp

/-! ## C24 -/

/-- `b` is the first position of the smallest number-valued loss in the list. -/
def FirstMin (qs : List (Option (QV K))) (b : ℤ) : Prop :=
  ∃ (t : ℕ) (x : K), b = t ∧ qs[t]? = some (some (.val x)) ∧
    ∀ (u : ℕ) (y : K), qs[u]? = some (some (.val y)) → x ≤ y ∧ (u < t → x < y)

theorem best_firstMin (E : BatchEnv σ α K G) (cfg : BatchCfg α) (l : List σ) (b' : Option K × ℤ)
    (h : bestAll (l.map (batchQ E cfg)) 1 (none, -1) = some b') (hn : ∃ s ∈ l, ∃ x, batchQ E cfg s = .val x) :
    FirstMin ((l.map some).map (Option.map (batchQ E cfg))) (b'.2 - 1) := by
  have hI := (bestAll_spec (l.map (batchQ E cfg)) [] (none, -1) 1 rfl (.inl ⟨rfl, by simp⟩)).2 b' h
  rw [List.nil_append] at hI
  rcases hI with ⟨_, h2⟩ | ⟨t, x, h1, h2, h3⟩
  · obtain ⟨s, hs, x, hx⟩ := hn
    have := h2 _ (List.mem_map_of_mem hs)
    rw [hx] at this
    simp at this
  · refine ⟨t, x, by simp [h1], ?_, fun u y hu => h3 u y ?_⟩
    · simp only [List.getElem?_map] at h2 ⊢
      cases hl : l[t]? <;> simp_all
    · simp only [List.getElem?_map] at hu ⊢
      cases hl : l[u]? <;> simp_all

/-- The loss by which models are compared: Q(robust) if `best_robust` is set, else Q(true). -/
def lossOf (E : BatchEnv σ α K G) (cfg : BatchCfg α) (s : σ) : QV K :=
  match cfg.bestRobust with
  | true => E.qRobust s
  | false => E.qTrue s

theorem batchQ_eq (E : BatchEnv σ α K G) (cfg : BatchCfg α) : batchQ E cfg = lossOf E cfg := by
  funext s
  unfold batchQ lossOf
  cases cfg.bestRobust <;> rfl

/-- After a successful parallel run with at least one loss that is a number, `best_model` is the first index of the
smallest loss. -/
theorem C24_parallel (E : BatchEnv σ α K G) (cfg : BatchCfg α) (order : List ℕ) (prev : List (Option σ)) (g : G)
    (ho : ∀ t < cfg.models, t ∈ order) (hok : (batchParallel E cfg order prev g).ok = true)
    (hn : ∃ s, some s ∈ (batchParallel E cfg order prev g).results ∧ ∃ x, lossOf E cfg s = .val x) :
    ∃ b, (batchParallel E cfg order prev g).best = some b ∧
      FirstMin ((batchParallel E cfg order prev g).results.map (Option.map (lossOf E cfg))) b := by
  obtain ⟨l, b', _, h2, h3⟩ := parallel_ok E cfg order prev g ho hok
  rw [h3] at hn ⊢
  obtain ⟨s, hs, hx⟩ := hn
  rw [← batchQ_eq] at hx ⊢
  exact ⟨_, rfl, best_firstMin E cfg l b' h2 ⟨s, by simpa using hs, hx⟩⟩

/-- The same for a sequential run. -/
theorem C24_sequential (E : BatchEnv σ α K G) (cfg : BatchCfg α) (tooLong : ℕ → Bool) (g : G)
    (hok : (batchSequential E cfg tooLong g).ok = true)
    (hn : ∃ s, some s ∈ (batchSequential E cfg tooLong g).results ∧ ∃ x, lossOf E cfg s = .val x) :
    ∃ b, (batchSequential E cfg tooLong g).best = some b ∧
      FirstMin ((batchSequential E cfg tooLong g).results.map (Option.map (lossOf E cfg))) b := by
  obtain ⟨l, b', _, h2, h3, h4, _⟩ := sequential_ok E cfg tooLong g hok
  rw [h3] at hn ⊢
  rw [h4]
  obtain ⟨s, hs, hx⟩ := hn
  rw [← batchQ_eq] at hx ⊢
  exact ⟨_, rfl, best_firstMin E cfg l b' h2 ⟨s, by simpa using hs, hx⟩⟩

/-- A small environment: the generator counts, a model is its loss, `f` gives the loss of model number `i` with seed
`s`; a delayed run of `hold_h` adds 100; 3-D input to `initialize` raises. -/
def demoEnv (f : ℕ → ℕ → QV ℚ) : BatchEnv (ℕ × QV ℚ) Unit ℚ ℕ where
  draw := fun g => (g * g % 7, g + 1)
  init := fun s h _ => match h with
    | some (.three _) => none
    | _ => some (s, .unset)
  train := fun i _ d s => some (s.1, if 0 ≤ d then .nan else f i s.1)
  qRobust := fun s => s.2
  qTrue := fun s => s.2

/-- Configuration with everything at its default. -/
def demoCfg (n : ℕ) : BatchCfg Unit := ⟨n, none, none, false, -1, true, true⟩

/-- Losses used in the examples: 5, NaN, 3, 3, … -/
def demoLoss : ℕ → ℕ → QV ℚ
  | 1, _ => .val 5
  | 2, _ => .nan
  | _, _ => .val 3

/-- Non-trivial case: a tie and a NaN; the workers finish in the order 3, 1, 0, 2; the best model has index 2. -/
example : (batchParallel (demoEnv demoLoss) (demoCfg 4) [3, 1, 0, 2] [] 2).ok = true ∧
    (batchParallel (demoEnv demoLoss) (demoCfg 4) [3, 1, 0, 2] [] 2).best = some 2 ∧
    (batchSequential (demoEnv demoLoss) (demoCfg 4) (fun _ => false) 2).best = some 2 := by decide +kernel

/-- **Disagreement.** When every loss is NaN the run still reports success and `best_model` is -2, which is not an index
of a model (Python reads it from the end of the list, and the list has one entry more while it is read). -/
theorem C24_all_nan_refuted (E : BatchEnv σ α K G) (cfg : BatchCfg α) (order : List ℕ) (prev : List (Option σ)) (g : G)
    (ho : ∀ t < cfg.models, t ∈ order) (hok : (batchParallel E cfg order prev g).ok = true)
    (hn : ∀ s, some s ∈ (batchParallel E cfg order prev g).results → lossOf E cfg s = .nan) :
    (batchParallel E cfg order prev g).best = some (-2) := by
  rw [← batchQ_eq] at hn
  obtain ⟨l, b', _, h2, h3⟩ := parallel_ok E cfg order prev g ho hok
  rw [h3] at hn ⊢
  have hI := (bestAll_spec (l.map (batchQ E cfg)) [] (none, -1) 1 rfl (.inl ⟨rfl, by simp⟩)).2 b' h2
  rw [List.nil_append] at hI
  rcases hI with ⟨h, _⟩ | ⟨t, x, _, h, _⟩
  · simp [h]
  · rw [List.getElem?_map] at h
    cases hl : l[t]? with
    | none => simp [hl] at h
    | some s =>
      have := hn s (by simpa using List.mem_of_getElem? hl)
      simp [hl, this] at h

/-- **C24, the exact condition.** After a successful run of either mode `best_model` is the first index of the smallest loss if some loss is a number, and -2 otherwise: it is an index of a model exactly if some loss is a number. -/
theorem C24_iff_partial (E : BatchEnv σ α K G) (cfg : BatchCfg α) (order : List ℕ) (prev : List (Option σ)) (tooLong : ℕ → Bool) (g : G) (ho : ∀ t < cfg.models, t ∈ order) :
    ∀ out ∈ [batchParallel E cfg order prev g, batchSequential E cfg tooLong g], out.ok = true →
      ∃ b, out.best = some b ∧ ((∃ s, some s ∈ out.results ∧ ∃ x, lossOf E cfg s = .val x) ↔ FirstMin (out.results.map (Option.map (lossOf E cfg))) b) ∧
        (b = -2 ↔ ∀ s, some s ∈ out.results → lossOf E cfg s = .nan) ∧ (b ≠ -2 → 0 ≤ b ∧ b < out.results.length) := by
  have key : ∀ (l : List σ) (b' : Option K × ℤ), bestAll (l.map (batchQ E cfg)) 1 (none, -1) = some b' →
      ((∃ s, some s ∈ l.map some ∧ ∃ x, batchQ E cfg s = .val x) ↔ FirstMin ((l.map some).map (Option.map (batchQ E cfg))) (b'.2 - 1)) ∧
        (b'.2 - 1 = -2 ↔ ∀ s, some s ∈ l.map some → batchQ E cfg s = .nan) ∧ (b'.2 - 1 ≠ -2 → 0 ≤ b'.2 - 1 ∧ b'.2 - 1 < (l.map some).length) := by
    intro l b' h
    have hI := (bestAll_spec (l.map (batchQ E cfg)) [] (none, -1) 1 rfl (.inl ⟨rfl, by simp⟩)).2 b' h
    rw [List.nil_append] at hI
    have hfm : ∀ b, FirstMin ((l.map some).map (Option.map (batchQ E cfg))) b → ∃ s, some s ∈ l.map some ∧ ∃ x, batchQ E cfg s = .val x := by
      rintro b ⟨t, x, -, h2, -⟩
      simp only [List.getElem?_map] at h2
      cases hl : l[t]? with
      | none => simp [hl] at h2
      | some s => exact ⟨s, by simpa using List.mem_of_getElem? hl, x, by simpa [hl] using h2⟩
    refine ⟨⟨fun ⟨s, hs, hx⟩ => best_firstMin E cfg l b' h ⟨s, by simpa using hs, hx⟩, hfm _⟩, ?_⟩
    rcases hI with ⟨e, h2⟩ | ⟨t, x, h1, h2, -⟩
    · refine ⟨⟨fun _ s hs => h2 _ (List.mem_map_of_mem (by simpa using hs)), fun _ => by simp [e]⟩, fun hne => absurd (by simp [e]) hne⟩
    · have hb : b'.2 - 1 = t := by simp [h1]
      rw [List.getElem?_map] at h2
      cases hl : l[t]? with
      | none => simp [hl] at h2
      | some s =>
        have ht : t < l.length := (List.getElem?_eq_some_iff.1 hl).1
        refine ⟨⟨fun hneg => by omega, fun hn => ?_⟩, fun _ => ⟨by omega, by rw [List.length_map]; omega⟩⟩
        have := hn s (by simpa using List.mem_of_getElem? hl)
        simp [hl, this] at h2
  intro out hout hok
  rw [← batchQ_eq]
  rcases List.mem_cons.1 hout with rfl | hout
  · obtain ⟨l, b', _, h2, h3⟩ := parallel_ok E cfg order prev g ho hok
    rw [h3]
    exact ⟨_, rfl, key l b' h2⟩
  · obtain rfl := List.mem_singleton.1 hout
    obtain ⟨l, b', _, h2, h3, h4, _⟩ := sequential_ok E cfg tooLong g hok
    rw [h3, h4]
    exact ⟨_, rfl, key l b' h2⟩

/-- Non-trivial case for the disagreement: three models, all NaN, reported as a success. -/
example : (batchParallel (demoEnv fun _ _ => .nan) (demoCfg 3) [0, 1, 2] [] 2).ok = true ∧
    (batchParallel (demoEnv fun _ _ => .nan) (demoCfg 3) [0, 1, 2] [] 2).best = some (-2) := by decide +kernel

/-! ## C25 -/

/-- The outcome of a parallel run does not depend on the order in which the workers finish. -/
theorem C25_schedule (E : BatchEnv σ α K G) (cfg : BatchCfg α) (order order' : List ℕ) (prev : List (Option σ)) (g : G)
    (ho : ∀ t < cfg.models, t ∈ order) (ho' : ∀ t < cfg.models, t ∈ order') :
    batchParallel E cfg order prev g = batchParallel E cfg order' prev g := by
  unfold batchParallel
  split
  · rfl
  · rename_i tasks g' hp
    have hl := (prepare_length _ _ _ _ _ _ _ hp).1
    rw [starmap_eq _ _ _ (by rw [hl]; exact ho), starmap_eq _ _ _ (by rw [hl]; exact ho')]

theorem trainAll_get (E : BatchEnv σ α K G) (H W : ℕ → Option (Option (FArg α))) (hold : Bool) (delay : ℤ) :
    ∀ n i g l, trainAll E H W hold delay n i g = some l → ∀ t s, l[t]? = some s →
      ∃ h w s0, H (i + t) = some h ∧ W (i + t) = some w ∧
        E.init (E.draw ((fun g => (E.draw g).2)^[t] g)).1 h w = some s0 ∧ E.train (i + t) hold delay s0 = some s := by
  intro n
  induction n with
  | zero => intro i g l h t s hs; simp only [trainAll, Option.some.injEq] at h; subst h; simp at hs
  | succ n ih =>
    intro i g l h t s hs
    simp only [trainAll, Option.bind_eq_some_iff, Option.map_eq_some_iff] at h
    obtain ⟨h', hh, w', hw, s0, hi, s', ht, l', hl', rfl⟩ := h
    cases t with
    | zero =>
      simp only [List.getElem?_cons_zero, Option.some.injEq] at hs
      subst hs
      exact ⟨h', w', s0, hh, hw, hi, ht⟩
    | succ t =>
      rw [List.getElem?_cons_succ] at hs
      have := ih _ _ _ hl' t s hs
      rw [Function.iterate_succ_apply, show i + (t + 1) = i + 1 + t by omega]
      exact this

/-- What model number `t + 1` should get of a factor argument: nothing, the common matrix, or slice `t`. -/
def OwnSlice (a : Option (FArg α)) (t : ℕ) (r : Option (FArg α)) : Prop :=
  (a = none ∧ r = none) ∨ (∃ x, a = some (.two x) ∧ r = some (.two x)) ∨
    ∃ l x, a = some (.three l) ∧ l[t]? = some x ∧ r = some (.two x)

theorem sliceArg_own (a : Option (FArg α)) (t : ℕ) (r : Option (FArg α)) (h : sliceArg a (t + 1) = some r) : OwnSlice a t r := by
  unfold sliceArg at h
  split at h
  · simp only [Option.some.injEq] at h
    exact .inl ⟨rfl, h.symm⟩
  · simp only [Option.some.injEq] at h
    exact .inr (.inl ⟨_, rfl, h.symm⟩)
  · rw [Option.map_eq_some_iff] at h
    obtain ⟨x, h1, h2⟩ := h
    exact .inr (.inr ⟨_, x, rfl, h1, h2.symm⟩)

/-- Result `t` of a parallel run is model number `t + 1`: built from its own seed and its own slice of H and W, and
trained with its own number. -/
theorem C25_own_index (E : BatchEnv σ α K G) (cfg : BatchCfg α) (order : List ℕ) (prev : List (Option σ)) (g : G)
    (ho : ∀ t < cfg.models, t ∈ order) (hok : (batchParallel E cfg order prev g).ok = true) :
    (batchParallel E cfg order prev g).results.length = cfg.models ∧
    ∀ t < cfg.models, ∃ h w s0 s, OwnSlice cfg.H t h ∧ OwnSlice cfg.W t w ∧
      E.init (E.draw ((fun g => (E.draw g).2)^[t] g)).1 h w = some s0 ∧
      E.train (t + 1) cfg.holdH cfg.delayH s0 = some s ∧
      (batchParallel E cfg order prev g).results[t]? = some (some s) := by
  obtain ⟨l, b', h1, h2, h3⟩ := parallel_ok E cfg order prev g ho hok
  rw [h3]
  have hl := trainAll_length _ _ _ _ _ _ _ _ _ h1
  refine ⟨by simp [hl], fun t ht => ?_⟩
  obtain ⟨s, hs⟩ : ∃ s, l[t]? = some s := ⟨l[t], by simp [hl, ht]⟩
  obtain ⟨h, w, s0, q1, q2, q3, q4⟩ := trainAll_get _ _ _ _ _ _ _ _ _ h1 t s hs
  rw [add_comm 1 t] at q1 q2 q4
  exact ⟨h, w, s0, s, sliceArg_own _ _ _ q1, sliceArg_own _ _ _ q2, q3, q4, by simp [hs]⟩

theorem trainAll_congr (E : BatchEnv σ α K G) (H W H' W' : ℕ → Option (Option (FArg α))) (hold : Bool) (d d' : ℤ)
    (hH : ∀ i, H i = H' i) (hW : ∀ i, W i = W' i) (hd : ∀ i s, E.train i hold d s = E.train i hold d' s) :
    ∀ n i g, trainAll E H W hold d n i g = trainAll E H' W' hold d' n i g := by
  intro n
  induction n with
  | zero => intro i g; rfl
  | succ n ih => intro i g; simp only [trainAll, hH, hW, hd, ih]

/-- H and W are absent or 2-D: the sequential branch only supports these. -/
def Flat (a : Option (FArg α)) : Prop := ∀ l, a ≠ some (.three l)

theorem sliceArg_flat (a : Option (FArg α)) (h : Flat a) (i : ℕ) : sliceArg a i = some a := by
  rcases a with _ | ⟨x⟩ | ⟨l⟩
  · rfl
  · rfl
  · exact absurd rfl (h l)

/-- If `delay_h` makes no difference to the training, H and W are not 3-D, there is no time limit, and one loss is a
number, then a parallel run that succeeds and a sequential run leave the same models and the same best model.

What is missing: `delay_h` and 3-D inputs, where the two branches really differ (below). -/
theorem C25_parallel_eq_sequential_partial (E : BatchEnv σ α K G) (cfg : BatchCfg α) (order : List ℕ)
    (prev : List (Option σ)) (g : G) (tooLong : ℕ → Bool) (hm : 0 < cfg.models)
    (ho : ∀ t < cfg.models, t ∈ order) (hok : (batchParallel E cfg order prev g).ok = true)
    (hd : ∀ i s, E.train i cfg.holdH cfg.delayH s = E.train i cfg.holdH (-1) s)
    (hH : Flat cfg.H) (hW : Flat cfg.W) (hl : ∀ i, tooLong i = false)
    (hn : ∃ s, some s ∈ (batchParallel E cfg order prev g).results ∧ ∃ x, lossOf E cfg s = .val x) :
    (batchSequential E cfg tooLong g).ok = true ∧
    (batchSequential E cfg tooLong g).results = (batchParallel E cfg order prev g).results ∧
    (batchSequential E cfg tooLong g).best = (batchParallel E cfg order prev g).best := by
  obtain ⟨b, hb, hmin⟩ := C24_parallel E cfg order prev g ho hok hn
  obtain ⟨l, b', h1, h2, h3⟩ := parallel_ok E cfg order prev g ho hok
  rw [h3] at hb hmin ⊢
  simp only [Option.some.injEq] at hb
  rw [trainAll_congr E (sliceArg cfg.H) (sliceArg cfg.W) (fun _ => some cfg.H) (fun _ => some cfg.W) cfg.holdH cfg.delayH (-1)
    (sliceArg_flat _ hH) (sliceArg_flat _ hW) hd] at h1
  have hs := seqLoop_of E cfg tooLong hl _ _ [] _ _ _ _ h1 h2
  have hlen := trainAll_length _ _ _ _ _ _ _ _ _ h1
  unfold batchSequential
  split
  · rename_i hq; rw [hq] at hs; simp at hs
  · rename_i bq rs g' hq
    rw [hq] at hs
    simp only [List.nil_append, Prod.mk.injEq, Option.some.injEq] at hs
    obtain ⟨rfl, rfl⟩ := hs
    obtain ⟨t, x, ht, hx, _⟩ := hmin
    rw [hb, ht]
    have hidx : ∃ s, l[t]? = some s := by
      cases hlt : l[t]? with
      | none => simp [hlt] at hx
      | some s => exact ⟨s, rfl⟩
    obtain ⟨s, hst⟩ := hidx
    have hp : (pyIndex (l.map some) (t : ℤ)).join.isNone = false := by
      simp [pyIndex, hst]
    simp only [finishBatch, hb, ht, hp, Bool.false_eq_true, and_false, if_false]
    rcases List.eq_nil_or_concat l with rfl | ⟨l', s', rfl⟩
    · simp at hlen; omega
    · simp

/-- Non-trivial case: shared 2-D H, four models with a tie and a NaN. -/
example : (batchParallel (demoEnv demoLoss) { demoCfg 4 with H := some (.two ()) } [3, 1, 0, 2] [] 2).results =
    (batchSequential (demoEnv demoLoss) { demoCfg 4 with H := some (.two ()) } (fun _ => false) 2).results := by
  decide +kernel

theorem trainAll_of_get (E : BatchEnv σ α K G) (h w : Option (FArg α)) (hold : Bool) (delay : ℤ) :
    ∀ n i g l, l.length = n →
      (∀ t s, l[t]? = some s → (E.init (E.draw ((fun g => (E.draw g).2)^[t] g)).1 h w).bind (E.train (i + t) hold delay) = some s) →
      trainAll E (fun _ => some h) (fun _ => some w) hold delay n i g = some l := by
  intro n
  induction n with
  | zero => intro i g l hl _; rw [List.length_eq_zero_iff] at hl; subst hl; rfl
  | succ n ih =>
    intro i g l hl hs
    cases l with
    | nil => simp at hl
    | cons s l =>
      have h0 := hs 0 s rfl
      simp only [Function.iterate_zero, id, Nat.add_zero, Option.bind_eq_some_iff] at h0
      obtain ⟨s0, q1, q2⟩ := h0
      have := ih (i + 1) (E.draw g).2 l (by simpa using hl) fun t s' ht => by
        have := hs (t + 1) s' (by simpa using ht)
        rw [Function.iterate_succ_apply, show i + (t + 1) = i + 1 + t by omega] at this
        exact this
      simp [trainAll, q1, q2, this]

/-- C25, exactly: after a successful parallel run with one loss that is a number, a sequential run without time limit succeeds with the same models and the same best model iff every single model is the one obtained from the whole
arguments H and W, without slicing, and without `delay_h`. Missing: the other cases, where the statement is false. -/
theorem C25_iff_partial (E : BatchEnv σ α K G) (cfg : BatchCfg α) (order : List ℕ)
    (prev : List (Option σ)) (g : G) (tooLong : ℕ → Bool) (hm : 0 < cfg.models)
    (ho : ∀ t < cfg.models, t ∈ order) (hok : (batchParallel E cfg order prev g).ok = true) (hl : ∀ i, tooLong i = false)
    (hn : ∃ s, some s ∈ (batchParallel E cfg order prev g).results ∧ ∃ x, lossOf E cfg s = .val x) :
    ((batchSequential E cfg tooLong g).ok = true ∧
      (batchSequential E cfg tooLong g).results = (batchParallel E cfg order prev g).results ∧
      (batchSequential E cfg tooLong g).best = (batchParallel E cfg order prev g).best) ↔
    ∀ t < cfg.models, ∃ s, (batchParallel E cfg order prev g).results[t]? = some (some s) ∧
      (E.init (E.draw ((fun g => (E.draw g).2)^[t] g)).1 cfg.H cfg.W).bind (E.train (t + 1) cfg.holdH (-1)) = some s := by
  constructor
  · rintro ⟨k1, k2, -⟩ t ht
    obtain ⟨l, b', h1, -, h3, -, -⟩ := sequential_ok E cfg tooLong g k1
    have hlen := trainAll_length _ _ _ _ _ _ _ _ _ h1
    obtain ⟨s, hs⟩ : ∃ s, l[t]? = some s := ⟨l[t], by simp [hlen, ht]⟩
    obtain ⟨h, w, s0, q1, q2, q3, q4⟩ := trainAll_get _ _ _ _ _ _ _ _ _ h1 t s hs
    obtain rfl := Option.some.inj q1
    obtain rfl := Option.some.inj q2
    refine ⟨s, by rw [← k2, h3]; simp [hs], ?_⟩
    rw [q3, Option.bind_some, Nat.add_comm t 1, q4]
  · intro hall
    obtain ⟨b, hb, hmin⟩ := C24_parallel E cfg order prev g ho hok hn
    obtain ⟨l, b', h1, h2, h3⟩ := parallel_ok E cfg order prev g ho hok
    rw [h3] at hb hmin hall ⊢
    simp only [Option.some.injEq] at hb
    have hlen := trainAll_length _ _ _ _ _ _ _ _ _ h1
    have h1' := trainAll_of_get E cfg.H cfg.W cfg.holdH (-1) cfg.models 1 g l hlen fun t s hs => by
      have ht : t < cfg.models := by rw [← hlen]; exact (List.getElem?_eq_some_iff.1 hs).1
      obtain ⟨s', e1, e2⟩ := hall t ht
      simp only [List.getElem?_map, hs, Option.map_some, Option.some.injEq] at e1
      rw [Nat.add_comm 1 t, e2, e1]
    have hs := seqLoop_of E cfg tooLong hl _ _ [] _ _ _ _ h1' h2
    unfold batchSequential
    split
    · rename_i hq; rw [hq] at hs; simp at hs
    · rename_i bq rs g' hq
      rw [hq] at hs
      simp only [List.nil_append, Prod.mk.injEq, Option.some.injEq] at hs
      obtain ⟨rfl, rfl⟩ := hs
      obtain ⟨t, x, ht, hx, _⟩ := hmin
      rw [hb, ht]
      have hidx : ∃ s, l[t]? = some s := by
        cases hlt : l[t]? with
        | none => simp [hlt] at hx
        | some s => exact ⟨s, rfl⟩
      obtain ⟨s, hst⟩ := hidx
      have hp : (pyIndex (l.map some) (t : ℤ)).join.isNone = false := by
        simp [pyIndex, hst]
      simp only [finishBatch, hb, ht, hp, Bool.false_eq_true, and_false, if_false]
      rcases List.eq_nil_or_concat l with rfl | ⟨l', s', rfl⟩
      · simp at hlen; omega
      · simp

/-- Case for `C25_iff_partial`: the workers finish in the order 3, 1, 0, 2; the criterion holds, so the sequential run has the same best model. -/
example : (batchSequential (demoEnv demoLoss) (demoCfg 4) (fun _ => false) 2).best = (batchParallel (demoEnv demoLoss) (demoCfg 4) [3, 1, 0, 2] [] 2).best :=
  ((C25_iff_partial (demoEnv demoLoss) (demoCfg 4) [3, 1, 0, 2] [] 2 (fun _ => false) (by decide) (by decide) (by decide +kernel) (fun _ => rfl) ⟨(4, .val 5), by decide +kernel, 5, rfl⟩).2
    (fun t ht => by
      have ht' : t < 4 := ht
      rcases t with _ | _ | _ | _ | t
      · exact ⟨_, rfl, rfl⟩
      · exact ⟨_, rfl, rfl⟩
      · exact ⟨_, rfl, rfl⟩
      · exact ⟨_, rfl, rfl⟩
      · omega)).2.2

/-- **Disagreement.** The sequential branch drops `delay_h`: whatever its value, the result is that of `delay_h = -1`. -/
theorem C25_delay_refuted (E : BatchEnv σ α K G) (cfg : BatchCfg α) (tooLong : ℕ → Bool) (g : G) (d : ℤ) :
    batchSequential E { cfg with delayH := d } tooLong g = batchSequential E { cfg with delayH := -1 } tooLong g := by
  have : ∀ n i rs b g, seqLoop E { cfg with delayH := d } tooLong n i rs b g =
      seqLoop E { cfg with delayH := -1 } tooLong n i rs b g := by
    intro n
    induction n with
    | zero => intro i rs b g; rfl
    | succ n ih => intro i rs b g; simp only [seqLoop, batchQ]; simp only [ih]
  unfold batchSequential
  simp only [this]
  rfl

/-- The parallel branch does use it, so the two differ. -/
example : (batchParallel (demoEnv demoLoss) { demoCfg 2 with delayH := 3, verbose := false } [0, 1] [] 2).results ≠
    (batchSequential (demoEnv demoLoss) { demoCfg 2 with delayH := 3, verbose := false } (fun _ => false) 2).results := by
  decide +kernel

/-- **Disagreement.** With a 3-D H (which `initialize` does not take) the sequential run always fails, while the parallel
run slices it. -/
theorem C25_three_d_refuted (E : BatchEnv σ α K G) (cfg : BatchCfg α) (tooLong : ℕ → Bool) (g : G) (l : List α)
    (hE : ∀ s w, E.init s (some (.three l)) w = none) (hH : cfg.H = some (.three l)) :
    (batchSequential E cfg tooLong g).ok = false := by
  by_contra hc
  rw [Bool.not_eq_false] at hc
  obtain ⟨ll, b', h1, _, _, _, h4⟩ := sequential_ok E cfg tooLong g hc
  cases hm : cfg.models with
  | zero => rw [hm] at h1; simp only [trainAll, Option.some.injEq] at h1; exact h4 h1.symm
  | succ n => rw [hm] at h1; simp [trainAll, hH, hE] at h1

example : (batchSequential (demoEnv demoLoss) { demoCfg 2 with H := some (.three [(), ()]) } (fun _ => false) 2).ok = false ∧
    (batchParallel (demoEnv demoLoss) { demoCfg 2 with H := some (.three [(), ()]) } [1, 0] [] 2).ok = true := by
  decide +kernel

/-! ## C26 -/

theorem trainAll_append (E : BatchEnv σ α K G) (H W : ℕ → Option (Option (FArg α))) (hold : Bool) (d : ℤ) (m : ℕ) :
    ∀ n i g l, trainAll E H W hold d (n + m) i g = some l → trainAll E H W hold d n i g = some (l.take n) := by
  intro n
  induction n with
  | zero => intro i g l _; simp [trainAll]
  | succ n ih =>
    intro i g l h
    rw [show n + 1 + m = (n + m) + 1 by omega] at h
    simp only [trainAll, Option.bind_eq_some_iff, Option.map_eq_some_iff] at h
    obtain ⟨h', hh, w', hw, s0, hi, s', ht, l', hl', rfl⟩ := h
    simp [trainAll, hh, hw, hi, ht, ih _ _ _ hl']

/-- Running with `m` more models keeps the first `n` results (parallel run). The seed of model `t` is the `t`-th draw of
the batch generator by `C25_own_index`. -/
theorem C26_extend (E : BatchEnv σ α K G) (cfg : BatchCfg α) (m : ℕ) (o1 o2 : List ℕ) (p1 p2 : List (Option σ)) (g : G)
    (ho1 : ∀ t < cfg.models, t ∈ o1) (ho2 : ∀ t < cfg.models + m, t ∈ o2)
    (h1 : (batchParallel E cfg o1 p1 g).ok = true)
    (h2 : (batchParallel E { cfg with models := cfg.models + m } o2 p2 g).ok = true) :
    (batchParallel E { cfg with models := cfg.models + m } o2 p2 g).results.take cfg.models =
      (batchParallel E cfg o1 p1 g).results := by
  obtain ⟨l1, _, a1, _, e1⟩ := parallel_ok E cfg o1 p1 g ho1 h1
  obtain ⟨l2, _, a2, _, e2⟩ := parallel_ok E { cfg with models := cfg.models + m } o2 p2 g ho2 h2
  have := trainAll_append E _ _ _ _ _ _ _ _ _ a2
  rw [this, Option.some.injEq] at a1
  rw [e1, e2, ← a1, List.map_take]

/-- The same for a sequential run. -/
theorem C26_extend_sequential (E : BatchEnv σ α K G) (cfg : BatchCfg α) (m : ℕ) (t1 t2 : ℕ → Bool) (g : G)
    (h1 : (batchSequential E cfg t1 g).ok = true)
    (h2 : (batchSequential E { cfg with models := cfg.models + m } t2 g).ok = true) :
    (batchSequential E { cfg with models := cfg.models + m } t2 g).results.take cfg.models =
      (batchSequential E cfg t1 g).results := by
  obtain ⟨l1, _, a1, _, e1, _, _⟩ := sequential_ok E cfg t1 g h1
  obtain ⟨l2, _, a2, _, e2, _, _⟩ := sequential_ok E { cfg with models := cfg.models + m } t2 g h2
  have := trainAll_append E _ _ _ _ _ _ _ _ _ a2
  rw [this, Option.some.injEq] at a1
  rw [e1, e2, ← a1, List.map_take]

example : ((batchParallel (demoEnv fun _ s => .val s) (demoCfg 5) [4, 3, 2, 1, 0] [] 2).results.take 3 =
    (batchParallel (demoEnv fun _ s => .val s) (demoCfg 3) [0, 1, 2] [] 2).results) ∧
    (batchParallel (demoEnv fun _ s => .val s) (demoCfg 3) [0, 1, 2] [] 2).results =
      [some (4, .val 4), some (2, .val 2), some (2, .val 2)] := by decide +kernel

/-- The generator is not reset: a second `train` call on the same object draws on. Model `t` of the second call gets the
draw number `models + t`, so its seed is not a function of the batch seed and `t`. -/
theorem C26_retrain (E : BatchEnv σ α K G) (cfg : BatchCfg α) (order : List ℕ) (prev : List (Option σ)) (g : G)
    (ho : ∀ t < cfg.models, t ∈ order) (hok : (batchParallel E cfg order prev g).ok = true) (t : ℕ) :
    (fun g => (E.draw g).2)^[t] (batchParallel E cfg order prev g).rng = (fun g => (E.draw g).2)^[t + cfg.models] g := by
  obtain ⟨_, _, _, _, e⟩ := parallel_ok E cfg order prev g ho hok
  rw [e, Function.iterate_add_apply]

/-- **Disagreement.** Two calls of `train` on one batch give different models. -/
theorem C26_retrain_refuted : ∃ (E : BatchEnv (ℕ × QV ℚ) Unit ℚ ℕ) (cfg : BatchCfg Unit) (g : ℕ),
    (batchParallel E cfg [0] [] g).ok = true ∧
    (batchParallel E cfg [0] [] (batchParallel E cfg [0] [] g).rng).ok = true ∧
    (batchParallel E cfg [0] [] (batchParallel E cfg [0] [] g).rng).results ≠ (batchParallel E cfg [0] [] g).results :=
  ⟨demoEnv fun _ s => .val s, demoCfg 1, 2, by decide +kernel⟩

/-! ## C27 -/

/-- **Disagreement.** The compiled functions take the model number as a signed byte: with the default (compiled) training
no batch of more than 127 models succeeds, in either mode. -/
theorem C27_refuted (E : BatchEnv σ α K G) (compiled : ℕ → Bool → ℤ → σ → Option σ) (hE : E.train = i8Train compiled)
    (cfg : BatchCfg α) (hm : 127 < cfg.models) (order : List ℕ) (prev : List (Option σ)) (tooLong : ℕ → Bool) (g : G)
    (ho : ∀ t < cfg.models, t ∈ order) :
    (batchParallel E cfg order prev g).ok = false ∧ (batchSequential E cfg tooLong g).ok = false := by
  have key : ∀ H W d l, trainAll E H W cfg.holdH d cfg.models 1 g = some l → False := by
    intro H W d l h
    have hl := trainAll_length _ _ _ _ _ _ _ _ _ h
    obtain ⟨_, _, _, _, _, _, h4⟩ := trainAll_get _ _ _ _ _ _ _ _ _ h 127 l[127] (by simp [hl, hm])
    rw [hE] at h4
    simp [i8Train] at h4
  constructor
  · by_contra hc
    rw [Bool.not_eq_false] at hc
    obtain ⟨l, _, h1, _⟩ := parallel_ok E cfg order prev g ho hc
    exact key _ _ _ _ h1
  · by_contra hc
    rw [Bool.not_eq_false] at hc
    obtain ⟨l, _, h1, _⟩ := sequential_ok E cfg tooLong g hc
    exact key _ _ _ _ h1

theorem trainAll_some (E : BatchEnv σ α K G) (H W : ℕ → Option (Option (FArg α))) (hold : Bool) (d : ℤ) (N : ℕ)
    (hH : ∀ i, 1 ≤ i → i ≤ N → ∃ h, H i = some h) (hW : ∀ i, 1 ≤ i → i ≤ N → ∃ w, W i = some w)
    (hI : ∀ s h w, ∃ x, E.init s h w = some x) (P : σ → Prop)
    (hT : ∀ i, 1 ≤ i → i ≤ N → ∀ s h w x, E.init s h w = some x → ∃ y, E.train i hold d x = some y ∧ P y) :
    ∀ n i g, 1 ≤ i → n + i ≤ N + 1 → ∃ l, trainAll E H W hold d n i g = some l ∧ ∀ s ∈ l, P s := by
  intro n
  induction n with
  | zero => intro i g _ _; exact ⟨[], rfl, by simp⟩
  | succ n ih =>
    intro i g h1 h2
    obtain ⟨h, hh⟩ := hH i h1 (by omega)
    obtain ⟨w, hw⟩ := hW i h1 (by omega)
    obtain ⟨x, hx⟩ := hI (E.draw g).1 h w
    obtain ⟨y, hy, hP⟩ := hT i h1 (by omega) _ _ _ x hx
    obtain ⟨l, hl, hPl⟩ := ih (i + 1) (E.draw g).2 (by omega) (by omega)
    exact ⟨y :: l, by simp [trainAll, hh, hw, hx, hy, hl], by simpa [hP] using hPl⟩

/-- Up to 127 models (and any number when `train` has no limit: take `N` as large as needed) the parallel run succeeds if
the individual models can be built and trained with a number as loss. What is missing: more than 127 models, see
`C27_refuted`. -/
theorem C27_partial (E : BatchEnv σ α K G) (cfg : BatchCfg α) (order : List ℕ) (prev : List (Option σ)) (g : G)
    (ho : ∀ t < cfg.models, t ∈ order) (hm : 0 < cfg.models) (hH : Flat cfg.H) (hW : Flat cfg.W)
    (hI : ∀ s h w, ∃ x, E.init s h w = some x)
    (compiled : ℕ → Bool → ℤ → σ → Option σ) (hE : E.train = i8Train compiled) (h127 : cfg.models ≤ 127)
    (hT : ∀ i s h w x, E.init s h w = some x → ∃ y, compiled i cfg.holdH cfg.delayH x = some y ∧ ∃ q, batchQ E cfg y = .val q) :
    (batchParallel E cfg order prev g).ok = true := by
  obtain ⟨l, hl, hP⟩ := trainAll_some E (sliceArg cfg.H) (sliceArg cfg.W) cfg.holdH cfg.delayH cfg.models
    (fun i _ _ => ⟨_, sliceArg_flat _ hH i⟩) (fun i _ _ => ⟨_, sliceArg_flat _ hW i⟩) hI
    (fun y => ∃ q, batchQ E cfg y = .val q)
    (by
      intro i _ hi s h w x hx
      obtain ⟨y, hy, hq⟩ := hT i s h w x hx
      refine ⟨y, ?_, hq⟩
      rw [hE, i8Train, if_neg (by omega), hy]) cfg.models 1 g le_rfl (by omega)
  have hlen := trainAll_length _ _ _ _ _ _ _ _ _ hl
  have hspec := bestAll_spec (l.map (batchQ E cfg)) [] (none, -1) 1 rfl (.inl ⟨rfl, by simp⟩)
  obtain ⟨b', hb⟩ := hspec.1.2 (by
    intro q hq
    obtain ⟨s, hs, rfl⟩ := List.mem_map.1 hq
    obtain ⟨x, hx⟩ := hP s hs
    rw [hx]; simp)
  have hmem : l[0]'(by omega) ∈ l := List.getElem_mem _
  obtain ⟨t, x, ht, hx, _⟩ := best_firstMin E cfg l b' hb ⟨_, hmem, hP _ hmem⟩
  obtain ⟨s, hst⟩ : ∃ s, l[t]? = some s := by
    cases hlt : l[t]? with
    | none => simp [hlt] at hx
    | some s => exact ⟨s, rfl⟩
  have htl : t < l.length := (List.getElem?_eq_some_iff.1 hst).1
  have hpm := prepare_mapM E cfg cfg.models 1 g
  unfold batchParallel
  split
  · rename_i hp; rw [hp, hl] at hpm; simp at hpm
  · rename_i tasks g' hp
    have hpl := (prepare_length _ _ _ _ _ _ _ hp).1
    rw [hp, hl] at hpm
    simp only [Option.bind_some, Option.map_some] at hpm
    rw [starmap_eq _ _ _ (by rw [hpl]; exact ho), hpm]
    simp only
    have hc := collect_number E cfg l [] 1 (none, -1) rfl
    rw [List.nil_append] at hc
    rw [number_length, hc, hb]
    have hp2 : (pyIndex (l.map some ++ [none]) (t : ℤ)).join.isNone = false := by
      simp [pyIndex, List.getElem?_append_left, htl, hst]
    simp only [Option.map_some, finishBatch, List.nil_append, ht, hp2, Bool.false_eq_true, and_false, if_false]
    simp

/-- The same for a sequential run without time limit; H and W may have any form `initialize` accepts. -/
theorem C27_sequential_partial (E : BatchEnv σ α K G) (cfg : BatchCfg α) (tooLong : ℕ → Bool) (g : G) (hm : 0 < cfg.models) (hl' : ∀ i, tooLong i = false)
    (hI : ∀ s h w, ∃ x, E.init s h w = some x)
    (compiled : ℕ → Bool → ℤ → σ → Option σ) (hE : E.train = i8Train compiled) (h127 : cfg.models ≤ 127)
    (hT : ∀ i s h w x, E.init s h w = some x → ∃ y, compiled i cfg.holdH (-1) x = some y ∧ ∃ q, batchQ E cfg y = .val q) :
    (batchSequential E cfg tooLong g).ok = true := by
  obtain ⟨l, hl, hP⟩ := trainAll_some E (fun _ => some cfg.H) (fun _ => some cfg.W) cfg.holdH (-1) cfg.models
    (fun i _ _ => ⟨_, rfl⟩) (fun i _ _ => ⟨_, rfl⟩) hI
    (fun y => ∃ q, batchQ E cfg y = .val q)
    (by
      intro i _ hi s h w x hx
      obtain ⟨y, hy, hq⟩ := hT i s h w x hx
      refine ⟨y, ?_, hq⟩
      rw [hE, i8Train, if_neg (by omega), hy]) cfg.models 1 g le_rfl (by omega)
  have hlen := trainAll_length _ _ _ _ _ _ _ _ _ hl
  have hspec := bestAll_spec (l.map (batchQ E cfg)) [] (none, -1) 1 rfl (.inl ⟨rfl, by simp⟩)
  obtain ⟨b', hb⟩ := hspec.1.2 (by
    intro q hq
    obtain ⟨s, hs, rfl⟩ := List.mem_map.1 hq
    obtain ⟨x, hx⟩ := hP s hs
    rw [hx]; simp)
  have hmem : l[0]'(by omega) ∈ l := List.getElem_mem _
  obtain ⟨t, x, ht, hx, _⟩ := best_firstMin E cfg l b' hb ⟨_, hmem, hP _ hmem⟩
  obtain ⟨s, hst⟩ : ∃ s, l[t]? = some s := by
    cases hlt : l[t]? with
    | none => simp [hlt] at hx
    | some s => exact ⟨s, rfl⟩
  have hs := seqLoop_of E cfg tooLong hl' _ _ [] _ _ _ _ hl hb
  unfold batchSequential
  split
  · rename_i hq; rw [hq] at hs; simp at hs
  · rename_i bq rs g' hq
    rw [hq] at hs
    simp only [List.nil_append, Prod.mk.injEq, Option.some.injEq] at hs
    obtain ⟨rfl, rfl⟩ := hs
    have hp : (pyIndex (l.map some) (t : ℤ)).join.isNone = false := by
      simp [pyIndex, hst]
    simp only [finishBatch, ht, hp, Bool.false_eq_true, and_false, if_false]
    rcases List.eq_nil_or_concat l with rfl | ⟨l', s', rfl⟩
    · simp at hlen; omega
    · simp

/-- C27, exactly: if models can be built and trained with a number as loss whatever the seed, a batch with the compiled training succeeds, in either mode, iff it has at most 127 models. -/
theorem C27_iff_partial (E : BatchEnv σ α K G) (cfg : BatchCfg α) (order : List ℕ) (prev : List (Option σ)) (tooLong : ℕ → Bool) (g : G)
    (ho : ∀ t < cfg.models, t ∈ order) (hm : 0 < cfg.models) (hl : ∀ i, tooLong i = false) (hH : Flat cfg.H) (hW : Flat cfg.W)
    (hI : ∀ s h w, ∃ x, E.init s h w = some x) (compiled : ℕ → Bool → ℤ → σ → Option σ) (hE : E.train = i8Train compiled)
    (hT : ∀ i d s h w x, E.init s h w = some x → ∃ y, compiled i cfg.holdH d x = some y ∧ ∃ q, batchQ E cfg y = .val q) :
    ((batchParallel E cfg order prev g).ok = true ↔ cfg.models ≤ 127) ∧ ((batchSequential E cfg tooLong g).ok = true ↔ cfg.models ≤ 127) := by
  refine ⟨⟨fun h => ?_, fun h => C27_partial E cfg order prev g ho hm hH hW hI compiled hE h fun i => hT i _⟩,
    ⟨fun h => ?_, fun h => C27_sequential_partial E cfg tooLong g hm hl hI compiled hE h fun i => hT i _⟩⟩
  · by_contra hc
    rw [(C27_refuted E compiled hE cfg (by omega) order prev tooLong g ho).1] at h
    exact absurd h (by decide)
  · by_contra hc
    rw [(C27_refuted E compiled hE cfg (by omega) order prev tooLong g ho).2] at h
    exact absurd h (by decide)

/-- Case for `C27_iff_partial`: models whose loss is their number. -/
example (n : ℕ) (hn : 0 < n) (g : ℕ) : (batchSequential (σ := ℕ) (α := Unit) (K := ℚ) ⟨fun g => (g, g + 1), fun s _ _ => some s, i8Train fun i _ _ _ => some i, fun s => .val s, fun s => .val s⟩
    ⟨n, none, none, false, -1, true, true⟩ (fun _ => false) g).ok = true ↔ n ≤ 127 :=
  (C27_iff_partial (σ := ℕ) (α := Unit) (K := ℚ) ⟨fun g => (g, g + 1), fun s _ _ => some s, i8Train fun i _ _ _ => some i, fun s => .val s, fun s => .val s⟩
    ⟨n, none, none, false, -1, true, true⟩ (List.range n) [] (fun _ => false) g (fun t ht => List.mem_range.2 ht) hn (fun _ => rfl) (fun l h => nomatch h) (fun l h => nomatch h)
    (fun s _ _ => ⟨s, rfl⟩) (fun i _ _ _ => some i) rfl fun i _ _ _ _ _ _ => ⟨i, rfl, _, rfl⟩).2

/-- Non-trivial cases: with the signed byte 3 models succeed, and 128 models fail. -/
example : (batchParallel { demoEnv (fun _ s => .val s) with train := i8Train (demoEnv fun _ s => .val s).train }
    (demoCfg 3) [2, 0, 1] [] 2).ok = true := by decide +kernel

example : (batchSequential { demoEnv (fun _ s => .val s) with train := i8Train (demoEnv fun _ s => .val s).train }
    (demoCfg 128) (fun _ => false) 2).ok = false := by decide +kernel

/-! ## C28 -/

/-- A parallel run reports success only if every model has been built, trained and has a loss. -/
theorem C28_parallel (E : BatchEnv σ α K G) (cfg : BatchCfg α) (order : List ℕ) (prev : List (Option σ)) (g : G)
    (ho : ∀ t < cfg.models, t ∈ order) (hok : (batchParallel E cfg order prev g).ok = true) :
    (batchParallel E cfg order prev g).results.length = cfg.models ∧
    ∀ t < cfg.models, ∃ s0 s, E.train (t + 1) cfg.holdH cfg.delayH s0 = some s ∧ batchQ E cfg s ≠ .unset ∧
      (batchParallel E cfg order prev g).results[t]? = some (some s) := by
  obtain ⟨h1, h2⟩ := C25_own_index E cfg order prev g ho hok
  refine ⟨h1, fun t ht => ?_⟩
  obtain ⟨h, w, s0, s, _, _, _, h3, h4⟩ := h2 t ht
  refine ⟨s0, s, h3, ?_, h4⟩
  obtain ⟨l, b', _, hb, e⟩ := parallel_ok E cfg order prev g ho hok
  have hspec := (bestAll_spec (l.map (batchQ E cfg)) [] (none, -1) 1 rfl (.inl ⟨rfl, by simp⟩)).1.1 ⟨b', hb⟩
  rw [e] at h4
  simp only [List.getElem?_map, Option.map_eq_some_iff, Option.some.injEq] at h4
  obtain ⟨s', hs', rfl⟩ := h4
  exact hspec _ (List.mem_map_of_mem (List.mem_of_getElem? hs'))

/-- A sequential run reports success only if every model has been built, trained and has a loss. -/
theorem C28_sequential (E : BatchEnv σ α K G) (cfg : BatchCfg α) (tooLong : ℕ → Bool) (g : G)
    (hok : (batchSequential E cfg tooLong g).ok = true) :
    (batchSequential E cfg tooLong g).results.length = cfg.models ∧
    ∀ t < cfg.models, ∃ s0 s, E.train (t + 1) cfg.holdH (-1) s0 = some s ∧ batchQ E cfg s ≠ .unset ∧
      (batchSequential E cfg tooLong g).results[t]? = some (some s) := by
  obtain ⟨l, b', h1, hb, e, _, _⟩ := sequential_ok E cfg tooLong g hok
  have hl := trainAll_length _ _ _ _ _ _ _ _ _ h1
  rw [e]
  refine ⟨by simp [hl], fun t ht => ?_⟩
  obtain ⟨s, hs⟩ : ∃ s, l[t]? = some s := ⟨l[t], by simp [hl, ht]⟩
  obtain ⟨_, _, s0, _, _, _, q4⟩ := trainAll_get _ _ _ _ _ _ _ _ _ h1 t s hs
  rw [add_comm 1 t] at q4
  have hspec := (bestAll_spec (l.map (batchQ E cfg)) [] (none, -1) 1 rfl (.inl ⟨rfl, by simp⟩)).1.1 ⟨b', hb⟩
  exact ⟨s0, s, q4, hspec _ (List.mem_map_of_mem (List.mem_of_getElem? hs)), by simp [hs]⟩

/-- Conversely, a model that cannot be trained makes the run fail, in both modes. -/
theorem C28_failure (E : BatchEnv σ α K G) (cfg : BatchCfg α) (order : List ℕ) (prev : List (Option σ)) (g : G)
    (tooLong : ℕ → Bool) (ho : ∀ t < cfg.models, t ∈ order) (t : ℕ) (ht : t < cfg.models)
    (hf : ∀ d s, E.train (t + 1) cfg.holdH d s = none) :
    (batchParallel E cfg order prev g).ok = false ∧ (batchSequential E cfg tooLong g).ok = false := by
  constructor
  · by_contra hc
    rw [Bool.not_eq_false] at hc
    obtain ⟨_, _, h, _⟩ := (C28_parallel E cfg order prev g ho hc).2 t ht
    simp [hf] at h
  · by_contra hc
    rw [Bool.not_eq_false] at hc
    obtain ⟨_, _, h, _⟩ := (C28_sequential E cfg tooLong g hc).2 t ht
    simp [hf] at h

/-- Non-trivial case: the third of four models raises. -/
example : (batchParallel { demoEnv demoLoss with train := fun i h d s => if i = 3 then none else (demoEnv demoLoss).train i h d s }
    (demoCfg 4) [3, 1, 0, 2] [] 2).ok = false := by decide +kernel

end

/-! ### The theorems applied to the example run -/

/-- Case for `C24_parallel`, `C25_own_index`, `C28_parallel` and `C26_retrain`: four models, workers finishing in the order
3, 1, 0, 2. -/
example :
    (∃ b, (batchParallel (demoEnv demoLoss) (demoCfg 4) [3, 1, 0, 2] [] 2).best = some b ∧
      FirstMin ((batchParallel (demoEnv demoLoss) (demoCfg 4) [3, 1, 0, 2] [] 2).results.map
        (Option.map (lossOf (demoEnv demoLoss) (demoCfg 4)))) b) ∧
    (∃ h w s0 s, OwnSlice (demoCfg 4).H 2 h ∧ OwnSlice (demoCfg 4).W 2 w ∧
      (demoEnv demoLoss).init ((demoEnv demoLoss).draw ((fun g => ((demoEnv demoLoss).draw g).2)^[2] 2)).1 h w = some s0 ∧
      (demoEnv demoLoss).train 3 (demoCfg 4).holdH (demoCfg 4).delayH s0 = some s ∧
      (batchParallel (demoEnv demoLoss) (demoCfg 4) [3, 1, 0, 2] [] 2).results[2]? = some (some s)) ∧
    (batchParallel (demoEnv demoLoss) (demoCfg 4) [3, 1, 0, 2] [] 2).results.length = 4 ∧
    (fun g => ((demoEnv demoLoss).draw g).2)^[1] (batchParallel (demoEnv demoLoss) (demoCfg 4) [3, 1, 0, 2] [] 2).rng
      = (fun g => ((demoEnv demoLoss).draw g).2)^[1 + 4] 2 := by
  have ho : ∀ t < (demoCfg 4).models, t ∈ [3, 1, 0, 2] := by decide
  have hok : (batchParallel (demoEnv demoLoss) (demoCfg 4) [3, 1, 0, 2] [] 2).ok = true := by decide +kernel
  refine ⟨C24_parallel _ _ _ _ _ ho hok ⟨(4, .val 5), by decide +kernel, 5, rfl⟩,
    (C25_own_index _ _ _ _ _ ho hok).2 2 (by decide), (C28_parallel _ _ _ _ _ ho hok).1, C26_retrain _ _ _ _ _ ho hok 1⟩

/-- Case for `C24_sequential` and `C28_sequential`. -/
example :
    (∃ b, (batchSequential (demoEnv demoLoss) (demoCfg 4) (fun _ => false) 2).best = some b ∧
      FirstMin ((batchSequential (demoEnv demoLoss) (demoCfg 4) (fun _ => false) 2).results.map
        (Option.map (lossOf (demoEnv demoLoss) (demoCfg 4)))) b) ∧
    (batchSequential (demoEnv demoLoss) (demoCfg 4) (fun _ => false) 2).results.length = 4 := by
  have hok : (batchSequential (demoEnv demoLoss) (demoCfg 4) (fun _ => false) 2).ok = true := by decide +kernel
  exact ⟨C24_sequential _ _ _ _ hok ⟨(4, .val 5), by decide +kernel, 5, rfl⟩, (C28_sequential _ _ _ _ hok).1⟩

/-- Case for `C25_schedule`: two orders of the same workers. -/
example : batchParallel (demoEnv demoLoss) (demoCfg 4) [3, 1, 0, 2] [] 2 = batchParallel (demoEnv demoLoss) (demoCfg 4) [0, 1, 2, 3] [] 2 :=
  C25_schedule _ _ _ _ _ _ (by decide) (by decide)

/-- Case for `C26_extend`: two models more. -/
example : (batchParallel (demoEnv demoLoss) (demoCfg 6) [5, 4, 3, 2, 1, 0] [] 2).results.take 4 =
    (batchParallel (demoEnv demoLoss) (demoCfg 4) [3, 1, 0, 2] [] 2).results :=
  C26_extend (demoEnv demoLoss) (demoCfg 4) 2 _ _ _ _ _ (by decide) (by decide) (by decide +kernel) (by decide +kernel)

end Esat
