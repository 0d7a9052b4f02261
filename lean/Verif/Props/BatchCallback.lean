import Verif.Model.BatchCallback
import Verif.Props.Batch

/-!
# The progress callback of a batch (C231)
-/

namespace Esat

section
variable {σ α K G : Type*} [LinearOrder K]

/-- **C231.** The outcome of a batch run does not depend on the callback, except for a callback that cannot be pickled in the
parallel mode. -/
theorem C231_same (E : BatchEnv σ α K G) (cfg : BatchCfg α) (cb : CbArg) (order : List ℕ) (tooLong : ℕ → Bool) (prev : List (Option σ)) (g : G) :
    batchTrain E cfg false cb order tooLong prev g = batchSequential E cfg tooLong g ∧
    (cb ≠ .callable false → batchTrain E cfg true cb order tooLong prev g = batchParallel E cfg order prev g) := by
  refine ⟨rfl, fun h => ?_⟩
  have hk : keptCb cb ≠ some false := by
    cases cb with
    | notCallable => exact fun h' => (by cases h')
    | callable p =>
      intro h'
      exact h (congrArg CbArg.callable (Option.some.inj h'))
  have hf : trainTaskCb (keptCb cb) E cfg = trainTask E cfg := funext fun p => if_neg hk
  simp only [batchTrain, if_true, hf]
  rfl

/-- **C231.** With a callback that cannot be pickled no parallel run of one model or more succeeds: the results and the best
model are those from before. If the models could be set up, one seed per model has been drawn. -/
theorem C231_unpicklable (E : BatchEnv σ α K G) (cfg : BatchCfg α) (order : List ℕ) (tooLong : ℕ → Bool) (prev : List (Option σ)) (g : G)
    (hm : 0 < cfg.models) (ho : ∀ t < cfg.models, t ∈ order) :
    (batchTrain E cfg true (.callable false) order tooLong prev g).ok = false ∧
    (batchTrain E cfg true (.callable false) order tooLong prev g).results = prev ∧
    (batchTrain E cfg true (.callable false) order tooLong prev g).best = none ∧
    ((prepare E cfg cfg.models 1 g).1.isSome →
      (batchTrain E cfg true (.callable false) order tooLong prev g).rng = (fun g => (E.draw g).2)^[cfg.models] g) := by
  rcases hp : prepare E cfg cfg.models 1 g with ⟨_ | tasks, g'⟩
  · simp [batchTrain, hp]
  · obtain ⟨hl, hg⟩ := prepare_length E cfg _ _ _ _ _ hp
    have hs : starmap (trainTaskCb (keptCb (.callable false)) E cfg) tasks order = none := by
      rw [starmap_eq _ _ _ (by rw [hl]; exact ho)]
      cases tasks with
      | nil => simp at hl; omega
      | cons t ts => rfl
    simp [batchTrain, hp, hs, hg]

/-- **C231.** Hence the modes differ: whenever the sequential run of one model or more succeeds, a callback that cannot be pickled makes
the parallel run fail. -/
theorem C231_modes (E : BatchEnv σ α K G) (cfg : BatchCfg α) (order : List ℕ) (tooLong : ℕ → Bool) (prev : List (Option σ)) (g : G)
    (ho : ∀ t < cfg.models, t ∈ order) (hok : (batchTrain E cfg false (.callable false) order tooLong prev g).ok = true) :
    (batchTrain E cfg true (.callable false) order tooLong prev g).ok = false := by
  rcases Nat.eq_zero_or_pos cfg.models with h0 | h0
  · obtain ⟨l, b', h1, _, _, _, h2⟩ := sequential_ok E cfg tooLong g hok
    rw [h0] at h1
    simp only [trainAll, Option.some.injEq] at h1
    exact absurd h1.symm h2
  · exact (C231_unpicklable E cfg order tooLong prev g h0 ho).1

end

/-! ## The hypotheses can be met -/

/-- Two models that both train. -/
def cbEnv : BatchEnv ℕ Unit ℚ ℕ := ⟨fun g => (g, g + 1), fun s _ _ => some s, fun _ _ _ s => some (s + 10), fun s => .val s, fun s => .val s⟩

def cbCfg : BatchCfg Unit := ⟨2, none, none, false, -1, true, false⟩

example : (batchTrain cbEnv cbCfg false (.callable false) [1, 0] (fun _ => false) [] 5).ok = true ∧
    (batchTrain cbEnv cbCfg false (.callable false) [1, 0] (fun _ => false) [] 5).results = [some 15, some 16] ∧
    (batchTrain cbEnv cbCfg true (.callable true) [1, 0] (fun _ => false) [] 5).results = [some 15, some 16] ∧
    (batchTrain cbEnv cbCfg true (.callable false) [1, 0] (fun _ => false) [] 5).ok = false ∧
    (batchTrain cbEnv cbCfg true (.callable false) [1, 0] (fun _ => false) [] 5).rng = 7 := by decide +kernel

end Esat
