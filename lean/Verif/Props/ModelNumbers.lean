import Verif.Model.ModelNumbers
import Verif.Props.DispRun
import Verif.Props.BsRun
import Mathlib.Tactic.Linarith
import Mathlib.Tactic.Ring

/-!
# C249: model numbers in the error estimates

The compiled training functions take the number of a model as a signed byte. The parallel displacement numbers its tasks through all factors and
features, so it raises as soon as factors times features exceeds 127.
-/

namespace Esat

section task
variable {L : Type*}

theorem trainNumbered_ok {R : Type*} (compiled : Bool) (i : ℤ) (r : R) (h : compiled = false ∨ (-128 ≤ i ∧ i ≤ 127)) :
    trainNumbered compiled i r = some r := by
  unfold trainNumbered numberFits
  rw [if_neg]
  rcases h with h | h <;> simp [h]

theorem trainNumbered_bad {R : Type*} (i : ℤ) (r : R) (h : ¬ (-128 ≤ i ∧ i ≤ 127)) : trainNumbered true i r = none := by
  unfold trainNumbered numberFits
  rw [if_pos]
  simp only [Bool.true_and, Bool.not_eq_true', decide_eq_false_iff_not]
  exact h

theorem mapM_option_some {α β : Type*} (f : α → Option β) (g : α → β) (l : List α) (h : ∀ x ∈ l, f x = some (g x)) :
    l.mapM f = some (l.map g) := by
  rw [mapM_option_congr f (fun x => some (g x)) l h]
  induction l with
  | nil => rfl
  | cons a l ih =>
    rw [List.mapM_cons, ih fun x hx => h x (List.mem_cons_of_mem a hx)]
    rfl

theorem mapM_option_none {α β : Type*} (f : α → Option β) (l : List α) (x : α) (hx : x ∈ l) (h : f x = none) : l.mapM f = none := by
  rw [← Option.not_isSome_iff_eq_none, mapM_isSome_iff]
  intro hh
  have := hh x hx
  rw [h] at this
  cases this

theorem dispTask_ok (compiled : Bool) (i : ℤ) (out : List L) (h : compiled = false ∨ (-128 ≤ i ∧ i ≤ 127)) :
    dispTask compiled i out = some out := by
  unfold dispTask
  rw [mapM_option_some _ id out fun x _ => trainNumbered_ok compiled i x h, List.map_id]

theorem dispTask_bad (i : ℤ) (out : List L) (hne : out ≠ []) (h : ¬ (-128 ≤ i ∧ i ≤ 127)) : dispTask true i out = none := by
  obtain ⟨x, hx⟩ := List.exists_mem_of_ne_nil out hne
  exact mapM_option_none _ out x hx (trainNumbered_bad i x h)

end task

section disp
variable {K : Type*} [Field K] [LinearOrder K] [IsStrictOrderedRing K] {m k n : ℕ}

theorem parNumbered_ok {L : Type*} (compiled : Bool) (out : Fin k → Fin n → List L) (features : List (Fin n)) (done : List (Fin k × Fin n))
    (prev : PyDict (Fin k) (PyDict (Fin n) (List L)))
    (h : compiled = false ∨ ∀ p ∈ done, -128 ≤ dispNumber features p.1 p.2 ∧ dispNumber features p.1 p.2 ≤ 127) :
    parNumbered compiled out features done prev = some (parResults out done prev) := by
  unfold parNumbered parResults
  rw [mapM_option_some _ (fun p => (p, out p.1 p.2)) done ?_, Option.map_some, List.foldl_map]
  intro p hp
  rw [dispTask_ok compiled _ _ (h.imp id fun h => h p hp), Option.map_some]

theorem parNumbered_bad {L : Type*} (out : Fin k → Fin n → List L) (features : List (Fin n)) (done : List (Fin k × Fin n))
    (prev : PyDict (Fin k) (PyDict (Fin n) (List L))) (p : Fin k × Fin n) (hp : p ∈ done) (hne : out p.1 p.2 ≠ [])
    (h : 127 < dispNumber features p.1 p.2) : parNumbered true out features done prev = none := by
  unfold parNumbered
  rw [mapM_option_none _ done p hp, Option.map_none]
  rw [dispTask_bad _ _ hne (by omega), Option.map_none]

theorem seqNumbered_ok {L : Type*} (compiled : Bool) (batch : ℤ) (out : Fin k → Fin n → List L) (features : List (Fin n))
    (h : compiled = false ∨ (-128 ≤ batch ∧ batch ≤ 127)) (as : List (Fin k)) (prev : PyDict (Fin k) (PyDict (Fin n) (List L))) :
    seqNumbered compiled batch out features as prev =
      (as.foldl (fun d a => dictSet d a (features.foldl (fun e j => dictSet e j (out a j)) [])) prev, true) := by
  induction as generalizing prev with
  | nil => rfl
  | cons a as ih =>
    rw [seqNumbered, mapM_option_some _ (fun j => (j, out a j)) features fun j _ => by
      rw [dispTask_ok compiled batch _ h, Option.map_some]]
    dsimp only
    rw [ih, List.foldl_map, List.foldl_cons]

theorem seqNumbered_bad {L : Type*} (batch : ℤ) (out : Fin (k + 1) → Fin n → List L) (features : List (Fin n))
    (h : ¬ (-128 ≤ batch ∧ batch ≤ 127)) (j : Fin n) (hj : j ∈ features) (hne : ∀ a, out a j ≠ [])
    (prev : PyDict (Fin (k + 1)) (PyDict (Fin n) (List L))) :
    seqNumbered true batch out features (List.finRange (k + 1)) prev = (prev, false) := by
  rw [List.finRange_succ, seqNumbered, mapM_option_none _ features j hj]
  rw [dispTask_bad _ _ (hne 0) h, Option.map_none]

/-- The run with numbers when no number is too large. -/
theorem dispRunNumbered_ok (compiled : Bool) (E : DispEnv m k n K) (floor : K) (features : List (Fin n)) (dQmax : List K) (batch : ℤ)
    (st : DispState k n K) (mode : DispMode k n)
    (hi : halfNumbered compiled batch (incEntry E dQmax) features mode.incDone st.inc =
      (dispResults (incEntry E dQmax) features mode.incDone st.inc, true))
    (hd : halfNumbered compiled batch (decEntry E dQmax) features mode.decDone st.dec =
      (dispResults (decEntry E dQmax) features mode.decDone st.dec, true)) :
    dispRunNumbered compiled E floor features dQmax batch st mode =
      (dispRun E floor features dQmax st mode, (dispRun E floor features dQmax st mode).rows.isSome) := by
  unfold dispRunNumbered dispRun
  cases mode <;>
  · simp only [DispMode.incDone, DispMode.decDone] at hi hd
    simp only [hi, hd, if_true]
    generalize compileRows E floor features dQmax.length _ _ = c
    cases c <;> rfl

theorem dispRunNumbered_bad (compiled : Bool) (E : DispEnv m k n K) (floor : K) (features : List (Fin n)) (dQmax : List K) (batch : ℤ)
    (st : DispState k n K) (mode : DispMode k n)
    (hi : halfNumbered compiled batch (incEntry E dQmax) features mode.incDone st.inc = (st.inc, false)) :
    dispRunNumbered compiled E floor features dQmax batch st mode = (st, false) := by
  unfold dispRunNumbered
  cases mode <;>
  · simp only [DispMode.incDone] at hi
    simp only [hi, Bool.false_eq_true, if_false]

/-- **C249, without the compiled code.** The displacement is the run of C204 in every mode and with every batch number. -/
theorem C249_python (E : DispEnv m k n K) (floor : K) (features : List (Fin n)) (dQmax : List K) (batch : ℤ)
    (st : DispState k n K) (mode : DispMode k n) :
    dispRunNumbered false E floor features dQmax batch st mode =
      (dispRun E floor features dQmax st mode, (dispRun E floor features dQmax st mode).rows.isSome) := by
  apply dispRunNumbered_ok
  all_goals
    cases mode with
    | seq =>
      simp only [DispMode.incDone, DispMode.decDone, halfNumbered, dispResults]
      exact seqNumbered_ok false batch _ features (Or.inl rfl) _ _
    | par d1 d2 =>
      simp only [DispMode.incDone, DispMode.decDone, halfNumbered, dispResults]
      rw [parNumbered_ok false _ features _ _ (Or.inl rfl)]

/-- **C249, sequential displacement.** It uses the batch number: a number from -128 to 127 changes nothing, any other makes the first training raise,
and the object is left as it was. -/
theorem C249_sequential (E : DispEnv m (k + 1) n K) (floor : K) (features : List (Fin n)) (dQmax : List K) (batch : ℤ)
    (st : DispState (k + 1) n K) :
    (-128 ≤ batch ∧ batch ≤ 127 → dispRunNumbered true E floor features dQmax batch st .seq =
      (dispRun E floor features dQmax st .seq, (dispRun E floor features dQmax st .seq).rows.isSome)) ∧
    (¬ (-128 ≤ batch ∧ batch ≤ 127) → features ≠ [] → dQmax ≠ [] →
      dispRunNumbered true E floor features dQmax batch st .seq = (st, false)) := by
  constructor
  · intro h
    apply dispRunNumbered_ok
    all_goals
      simp only [DispMode.incDone, DispMode.decDone, halfNumbered, dispResults]
      exact seqNumbered_ok true batch _ features (Or.inr h) _ _
  · intro h hf hq
    obtain ⟨j, hj⟩ := List.exists_mem_of_ne_nil features hf
    apply dispRunNumbered_bad
    simp only [DispMode.incDone, halfNumbered]
    refine seqNumbered_bad batch _ features h j hj (fun a hh => ?_) _
    have := (C35_levels E dQmax a j).1
    rw [hh, List.length_nil] at this
    exact hq (List.length_eq_zero_iff.1 this.symm)

/-- **C249, parallel displacement.** With `k + 1` factors the largest number of a task of feature `j` is `k` times the number of requested features plus
`j + 1`. If it is at most 127 for every requested feature, the run is that of C204; otherwise the run raises, whatever the order of the workers, and
the object is left as it was. -/
theorem C249_parallel (E : DispEnv m (k + 1) n K) (floor : K) (features : List (Fin n)) (dQmax : List K) (batch : ℤ)
    (st : DispState (k + 1) n K) (mode : DispMode (k + 1) n) (hmode : mode ≠ .seq) (hok : mode.ok features) :
    ((∀ j ∈ features, k * features.length + j.1 + 1 ≤ 127) → dispRunNumbered true E floor features dQmax batch st mode =
      (dispRun E floor features dQmax st mode, (dispRun E floor features dQmax st mode).rows.isSome)) ∧
    ((∃ j ∈ features, 127 < k * features.length + j.1 + 1) → dQmax ≠ [] →
      dispRunNumbered true E floor features dQmax batch st mode = (st, false)) := by
  cases mode with
  | seq => exact absurd rfl hmode
  | par d1 d2 =>
    obtain ⟨h1, h2⟩ := hok
    constructor
    · intro h
      have key : ∀ d : List (Fin (k + 1) × Fin n), d.Perm (dispTasks (k + 1) features) → ∀ p ∈ d,
          -128 ≤ dispNumber features p.1 p.2 ∧ dispNumber features p.1 p.2 ≤ 127 := by
        intro d hd p hp
        have hj := h p.2 ((mem_dispTasks features p.1 p.2).1 (hd.mem_iff.1 hp))
        have ha : p.1.1 * features.length ≤ k * features.length := Nat.mul_le_mul_right _ (Nat.le_of_lt_succ p.1.2)
        unfold dispNumber
        constructor
        · have : (0 : ℤ) ≤ (p.1.1 : ℤ) * features.length := by positivity
          omega
        · exact_mod_cast (by omega : p.1.1 * features.length + p.2.1 + 1 ≤ 127)
      apply dispRunNumbered_ok
      · simp only [DispMode.incDone, halfNumbered, dispResults]
        rw [parNumbered_ok true _ features d1 _ (Or.inr (key d1 h1))]
      · simp only [DispMode.decDone, halfNumbered, dispResults]
        rw [parNumbered_ok true _ features d2 _ (Or.inr (key d2 h2))]
    · rintro ⟨j, hj, hbig⟩ hq
      apply dispRunNumbered_bad
      simp only [DispMode.incDone, halfNumbered]
      have hmem : (Fin.last k, j) ∈ d1 := h1.mem_iff.2 ((mem_dispTasks features (Fin.last k) j).2 hj)
      have hne : incEntry E dQmax (Fin.last k) j ≠ [] := by
        intro hh
        have := (C35_levels E dQmax (Fin.last k) j).1
        rw [hh, List.length_nil] at this
        exact hq (List.length_eq_zero_iff.1 this.symm)
      rw [parNumbered_bad (incEntry E dQmax) features d1 st.inc (Fin.last k, j) hmem hne]
      unfold dispNumber
      simp only [Fin.val_last]
      exact_mod_cast hbig

/-- **C249, all features.** The default run (all features, with workers) of a new object returns exactly if the number of factors times the number of
features is at most 127. -/
theorem C249_all_features (E : DispEnv m (k + 1) (n + 1) K) (floor : K) (dQmax : List K) (hq : dQmax ≠ []) (batch : ℤ)
    (mode : DispMode (k + 1) (n + 1)) (hmode : mode ≠ .seq) (hok : mode.ok (List.finRange (n + 1))) :
    ((dispRunNumbered true E floor (List.finRange (n + 1)) dQmax batch .new mode).2 = true ↔ (k + 1) * (n + 1) ≤ 127) ∧
    (127 < (k + 1) * (n + 1) → dispRunNumbered true E floor (List.finRange (n + 1)) dQmax batch .new mode = (.new, false)) := by
  obtain ⟨h1, h2⟩ := C249_parallel E floor (List.finRange (n + 1)) dQmax batch .new mode hmode hok
  have hmax : (k + 1) * (n + 1) = k * (n + 1) + n + 1 := by ring
  have hbad : 127 < (k + 1) * (n + 1) →
      dispRunNumbered true E floor (List.finRange (n + 1)) dQmax batch .new mode = (.new, false) := by
    intro h
    refine h2 ⟨Fin.last n, List.mem_finRange _, ?_⟩ hq
    rw [List.length_finRange, Fin.val_last]
    omega
  refine ⟨⟨fun h => ?_, fun h => ?_⟩, hbad⟩
  · by_contra hc
    rw [hbad (by omega)] at h
    cases h
  · rw [h1 fun j _ => by rw [List.length_finRange]; have := j.2; omega]
    obtain ⟨rows, hr, -⟩ := C204_rows E floor (List.finRange (n + 1)) (List.nodup_finRange _) (by simp [List.finRange_succ]) dQmax mode hok []
      (by simp)
    rw [List.foldl_cons, List.foldl_nil] at hr
    simp [hr]

omit [Field K] [LinearOrder K] [IsStrictOrderedRing K] in
/-- **C249, the numbers.** With all features the tasks have the numbers from one to factors times features, each once and in the order of the tasks. -/
theorem C249_numbers (k n : ℕ) : (dispTasks k (List.finRange n)).map (fun p => dispNumber (List.finRange n) p.1 p.2) =
    (List.range (k * n)).map fun i : ℕ => (i : ℤ) + 1 := by
  have h1 : (dispTasks k (List.finRange n)).map (fun p => dispNumber (List.finRange n) p.1 p.2) =
      (List.range k).flatMap fun a => (List.range n).map fun j => ((a * n + j : ℕ) : ℤ) + 1 := by
    unfold dispTasks dispNumber
    rw [List.map_flatMap, ← List.map_coe_finRange_eq_range (n := k), List.flatMap_map]
    congr 1
    funext a
    rw [← List.map_coe_finRange_eq_range (n := n), List.map_map, List.map_map]
    apply List.map_congr_left
    intro j _
    simp only [Function.comp, List.length_finRange]
    push_cast
    ring
  rw [h1]
  clear h1
  induction k with
  | zero => simp
  | succ k ih =>
    rw [List.range_succ, List.flatMap_append, ih, Nat.succ_mul, List.range_add, List.map_append, List.map_map]
    simp [Function.comp]

/-- **C249, BS-DISP.** The displacement stage with its default settings and all features returns exactly if there is no bootstrap run or factors times
features is at most 127; otherwise nothing is stored. -/
theorem C249_bsdisp (env : ℕ → DispEnv m (k + 1) (n + 1) K) (floor : K) (dQmax : List K) (hq : dQmax ≠ [])
    (mode : ℕ → DispMode (k + 1) (n + 1)) (hmode : ∀ b, mode b ≠ .seq) (hok : ∀ b, (mode b).ok (List.finRange (n + 1))) (keys : List ℕ)
    (d : PyDict ℕ (DispState (k + 1) (n + 1) K)) :
    ((k + 1) * (n + 1) ≤ 127 → bsDispNumbered true env floor (List.finRange (n + 1)) dQmax mode keys d =
      (keys.foldl (fun d b => dictSet d b (dispRun (env b) floor (List.finRange (n + 1)) dQmax .new (mode b))) d, true)) ∧
    (127 < (k + 1) * (n + 1) → bsDispNumbered true env floor (List.finRange (n + 1)) dQmax mode keys d = (d, keys.isEmpty)) := by
  constructor
  · intro h
    induction keys generalizing d with
    | nil => rfl
    | cons b bs ih =>
      obtain ⟨h1, -⟩ := C249_all_features (env b) floor dQmax hq b (mode b) (hmode b) (hok b)
      have h2 := (C249_parallel (env b) floor (List.finRange (n + 1)) dQmax b .new (mode b) (hmode b) (hok b)).1 fun j _ => by
        rw [List.length_finRange]
        have := j.2
        have hmax : (k + 1) * (n + 1) = k * (n + 1) + n + 1 := by ring
        omega
      rw [bsDispNumbered]
      rw [if_pos (h1.2 h), ih, List.foldl_cons, h2]
  · intro h
    cases keys with
    | nil => rfl
    | cons b bs =>
      obtain ⟨-, h1⟩ := C249_all_features (env b) floor dQmax hq b (mode b) (hmode b) (hok b)
      rw [bsDispNumbered]
      rw [h1 h, if_neg (by simp)]
      rfl

end disp

section bootstrap
variable {G S D I M P Q : Type*}

theorem bsOneNumbered_ok (E : BsEnv G S D I M P Q) (a : BsArgs) (i : ℕ) (seed : S) (h : i ≤ 127) :
    bsOneNumbered true E a i seed = bsOne E a seed := by
  unfold bsOneNumbered bsOne
  have : (trainNumbered true (i : ℤ) : M → Option M) = some := funext fun r => trainNumbered_ok true _ r (Or.inr (by omega))
  rw [this]
  simp

theorem bsOneNumbered_bad (E : BsEnv G S D I M P Q) (a : BsArgs) (i : ℕ) (seed : S) (h : 127 < i) :
    bsOneNumbered true E a i seed = none := by
  unfold bsOneNumbered
  have : (trainNumbered true (i : ℤ) : M → Option M) = fun _ => none := funext fun r => trainNumbered_bad _ r (by omega)
  rw [this]
  simp

theorem bsSequentialNumbered_ok (E : BsEnv G S D I M P Q) (a : BsArgs) (n i : ℕ) (h : i + n ≤ 128) (o : BsObj G (BsEntry I M Q)) :
    bsSequentialNumbered true E a n i o = bsSequential E a n i o := by
  induction n generalizing i o with
  | zero => rfl
  | succ n ih =>
    rw [bsSequentialNumbered, bsSequential]
    rw [bsOneNumbered_ok E a i _ (by omega)]
    cases bsOne E a (E.draw o.rng).1 with
    | none => rfl
    | some r => exact ih (i + 1) (by omega) _

theorem bsSequentialNumbered_long (E : BsEnv G S D I M P Q) (a : BsArgs) (n t i : ℕ) (hi : i + t = 128) (hn : t < n)
    (o : BsObj G (BsEntry I M Q)) :
    bsSequentialNumbered true E a n i o =
      if (bsSequential E a t i o).2 then
        (⟨(E.draw (bsSequential E a t i o).1.rng).2, (bsSequential E a t i o).1.results⟩, false)
      else bsSequential E a t i o := by
  induction t generalizing n i o with
  | zero =>
    obtain ⟨n, rfl⟩ : ∃ n', n = n' + 1 := ⟨n - 1, by omega⟩
    rw [bsSequentialNumbered]
    rw [bsOneNumbered_bad E a i _ (by omega)]
    rfl
  | succ t ih =>
    obtain ⟨n, rfl⟩ : ∃ n', n = n' + 1 := ⟨n - 1, by omega⟩
    rw [bsSequentialNumbered, bsSequential]
    rw [bsOneNumbered_ok E a i _ (by omega)]
    cases bsOne E a (E.draw o.rng).1 with
    | none => rfl
    | some r => exact ih n (i + 1) (by omega) (by omega) _

/-- **C249, bootstrap without workers.** Up to 127 runs the number changes nothing. With more runs the first 127 are made and stored as in a bootstrap
of 127 runs; then the next draw is made and the run raises. -/
theorem C249_bootstrap_sequential (E : BsEnv G S D I M P Q) (a : BsArgs) (n : ℕ) (o : BsObj G (BsEntry I M Q)) :
    (n ≤ 127 → bsSequentialNumbered true E a n 1 o = bsSequential E a n 1 o) ∧
    (127 < n → ∀ o', bsSequential E a 127 1 o = (o', true) →
      bsSequentialNumbered true E a n 1 o = (⟨(E.draw o'.rng).2, o'.results⟩, false)) := by
  refine ⟨fun h => bsSequentialNumbered_ok E a n 1 (by omega) o, fun h o' ho => ?_⟩
  rw [bsSequentialNumbered_long E a n 127 1 rfl h o, ho]
  rfl

/-- **C249, bootstrap with workers.** Up to 127 runs the number changes nothing. With more runs the bootstrap raises, whatever the order of the workers,
and stores nothing; all draws are made. -/
theorem C249_bootstrap_parallel (E : BsEnv G S D I M P Q) (a : BsArgs) (pool : ℤ) (n : ℕ) (sched : List (ℕ × S) → List (ℕ × S))
    (hsched : ∀ l, (sched l).Perm l) (o : BsObj G (BsEntry I M Q)) :
    (n ≤ 127 → bsParallelNumbered true E a pool n sched o = bsParallel E a pool n sched o) ∧
    (127 < n → bsParallelNumbered true E a pool n sched o = (⟨(fun g => (E.draw g).2)^[n] o.rng, o.results⟩, false)) := by
  have hm : ∀ t ∈ sched ((List.range n).map fun t => (1 + t, (E.draw ((fun g => (E.draw g).2)^[t] o.rng)).1)), t.1 ≤ n := by
    intro t ht
    obtain ⟨s, hs, rfl⟩ := List.mem_map.1 ((hsched _).mem_iff.1 ht)
    rw [List.mem_range] at hs
    dsimp only
    omega
  constructor
  · intro h
    unfold bsParallelNumbered bsParallel
    rw [bsTasks_eq]
    dsimp only
    have e : ∀ t ∈ sched ((List.range n).map fun t => (1 + t, (E.draw ((fun g => (E.draw g).2)^[t] o.rng)).1)),
        ((bsOneNumbered true E a t.1 t.2).map fun r => (t.1, r)) = (bsOne E a t.2).map fun r => (t.1, r) := by
      intro t ht
      rw [bsOneNumbered_ok E a _ _ (le_trans (hm t ht) h)]
    rw [mapM_option_congr _ _ _ e]
    rfl
  · intro h
    unfold bsParallelNumbered
    rw [bsTasks_eq]
    dsimp only
    have e := mapM_option_none (fun t : ℕ × S => (bsOneNumbered true E a t.1 t.2).map fun r => (t.1, r))
      (sched ((List.range n).map fun t => (1 + t, (E.draw ((fun g => (E.draw g).2)^[t] o.rng)).1)))
      (1 + 127, (E.draw ((fun g => (E.draw g).2)^[127] o.rng)).1)
      ((hsched _).mem_iff.2 (List.mem_map.2 ⟨127, List.mem_range.2 h, rfl⟩))
      (by dsimp only; rw [bsOneNumbered_bad E a _ _ (by omega), Option.map_none])
    rw [e]
    split <;> rfl

end bootstrap

/-! ### Cases -/

/-- Six factors and 41 features, the second data set in the repository: the largest number is 246. -/
example : dispNumber (List.finRange 41) (5 : Fin 6) 40 = 246 := by decide +kernel

/-- Some features only: two tasks can have the same number. -/
example : dispNumber [(0 : Fin 3), 2] (0 : Fin 2) 2 = dispNumber [(0 : Fin 3), 2] (1 : Fin 2) 0 := by decide +kernel

/-- Displacement data for the cases below. -/
def exNumE (k n : ℕ) : DispEnv 1 k n ℚ := ⟨fun _ _ => 1, fun _ _ => 1, fun H => ∑ a, ∑ j, H a j, 0, fun _ => (false, 0), 1 / 10, 1 / 100⟩

/-- Sixteen factors and eight features are one task too many, whatever the order of the workers. -/
example (d1 d2 : List (Fin 16 × Fin 8)) (h1 : d1.Perm (dispTasks 16 (List.finRange 8))) (h2 : d2.Perm (dispTasks 16 (List.finRange 8))) :
    dispRunNumbered true (exNumE 16 8) 0 (List.finRange 8) [32, 16, 8, 4] 1 .new (.par d1 d2) = (.new, false) :=
  (C249_all_features (exNumE 16 8) 0 [32, 16, 8, 4] (by simp) 1 (.par d1 d2) (by simp) ⟨h1, h2⟩).2 (by norm_num)

/-- Six factors and 21 features work. -/
example (d1 d2 : List (Fin 6 × Fin 21)) (h1 : d1.Perm (dispTasks 6 (List.finRange 21))) (h2 : d2.Perm (dispTasks 6 (List.finRange 21))) :
    (dispRunNumbered true (exNumE 6 21) 0 (List.finRange 21) [32, 16, 8, 4] 1 .new (.par d1 d2)).2 = true :=
  (C249_all_features (exNumE 6 21) 0 [32, 16, 8, 4] (by simp) 1 (.par d1 d2) (by simp) ⟨h1, h2⟩).1.2 (by norm_num)

/-- Without workers and in batch 200 the displacement raises. -/
example : dispRunNumbered true (exNumE 2 2) 0 [0] [4] 200 .new .seq = (.new, false) :=
  (C249_sequential (exNumE 2 2) 0 [0] [4] 200 .new).2 (by norm_num) (by simp) (by simp)

/-- A bootstrap environment for the cases below: seeds count up, the data are the seed, the model is the seed. -/
def exNumB : BsEnv ℕ ℕ ℕ Unit ℕ Unit Unit :=
  ⟨fun g => (g, g + 1), fun _ _ s => some (s, ()), fun _ _ d => some d, fun _ => (), 0, ()⟩

/-- 130 bootstrap runs without workers: 127 results. -/
example : (bsSequential exNumB ⟨true, true, true, true⟩ 127 1 ⟨0, []⟩).2 = true ∧
    (bsSequentialNumbered true exNumB ⟨true, true, true, true⟩ 130 1 ⟨0, []⟩).2 = false ∧
    (bsSequentialNumbered true exNumB ⟨true, true, true, true⟩ 130 1 ⟨0, []⟩).1.results.length = 127 ∧
    (bsSequentialNumbered true exNumB ⟨true, true, true, true⟩ 130 1 ⟨0, []⟩).1.rng = 128 := by decide +kernel

end Esat
