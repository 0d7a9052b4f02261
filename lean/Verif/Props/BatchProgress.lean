import Verif.Model.BatchProgress
import Verif.Props.TrainLoop
import Mathlib.Algebra.BigOperators.Group.Finset.Basic
import Mathlib.Algebra.Order.BigOperators.Group.Finset
import Mathlib.Data.List.Perm.Basic

/-!
# Properties of the progress reports of a batch

C189: for every interleaving of the workers, the listener thread and the main process, the callback sees the reports of
each model in the order they were made; if it never raises it has seen all of them when training returns, so that a
parallel batch makes the calls of a sequential one in another order; and a batch whose workers do not fail always
returns.

**Disagreement** with the sequential mode: an exception of the callback is dropped there and the callback goes on being
called, in the parallel mode it ends the listener thread, no later report is delivered and training still returns as if
nothing had happened (`C189_exception`, `C189_nth`).
-/

namespace Esat

/-! ## Specification -/

/-- The reports of model `i` among the calls of a callback. -/
def callsOf (i : ℕ) (cs : List (ℕ × Report)) : List Report :=
  cs.filterMap fun p => if p.1 = i then some p.2 else none

/-- The reports of model `i` on the queue. -/
def queuedOf (i : ℕ) (q : List ProgMsg) : List Report :=
  q.filterMap fun m => match m with
    | .report j r => if j = i then some r else none
    | .done => none

/-! ## Lemmas -/

theorem callsOf_append (i : ℕ) (a b : List (ℕ × Report)) : callsOf i (a ++ b) = callsOf i a ++ callsOf i b := by
  simp [callsOf]

theorem queuedOf_append (i : ℕ) (a b : List ProgMsg) : queuedOf i (a ++ b) = queuedOf i a ++ queuedOf i b := by
  simp [queuedOf]

theorem count_callsOf (cs : List (ℕ × Report)) (i : ℕ) (r : Report) : cs.count (i, r) = (callsOf i cs).count r := by
  induction cs with
  | nil => rfl
  | cons c t ih =>
    obtain ⟨j, r'⟩ := c
    rw [show (j, r') :: t = [(j, r')] ++ t from rfl, callsOf_append, List.count_append, List.count_append, ih]
    congr 1
    by_cases hj : j = i
    · subst hj
      by_cases hr : r' = r
      · subst hr; simp [callsOf]
      · simp [callsOf, hr]
    · simp [callsOf, hj]

theorem callsOf_seq (models : ℕ) (reports : ℕ → List Report) (i : ℕ) :
    callsOf i (seqProgress models reports) = if 1 ≤ i ∧ i ≤ models then reports i else [] := by
  induction models with
  | zero =>
    rw [if_neg (by omega)]
    rfl
  | succ n ih =>
    have h1 : seqProgress (n + 1) reports = seqProgress n reports ++ (reports (n + 1)).map fun r => (n + 1, r) := by
      simp [seqProgress, List.range_succ, List.flatMap_append]
    rw [h1, callsOf_append, ih]
    by_cases hi : i = n + 1
    · subst hi
      rw [if_neg (by omega), if_pos (by omega)]
      simp [callsOf, List.filterMap_map, Function.comp_def]
    · have h2 : callsOf i ((reports (n + 1)).map fun r => (n + 1, r)) = [] := by
        have : ¬ n + 1 = i := fun h => hi h.symm
        simp [callsOf, List.filterMap_map, Function.comp_def, this]
      rw [h2, List.append_nil]
      by_cases h3 : 1 ≤ i ∧ i ≤ n
      · rw [if_pos h3, if_pos (by omega)]
      · rw [if_neg h3, if_neg (by omega)]

/-- What holds in every state. -/
structure ProgInv (models : ℕ) (raises : List (ℕ × Report) → Bool) (reports : ℕ → List Report) (s : ProgState) :
    Prop where
  split : ∀ i, callsOf i s.calls ++ queuedOf i s.queue ++ s.todo i = reports i
  scope : (∀ c ∈ s.calls, 1 ≤ c.1 ∧ c.1 ≤ models) ∧ ∀ i r, ProgMsg.report i r ∈ s.queue → 1 ≤ i ∧ i ≤ models
  early : (s.main = .training ∨ s.main = .failed) → ProgMsg.done ∉ s.queue
  late : (s.main = .joining ∨ s.main = .joined) → ∀ i, 1 ≤ i → i ≤ models → s.todo i = []
  mark : (s.main = .joining ∨ s.main = .joined) → s.listening = true →
    ∃ q, s.queue = q ++ [.done] ∧ ProgMsg.done ∉ q
  dead : s.listening = false → (s.calls ≠ [] ∧ raises s.calls = true) ∨
    ((s.main = .joining ∨ s.main = .joined) ∧ s.queue = [])
  past : ∀ p, p <+: s.calls → p ≠ [] → raises p = true → p = s.calls ∧ s.listening = false
  over : s.main = .joined → s.listening = false

theorem ProgReach.inv {models : ℕ} {raises : List (ℕ × Report) → Bool} {reports : ℕ → List Report} {s : ProgState}
    (h : ProgReach models raises reports s) : ProgInv models raises reports s := by
  induction h with
  | init =>
    refine ⟨fun i => by simp [ProgState.init, callsOf, queuedOf], by simp [ProgState.init], by simp [ProgState.init],
      by simp [ProgState.init], by simp [ProgState.init], by simp [ProgState.init], ?_, by simp [ProgState.init]⟩
    intro p hp hne
    exact absurd (List.prefix_nil.1 hp) hne
  | step s s' _ hst ih =>
    cases hst with
    | send i r rest hi hm ht =>
      refine ⟨fun j => ?_, ⟨ih.scope.1, ?_⟩, ?_, ?_, ?_, ?_, ih.past, ih.over⟩
      · have := ih.split j
        dsimp only
        rw [queuedOf_append]
        by_cases hj : j = i
        · subst hj
          rw [Function.update_self, ← this, ht]
          simp [queuedOf]
        · rw [Function.update_of_ne hj, ← this]
          have : ¬ i = j := fun h => hj h.symm
          simp [queuedOf, this]
      · intro j r' hj
        dsimp only at hj
        rw [List.mem_append, List.mem_singleton] at hj
        rcases hj with hj | hj
        · exact ih.scope.2 j r' hj
        · obtain ⟨rfl, rfl⟩ := ProgMsg.report.inj hj
          exact hi
      · intro h
        have := ih.early (.inl hm)
        simpa using this
      · intro h
        rcases h with h | h <;> exact absurd (hm.symm.trans h) (by decide)
      · intro h
        rcases h with h | h <;> exact absurd (hm.symm.trans h) (by decide)
      · intro h
        rcases ih.dead h with h | ⟨h | h, _⟩
        · exact .inl h
        · exact absurd (hm.symm.trans h) (by decide)
        · exact absurd (hm.symm.trans h) (by decide)
    | finish hm ht =>
      refine ⟨fun j => ?_, ⟨ih.scope.1, ?_⟩, ?_, fun _ => ht, ?_, ?_, ih.past, ?_⟩
      · have := ih.split j
        dsimp only
        rw [queuedOf_append, ← this]
        simp [queuedOf]
      · intro j r' hj
        dsimp only at hj
        rw [List.mem_append, List.mem_singleton] at hj
        rcases hj with hj | hj
        · exact ih.scope.2 j r' hj
        · cases hj
      · rintro (h | h) <;> cases h
      · intro _ _
        exact ⟨s.queue, rfl, ih.early (.inl hm)⟩
      · intro h
        rcases ih.dead h with h | ⟨h | h, _⟩
        · exact .inl h
        · exact absurd (hm.symm.trans h) (by decide)
        · exact absurd (hm.symm.trans h) (by decide)
      · intro h
        cases h
    | deliver i r rest hl hq =>
      have hsc := ih.scope.2 i r (by rw [hq]; exact List.mem_cons_self)
      have hno : s.main ≠ .joined := fun h => by rw [ih.over h] at hl; cases hl
      refine ⟨fun j => ?_, ⟨?_, ?_⟩, ?_, ih.late, ?_, ?_, ?_, fun h => absurd h hno⟩
      · have := ih.split j
        rw [hq] at this
        dsimp only
        rw [callsOf_append, ← this, show ProgMsg.report i r :: rest = [ProgMsg.report i r] ++ rest from rfl,
          queuedOf_append]
        have h1 : callsOf j [(i, r)] = queuedOf j [ProgMsg.report i r] := by
          by_cases hij : i = j <;> simp [callsOf, queuedOf, hij]
        rw [h1]
        simp
      · intro c hc
        rw [List.mem_append, List.mem_singleton] at hc
        rcases hc with hc | rfl
        · exact ih.scope.1 c hc
        · exact hsc
      · intro j r' hj
        exact ih.scope.2 j r' (by rw [hq]; exact List.mem_cons_of_mem _ hj)
      · intro h hd
        exact ih.early h (by rw [hq]; exact List.mem_cons_of_mem _ hd)
      · intro h _
        obtain ⟨q, hqq, hqn⟩ := ih.mark h hl
        rw [hq] at hqq
        cases q with
        | nil => simp at hqq
        | cons a t =>
          rw [List.cons_append] at hqq
          injection hqq with h1 h2
          exact ⟨t, h2, fun hd => hqn (List.mem_cons_of_mem _ hd)⟩
      · intro h
        left
        refine ⟨by simp, ?_⟩
        simpa using h
      · intro p hp hne hr
        dsimp only at hp
        rw [List.prefix_concat_iff] at hp
        rcases hp with hp | hp
        · refine ⟨hp, ?_⟩
          dsimp only
          rw [← hp, hr]
          rfl
        · have := (ih.past p hp hne hr).2
          rw [this] at hl
          cases hl
    | stop rest hl hq =>
      have hno : s.main ≠ .joined := fun h => by rw [ih.over h] at hl; cases hl
      have hdone : ProgMsg.done ∈ s.queue := by rw [hq]; exact List.mem_cons_self
      have hj : s.main = .joining := by
        rcases hm : s.main with _ | _ | _ | _
        · exact absurd hdone (ih.early (.inl hm))
        · rfl
        · exact absurd hm hno
        · exact absurd hdone (ih.early (.inr hm))
      obtain ⟨q, hqq, hqn⟩ := ih.mark (.inl hj) hl
      have hrest : rest = [] := by
        rw [hq] at hqq
        cases q with
        | nil => simpa using hqq
        | cons a t =>
          rw [List.cons_append] at hqq
          injection hqq with h1 h2
          exact absurd (h1 ▸ List.mem_cons_self) hqn
      subst hrest
      refine ⟨fun j => ?_, ⟨ih.scope.1, by simp⟩, by simp, ih.late, ?_, fun _ => .inr ⟨.inl hj, rfl⟩, ?_,
        fun h => absurd h hno⟩
      · have := ih.split j
        rw [hq] at this
        simpa [queuedOf] using this
      · intro _ h
        cases h
      · intro p hp hne hr
        exact ⟨(ih.past p hp hne hr).1, rfl⟩
    | join hm hl =>
      refine ⟨ih.split, ih.scope, ?_, fun _ => ih.late (.inl hm), ?_, ?_, ih.past, fun _ => hl⟩
      · rintro (h | h) <;> cases h
      · intro _ h
        exact absurd (hl.symm.trans h) (by decide)
      · intro h
        rcases ih.dead h with h | ⟨_, h⟩
        · exact .inl h
        · exact .inr ⟨.inr rfl, h⟩
    | fail hm =>
      refine ⟨ih.split, ih.scope, fun _ => ih.early (.inl hm), ?_, ?_, ?_, ih.past, ?_⟩
      · rintro (h | h) <;> cases h
      · rintro (h | h) <;> cases h
      · intro h
        rcases ih.dead h with h | ⟨h | h, _⟩
        · exact .inl h
        · exact absurd (hm.symm.trans h) (by decide)
        · exact absurd (hm.symm.trans h) (by decide)
      · intro h
        cases h

/-! ## C189 -/

variable {models : ℕ} {raises : List (ℕ × Report) → Bool} {reports : ℕ → List Report} {s : ProgState}

/-- C189, safety: in every state of every execution the reports of a model are the calls made for it, then those on the
queue, then those its training has still to make: nothing is lost, duplicated, reordered or attributed to another
model. -/
theorem C189_order (h : ProgReach models raises reports s) (i : ℕ) :
    callsOf i s.calls ++ queuedOf i s.queue ++ s.todo i = reports i ∧ ∀ c ∈ s.calls, 1 ≤ c.1 ∧ c.1 ≤ models :=
  ⟨h.inv.split i, h.inv.scope.1⟩

/-- C189: when training is past the join and no call of the callback raised, all reports were delivered; the calls are
those of the sequential mode in another order. -/
theorem C189_complete (h : ProgReach models raises reports s) (hj : s.main = .joined)
    (hr : ∀ p, p <+: s.calls → p ≠ [] → raises p = false) :
    (∀ i, 1 ≤ i → i ≤ models → callsOf i s.calls = reports i) ∧
      s.calls.Perm (seqProgress models reports) := by
  have inv := h.inv
  have hq : s.queue = [] := by
    rcases inv.dead (inv.over hj) with ⟨hne, hrr⟩ | ⟨_, hq⟩
    · rw [hr _ (List.prefix_refl _) hne] at hrr
      cases hrr
    · exact hq
  have h1 : ∀ i, 1 ≤ i → i ≤ models → callsOf i s.calls = reports i := by
    intro i hi hi'
    have := inv.split i
    rw [hq, inv.late (.inr hj) i hi hi'] at this
    simpa [queuedOf] using this
  refine ⟨h1, ?_⟩
  rw [List.perm_iff_count]
  rintro ⟨i, r⟩
  rw [count_callsOf, count_callsOf, callsOf_seq]
  by_cases hi : 1 ≤ i ∧ i ≤ models
  · rw [if_pos hi, h1 i hi.1 hi.2]
  · rw [if_neg hi]
    have : callsOf i s.calls = [] := by
      rw [callsOf, List.filterMap_eq_nil_iff]
      intro c hc
      rw [if_neg]
      rintro rfl
      exact hi (inv.scope.1 c hc)
    rw [this]

/-- C189: a call that raises is the last one, whatever the workers have still to report. -/
theorem C189_exception (h : ProgReach models raises reports s) (p : List (ℕ × Report)) (hp : p <+: s.calls)
    (hne : p ≠ []) (hr : raises p = true) : s.calls = p :=
  ((h.inv.past p hp hne hr).1).symm

/-- C189: a callback that raises at its `n`-th call (and would go on raising) is called `n` times when there are that
many reports; the sequential mode calls it for all of them. -/
theorem C189_nth (n : ℕ) (hn : 0 < n)
    (h : ProgReach models (fun cs => decide (n ≤ cs.length)) reports s) (hj : s.main = .joined) :
    s.calls.length = min n (seqProgress models reports).length := by
  by_cases hr : ∀ p, p <+: s.calls → p ≠ [] → (decide (n ≤ p.length)) = false
  · have hp := (C189_complete h hj hr).2.length_eq
    rw [hp, eq_comm, min_eq_right_iff]
    by_cases h0 : s.calls = []
    · rw [h0] at hp
      rw [← hp]
      exact Nat.zero_le _
    · have := hr _ (List.prefix_refl _) h0
      rw [decide_eq_false_iff_not, hp] at this
      omega
  · push Not at hr
    obtain ⟨p, hp, hne, hpn⟩ := hr
    have hpn' : n ≤ p.length := by simpa using hpn
    have h1 := C189_exception h p hp hne (by simpa using hpn)
    have h2 : s.calls.take n = s.calls := by
      have := C189_exception h (s.calls.take n) (List.take_prefix _ _) (by
        intro h0
        have := congrArg List.length h0
        rw [List.length_take, h1, List.length_nil] at this
        omega) (by
        rw [decide_eq_true_iff, List.length_take, h1]
        omega)
      exact this.symm
    have h3 : s.calls.length = n := by
      have := congrArg List.length h2
      rw [List.length_take] at this
      rw [h1] at this ⊢
      omega
    rw [h3, eq_comm, min_eq_left_iff]
    -- the calls for each model are a part of its reports, so that there are no more calls than reports
    have h4 : s.calls.Subperm (seqProgress models reports) := by
      rw [List.subperm_ext_iff]
      rintro ⟨i, r⟩ hir
      rw [count_callsOf, count_callsOf, callsOf_seq, if_pos (h.inv.scope.1 _ hir), ← h.inv.split i,
        List.count_append, List.count_append]
      omega
    rw [← h3]
    exact h4.length_le

/-- The steps that are left. -/
def progMeasure (models : ℕ) (s : ProgState) : ℕ :=
  2 * (∑ i ∈ Finset.Icc 1 models, (s.todo i).length) + s.queue.length +
    (match s.main with | .training => 3 | .joining => 1 | .joined => 0 | .failed => 0)

theorem ProgStep.lt {s s' : ProgState} (h : ProgStep models raises s s') :
    progMeasure models s' < progMeasure models s := by
  cases h with
  | send i r rest hi hm ht =>
    have hmem : i ∈ Finset.Icc 1 models := Finset.mem_Icc.2 hi
    have h1 := Finset.sum_erase_add (Finset.Icc 1 models) (fun j => (s.todo j).length) hmem
    have h2 := Finset.sum_erase_add (Finset.Icc 1 models) (fun j => (Function.update s.todo i rest j).length) hmem
    have h3 : ∑ j ∈ (Finset.Icc 1 models).erase i, (Function.update s.todo i rest j).length =
        ∑ j ∈ (Finset.Icc 1 models).erase i, (s.todo j).length :=
      Finset.sum_congr rfl fun j hj => by rw [Function.update_of_ne (Finset.ne_of_mem_erase hj)]
    simp only [Function.update_self, ht, List.length_cons] at h1 h2
    simp only [progMeasure, List.length_append, List.length_singleton]
    omega
  | finish hm ht =>
    simp only [progMeasure, hm, List.length_append, List.length_singleton]
    omega
  | deliver i r rest hl hq =>
    simp only [progMeasure, hq, List.length_cons]
    omega
  | stop rest hl hq =>
    simp only [progMeasure, hq, List.length_cons]
    omega
  | join hm hl =>
    simp only [progMeasure, hm]
    omega
  | fail hm =>
    simp only [progMeasure, hm]
    omega

/-- C189, liveness: an execution has at most two steps per report and three more, and as long as training is not past the
join a step other than the failure of a worker is possible: no interleaving blocks the main process, with any
callback. -/
theorem C189_returns :
    (∀ (e : ℕ → ProgState) (n : ℕ), e 0 = ProgState.init reports →
      (∀ k < n, ProgStep models raises (e k) (e (k + 1))) →
      n ≤ 2 * (∑ i ∈ Finset.Icc 1 models, (reports i).length) + 3) ∧
    ∀ s, ProgReach models raises reports s → s.main ≠ .failed → s.main ≠ .joined →
      ∃ s', ProgStep models raises s s' ∧ s'.main ≠ .failed := by
  constructor
  · intro e n h0 hs
    have h1 : ∀ k ≤ n, progMeasure models (e k) + k ≤ progMeasure models (e 0) := by
      intro k
      induction k with
      | zero => intro _; omega
      | succ k ih =>
        intro hk
        have := (hs k (by omega)).lt
        have := ih (by omega)
        omega
    have h2 := h1 n le_rfl
    rw [h0] at h2
    simp only [progMeasure, ProgState.init, List.length_nil] at h2
    omega
  · intro s h hnf hnj
    have inv := h.inv
    rcases hm : s.main with _ | _ | _ | _
    · by_cases ht : ∀ i, 1 ≤ i → i ≤ models → s.todo i = []
      · exact ⟨_, ProgStep.finish s hm ht, by simp⟩
      · push Not at ht
        obtain ⟨i, hi, hi', hne⟩ := ht
        obtain ⟨r, rest, hr⟩ := List.exists_cons_of_ne_nil hne
        exact ⟨_, ProgStep.send s i r rest ⟨hi, hi'⟩ hm hr, by simpa using hnf⟩
    · rcases hl : s.listening with _ | _
      · exact ⟨_, ProgStep.join s hm hl, by simp⟩
      · obtain ⟨q, hq, _⟩ := inv.mark (.inl hm) hl
        cases q with
        | nil => exact ⟨_, ProgStep.stop s [] hl hq, by simpa using hnf⟩
        | cons a t =>
          rw [List.cons_append] at hq
          cases a with
          | report i r => exact ⟨_, ProgStep.deliver s i r _ hl hq, by simpa using hnf⟩
          | done => exact ⟨_, ProgStep.stop s _ hl hq, by simpa using hnf⟩
    · exact absurd hm hnj
    · exact absurd hm hnf

/-- C189: with the reports the compiled loop makes (C14), a callback that does not raise has been called for every model
once training is past the join, with increasing iterations; exactly the last call for a model is flagged completed,
wherever the calls for the other models fall. -/
theorem C189_flags {σ K : Type*} [Field K] [LinearOrder K] (step : Bool → σ → σ) (loss : σ → Option K)
    (cfg : LoopCfg K) (clock : ℕ → ℕ → Bool) (start : ℕ → σ) (hmax : 0 < cfg.maxIter)
    (h : ProgReach models raises (fun i => (rustLoop step loss cfg (clock i) (start i)).reports) s)
    (hj : s.main = .joined) (hr : ∀ p, p <+: s.calls → p ≠ [] → raises p = false) (i : ℕ) (hi : 1 ≤ i)
    (hi' : i ≤ models) :
    ((callsOf i s.calls).map Report.iter).Pairwise (· < ·) ∧
      ∃ earlier last, callsOf i s.calls = earlier ++ [last] ∧ last.completed = true ∧
        last.iter + 1 = (rustLoop step loss cfg (clock i) (start i)).losses.length ∧
        ∀ e ∈ earlier, e.completed = false := by
  rw [(C189_complete h hj hr).1 i hi hi']
  obtain ⟨h1, earlier, h2, h3⟩ := C14_reports step loss cfg (clock i) (start i) hmax
  refine ⟨h1, earlier, _, h2, rfl, ?_, h3⟩
  obtain ⟨t, ht, _, _, h4, _⟩ := rustLoop_spec step loss cfg (clock i) (start i) hmax
  have hlen : (rustLoop step loss cfg (clock i) (start i)).losses.length = t := by rw [h4]; simp
  dsimp only
  omega

/-! ## Examples -/

/-- Two models, the first reporting twice. -/
def exProgReports : ℕ → List Report
  | 1 => [⟨3, false⟩, ⟨7, true⟩]
  | 2 => [⟨5, true⟩]
  | _ => []

/-- The reports of the models arrive interleaved; none is lost. -/
example : ∃ s, ProgReach 2 (fun _ => false) exProgReports s ∧ s.main = .joined ∧
    s.calls = [(1, ⟨3, false⟩), (2, ⟨5, true⟩), (1, ⟨7, true⟩)] := by
  refine ⟨_, .step _ _ (.step _ _ (.step _ _ (.step _ _ (.step _ _ (.step _ _ (.step _ _ (.step _ _ (.step _ _ .init
    (.send _ 1 ⟨3, false⟩ [⟨7, true⟩] (by decide) rfl rfl)) (.send _ 2 ⟨5, true⟩ [] (by decide) rfl rfl))
    (.deliver _ 1 ⟨3, false⟩ _ rfl rfl)) (.send _ 1 ⟨7, true⟩ [] (by decide) rfl rfl))
    (.deliver _ 2 ⟨5, true⟩ _ rfl rfl)) (.finish _ rfl ?_)) (.deliver _ 1 ⟨7, true⟩ _ rfl rfl)) (.stop _ _ rfl rfl))
    (.join _ rfl rfl), rfl, rfl⟩
  intro i hi hi'
  obtain rfl | rfl : i = 1 ∨ i = 2 := by omega
  · rfl
  · rfl

/-- A callback that raises at its first call misses the end of both models; in the sequential mode it is called three
times. -/
example : (∃ s, ProgReach 2 (fun _ => true) exProgReports s ∧ s.main = .joined ∧ s.calls = [(1, ⟨3, false⟩)]) ∧
    seqProgress 2 exProgReports = [(1, ⟨3, false⟩), (1, ⟨7, true⟩), (2, ⟨5, true⟩)] := by
  refine ⟨⟨_, .step _ _ (.step _ _ (.step _ _ (.step _ _ (.step _ _ (.step _ _ .init
    (.send _ 1 ⟨3, false⟩ [⟨7, true⟩] (by decide) rfl rfl)) (.deliver _ 1 ⟨3, false⟩ _ rfl rfl))
    (.send _ 2 ⟨5, true⟩ [] (by decide) rfl rfl)) (.send _ 1 ⟨7, true⟩ [] (by decide) rfl rfl)) (.finish _ rfl ?_))
    (.join _ rfl rfl), rfl, rfl⟩, rfl⟩
  intro i hi hi'
  obtain rfl | rfl : i = 1 ∨ i = 2 := by omega
  · rfl
  · rfl

end Esat
