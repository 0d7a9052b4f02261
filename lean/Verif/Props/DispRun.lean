import Verif.Model.DispRun
import Verif.Props.Displacement
import Verif.Lemmas.MapM

/-!
# Property C204: `Displacement.run`
-/

namespace Esat

section dicts
variable {κ β : Type*} [DecidableEq κ]

theorem dictSet_keys_of_mem (d : PyDict κ β) (key : κ) (v : β) (h : key ∈ d.map (·.1)) : (dictSet d key v).map (·.1) = d.map (·.1) := by
  unfold dictSet
  obtain ⟨p, hp, rfl⟩ := List.mem_map.1 h
  rw [if_pos (List.any_eq_true.2 ⟨p, hp, by simp⟩), List.map_map]
  apply List.map_congr_left
  intro q _
  simp only [Function.comp_apply]
  split
  · rename_i h; exact h.symm
  · rfl

theorem mem_dictSet_or (d : PyDict κ β) (key : κ) (v : β) (p : κ × β) (h : p ∈ dictSet d key v) : p = (key, v) ∨ p ∈ d := by
  unfold dictSet at h
  split at h
  · obtain ⟨q, hq, rfl⟩ := List.mem_map.1 h
    split
    · exact Or.inl rfl
    · exact Or.inr hq
  · rcases List.mem_append.1 h with h | h
    · exact Or.inr h
    · exact Or.inl (by simpa using h)

theorem dictSet_same (d : PyDict κ β) (hd : (d.map (·.1)).Nodup) (key : κ) (v : β) (h : (key, v) ∈ d) : dictSet d key v = d := by
  unfold dictSet
  rw [if_pos (List.any_eq_true.2 ⟨_, h, by simp⟩)]
  conv_rhs => rw [← List.map_id d]
  apply List.map_congr_left
  intro q hq
  simp only [id]
  split
  · rename_i hk
    have h1 := dictGet_of_mem d hd key v h
    have h2 := dictGet_of_mem d hd q.1 q.2 hq
    rw [hk, h1, Option.some.injEq] at h2
    exact Prod.ext hk.symm h2
  · rfl

end dicts

section run
variable {K : Type*} [Field K] [LinearOrder K] {m k n : ℕ}

/-- The tasks of one parallel run. -/
def dispTasks (k : ℕ) (features : List (Fin n)) : List (Fin k × Fin n) := (List.finRange k).flatMap fun a => features.map fun j => (a, j)

/-- A mode whose tasks all finish, each once. -/
def DispMode.ok (features : List (Fin n)) : DispMode k n → Prop
  | .seq => True
  | .par d1 d2 => d1.Perm (dispTasks k features) ∧ d2.Perm (dispTasks k features)

/-- The order of the factors in the dictionaries of a run of a new object: increasing and decreasing. -/
def DispMode.order : DispMode k n → List (Fin k) × List (Fin k)
  | .seq => (List.finRange k, List.finRange k)
  | .par d1 d2 => (firsts d1, firsts d2)

/-- What is kept in a result dictionary between the runs. -/
def DispInv (out : Fin k → Fin n → List (LevelOut K)) (features : List (Fin n)) (order : List (Fin k))
    (d : PyDict (Fin k) (PyDict (Fin n) (List (LevelOut K)))) : Prop :=
  d.map (·.1) = order ∧ order.Nodup ∧ (∀ a : Fin k, features ≠ [] → a ∈ order) ∧
    ∀ p ∈ d, p.2.Perm (features.map fun j => (j, out p.1 j))

theorem mem_dispTasks (features : List (Fin n)) (a : Fin k) (j : Fin n) : (a, j) ∈ dispTasks k features ↔ j ∈ features := by
  simp [dispTasks]

theorem dispTasks_nodup (features : List (Fin n)) (hf : features.Nodup) : (dispTasks k features).Nodup := by
  have e : dispTasks k features = (List.finRange k) ×ˢ features := rfl
  rw [e]
  exact (List.nodup_finRange k).product hf

theorem firsts_nodup (l : List (Fin k × Fin n)) : (firsts l).Nodup := by
  induction l using List.reverseRecOn with
  | nil => simp [firsts]
  | append_singleton l p ih =>
    rw [firsts_append]
    split
    · exact ih
    · rename_i h
      rw [List.nodup_append]
      exact ⟨ih, by simp, fun a ha b hb e => h (by rw [List.mem_singleton] at hb; rw [← hb, ← e]; exact ha)⟩

theorem dispResults_new (out : Fin k → Fin n → List (LevelOut K)) (features : List (Fin n)) (hf : features.Nodup)
    (done : Option (List (Fin k × Fin n))) (hd : ∀ d ∈ done, d.Perm (dispTasks k features)) :
    DispInv out features (match done with | none => List.finRange k | some d => firsts d) (dispResults out features done []) := by
  cases done with
  | none =>
    simp only [dispResults]
    rw [seqResults_eq out features hf]
    refine ⟨by simp [Function.comp_def], List.nodup_finRange k, fun a _ => List.mem_finRange a, ?_⟩
    intro p hp
    obtain ⟨a, -, rfl⟩ := List.mem_map.1 hp
    exact List.Perm.refl _
  | some d =>
    simp only [dispResults]
    have hp := hd d rfl
    have hnd : d.Nodup := hp.nodup_iff.2 (dispTasks_nodup features hf)
    unfold parResults
    rw [foldl_dictSet2 out d hnd]
    refine ⟨by simp [Function.comp_def], firsts_nodup d, fun a hne => ?_, ?_⟩
    · obtain ⟨j, hj⟩ := List.exists_mem_of_ne_nil _ hne
      exact (mem_firsts d a).2 ⟨(a, j), hp.mem_iff.2 ((mem_dispTasks features a j).2 hj), rfl⟩
    · intro p hp'
      obtain ⟨a, -, rfl⟩ := List.mem_map.1 hp'
      dsimp only
      have h1 : (d.filter fun p => p.1 = a).Perm (features.map fun j => (a, j)) := by
        refine (hp.filter _).trans (List.Perm.of_eq ?_)
        unfold dispTasks
        rw [List.filter_flatMap]
        have hg : ∀ b : Fin k, (features.map fun j => (b, j)).filter (fun p => decide (p.1 = a)) =
            if b = a then features.map fun j => (a, j) else [] := by
          intro b
          by_cases hb : b = a
          · subst hb; simp
          · simp [hb]
        simp only [hg]
        have key : ∀ l : List (Fin k), l.Nodup →
            (l.flatMap fun b => if b = a then features.map fun j => (a, j) else []) =
              if a ∈ l then features.map fun j => (a, j) else [] := by
          intro l
          induction l with
          | nil => intro _; simp
          | cons b l ih =>
            intro hl
            rw [List.nodup_cons] at hl
            rw [List.flatMap_cons, ih hl.2]
            by_cases hb : b = a
            · subst hb; simp [hl.1]
            · simp [hb, Ne.symm hb]
        rw [key _ (List.nodup_finRange k), if_pos (List.mem_finRange a)]
      have h2 := h1.map fun p => (p.2, out a p.2)
      rw [List.map_map] at h2
      exact h2

theorem dispResults_again (out : Fin k → Fin n → List (LevelOut K)) (features : List (Fin n)) (hf : features.Nodup)
    (done : Option (List (Fin k × Fin n))) (hd : ∀ d ∈ done, d.Perm (dispTasks k features)) (order : List (Fin k))
    (hord : ∀ a : Fin k, done = none → a ∈ order)
    (prev : PyDict (Fin k) (PyDict (Fin n) (List (LevelOut K)))) (h : DispInv out features order prev) :
    DispInv out features order (dispResults out features done prev) := by
  cases done with
  | none =>
    simp only [dispResults, seqResults]
    have hin : ∀ a, features.foldl (fun e j => dictSet e j (out a j)) [] = features.map fun j => (j, out a j) := by
      intro a
      rw [foldl_dictSet_append (out a) features hf [] (by simp), List.nil_append]
    simp only [hin]
    have key : ∀ (l : List (Fin k)) (d : PyDict (Fin k) (PyDict (Fin n) (List (LevelOut K)))), DispInv out features order d →
        DispInv out features order (l.foldl (fun d a => dictSet d a (features.map fun j => (j, out a j))) d) := by
      intro l
      induction l with
      | nil => intro d h; exact h
      | cons a l ih =>
        intro d hd
        rw [List.foldl_cons]
        obtain ⟨h1, h2, h3, h4⟩ := hd
        refine ih _ ⟨(dictSet_keys_of_mem d a _ (h1 ▸ hord a rfl)).trans h1, h2, h3, ?_⟩
        intro p hp
        rcases mem_dictSet_or d a _ p hp with rfl | hp
        · exact List.Perm.refl _
        · exact h4 p hp
    exact key _ prev h
  | some done =>
    simp only [dispResults, parResults]
    have hmem : ∀ p ∈ done, p.2 ∈ features := fun p hp => (mem_dispTasks features p.1 p.2).1 ((hd done rfl).mem_iff.1 hp)
    have key : ∀ (l : List (Fin k × Fin n)), (∀ p ∈ l, p.2 ∈ features) → l.foldl (fun d p => dictSet2 d p.1 p.2 (out p.1 p.2)) prev = prev := by
      intro l
      induction l with
      | nil => intro _; rfl
      | cons p l ih =>
        intro hl
        rw [List.foldl_cons]
        obtain ⟨h1, h2, h3, h4⟩ := h
        have hj := hl p List.mem_cons_self
        have ha : p.1 ∈ prev.map (·.1) := h1 ▸ h3 p.1 (List.ne_nil_of_mem hj)
        obtain ⟨q, hq, hqa⟩ := List.mem_map.1 ha
        have hnd : (prev.map (·.1)).Nodup := h1 ▸ h2
        have hg : dictGet prev p.1 = some q.2 := dictGet_of_mem prev hnd p.1 q.2 (by rw [← hqa]; exact hq)
        have hperm := h4 q hq
        rw [hqa] at hperm
        have hnd2 : (q.2.map (·.1)).Nodup := by
          refine (hperm.map _).nodup_iff.2 ?_
          rw [List.map_map]
          simpa [Function.comp_def] using hf
        have hsame : dictSet2 prev p.1 p.2 (out p.1 p.2) = prev := by
          unfold dictSet2
          rw [hg, Option.getD_some, dictSet_same q.2 hnd2 p.2 _ (hperm.mem_iff.2 (List.mem_map.2 ⟨p.2, hj, rfl⟩))]
          exact dictSet_same prev hnd p.1 q.2 (by rw [← hqa]; exact hq)
        rw [hsame]
        exact ih fun x hx => hl x (List.mem_cons_of_mem _ hx)
    rw [key done hmem]
    exact h

theorem DispInv.lookup (out : Fin k → Fin n → List (LevelOut K)) (features : List (Fin n)) (hf : features.Nodup) (order : List (Fin k))
    (d : PyDict (Fin k) (PyDict (Fin n) (List (LevelOut K)))) (h : DispInv out features order d) (a : Fin k) (j : Fin n) (hj : j ∈ features) :
    (dictGet d a).bind (fun e => dictGet e j) = some (out a j) := by
  obtain ⟨h1, h2, h3, h4⟩ := h
  have ha : a ∈ d.map (·.1) := h1 ▸ h3 a (List.ne_nil_of_mem hj)
  obtain ⟨q, hq, rfl⟩ := List.mem_map.1 ha
  rw [dictGet_of_mem d (h1 ▸ h2) q.1 q.2 hq, Option.bind_some]
  have hnd2 : (q.2.map (·.1)).Nodup := by
    refine ((h4 q hq).map _).nodup_iff.2 ?_
    rw [List.map_map]
    simpa [Function.comp_def] using hf
  exact dictGet_of_mem q.2 hnd2 j _ ((h4 q hq).mem_iff.2 (List.mem_map.2 ⟨j, hj, rfl⟩))

/-- The tally of a dictionary in terms of the order of its factors. -/
theorem DispInv.tally (out : Fin k → Fin n → List (LevelOut K)) (features : List (Fin n)) (order : List (Fin k)) (levels : ℕ)
    (hl : ∀ a j, (out a j).length = levels)
    (d : PyDict (Fin k) (PyDict (Fin n) (List (LevelOut K)))) (h : DispInv out features order d) (t : SwapTables) (i c : ℕ) (hi : i < levels) :
    (tallyDict LevelOut.swap d 0 t).count i c = t.count i c + ((order[c]?).map fun _ => features.length).getD 0 ∧
    (tallyDict LevelOut.swap d 0 t).swap i c = t.swap i c + ((order[c]?).map fun a => swapsOf LevelOut.swap out features a i).getD 0 := by
  obtain ⟨h1, h2, h3, h4⟩ := h
  rw [(tallyDict_spec _ d 0 t i c).1, (tallyDict_spec _ d 0 t i c).2]
  simp only [Nat.zero_le, if_true, Nat.sub_zero]
  rw [← h1, List.getElem?_map]
  cases hc : d[c]? with
  | none => simp
  | some p =>
    have hp := h4 p (List.mem_of_getElem? hc)
    simp only [Option.map_some, Option.getD_some]
    constructor
    · rw [hp.countP_eq, List.countP_map]
      congr 1
      rw [List.countP_eq_length.2]
      intro j _
      simp [hl, hi]
    · rw [hp.countP_eq, List.countP_map]
      rfl

variable [IsStrictOrderedRing K]

/-- One run of a displacement object, as a step on what is kept. -/
theorem dispRun_step (E : DispEnv m k n K) (floor : K) (features : List (Fin n)) (hf : features.Nodup) (dQmax : List K) (o1 o2 : List (Fin k))
    (mode : DispMode k n) (st : DispState k n K)
    (h1 : DispInv (incEntry E dQmax) features o1 (dispRun E floor features dQmax st mode).inc)
    (h2 : DispInv (decEntry E dQmax) features o2 (dispRun E floor features dQmax st mode).dec) :
    ∃ rows, (dispRun E floor features dQmax st mode).rows = some rows ∧
      compileRows E floor features dQmax.length (dispRun E floor features dQmax st mode).inc (dispRun E floor features dQmax st mode).dec =
        some rows ∧
      (dispRun E floor features dQmax st mode).tables =
        tallyBoth LevelOut.swap (dispRun E floor features dQmax st mode).inc (dispRun E floor features dQmax st mode).dec st.tables := by
  have hinc : (dispRun E floor features dQmax st mode).inc = dispResults (incEntry E dQmax) features
      (match (generalizing := false) mode with | .seq => none | .par d1 _ => some d1) st.inc := by
    unfold dispRun
    cases mode <;> dsimp only <;> split <;> rfl
  have hdec : (dispRun E floor features dQmax st mode).dec = dispResults (decEntry E dQmax) features
      (match (generalizing := false) mode with | .seq => none | .par _ d2 => some d2) st.dec := by
    unfold dispRun
    cases mode <;> dsimp only <;> split <;> rfl
  obtain ⟨rows, hr, -, -⟩ := C35_complete E floor features dQmax.length (dispRun E floor features dQmax st mode).inc
    (dispRun E floor features dQmax st mode).dec
    (fun a j hj => ⟨_, h1.lookup _ _ hf _ _ a j hj, (C35_levels E dQmax a j).1⟩)
    (fun a j hj => ⟨_, h2.lookup _ _ hf _ _ a j hj, (C35_levels E dQmax a j).2⟩)
  refine ⟨rows, ?_, hr, ?_⟩
  · rw [hinc, hdec] at hr
    unfold dispRun
    cases mode <;> dsimp only at hr ⊢ <;> rw [hr]
  · rw [hinc, hdec] at hr ⊢
    unfold dispRun
    cases mode <;> dsimp only at hr ⊢ <;> rw [hr]

/-- The tasks of the increasing displacements of a mode. -/
def DispMode.incDone : DispMode k n → Option (List (Fin k × Fin n))
  | .seq => none
  | .par d1 _ => some d1

/-- The tasks of the decreasing displacements of a mode. -/
def DispMode.decDone : DispMode k n → Option (List (Fin k × Fin n))
  | .seq => none
  | .par _ d2 => some d2

omit [IsStrictOrderedRing K] in
theorem dispRun_dicts (E : DispEnv m k n K) (floor : K) (features : List (Fin n)) (dQmax : List K) (mode : DispMode k n) (st : DispState k n K) :
    (dispRun E floor features dQmax st mode).inc = dispResults (incEntry E dQmax) features mode.incDone st.inc ∧
    (dispRun E floor features dQmax st mode).dec = dispResults (decEntry E dQmax) features mode.decDone st.dec := by
  unfold dispRun
  constructor <;> cases mode <;> dsimp only <;> split <;> rfl

/-- What is kept after any positive number of runs: the order of the factors in the dictionaries is that of the first run. -/
theorem dispRun_inv (E : DispEnv m k n K) (floor : K) (features : List (Fin n)) (hf : features.Nodup) (hne : features ≠ []) (dQmax : List K)
    (m0 : DispMode k n) (h0 : m0.ok features) (ms : List (DispMode k n)) (hms : ∀ x ∈ ms, x.ok features) :
    DispInv (incEntry E dQmax) features m0.order.1 ((m0 :: ms).foldl (dispRun E floor features dQmax) .new).inc ∧
    DispInv (decEntry E dQmax) features m0.order.2 ((m0 :: ms).foldl (dispRun E floor features dQmax) .new).dec := by
  have hok1 : ∀ x : DispMode k n, x.ok features → ∀ d ∈ x.incDone, d.Perm (dispTasks k features) := by
    intro x hx d hd
    cases x with
    | seq => cases hd
    | par d1 d2 => cases hd; exact hx.1
  have hok2 : ∀ x : DispMode k n, x.ok features → ∀ d ∈ x.decDone, d.Perm (dispTasks k features) := by
    intro x hx d hd
    cases x with
    | seq => cases hd
    | par d1 d2 => cases hd; exact hx.2
  induction ms using List.reverseRecOn with
  | nil =>
    rw [List.foldl_cons, List.foldl_nil, (dispRun_dicts E floor features dQmax m0 .new).1, (dispRun_dicts E floor features dQmax m0 .new).2]
    have g1 := dispResults_new (incEntry E dQmax) features hf m0.incDone (hok1 m0 h0)
    have g2 := dispResults_new (decEntry E dQmax) features hf m0.decDone (hok2 m0 h0)
    cases m0 <;> exact ⟨g1, g2⟩
  | append_singleton ms x ih =>
    obtain ⟨i1, i2⟩ := ih fun y hy => hms y (List.mem_append_left _ hy)
    have hx := hms x (by simp)
    rw [← List.cons_append, List.foldl_append, List.foldl_cons, List.foldl_nil]
    generalize (m0 :: ms).foldl (dispRun E floor features dQmax) .new = st at i1 i2
    rw [(dispRun_dicts E floor features dQmax x st).1, (dispRun_dicts E floor features dQmax x st).2]
    exact ⟨dispResults_again _ features hf _ (hok1 x hx) _ (fun a _ => i1.2.2.1 a hne) _ i1,
      dispResults_again _ features hf _ (hok2 x hx) _ (fun a _ => i2.2.2.1 a hne) _ i2⟩

omit [IsStrictOrderedRing K] in
theorem foldl_snoc_cases {α β : Type*} (f : β → α → β) (b : β) (a : α) (l : List α) :
    ∃ l' x, a :: l = l' ++ [x] ∧ (a :: l).foldl f b = f (l'.foldl f b) x := by
  obtain ⟨l', x, h⟩ : ∃ l' x, a :: l = l' ++ [x] := ⟨(a :: l).dropLast, (a :: l).getLast (by simp), (List.dropLast_append_getLast (by simp)).symm⟩
  exact ⟨l', x, h, by rw [h, List.foldl_append]; rfl⟩

/-- The compiled table after any sequence of complete runs, sequential or parallel, in any order of the workers: one row per level, factor and feature, in
this order; a requested feature has the percentages, the concentrations (at least the floor) and the larger drop of the loss of its own two searches,
another feature its base values. -/
theorem C204_rows (E : DispEnv m k n K) (floor : K) (features : List (Fin n)) (hf : features.Nodup) (hne : features ≠ []) (dQmax : List K)
    (m0 : DispMode k n) (h0 : m0.ok features) (ms : List (DispMode k n)) (hms : ∀ x ∈ ms, x.ok features) :
    ∃ rows, ((m0 :: ms).foldl (dispRun E floor features dQmax) .new).rows = some rows ∧
      rows.map (fun r => (r.level, r.factor, r.feature)) =
        ((List.range dQmax.length).flatMap fun i => (List.finRange k).flatMap fun a => (List.finRange n).map fun j => (i, a, j)) ∧
      ∀ r ∈ rows, r.profile = E.H r.factor r.feature / ∑ b, E.H b r.feature ∧ r.conc = ∑ s, E.W s r.factor * E.H r.factor r.feature ∧
        (r.feature ∈ features → ∃ p q, (incEntry E dQmax r.factor r.feature)[r.level]? = some p ∧
          (decEntry E dQmax r.factor r.feature)[r.level]? = some q ∧ r.pmax = p.percent ∧ r.pmin = q.percent ∧
          r.cmax = max p.conc floor ∧ r.cmin = max q.conc floor ∧ r.drop = min (min p.qDrop q.qDrop) 0) ∧
        (r.feature ∉ features → r.pmax = r.profile ∧ r.pmin = r.profile ∧ r.cmax = max r.conc floor ∧ r.cmin = max r.conc floor ∧ r.drop = 0) := by
  obtain ⟨i1, i2⟩ := dispRun_inv E floor features hf hne dQmax m0 h0 ms hms
  obtain ⟨l', x, -, he⟩ := foldl_snoc_cases (dispRun E floor features dQmax) .new m0 ms
  rw [he] at i1 i2 ⊢
  obtain ⟨rows, hr, hc, -⟩ := dispRun_step E floor features hf dQmax _ _ x _ i1 i2
  generalize dispRun E floor features dQmax (List.foldl (dispRun E floor features dQmax) .new l') x = st at *
  have key : ∀ i < dQmax.length, ∀ a j r, compileRow E floor features st.inc st.dec i a j = some r →
      (r.level = i ∧ r.factor = a ∧ r.feature = j) ∧ r.profile = E.H r.factor r.feature / ∑ b, E.H b r.feature ∧
        r.conc = ∑ s, E.W s r.factor * E.H r.factor r.feature ∧
        (r.feature ∈ features → ∃ p q, (incEntry E dQmax r.factor r.feature)[r.level]? = some p ∧
          (decEntry E dQmax r.factor r.feature)[r.level]? = some q ∧ r.pmax = p.percent ∧ r.pmin = q.percent ∧
          r.cmax = max p.conc floor ∧ r.cmin = max q.conc floor ∧ r.drop = min (min p.qDrop q.qDrop) 0) ∧
        (r.feature ∉ features → r.pmax = r.profile ∧ r.pmin = r.profile ∧ r.cmax = max r.conc floor ∧ r.cmin = max r.conc floor ∧ r.drop = 0) := by
    intro i hi a j r h
    have hmax : ∀ c : K, (if floor < c then c else floor) = max c floor := by
      intro c
      split_ifs with h
      · rw [max_eq_left h.le]
      · rw [max_eq_right (not_lt.1 h)]
    have hmin : ∀ c : K, (if c < 0 then c else 0) = min c 0 := by
      intro c
      split_ifs with h
      · rw [min_eq_left h.le]
      · rw [min_eq_right (not_lt.1 h)]
    have hmin2 : ∀ c d : K, (if c < d then c else d) = min c d := by
      intro c d
      split_ifs with h
      · rw [min_eq_left h.le]
      · rw [min_eq_right (not_lt.1 h)]
    simp only [compileRow] at h
    by_cases hj : j ∈ features
    · rw [if_pos hj] at h
      have e1 := i1.lookup _ _ hf _ _ a j hj
      have e2 := i2.lookup _ _ hf _ _ a j hj
      have l1 : lookupLevel st.inc a j i = (incEntry E dQmax a j)[i]? := by
        unfold lookupLevel
        rw [← Option.bind_assoc, e1, Option.bind_some]
      have l2 : lookupLevel st.dec a j i = (decEntry E dQmax a j)[i]? := by
        unfold lookupLevel
        rw [← Option.bind_assoc, e2, Option.bind_some]
      rw [l1, l2] at h
      split at h
      · rename_i p q hp hq
        rw [Option.some.injEq] at h
        subst h
        refine ⟨⟨rfl, rfl, rfl⟩, rfl, rfl, fun _ => ⟨p, q, hp, hq, rfl, rfl, hmax _, hmax _, ?_⟩, fun hn => absurd hj hn⟩
        rw [hmin2, hmin2]
      · cases h
    · rw [if_neg hj, Option.some.injEq] at h
      subst h
      exact ⟨⟨rfl, rfl, rfl⟩, rfl, rfl, fun hn => absurd hn hj, fun _ => ⟨rfl, rfl, hmax _, hmax _, by simp⟩⟩
  unfold compileRows at hc
  have hlevel : ∀ t ∈ ((List.range dQmax.length).flatMap fun i => (List.finRange k).flatMap fun a => (List.finRange n).map fun j => (i, a, j)),
      t.1 < dQmax.length := by
    rintro ⟨i, a, j⟩ ht
    simp only [List.mem_flatMap, List.mem_range, List.mem_map, Prod.mk.injEq] at ht
    obtain ⟨i', hi', a', _, j', _, rfl, rfl, rfl⟩ := ht
    exact hi'
  generalize ((List.range dQmax.length).flatMap fun i => (List.finRange k).flatMap fun a => (List.finRange n).map fun j => (i, a, j)) = ts at hc hlevel
  have hlen := mapM_option_length _ _ _ hc
  refine ⟨rows, hr, ?_, ?_⟩
  · apply List.ext_getElem (by simpa using hlen)
    intro q h1 h2
    have hg := mapM_option_get _ _ _ hc q h2
    obtain ⟨⟨k1, k2, k3⟩, -⟩ := key _ (hlevel _ (List.getElem_mem h2)) _ _ _ hg
    rw [List.getElem_map]
    exact Prod.ext k1 (Prod.ext k2 k3)
  · intro r hrm
    obtain ⟨t, ht, hg⟩ := mapM_option_mem _ _ _ hc r hrm
    exact (key _ (hlevel _ ht) _ _ _ hg).2

/-- Sequential and parallel runs, and repeated runs, end in the same compiled table. -/
theorem C204_modes (E : DispEnv m k n K) (floor : K) (features : List (Fin n)) (hf : features.Nodup) (hne : features ≠ []) (dQmax : List K)
    (m0 : DispMode k n) (h0 : m0.ok features) (ms : List (DispMode k n)) (hms : ∀ x ∈ ms, x.ok features) :
    ((m0 :: ms).foldl (dispRun E floor features dQmax) .new).rows = (dispRun E floor features dQmax .new .seq).rows := by
  obtain ⟨r1, h1, h2, h3⟩ := C204_rows E floor features hf hne dQmax m0 h0 ms hms
  obtain ⟨r2, g1, g2, g3⟩ := C204_rows E floor features hf hne dQmax .seq trivial [] (by simp)
  rw [List.foldl_cons, List.foldl_nil] at g1
  rw [h1, g1, Option.some.injEq]
  have hlen : r1.length = r2.length := by
    have := congrArg List.length (h2.trans g2.symm)
    simpa using this
  apply List.ext_getElem hlen
  intro q hq hq'
  have hk : (r1[q].level, r1[q].factor, r1[q].feature) = (r2[q].level, r2[q].factor, r2[q].feature) := by
    have := congrArg (fun l => l[q]?) (h2.trans g2.symm)
    simpa [hq, hq'] using this
  obtain ⟨p1, p2, p3, p4⟩ := h3 _ (List.getElem_mem hq)
  obtain ⟨s1, s2, s3, s4⟩ := g3 _ (List.getElem_mem hq')
  generalize r1[q] = x at *
  generalize r2[q] = y at *
  obtain ⟨xl, xf, xj, x1, x2, x3, x4, x5, x6, x7⟩ := x
  obtain ⟨yl, yf, yj, y1, y2, y3, y4, y5, y6, y7⟩ := y
  simp only [Prod.mk.injEq] at hk
  obtain ⟨rfl, rfl, rfl⟩ := hk
  simp only at p1 p2 p3 p4 s1 s2 s3 s4
  by_cases hj : xj ∈ features
  · obtain ⟨p, q, e1, e2, e3, e4, e5, e6, e7⟩ := p3 hj
    obtain ⟨p', q', f1, f2, f3, f4, f5, f6, f7⟩ := s3 hj
    rw [e1, Option.some.injEq] at f1
    rw [e2, Option.some.injEq] at f2
    subst f1 f2
    rw [p1, p2, e3, e4, e5, e6, e7, s1, s2, f3, f4, f5, f6, f7]
  · obtain ⟨e3, e4, e5, e6, e7⟩ := p4 hj
    obtain ⟨f3, f4, f5, f6, f7⟩ := s4 hj
    rw [e3, e4, e5, e6, e7, f3, f4, f5, f6, f7, p1, p2, s1, s2]

/-- The tables after `r` complete runs: `r` times what one run counts; column `c` is the factor that came as number `c` in the **first** run, also for later
sequential runs (**Disagreement** when the first run was parallel). -/
theorem C204_tables (E : DispEnv m k n K) (floor : K) (features : List (Fin n)) (hf : features.Nodup) (hne : features ≠ []) (dQmax : List K)
    (m0 : DispMode k n) (h0 : m0.ok features) (ms : List (DispMode k n)) (hms : ∀ x ∈ ms, x.ok features) (i : ℕ) (hi : i < dQmax.length) (c : Fin k) :
    ((m0 :: ms).foldl (dispRun E floor features dQmax) .new).tables.count i c = (ms.length + 1) * (2 * features.length) ∧
    ∃ a b, m0.order.1[c.1]? = some a ∧ m0.order.2[c.1]? = some b ∧
      ((m0 :: ms).foldl (dispRun E floor features dQmax) .new).tables.swap i c =
        (ms.length + 1) * (swapsOf LevelOut.swap (incEntry E dQmax) features a i + swapsOf LevelOut.swap (decEntry E dQmax) features b i) := by
  have hord : ∀ (out : Fin k → Fin n → List (LevelOut K)) (o : List (Fin k)) d, DispInv out features o d → ∃ a, o[c.1]? = some a := by
    intro out o d h
    have hlen : o.length = k := by
      have h1 := h.2.1.length_le_card
      have h2 : (List.finRange k).length ≤ o.length := (List.nodup_finRange k).length_le_of_subset fun a _ => h.2.2.1 a hne
      simp only [Fintype.card_fin, List.length_finRange] at h1 h2
      omega
    exact ⟨o[c.1]'(by omega), List.getElem?_eq_getElem _⟩
  obtain ⟨j1, j2⟩ := dispRun_inv E floor features hf hne dQmax m0 h0 [] (by simp)
  obtain ⟨a, ha⟩ := hord _ _ _ j1
  obtain ⟨b, hb⟩ := hord _ _ _ j2
  suffices h : ((m0 :: ms).foldl (dispRun E floor features dQmax) .new).tables.count i c = (ms.length + 1) * (2 * features.length) ∧
      ((m0 :: ms).foldl (dispRun E floor features dQmax) .new).tables.swap i c =
        (ms.length + 1) * (swapsOf LevelOut.swap (incEntry E dQmax) features a i + swapsOf LevelOut.swap (decEntry E dQmax) features b i) from
    ⟨h.1, a, b, ha, hb, h.2⟩
  have step : ∀ (st : DispState k n K) (x : DispMode k n),
      DispInv (incEntry E dQmax) features m0.order.1 (dispRun E floor features dQmax st x).inc →
      DispInv (decEntry E dQmax) features m0.order.2 (dispRun E floor features dQmax st x).dec →
      (dispRun E floor features dQmax st x).tables.count i c = st.tables.count i c + 2 * features.length ∧
      (dispRun E floor features dQmax st x).tables.swap i c = st.tables.swap i c +
        (swapsOf LevelOut.swap (incEntry E dQmax) features a i + swapsOf LevelOut.swap (decEntry E dQmax) features b i) := by
    intro st x i1 i2
    obtain ⟨rows, -, -, ht⟩ := dispRun_step E floor features hf dQmax _ _ x st i1 i2
    rw [ht]
    unfold tallyBoth
    have t2 := i2.tally _ _ _ dQmax.length (fun a j => (C35_levels E dQmax a j).2) _
      (tallyDict LevelOut.swap (dispRun E floor features dQmax st x).inc 0 st.tables) i c.1 hi
    have t1 := i1.tally _ _ _ dQmax.length (fun a j => (C35_levels E dQmax a j).1) _ st.tables i c.1 hi
    rw [t2.1, t2.2, t1.1, t1.2, ha, hb]
    simp only [Option.map_some, Option.getD_some]
    constructor <;> omega
  induction ms using List.reverseRecOn with
  | nil =>
    obtain ⟨s1, s2⟩ := step .new m0 j1 j2
    rw [List.foldl_cons, List.foldl_nil, s1, s2]
    simp [DispState.new]
  | append_singleton ms x ih =>
    have i12 := dispRun_inv E floor features hf hne dQmax m0 h0 (ms ++ [x]) hms
    obtain ⟨e1, e2⟩ := ih fun y hy => hms y (List.mem_append_left _ hy)
    rw [← List.cons_append, List.foldl_append, List.foldl_cons, List.foldl_nil] at i12 ⊢
    obtain ⟨s1, s2⟩ := step _ x i12.1 i12.2
    rw [s1, s2, e1, e2, List.length_append, List.length_singleton]
    constructor <;> ring

/-- A requested feature without a result for some factor and level, in either direction: there is no table and the tallies are left as they
were, although the other results are kept. -/
theorem C204_missing (E : DispEnv m k n K) (floor : K) (features : List (Fin n)) (dQmax : List K) (mode : DispMode k n) (st : DispState k n K)
    (i : ℕ) (hi : i < dQmax.length) (a : Fin k) (j : Fin n) (hj : j ∈ features)
    (h : lookupLevel (dispResults (incEntry E dQmax) features mode.incDone st.inc) a j i = none ∨
      lookupLevel (dispResults (decEntry E dQmax) features mode.decDone st.dec) a j i = none) :
    (dispRun E floor features dQmax st mode).rows = none ∧ (dispRun E floor features dQmax st mode).tables = st.tables := by
  have hrow : compileRow E floor features (dispResults (incEntry E dQmax) features mode.incDone st.inc)
      (dispResults (decEntry E dQmax) features mode.decDone st.dec) i a j = none := by
    unfold compileRow
    dsimp only
    rw [if_pos hj]
    rcases h with h | h
    · rw [h]
    · rw [h]
      cases lookupLevel (dispResults (incEntry E dQmax) features mode.incDone st.inc) a j i <;> rfl
  have hrows : compileRows E floor features dQmax.length (dispResults (incEntry E dQmax) features mode.incDone st.inc)
      (dispResults (decEntry E dQmax) features mode.decDone st.dec) = none := by
    rw [← Option.not_isSome_iff_eq_none]
    unfold compileRows
    rw [mapM_isSome_iff]
    intro hall
    have := hall (i, a, j) (by simp [hi])
    rw [hrow] at this
    cases this
  unfold dispRun
  cases mode <;> dsimp only [DispMode.incDone, DispMode.decDone] at hrows ⊢ <;> rw [hrows] <;> exact ⟨rfl, rfl⟩

/-- A parallel run in which the worker of factor 1 did not report: the hypothesis holds and nothing is counted. -/
example : let E : DispEnv 1 2 1 ℚ := ⟨fun _ _ => 1, fun _ _ => 1, fun h => (h 0 0 + h 1 0) ^ 2, 4, fun h => (decide (1 < h 0 0), 3), 1 / 10, 1 / 100⟩
    let mode : DispMode 2 1 := .par [(0, 0)] [(0, 0), (1, 0)]
    let st := dispRun E (1 / 10000) [0] [4] .new mode
    lookupLevel (dispResults (incEntry E [4]) [0] mode.incDone []) 1 0 0 = none ∧ st.tables.count 0 0 = 0 ∧ st.inc.length = 1 := by
  decide +kernel

/-- Two factors, one feature, one level; only the displacement of factor 0 upwards swaps the factors, and the worker of factor 1 finishes first. A parallel and
then a sequential run: the table is the sequential one, but the two swaps are booked under factor 1. -/
example : let E : DispEnv 1 2 1 ℚ := ⟨fun _ _ => 1, fun _ _ => 1, fun h => (h 0 0 + h 1 0) ^ 2, 4, fun h => (decide (1 < h 0 0), 3), 1 / 10, 1 / 100⟩
    let mode : DispMode 2 1 := .par [(1, 0), (0, 0)] [(0, 0), (1, 0)]
    let st := [mode, .seq].foldl (dispRun E (1 / 10000) [0] [4]) .new
    mode.ok [0] ∧ st.tables.swap 0 0 = 0 ∧ st.tables.swap 0 1 = 2 ∧ st.tables.count 0 1 = 4 ∧
      (st.rows.map fun l => l.map fun r => (r.level, r.factor.1, r.drop)) = some [(0, 0, 0), (0, 1, 0)] := by
  refine ⟨⟨by decide +kernel, by decide +kernel⟩, ?_⟩
  decide +kernel

end run

end Esat
