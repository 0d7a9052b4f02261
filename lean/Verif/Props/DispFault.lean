import Verif.Model.DispFault
import Verif.Props.DispRun

/-!
# C267: a displacement that ends with an exception, and the runs after it
-/

namespace Esat

section
variable {K : Type*} [Field K] [LinearOrder K] {m k n : ℕ} {L : Type*}

/-- No requested task of the call raises. -/
def DispFault.clean (features : List (Fin n)) (r : DispFault k n) : Prop := ∀ a, ∀ j ∈ features, r.incRaises a j = false ∧ r.decRaises a j = false

theorem seqFaulty_clean (raises : Fin k → Fin n → Bool) (out : Fin k → Fin n → L) (features : List (Fin n)) (l : List (Fin k)) (h : ∀ a ∈ l, ∀ j ∈ features, raises a j = false) (d : PyDict (Fin k) (PyDict (Fin n) L)) :
    seqFaulty raises out features l d = (l.foldl (fun d a => dictSet d a (features.foldl (fun e j => dictSet e j (out a j)) [])) d, true) := by
  induction l generalizing d with
  | nil => rfl
  | cons a l ih =>
    have : features.any (raises a) = false := by
      rw [List.any_eq_false]
      intro j hj
      simp [h a (by simp) j hj]
    rw [seqFaulty, this]
    simp only [Bool.false_eq_true, if_false, List.foldl_cons]
    exact ih (fun b hb => h b (List.mem_cons_of_mem _ hb)) _

/-- An exception in factor `f`, after the factors of `l₁`. -/
theorem seqFaulty_fails (raises : Fin k → Fin n → Bool) (out : Fin k → Fin n → L) (features : List (Fin n)) (l₁ l₂ : List (Fin k)) (f : Fin k) (h : ∀ a ∈ l₁, ∀ j ∈ features, raises a j = false) (hf : ∃ j ∈ features, raises f j = true)
    (d : PyDict (Fin k) (PyDict (Fin n) L)) :
    seqFaulty raises out features (l₁ ++ f :: l₂) d = (l₁.foldl (fun d a => dictSet d a (features.foldl (fun e j => dictSet e j (out a j)) [])) d, false) := by
  induction l₁ generalizing d with
  | nil =>
    have : features.any (raises f) = true := List.any_eq_true.2 hf
    rw [List.nil_append, seqFaulty, this]
    rfl
  | cons a l ih =>
    have : features.any (raises a) = false := by
      rw [List.any_eq_false]
      intro j hj
      simp [h a (by simp) j hj]
    rw [List.cons_append, seqFaulty, this]
    simp only [Bool.false_eq_true, if_false, List.foldl_cons]
    exact ih (fun b hb => h b (List.mem_cons_of_mem _ hb)) _

theorem halfFaulty_clean (raises : Fin k → Fin n → Bool) (out : Fin k → Fin n → List (LevelOut K)) (features : List (Fin n)) (done : Option (List (Fin k × Fin n))) (hd : ∀ d ∈ done, d.Perm (dispTasks k features))
    (h : ∀ a, ∀ j ∈ features, raises a j = false) (prev : PyDict (Fin k) (PyDict (Fin n) (List (LevelOut K)))) : halfFaulty raises out features done prev = (dispResults out features done prev, true) := by
  cases done with
  | none => exact seqFaulty_clean raises out features _ (fun a _ => h a) prev
  | some d =>
    have : (d.any fun p => raises p.1 p.2) = false := by
      rw [List.any_eq_false]
      intro p hp
      simp [h p.1 p.2 ((mem_dispTasks features p.1 p.2).1 ((hd d rfl).mem_iff.1 hp))]
    simp [halfFaulty, dispResults, this]

theorem dispMode_done {features : List (Fin n)} {mode : DispMode k n} (h : mode.ok features) : (∀ d ∈ mode.incDone, d.Perm (dispTasks k features)) ∧ ∀ d ∈ mode.decDone, d.Perm (dispTasks k features) := by
  cases mode with
  | seq => exact ⟨by simp [DispMode.incDone], by simp [DispMode.decDone]⟩
  | par d1 d2 => exact ⟨fun d hd => by cases hd; exact h.1, fun d hd => by cases hd; exact h.2⟩

theorem dispRunFaulty_eq (E : DispEnv m k n K) (floor : K) (features : List (Fin n)) (dQmax : List K) (st : DispState k n K) (run : DispFault k n) :
    dispRunFaulty E floor features dQmax st run =
      let inc := halfFaulty run.incRaises (incEntry E dQmax) features run.mode.incDone st.inc
      if inc.2 then
        let dec := halfFaulty run.decRaises (decEntry E dQmax) features run.mode.decDone st.dec
        if dec.2 then
          match compileRows E floor features dQmax.length inc.1 dec.1 with
          | none => (⟨inc.1, dec.1, st.tables, none⟩, false)
          | some rows => (⟨inc.1, dec.1, tallyBoth LevelOut.swap inc.1 dec.1 st.tables, some rows⟩, true)
        else (⟨inc.1, dec.1, st.tables, st.rows⟩, false)
      else (⟨inc.1, st.dec, st.tables, st.rows⟩, false) := by
  unfold dispRunFaulty
  cases run.mode <;> rfl

/-- Every requested task of the dictionary has its result, whatever was in it before. -/
theorem dispResults_get (out : Fin k → Fin n → List (LevelOut K)) (features : List (Fin n)) (done : Option (List (Fin k × Fin n))) (hd : ∀ d ∈ done, d.Perm (dispTasks k features)) (prev : PyDict (Fin k) (PyDict (Fin n) (List (LevelOut K))))
    (a : Fin k) (j : Fin n) (hj : j ∈ features) : (dictGet (dispResults out features done prev) a).bind (fun e => dictGet e j) = some (out a j) := by
  cases done with
  | none => exact seqResults_get out features prev a j hj
  | some d => exact parResults_get out d prev a j ((hd d rfl).mem_iff.2 ((mem_dispTasks features a j).2 hj))

/-- The table depends on the results of the requested features only. -/
theorem compileRows_congr (E : DispEnv m k n K) (floor : K) (features : List (Fin n)) (levels : ℕ) (inc dec inc' dec' : PyDict (Fin k) (PyDict (Fin n) (List (LevelOut K))))
    (hi : ∀ a, ∀ j ∈ features, (dictGet inc a).bind (fun e => dictGet e j) = (dictGet inc' a).bind fun e => dictGet e j) (hd : ∀ a, ∀ j ∈ features, (dictGet dec a).bind (fun e => dictGet e j) = (dictGet dec' a).bind fun e => dictGet e j) :
    compileRows E floor features levels inc dec = compileRows E floor features levels inc' dec' := by
  have key : ∀ d d' : PyDict (Fin k) (PyDict (Fin n) (List (LevelOut K))), (∀ a, ∀ j ∈ features, (dictGet d a).bind (fun e => dictGet e j) = (dictGet d' a).bind fun e => dictGet e j) → ∀ a, ∀ j ∈ features, ∀ i, lookupLevel d a j i = lookupLevel d' a j i :=
    fun d d' h a j hj i => by
      unfold lookupLevel
      rw [← Option.bind_assoc, ← Option.bind_assoc, h a j hj]
  unfold compileRows
  congr 1
  funext t
  unfold compileRow
  by_cases hj : t.2.2 ∈ features
  · simp only [if_pos hj, key inc inc' hi t.2.1 t.2.2 hj, key dec dec' hd t.2.1 t.2.2 hj]
  · simp only [if_neg hj]

variable [IsStrictOrderedRing K]

/-- A run without exceptions on an object in any state. -/
theorem dispRun_any (E : DispEnv m k n K) (floor : K) (features : List (Fin n)) (dQmax : List K) (st : DispState k n K) (mode : DispMode k n) (hok : mode.ok features) :
    ∃ rows, compileRows E floor features dQmax.length (dispResults (incEntry E dQmax) features mode.incDone st.inc) (dispResults (decEntry E dQmax) features mode.decDone st.dec) = some rows ∧
      (dispRun E floor features dQmax .new .seq).rows = some rows ∧
      dispRun E floor features dQmax st mode = ⟨dispResults (incEntry E dQmax) features mode.incDone st.inc, dispResults (decEntry E dQmax) features mode.decDone st.dec,
        tallyBoth LevelOut.swap (dispResults (incEntry E dQmax) features mode.incDone st.inc) (dispResults (decEntry E dQmax) features mode.decDone st.dec) st.tables, some rows⟩ := by
  obtain ⟨hd1, hd2⟩ := dispMode_done hok
  obtain ⟨rows, hr, -⟩ := C35_complete E floor features dQmax.length _ _
    (fun a j hj => ⟨_, dispResults_get (incEntry E dQmax) features mode.incDone hd1 st.inc a j hj, (C35_levels E dQmax a j).1⟩)
    (fun a j hj => ⟨_, dispResults_get (decEntry E dQmax) features mode.decDone hd2 st.dec a j hj, (C35_levels E dQmax a j).2⟩)
  have hr' : compileRows E floor features dQmax.length (dispResults (incEntry E dQmax) features none []) (dispResults (decEntry E dQmax) features none []) = some rows := by
    rw [← hr]
    refine compileRows_congr E floor features _ _ _ _ _ (fun a j hj => ?_) fun a j hj => ?_
    · rw [dispResults_get _ features none (by simp) _ a j hj, dispResults_get _ features _ hd1 _ a j hj]
    · rw [dispResults_get _ features none (by simp) _ a j hj, dispResults_get _ features _ hd2 _ a j hj]
  refine ⟨rows, hr, ?_, ?_⟩
  · simp only [dispRun, DispState.new, hr']
  · unfold dispRun
    cases mode <;> simp only [DispMode.incDone, DispMode.decDone] at hr ⊢ <;> rw [hr]

/-- **C267 (no exception).** Without exceptions the run is that of C204 and returns, in whatever state the object is. -/
theorem C267_clean (E : DispEnv m k n K) (floor : K) (features : List (Fin n)) (dQmax : List K) (st : DispState k n K) (run : DispFault k n) (hok : run.mode.ok features) (hc : run.clean features) :
    dispRunFaulty E floor features dQmax st run = (dispRun E floor features dQmax st run.mode, true) := by
  obtain ⟨hd1, hd2⟩ := dispMode_done hok
  obtain ⟨rows, hr, -, he⟩ := dispRun_any E floor features dQmax st run.mode hok
  rw [dispRunFaulty_eq, halfFaulty_clean _ _ features _ hd1 fun a j hj => (hc a j hj).1, halfFaulty_clean _ _ features _ hd2 fun a j hj => (hc a j hj).2]
  simp only [if_true, hr, he]

omit [IsStrictOrderedRing K] in
/-- **C267 (parallel).** An exception in a worker while increasing leaves the object as it was; one while decreasing keeps the results of the increasing displacements, and the other results, the tables and the compiled results are as before. -/
theorem C267_parallel (E : DispEnv m k n K) (floor : K) (features : List (Fin n)) (dQmax : List K) (st : DispState k n K) (run : DispFault k n) (hmode : run.mode ≠ .seq) (hok : run.mode.ok features) :
    ((∃ a, ∃ j ∈ features, run.incRaises a j = true) → dispRunFaulty E floor features dQmax st run = (st, false)) ∧
    ((∀ a, ∀ j ∈ features, run.incRaises a j = false) → (∃ a, ∃ j ∈ features, run.decRaises a j = true) →
      dispRunFaulty E floor features dQmax st run = (⟨dispResults (incEntry E dQmax) features run.mode.incDone st.inc, st.dec, st.tables, st.rows⟩, false)) := by
  obtain ⟨hd1, hd2⟩ := dispMode_done hok
  have fails : ∀ (raises : Fin k → Fin n → Bool) (out : Fin k → Fin n → List (LevelOut K)) (d : List (Fin k × Fin n)) prev, d.Perm (dispTasks k features) → (∃ a, ∃ j ∈ features, raises a j = true) → halfFaulty raises out features (some d) prev = (prev, false) := by
    rintro raises out d prev hp ⟨a, j, hj, hr⟩
    have : (d.any fun p => raises p.1 p.2) = true := List.any_eq_true.2 ⟨(a, j), hp.mem_iff.2 ((mem_dispTasks features a j).2 hj), hr⟩
    simp only [halfFaulty, this, if_true]
  constructor
  · intro h
    rw [dispRunFaulty_eq]
    cases hm : run.mode with
    | seq => exact absurd hm hmode
    | par d1 d2 =>
      rw [hm] at hok
      simp only [DispMode.incDone, fails run.incRaises (incEntry E dQmax) d1 st.inc hok.1 h, Bool.false_eq_true, if_false]
  · intro hi h
    rw [dispRunFaulty_eq, halfFaulty_clean _ _ features _ hd1 hi]
    cases hm : run.mode with
    | seq => exact absurd hm hmode
    | par d1 d2 =>
      rw [hm] at hok
      simp only [DispMode.decDone, fails run.decRaises (decEntry E dQmax) d2 st.dec hok.2 h, Bool.false_eq_true, if_false, if_true]

omit [IsStrictOrderedRing K] in
/-- What a sequential half leaves in its dictionary if factor `f` is the first with an exception. -/
theorem seq_stored (raises : Fin k → Fin n → Bool) (out : Fin k → Fin n → List (LevelOut K)) (features : List (Fin n)) (f : Fin k) (h : ∀ a < f, ∀ j ∈ features, raises a j = false) (hf : ∃ j ∈ features, raises f j = true)
    (prev : PyDict (Fin k) (PyDict (Fin n) (List (LevelOut K)))) :
    ∃ d, halfFaulty raises out features none prev = (d, false) ∧ (∀ a < f, ∀ j, (dictGet d a).bind (fun e => dictGet e j) = if j ∈ features then some (out a j) else none) ∧ ∀ a, f ≤ a → dictGet d a = dictGet prev a := by
  have hl : List.finRange k = (List.finRange k).take f ++ f :: (List.finRange k).drop (f + 1) := by
    conv_lhs => rw [← List.take_append_drop f (List.finRange k)]
    rw [List.drop_eq_getElem_cons (by simp), List.getElem_finRange]
    simp
  have hmem : ∀ a, a ∈ (List.finRange k).take f ↔ a < f := fun a => by
    rw [List.mem_take_iff_getElem]
    constructor
    · rintro ⟨i, hi, rfl⟩
      simp only [List.getElem_finRange]
      exact Fin.lt_def.2 (by simp at hi ⊢; omega)
    · intro ha
      exact ⟨a, by simp; exact ha, by simp⟩
  refine ⟨((List.finRange k).take f).foldl (fun d a => dictSet d a (features.foldl (fun e j => dictSet e j (out a j)) [])) prev, ?_, fun a ha j => ?_, fun a ha => ?_⟩
  · rw [halfFaulty]
    conv_lhs => rw [hl]
    exact seqFaulty_fails raises out features _ _ f (fun a ha => h a ((hmem a).1 ha)) hf prev
  · rw [dictGet_foldl (fun a => features.foldl (fun e j => dictSet e j (out a j)) []), if_pos ((hmem a).2 ha), Option.bind_some, dictGet_foldl]
    rfl
  · rw [dictGet_foldl (fun a => features.foldl (fun e j => dictSet e j (out a j)) []), if_neg (fun hc => absurd ((hmem a).1 hc) (not_lt.2 ha))]

omit [IsStrictOrderedRing K] in
/-- **C267 (sequential).** If factor `f` is the first with an exception while increasing, the factors before it have their new results, the others what they had, and everything else is as before; likewise while decreasing, after complete
increasing displacements. -/
theorem C267_sequential (E : DispEnv m k n K) (floor : K) (features : List (Fin n)) (dQmax : List K) (st : DispState k n K) (run : DispFault k n) (hmode : run.mode = .seq) (f : Fin k) :
    ((∀ a < f, ∀ j ∈ features, run.incRaises a j = false) → (∃ j ∈ features, run.incRaises f j = true) →
      ∃ d, dispRunFaulty E floor features dQmax st run = (⟨d, st.dec, st.tables, st.rows⟩, false) ∧
        (∀ a < f, ∀ j, (dictGet d a).bind (fun e => dictGet e j) = if j ∈ features then some (incEntry E dQmax a j) else none) ∧ ∀ a, f ≤ a → dictGet d a = dictGet st.inc a) ∧
    ((∀ a, ∀ j ∈ features, run.incRaises a j = false) → (∀ a < f, ∀ j ∈ features, run.decRaises a j = false) → (∃ j ∈ features, run.decRaises f j = true) →
      ∃ d, dispRunFaulty E floor features dQmax st run = (⟨seqResults (incEntry E dQmax) features st.inc, d, st.tables, st.rows⟩, false) ∧
        (∀ a < f, ∀ j, (dictGet d a).bind (fun e => dictGet e j) = if j ∈ features then some (decEntry E dQmax a j) else none) ∧ ∀ a, f ≤ a → dictGet d a = dictGet st.dec a) := by
  constructor
  · intro h hf
    obtain ⟨d, h1, h2, h3⟩ := seq_stored run.incRaises (incEntry E dQmax) features f h hf st.inc
    refine ⟨d, ?_, h2, h3⟩
    rw [dispRunFaulty_eq, hmode]
    simp only [DispMode.incDone, h1, Bool.false_eq_true, if_false]
  · intro hi h hf
    obtain ⟨d, h1, h2, h3⟩ := seq_stored run.decRaises (decEntry E dQmax) features f h hf st.dec
    refine ⟨d, ?_, h2, h3⟩
    rw [dispRunFaulty_eq, hmode]
    simp only [DispMode.incDone, DispMode.decDone, halfFaulty_clean run.incRaises (incEntry E dQmax) features none (by simp) hi st.inc, h1, Bool.false_eq_true, if_false, if_true, dispResults]

/-- **C267 (later runs).** Whatever happened to the object before, a run without exceptions returns and its compiled results are those of the first run of a new object. -/
theorem C267_rows (E : DispEnv m k n K) (floor : K) (features : List (Fin n)) (dQmax : List K) (runs : List (DispFault k n)) (last : DispFault k n) (hok : last.mode.ok features) (hc : last.clean features) :
    let st := runs.foldl (fun st r => (dispRunFaulty E floor features dQmax st r).1) .new
    (dispRunFaulty E floor features dQmax st last).2 = true ∧ (dispRunFaulty E floor features dQmax st last).1.rows = (dispRun E floor features dQmax .new .seq).rows ∧ (dispRunFaulty E floor features dQmax st last).1.rows.isSome := by
  intro st
  obtain ⟨rows, -, h1, h2⟩ := dispRun_any E floor features dQmax st last.mode hok
  rw [C267_clean E floor features dQmax st last hok hc, h1, h2]
  exact ⟨rfl, rfl, rfl⟩

/-! ## The tables -/

/-- The results in a dictionary are those of requested tasks, each once; some may be missing. -/
def Stored {L : Type*} (out : Fin k → Fin n → L) (features : List (Fin n)) (d : PyDict (Fin k) (PyDict (Fin n) L)) : Prop :=
  (d.map (·.1)).Nodup ∧ ∀ p ∈ d, (p.2.map (·.1)).Nodup ∧ ∀ q ∈ p.2, q.1 ∈ features ∧ q.2 = out p.1 q.1

theorem Stored.set {out : Fin k → Fin n → L} {features : List (Fin n)} {d : PyDict (Fin k) (PyDict (Fin n) L)} (h : Stored out features d) (a : Fin k) (e : PyDict (Fin n) L) (he : (e.map (·.1)).Nodup)
    (he' : ∀ q ∈ e, q.1 ∈ features ∧ q.2 = out a q.1) : Stored out features (dictSet d a e) := by
  refine ⟨dictSet_nodup d h.1 a e, fun p hp => ?_⟩
  rcases mem_dictSet_or d a e p hp with rfl | hp
  · exact ⟨he, he'⟩
  · exact h.2 p hp

theorem stored_entry (out : Fin k → Fin n → L) (features : List (Fin n)) (a : Fin k) (l : List (Fin n)) (hl : ∀ j ∈ l, j ∈ features) (e : PyDict (Fin n) L) (he : (e.map (·.1)).Nodup) (he' : ∀ q ∈ e, q.1 ∈ features ∧ q.2 = out a q.1) :
    ((l.foldl (fun e j => dictSet e j (out a j)) e).map (·.1)).Nodup ∧ ∀ q ∈ l.foldl (fun e j => dictSet e j (out a j)) e, q.1 ∈ features ∧ q.2 = out a q.1 := by
  induction l generalizing e with
  | nil => exact ⟨he, he'⟩
  | cons j l ih =>
    refine ih (fun j hj => hl j (List.mem_cons_of_mem _ hj)) _ (dictSet_nodup e he j _) fun q hq => ?_
    rcases mem_dictSet_or e j _ q hq with rfl | hq
    · exact ⟨hl j (by simp), rfl⟩
    · exact he' q hq

theorem Stored.factors {out : Fin k → Fin n → L} {features : List (Fin n)} (l : List (Fin k)) {d : PyDict (Fin k) (PyDict (Fin n) L)} (h : Stored out features d) :
    Stored out features (l.foldl (fun d a => dictSet d a (features.foldl (fun e j => dictSet e j (out a j)) [])) d) := by
  induction l generalizing d with
  | nil => exact h
  | cons a l ih =>
    obtain ⟨e1, e2⟩ := stored_entry out features a features (fun _ h => h) [] (by simp) (by simp)
    exact ih (h.set a _ e1 e2)

theorem Stored.tasks {out : Fin k → Fin n → L} {features : List (Fin n)} (l : List (Fin k × Fin n)) (hl : ∀ p ∈ l, p.2 ∈ features) {d : PyDict (Fin k) (PyDict (Fin n) L)} (h : Stored out features d) : Stored out features (parResults out l d) := by
  unfold parResults
  induction l generalizing d with
  | nil => exact h
  | cons p l ih =>
    refine ih (fun p hp => hl p (List.mem_cons_of_mem _ hp)) ?_
    have hold : (((dictGet d p.1).getD []).map (·.1)).Nodup ∧ ∀ q ∈ (dictGet d p.1).getD [], q.1 ∈ features ∧ q.2 = out p.1 q.1 := by
      cases hg : dictGet d p.1 with
      | none => simp
      | some e => exact h.2 _ (mem_of_dictGet _ _ _ hg)
    refine h.set p.1 _ (dictSet_nodup _ hold.1 p.2 _) fun q hq => ?_
    rcases mem_dictSet_or _ p.2 _ q hq with rfl | hq
    · exact ⟨hl p (by simp), rfl⟩
    · exact hold.2 q hq

theorem seqFaulty_stored (raises : Fin k → Fin n → Bool) (out : Fin k → Fin n → L) (features : List (Fin n)) (l : List (Fin k)) (d : PyDict (Fin k) (PyDict (Fin n) L)) (h : Stored out features d) : Stored out features (seqFaulty raises out features l d).1 := by
  induction l generalizing d with
  | nil => exact h
  | cons a l ih =>
    unfold seqFaulty
    split_ifs
    · exact h
    · obtain ⟨e1, e2⟩ := stored_entry out features a features (fun _ h => h) [] (by simp) (by simp)
      exact ih _ (h.set a _ e1 e2)

theorem halfFaulty_stored (raises : Fin k → Fin n → Bool) (out : Fin k → Fin n → List (LevelOut K)) (features : List (Fin n)) (done : Option (List (Fin k × Fin n))) (hd : ∀ d ∈ done, d.Perm (dispTasks k features))
    (prev : PyDict (Fin k) (PyDict (Fin n) (List (LevelOut K)))) (h : Stored out features prev) : Stored out features (halfFaulty raises out features done prev).1 := by
  cases done with
  | none => exact seqFaulty_stored raises out features _ prev h
  | some d =>
    unfold halfFaulty
    dsimp only
    split_ifs
    · exact h
    · exact h.tasks d fun p hp => (mem_dispTasks features p.1 p.2).1 ((hd d rfl).mem_iff.1 hp)

/-- A dictionary with the results of all requested tasks. -/
theorem Stored.full {out : Fin k → Fin n → List (LevelOut K)} {features : List (Fin n)} (hf : features.Nodup) {d : PyDict (Fin k) (PyDict (Fin n) (List (LevelOut K)))} (h : Stored out features d)
    (hg : ∀ a, ∀ j ∈ features, (dictGet d a).bind (fun e => dictGet e j) = some (out a j)) : DispInv out features (d.map (·.1)) d := by
  refine ⟨rfl, h.1, fun a hne => ?_, fun p hp => ?_⟩
  · obtain ⟨j, hj⟩ := List.exists_mem_of_ne_nil features hne
    rw [← dictGet_isSome]
    have := hg a j hj
    cases hd : dictGet d a with
    | none => rw [hd] at this; cases this
    | some e => rfl
  · refine (List.perm_ext_iff_of_nodup (List.Nodup.of_map _ (h.2 p hp).1) (hf.map fun x y hxy => congrArg Prod.fst hxy)).2 fun q => ?_
    rw [List.mem_map]
    constructor
    · intro hq
      obtain ⟨h1, h2⟩ := (h.2 p hp).2 q hq
      exact ⟨q.1, h1, by rw [← h2]⟩
    · rintro ⟨j, hj, rfl⟩
      have := hg p.1 j hj
      rw [dictGet_of_mem d h.1 p.1 p.2 hp, Option.bind_some] at this
      exact mem_of_dictGet _ _ _ this

theorem sum_columns {α : Type*} (f : α → ℕ) (o : List α) (l : ℕ) (h : o.length = l) : ∑ c : Fin l, ((o[c.1]?).map f).getD 0 = (o.map f).sum := by
  subst h
  rw [← Fin.sum_univ_fun_getElem]
  exact Finset.sum_congr rfl fun c _ => by simp

theorem sum_keys (f : Fin k → ℕ) (o : List (Fin k)) (hn : o.Nodup) (hm : ∀ a, a ∈ o) : ∑ c : Fin k, ((o[c.1]?).map f).getD 0 = ∑ a, f a := by
  have hp : o.Perm (List.finRange k) := (List.perm_ext_iff_of_nodup hn (List.nodup_finRange k)).2 fun a => by simp [hm]
  rw [sum_columns f o k (by simpa using hp.length_eq), (hp.map f).sum_eq, Fin.sum_univ_def]

/-- One direction of the tally of a complete dictionary, over all columns. -/
theorem tally_all (out : Fin k → Fin n → List (LevelOut K)) (features : List (Fin n)) (hne : features ≠ []) (levels : ℕ) (hl : ∀ a j, (out a j).length = levels) (o : List (Fin k)) (d : PyDict (Fin k) (PyDict (Fin n) (List (LevelOut K))))
    (h : DispInv out features o d) (t : SwapTables) (i : ℕ) (hi : i < levels) :
    (∀ c : Fin k, (tallyDict LevelOut.swap d 0 t).count i c = t.count i c + features.length) ∧
      ∑ c : Fin k, (tallyDict LevelOut.swap d 0 t).swap i c = (∑ c : Fin k, t.swap i c) + ∑ a, swapsOf LevelOut.swap out features a i := by
  have hm : ∀ a, a ∈ o := fun a => h.2.2.1 a hne
  have hlen : o.length = k := by
    have hp : o.Perm (List.finRange k) := (List.perm_ext_iff_of_nodup h.2.1 (List.nodup_finRange k)).2 fun a => by simp [hm]
    simpa using hp.length_eq
  constructor
  · intro c
    rw [(h.tally out features o levels hl d t i c hi).1, List.getElem?_eq_getElem (by omega)]
    rfl
  · rw [← sum_keys (fun a => swapsOf LevelOut.swap out features a i) o h.2.1 hm, ← Finset.sum_add_distrib]
    exact Finset.sum_congr rfl fun c _ => (h.tally out features o levels hl d t i c hi).2

/-- The results kept by an object after any runs. -/
theorem dispRunFaulty_stored (E : DispEnv m k n K) (floor : K) (features : List (Fin n)) (dQmax : List K) (st : DispState k n K) (run : DispFault k n) (hok : run.mode.ok features) (h1 : Stored (incEntry E dQmax) features st.inc)
    (h2 : Stored (decEntry E dQmax) features st.dec) :
    Stored (incEntry E dQmax) features (dispRunFaulty E floor features dQmax st run).1.inc ∧ Stored (decEntry E dQmax) features (dispRunFaulty E floor features dQmax st run).1.dec := by
  obtain ⟨hd1, hd2⟩ := dispMode_done hok
  have g1 := halfFaulty_stored run.incRaises (incEntry E dQmax) features _ hd1 st.inc h1
  have g2 := halfFaulty_stored run.decRaises (decEntry E dQmax) features _ hd2 st.dec h2
  rw [dispRunFaulty_eq]
  dsimp only
  split_ifs
  · split <;> exact ⟨g1, g2⟩
  · exact ⟨g1, g2⟩
  · exact ⟨g1, h2⟩

/-- **C267 (tables).** After any runs of an object, each without an exception or with any, the tables hold what the runs that returned counted: for every level each column twice the number of requested features per run, and over all columns
the factor swaps of both directions once per run. The other runs count nothing. -/
theorem C267_tables (E : DispEnv m k n K) (floor : K) (features : List (Fin n)) (hf : features.Nodup) (hne : features ≠ []) (dQmax : List K) (runs : List (DispFault k n)) (hok : ∀ r ∈ runs, r.mode.ok features)
    (good : DispFault k n → Bool) (hgood : ∀ r, good r = true ↔ r.clean features) (i : ℕ) (hi : i < dQmax.length) :
    let st := runs.foldl (fun st r => (dispRunFaulty E floor features dQmax st r).1) .new
    (∀ c : Fin k, st.tables.count i c = runs.countP good * (2 * features.length)) ∧
      ∑ c : Fin k, st.tables.swap i c = runs.countP good * ∑ a, (swapsOf LevelOut.swap (incEntry E dQmax) features a i + swapsOf LevelOut.swap (decEntry E dQmax) features a i) := by
  have main : let st := runs.foldl (fun st r => (dispRunFaulty E floor features dQmax st r).1) .new
      Stored (incEntry E dQmax) features st.inc ∧ Stored (decEntry E dQmax) features st.dec ∧ (∀ c : Fin k, st.tables.count i c = runs.countP good * (2 * features.length)) ∧
        ∑ c : Fin k, st.tables.swap i c = runs.countP good * ∑ a, (swapsOf LevelOut.swap (incEntry E dQmax) features a i + swapsOf LevelOut.swap (decEntry E dQmax) features a i) := by
    induction runs using List.reverseRecOn with
    | nil => simp [DispState.new, Stored]
    | append_singleton runs x ih =>
      obtain ⟨s1, s2, s3, s4⟩ := ih fun r hr => hok r (List.mem_append_left _ hr)
      have hx := hok x (by simp)
      simp only [List.foldl_append, List.foldl_cons, List.foldl_nil, List.countP_append]
      generalize runs.foldl (fun st r => (dispRunFaulty E floor features dQmax st r).1) .new = st at s1 s2 s3 s4 ⊢
      obtain ⟨u1, u2⟩ := dispRunFaulty_stored E floor features dQmax st x hx s1 s2
      refine ⟨u1, u2, ?_⟩
      by_cases hc : x.clean features
      · have hcount : List.countP good [x] = 1 := by simp [(hgood x).2 hc]
        obtain ⟨hd1, hd2⟩ := dispMode_done hx
        obtain ⟨rows, -, -, he⟩ := dispRun_any E floor features dQmax st x.mode hx
        rw [C267_clean E floor features dQmax st x hx hc, he] at u1 u2 ⊢
        have d1 := u1.full hf fun a j hj => dispResults_get _ features _ hd1 _ a j hj
        have d2 := u2.full hf fun a j hj => dispResults_get _ features _ hd2 _ a j hj
        dsimp only at d1 d2 ⊢
        unfold tallyBoth
        obtain ⟨a1, a2⟩ := tally_all _ features hne dQmax.length (fun a j => (C35_levels E dQmax a j).1) _ _ d1 st.tables i hi
        obtain ⟨b1, b2⟩ := tally_all _ features hne dQmax.length (fun a j => (C35_levels E dQmax a j).2) _ _ d2 (tallyDict LevelOut.swap (dispResults (incEntry E dQmax) features x.mode.incDone st.inc) 0 st.tables) i hi
        refine ⟨fun c => ?_, ?_⟩
        · rw [b1, a1, s3, hcount]; ring
        · rw [b2, a2, s4, hcount, Finset.sum_add_distrib]; ring
      · have hcount : List.countP good [x] = 0 := by
          have : good x = false := by
            rw [← Bool.not_eq_true, hgood]
            exact hc
          simp [this]
        have ht : (dispRunFaulty E floor features dQmax st x).1.tables = st.tables := by
          have bad : ∀ (raises : Fin k → Fin n → Bool) (out : Fin k → Fin n → List (LevelOut K)) (done : Option (List (Fin k × Fin n))) prev, (∀ d ∈ done, d.Perm (dispTasks k features)) → (∃ a, ∃ j ∈ features, raises a j = true) →
              (halfFaulty raises out features done prev).2 = false := by
            rintro raises out done prev hd ⟨a, j, hj, hr⟩
            cases done with
            | none =>
              unfold halfFaulty
              dsimp only
              have : ∀ (l : List (Fin k)) d, a ∈ l → (seqFaulty raises out features l d).2 = false := by
                intro l
                induction l with
                | nil => intro d h; cases h
                | cons b l ih =>
                  intro d h
                  unfold seqFaulty
                  split_ifs with hb
                  · rfl
                  · rcases List.mem_cons.1 h with rfl | h
                    · exact absurd (List.any_eq_true.2 ⟨j, hj, hr⟩) hb
                    · exact ih _ h
              exact this _ _ (List.mem_finRange a)
            | some d =>
              have : (d.any fun p => raises p.1 p.2) = true := List.any_eq_true.2 ⟨(a, j), (hd d rfl).mem_iff.2 ((mem_dispTasks features a j).2 hj), hr⟩
              simp [halfFaulty, this]
          obtain ⟨hd1, hd2⟩ := dispMode_done hx
          have hex : (∃ a, ∃ j ∈ features, x.incRaises a j = true) ∨ ∃ a, ∃ j ∈ features, x.decRaises a j = true := by
            by_contra hno
            push Not at hno
            exact hc fun a j hj => ⟨by simpa using hno.1 a j hj, by simpa using hno.2 a j hj⟩
          rw [dispRunFaulty_eq]
          dsimp only
          rcases hex with h | h
          · simp [bad _ (incEntry E dQmax) _ st.inc hd1 h]
          · simp only [bad _ (decEntry E dQmax) _ st.dec hd2 h, Bool.false_eq_true, if_false]
            split_ifs <;> rfl
        rw [ht, hcount, Nat.add_zero]
        exact ⟨s3, s4⟩
  exact ⟨main.2.2.1, main.2.2.2⟩

/-- Two factors, one feature, one level; only the displacement of factor 0 upwards swaps the factors. A sequential run that fails at factor 1 while increasing keeps the result of factor 0; the run after it, with workers, has the table of a new
object, and the tables count this run only. -/
example : let E : DispEnv 1 2 1 ℚ := ⟨fun _ _ => 1, fun _ _ => 1, fun h => (h 0 0 + h 1 0) ^ 2, 4, fun h => (decide (1 < h 0 0), 3), 1 / 10, 1 / 100⟩
    let bad : DispFault 2 1 := ⟨.seq, fun a _ => decide (a = 1), fun _ _ => false⟩
    let next : DispFault 2 1 := ⟨.par [(1, 0), (0, 0)] [(0, 0), (1, 0)], fun _ _ => false, fun _ _ => false⟩
    let r := dispRunFaulty E (1 / 10000) [0] [4] .new bad
    let r' := dispRunFaulty E (1 / 10000) [0] [4] r.1 next
    r.2 = false ∧ r.1.inc.length = 1 ∧ r.1.dec.length = 0 ∧ r.1.rows.isSome = false ∧ r'.2 = true ∧ (r'.1.inc.map fun p => p.1) = [0, 1] ∧ r'.1.tables.count 0 0 = 2 ∧ r'.1.tables.swap 0 0 = 1 ∧ r'.1.tables.swap 0 1 = 0 := by
  decide +kernel

end

end Esat
