import Verif.Model.Setup
import Verif.Props.CliData

/-!
# C195: what the configuration commands leave in the project directories
-/

namespace Esat

section c195
variable {L : Type*} [DecidableEq L]

/-- The data files of a new run configuration; `sim` = the process has run `simulator setup` before. -/
def expectedRun (dir : String) (sim : Prop) [Decidable sim] : RunConf :=
  if sim then ⟨dir, "synthetic_data.csv", "synthetic_uncertainty.csv"⟩ else ⟨dir, "", ""⟩

/-- What a command leaves at a location; `sim` = `simulator setup` ran before in the same process. -/
def Leaves (P : Platform L ConfFile) (sim : Prop) [Decidable sim] (c : SetupCmd) (l : L) (x : ConfFile) : Prop :=
  match c with
  | .run d => l = P.res (P.join d "run_config.toml") ∧ x = .run (expectedRun d sim)
  | .sim d => (l = P.res (P.join d "sim_config.toml") ∧ x = .sim d "synthetic_data.csv" "synthetic_uncertainty.csv") ∨
      (l = P.res (P.join d "run_config.toml") ∧ x = .run (expectedRun d True))
  | .error d => l = P.res (P.join d "error_config.toml") ∧ x = .error (P.join d "run_config.toml")
  | .constrained d => l = P.res (P.join d "constrained_config.toml") ∧ x = .constrained (P.join d "run_config.toml")

/-- The locations a command writes. -/
def Targets (P : Platform L ConfFile) (c : SetupCmd) (l : L) : Prop :=
  match c with
  | .run d => l = P.res (P.join d "run_config.toml")
  | .sim d => l = P.res (P.join d "sim_config.toml") ∨ l = P.res (P.join d "run_config.toml")
  | .error d => l = P.res (P.join d "error_config.toml")
  | .constrained d => l = P.res (P.join d "constrained_config.toml")

/-- `simulator setup` is among the commands. -/
def hasSim (h : List SetupCmd) : Prop := ∃ d, SetupCmd.sim d ∈ h

instance (h : List SetupCmd) : Decidable (hasSim h) :=
  decidable_of_iff (h.any fun c => match c with | .sim _ => true | _ => false) (by
    simp only [List.any_eq_true, hasSim]
    constructor
    · rintro ⟨c, hc, h1⟩
      cases c <;> simp at h1
      exact ⟨_, hc⟩
    · rintro ⟨d, hd⟩
      exact ⟨_, hd, rfl⟩)

/-- The process when `sim` says whether `simulator setup` ran. -/
def ProcAfter (sim : Prop) [Decidable sim] (p : SetupProc) : Prop :=
  ∀ d, { p.run with directory := d } = expectedRun d sim

theorem setupDir_done {E : SetupEnv L} {fs fs' : L → Option (Node ConfFile)} {d : String} (h : setupDir E fs d = (fs', .done)) (l : L) :
    fs' l = fs l ∨ (fs l = none ∧ fs' l = some .dir) := by
  unfold setupDir at h
  split_ifs at h with h1
  · split at h
    · simp only [Prod.mk.injEq, and_true] at h
      subst h
      by_cases hl : l = E.P.res d
      · right
        subst hl
        simpa using h1
      · left
        simp [hl]
    · simp at h
    · simp at h
  · simp only [Prod.mk.injEq, and_true] at h
    subst h
    exact .inl rfl

theorem setupWrite_true {E : SetupEnv L} {fs fs' : L → Option (Node ConfFile)} {d n : String} {c : ConfFile}
    (h : setupWrite E fs d n c = (fs', true)) : fs' = FS.set fs (E.P.res (E.P.join d n)) c := by
  unfold setupWrite writeFile at h
  split_ifs at h with h1
  · simp only [Prod.mk.injEq, and_true] at h
    exact h.symm
  · simp at h

theorem set_cases (fs0 fs1 : L → Option (Node ConfFile)) (a : L) (c : ConfFile) (h : ∀ l, fs1 l = fs0 l ∨ (fs0 l = none ∧ fs1 l = some .dir)) (l : L) :
    (l = a → FS.set fs1 a c l = some (.file c)) ∧ (l ≠ a → FS.set fs1 a c l = fs0 l ∨ (fs0 l = none ∧ FS.set fs1 a c l = some .dir)) := by
  constructor
  · rintro rfl
    simp [FS.set]
  · intro hl
    simpa [FS.set, hl] using h l

theorem setupCmd_done (E : SetupEnv L) (hinj : ∀ d a b, E.P.res (E.P.join d a) = E.P.res (E.P.join d b) → a = b) (sim : Prop) [Decidable sim]
    (p : SetupProc) (hp : ProcAfter sim p)
    (fs : L → Option (Node ConfFile)) (c : SetupCmd) (h : (setupCmd E p fs c).2.2 = .done) :
    (∀ (s' : Prop) [Decidable s'], (s' ↔ sim ∨ ∃ d, c = .sim d) → ProcAfter s' (setupCmd E p fs c).1) ∧
    (∀ l x, Leaves E.P sim c l x → (setupCmd E p fs c).2.1 l = some (.file x)) ∧
    (∀ l, ¬Targets E.P c l → (setupCmd E p fs c).2.1 l = fs l ∨ (fs l = none ∧ (setupCmd E p fs c).2.1 l = some .dir)) := by
  have hcong : ∀ (s' : Prop) [Decidable s'], (s' ↔ sim) → ∀ d, expectedRun d s' = expectedRun d sim := by
    intro s' _ he d
    unfold expectedRun
    simp [he]
  cases c with
  | run d =>
    unfold setupCmd at h ⊢
    cases h1 : setupDir E fs d with
    | mk fs1 e =>
      simp only [h1] at h ⊢
      have hd := setupDir_done (E := E) (fs := fs) (fs' := fs1) (d := d)
      cases e <;> simp only [reduceCtorEq] at h ⊢
      replace hd := hd h1
      by_cases ha : E.accepts d
      · simp only [ha, if_true] at h ⊢
        cases h2 : setupWrite E fs1 d "run_config.toml" (.run { p.run with directory := d }) with
        | mk fs2 b =>
          simp only [h2] at h ⊢
          cases b with
          | false => simp at h
          | true =>
            have h3 := setupWrite_true h2
            subst h3
            simp only
            refine ⟨?_, ?_, ?_⟩
            · intro s' _ hs d'
              rw [hcong s' (by simpa using hs)]
              exact hp d'
            · rintro l x ⟨rfl, rfl⟩
              rw [((set_cases fs fs1 _ _ hd _).1 rfl), hp d]
            · intro l hl
              exact (set_cases fs fs1 _ _ hd l).2 hl
      · simp [ha] at h
  | sim d =>
    unfold setupCmd at h ⊢
    cases h1 : setupDir E fs d with
    | mk fs1 e =>
      simp only [h1] at h ⊢
      have hd := setupDir_done (E := E) (fs := fs) (fs' := fs1) (d := d)
      cases e <;> simp only [reduceCtorEq] at h ⊢
      replace hd := hd h1
      by_cases ha : E.accepts d
      · simp only [ha, if_true] at h ⊢
        cases h2 : setupWrite E fs1 d "sim_config.toml" (.sim d "synthetic_data.csv" "synthetic_uncertainty.csv") with
        | mk fs2 b =>
          simp only [h2] at h ⊢
          cases b with
          | false => simp at h
          | true =>
            have h3 := setupWrite_true h2
            simp only at h ⊢
            cases h4 : setupWrite E fs2 d "run_config.toml" (.run ⟨d, "synthetic_data.csv", "synthetic_uncertainty.csv"⟩) with
            | mk fs3 b =>
              simp only [h4] at h ⊢
              cases b with
              | false => simp at h
              | true =>
                have h5 := setupWrite_true h4
                subst h5
                simp only
                have hne : E.P.res (E.P.join d "sim_config.toml") ≠ E.P.res (E.P.join d "run_config.toml") := by
                  intro he
                  have := hinj _ _ _ he
                  revert this
                  decide
                refine ⟨?_, ?_, ?_⟩
                · intro s' _ hs d'
                  have : s' := hs.2 (.inr ⟨d, rfl⟩)
                  simp [expectedRun, this]
                · rintro l x (⟨rfl, rfl⟩ | ⟨rfl, rfl⟩)
                  · subst h3
                    simp [FS.set, hne]
                  · simp [FS.set, expectedRun]
                · intro l hl
                  simp only [Targets, not_or] at hl
                  subst h3
                  simpa [FS.set, hl.1, hl.2] using hd l
      · simp [ha] at h
  | error d =>
    unfold setupCmd at h ⊢
    dsimp only at h ⊢
    by_cases hn : (fs (E.P.res d)).isNone
    · rw [if_pos hn] at h
      simp at h
    rw [if_neg hn] at h ⊢
    by_cases ha : E.accepts (E.P.join d "run_config.toml")
    · simp only [ha, if_true] at h ⊢
      cases h2 : setupWrite E fs d "error_config.toml" (.error (E.P.join d "run_config.toml")) with
      | mk fs2 b =>
        simp only [h2] at h ⊢
        cases b with
        | false => simp at h
        | true =>
          have h3 := setupWrite_true h2
          subst h3
          simp only
          refine ⟨?_, ?_, ?_⟩
          · intro s' _ hs d'
            rw [hcong s' (by simpa using hs)]
            exact hp d'
          · rintro l x ⟨rfl, rfl⟩
            simp [FS.set]
          · intro l hl
            exact (set_cases fs fs _ _ (fun l => .inl rfl) l).2 hl
    · simp [ha] at h
  | constrained d =>
    unfold setupCmd at h ⊢
    dsimp only at h ⊢
    by_cases hn : (fs (E.P.res d)).isNone
    · rw [if_pos hn] at h
      simp at h
    rw [if_neg hn] at h ⊢
    by_cases ha : E.accepts (E.P.join d "run_config.toml")
    · simp only [ha, if_true] at h ⊢
      cases h2 : setupWrite E fs d "constrained_config.toml" (.constrained (E.P.join d "run_config.toml")) with
      | mk fs2 b =>
        simp only [h2] at h ⊢
        cases b with
        | false => simp at h
        | true =>
          have h3 := setupWrite_true h2
          subst h3
          simp only
          refine ⟨?_, ?_, ?_⟩
          · intro s' _ hs d'
            rw [hcong s' (by simpa using hs)]
            exact hp d'
          · rintro l x ⟨rfl, rfl⟩
            simp [FS.set]
          · intro l hl
            exact (set_cases fs fs _ _ (fun l => .inl rfl) l).2 hl
    · simp [ha] at h

theorem targets_leaves (P : Platform L ConfFile) (sim : Prop) [Decidable sim] (c : SetupCmd) (l : L) :
    Targets P c l ↔ ∃ x, Leaves P sim c l x := by
  cases c with
  | sim d =>
    simp only [Targets, Leaves]
    constructor
    · rintro (h | h)
      · exact ⟨_, .inl ⟨h, rfl⟩⟩
      · exact ⟨_, .inr ⟨h, rfl⟩⟩
    · rintro ⟨x, h | h⟩
      · exact .inl h.1
      · exact .inr h.1
  | _ => simp [Targets, Leaves]

/-- Files that are not a target afterwards stay. -/
theorem setupRun_keeps (E : SetupEnv L) (hinj : ∀ d a b, E.P.res (E.P.join d a) = E.P.res (E.P.join d b) → a = b) :
    ∀ (h : List SetupCmd) (sim : Prop) [Decidable sim] (p : SetupProc) (fs : L → Option (Node ConfFile)), ProcAfter sim p →
      (∀ e ∈ (setupRun E p fs h).2.2, e = .done) → ∀ l, (∀ c ∈ h, ¬Targets E.P c l) →
      (setupRun E p fs h).2.1 l = fs l ∨ (fs l = none ∧ (setupRun E p fs h).2.1 l = some .dir) := by
  intro h
  induction h with
  | nil => intro sim _ p fs _ _ l _; exact .inl rfl
  | cons c h ih =>
    intro sim _ p fs hp hd l hl
    simp only [setupRun, List.mem_cons, forall_eq_or_imp] at hd ⊢
    obtain ⟨h1, -, h3⟩ := setupCmd_done E hinj sim p hp fs c hd.1
    classical
    have h4 := ih (sim ∨ ∃ d, c = .sim d) _ _ (h1 _ Iff.rfl) hd.2 l (fun c' hc' => hl c' (List.mem_cons_of_mem _ hc'))
    have h5 := h3 l (hl c List.mem_cons_self)
    rcases h4 with h4 | ⟨h4, h6⟩ <;> rcases h5 with h5 | ⟨h5, h7⟩
    · exact .inl (h4.trans h5)
    · exact .inr ⟨h5, h4.trans h7⟩
    · exact .inr ⟨h5.symm.trans h4, h6⟩
    · rw [h7] at h4
      simp at h4

theorem setupRun_content (E : SetupEnv L) (hinj : ∀ d a b, E.P.res (E.P.join d a) = E.P.res (E.P.join d b) → a = b) :
    ∀ (pre : List SetupCmd) (c : SetupCmd) (post : List SetupCmd) (sim : Prop) [Decidable sim] (p : SetupProc) (fs : L → Option (Node ConfFile)),
      ProcAfter sim p → (∀ e ∈ (setupRun E p fs (pre ++ c :: post)).2.2, e = .done) →
      ∀ (s' : Prop) [Decidable s'], (s' ↔ sim ∨ hasSim pre) → ∀ l x, Leaves E.P s' c l x → (∀ c' ∈ post, ¬Targets E.P c' l) →
      (setupRun E p fs (pre ++ c :: post)).2.1 l = some (.file x) := by
  intro pre
  induction pre with
  | nil =>
    intro c post sim _ p fs hp hd s' _ hs l x hx hl
    simp only [List.nil_append, setupRun, List.mem_cons, forall_eq_or_imp] at hd ⊢
    obtain ⟨h1, h2, -⟩ := setupCmd_done E hinj sim p hp fs c hd.1
    classical
    have h4 := setupRun_keeps E hinj post (sim ∨ ∃ d, c = .sim d) _ _ (h1 _ Iff.rfl) hd.2 l hl
    have hx' : Leaves E.P sim c l x := by
      have he : s' ↔ sim := by simpa [hasSim] using hs
      have this : ∀ d, expectedRun d s' = expectedRun d sim := by
        intro d
        unfold expectedRun
        simp [he]
      cases c with
      | run d => simpa only [Leaves, this d] using hx
      | _ => exact hx
    rw [h2 l x hx'] at h4
    simpa using h4
  | cons a pre ih =>
    intro c post sim _ p fs hp hd s' _ hs l x hx hl
    simp only [List.cons_append, setupRun, List.mem_cons, forall_eq_or_imp] at hd ⊢
    obtain ⟨h1, -, -⟩ := setupCmd_done E hinj sim p hp fs a hd.1
    classical
    refine ih c post (sim ∨ ∃ d, a = .sim d) _ _ (h1 _ Iff.rfl) hd.2 s' ?_ l x hx hl
    rw [hs]
    simp only [hasSim, List.mem_cons, or_assoc]
    refine or_congr Iff.rfl ?_
    constructor
    · rintro ⟨d, h | h⟩
      · exact .inl ⟨d, h.symm⟩
      · exact .inr ⟨d, h⟩
    · rintro (⟨d, h⟩ | ⟨d, h⟩)
      · exact ⟨d, .inl h.symm⟩
      · exact ⟨d, .inr h⟩

theorem procAfter_fresh : ProcAfter False SetupProc.fresh := fun _ => rfl

/-- **C195.** After any sequence of successful commands in one process, each configuration file is the one of the last command that wrote it; a file that no
command wrote is untouched. A run configuration names its own directory. **Disagreement** with `setup` ("create the configuration file for a batch source apportionment run"):
it has the names of the synthetic data as soon as `simulator setup` ran before it in the process, for any directory. -/
theorem C195_process (E : SetupEnv L) (hinj : ∀ d a b, E.P.res (E.P.join d a) = E.P.res (E.P.join d b) → a = b)
    (fs : L → Option (Node ConfFile)) (h : List SetupCmd) (hd : ∀ e ∈ (setupRun E .fresh fs h).2.2, e = .done) :
    (∀ pre c post, h = pre ++ c :: post → ∀ l x, Leaves E.P (hasSim pre) c l x → (∀ c' ∈ post, ¬Targets E.P c' l) →
      (setupRun E .fresh fs h).2.1 l = some (.file x)) ∧
    ∀ l, (∀ c ∈ h, ¬Targets E.P c l) → (setupRun E .fresh fs h).2.1 l = fs l ∨ (fs l = none ∧ (setupRun E .fresh fs h).2.1 l = some .dir) := by
  refine ⟨?_, setupRun_keeps E hinj h False .fresh fs procAfter_fresh hd⟩
  rintro pre c post rfl l x hx hl
  exact setupRun_content E hinj pre c post False .fresh fs procAfter_fresh hd (hasSim pre) (by simp) l x hx hl

/-- **C195.** With one process for each command the same holds without the leak. -/
theorem C195_separate (E : SetupEnv L) (hinj : ∀ d a b, E.P.res (E.P.join d a) = E.P.res (E.P.join d b) → a = b) :
    ∀ (h : List SetupCmd) (fs : L → Option (Node ConfFile)), (∀ e ∈ (setupSeparate E fs h).2, e = .done) →
    (∀ pre c post, h = pre ++ c :: post → ∀ l x, Leaves E.P False c l x → (∀ c' ∈ post, ¬Targets E.P c' l) →
      (setupSeparate E fs h).1 l = some (.file x)) ∧
    ∀ l, (∀ c ∈ h, ¬Targets E.P c l) → (setupSeparate E fs h).1 l = fs l ∨ (fs l = none ∧ (setupSeparate E fs h).1 l = some .dir) := by
  intro h
  induction h with
  | nil =>
    intro fs _
    exact ⟨fun pre c post h => by simp at h, fun l _ => .inl rfl⟩
  | cons a h ih =>
    intro fs hd
    simp only [setupSeparate, List.mem_cons, forall_eq_or_imp] at hd ⊢
    obtain ⟨-, h2, h3⟩ := setupCmd_done E hinj False .fresh procAfter_fresh fs a hd.1
    obtain ⟨g1, g2⟩ := ih _ hd.2
    refine ⟨?_, ?_⟩
    · intro pre c post he l x hx hl
      cases pre with
      | nil =>
        simp only [List.nil_append, List.cons.injEq] at he
        obtain ⟨rfl, rfl⟩ := he
        have h4 := g2 l hl
        rw [h2 l x hx] at h4
        simpa using h4
      | cons b pre =>
        simp only [List.cons_append, List.cons.injEq] at he
        exact g1 pre c post he.2 l x hx hl
    · rintro l ⟨hl1, hl2⟩
      have h4 := g2 l hl2
      have h5 := h3 l hl1
      rcases h4 with h4 | ⟨h4, h6⟩ <;> rcases h5 with h5 | ⟨h5, h7⟩
      · exact .inl (h4.trans h5)
      · exact .inr ⟨h5, h4.trans h7⟩
      · exact .inr ⟨h5.symm.trans h4, h6⟩
      · rw [h7] at h4
        simp at h4

/-- **C195.** The two ways give the same files exactly as long as no `setup` follows a `simulator setup`: for successful commands, the run configuration that the last command `setup d`
leaves is that of separate processes if and only if no `simulator setup` ran before. -/
theorem C195_leak (E : SetupEnv L) (hinj : ∀ d a b, E.P.res (E.P.join d a) = E.P.res (E.P.join d b) → a = b)
    (fs : L → Option (Node ConfFile)) (pre : List SetupCmd) (d : String)
    (hd : ∀ e ∈ (setupRun E .fresh fs (pre ++ [.run d])).2.2, e = .done) (hd' : ∀ e ∈ (setupSeparate E fs (pre ++ [.run d])).2, e = .done) :
    getConfig E (setupSeparate E fs (pre ++ [.run d])).1 d false false false = some (.run ⟨d, "", ""⟩) ∧
    (getConfig E (setupRun E .fresh fs (pre ++ [.run d])).2.1 d false false false =
      getConfig E (setupSeparate E fs (pre ++ [.run d])).1 d false false false ↔ ¬hasSim pre) ∧
    (hasSim pre → getConfig E (setupRun E .fresh fs (pre ++ [.run d])).2.1 d false false false =
      some (.run ⟨d, "synthetic_data.csv", "synthetic_uncertainty.csv"⟩)) := by
  have h1 := (C195_process E hinj fs _ hd).1 pre (.run d) [] rfl _ _ ⟨rfl, rfl⟩ (by simp)
  have h2 := (C195_separate E hinj _ fs hd').1 pre (.run d) [] rfl _ _ ⟨rfl, rfl⟩ (by simp)
  unfold getConfig
  simp only [Bool.false_eq_true, if_false, h1, h2]
  refine ⟨by simp [expectedRun], ?_, ?_⟩
  · by_cases hs : hasSim pre <;> simp [expectedRun, hs]
  · intro hs
    simp [expectedRun, hs]

/-- **C195.** How a command ends, in any process and file system: a message exactly if `setup` or `simulator setup` has to make the directory and its parent does not exist; a usage error exactly if
one of the other two is given a path that does not exist. -/
theorem C195_message (E : SetupEnv L) (p : SetupProc) (fs : L → Option (Node ConfFile)) (c : SetupCmd) :
    ((setupCmd E p fs c).2.2 = .message ↔ (∃ d, (c = .run d ∨ c = .sim d) ∧ fs (E.P.res d) = none ∧ E.mkdir fs (E.P.res d) = .notFound)) ∧
    ((setupCmd E p fs c).2.2 = .usage ↔ ∃ d, (c = .error d ∨ c = .constrained d) ∧ fs (E.P.res d) = none) ∧
    ((setupCmd E p fs c).2.2 = .message ∨ (setupCmd E p fs c).2.2 = .usage → (setupCmd E p fs c).1 = p ∧ (setupCmd E p fs c).2.1 = fs) := by
  cases c with
  | run d =>
    unfold setupCmd setupDir
    dsimp only
    cases hn : fs (E.P.res d) with
    | none =>
      cases hm : E.mkdir fs (E.P.res d) with
      | made =>
        simp only [Option.isNone_none, if_true]
        split_ifs <;> (try split) <;> simp [hn, hm]
      | _ => simp [hn, hm]
    | some x =>
      simp only [Option.isNone_some, Bool.false_eq_true, if_false]
      split_ifs <;> (try split) <;> simp [hn]
  | sim d =>
    unfold setupCmd setupDir
    dsimp only
    cases hn : fs (E.P.res d) with
    | none =>
      cases hm : E.mkdir fs (E.P.res d) with
      | made =>
        simp only [Option.isNone_none, if_true]
        split_ifs
        · split
          · split <;> simp [hn, hm]
          · simp [hn, hm]
        · simp [hn, hm]
      | _ => simp [hn, hm]
    | some x =>
      simp only [Option.isNone_some, Bool.false_eq_true, if_false]
      split_ifs
      · split
        · split <;> simp [hn]
        · simp [hn]
      · simp [hn]
  | error d =>
    unfold setupCmd
    dsimp only
    cases hn : fs (E.P.res d) with
    | none => simp [hn]
    | some x =>
      simp only [Option.isNone_some, Bool.false_eq_true, if_false]
      split_ifs <;> (try split) <;> simp [hn]
  | constrained d =>
    unfold setupCmd
    dsimp only
    cases hn : fs (E.P.res d) with
    | none => simp [hn]
    | some x =>
      simp only [Option.isNone_some, Bool.false_eq_true, if_false]
      split_ifs <;> (try split) <;> simp [hn]

/-- **C195.** When every file can be written, `setup` succeeds exactly if the directory exists or can be made and configparser accepts its name; with a name that is refused, the
directory has been made, no file is written, and the process is unchanged. -/
theorem C195_done (E : SetupEnv L) (ho : ∀ f l, E.P.canOpen f l = true) (p : SetupProc) (fs : L → Option (Node ConfFile)) (d : String) :
    (∀ c, c = SetupCmd.run d ∨ c = SetupCmd.sim d →
      ((setupCmd E p fs c).2.2 = .done ↔ (fs (E.P.res d) ≠ none ∨ E.mkdir fs (E.P.res d) = .made) ∧ E.accepts d = true) ∧
      (E.accepts d = false → (setupCmd E p fs c).1 = p ∧ ((setupCmd E p fs c).2.2 = .raised → ∀ l, l ≠ E.P.res d → (setupCmd E p fs c).2.1 l = fs l) ∧
        (fs (E.P.res d) = none → E.mkdir fs (E.P.res d) = .made → (setupCmd E p fs c).2.1 (E.P.res d) = some .dir))) ∧
    ∀ c, c = SetupCmd.error d ∨ c = SetupCmd.constrained d →
      ((setupCmd E p fs c).2.2 = .done ↔ fs (E.P.res d) ≠ none ∧ E.accepts (E.P.join d "run_config.toml") = true) := by
  have hw : ∀ fs n c, setupWrite E fs d n c = (FS.set fs (E.P.res (E.P.join d n)) c, true) := by
    intro fs n c
    simp [setupWrite, writeFile, ho]
  refine ⟨?_, ?_⟩
  · rintro c (rfl | rfl)
    · unfold setupCmd setupDir
      simp only [hw]
      cases hn : fs (E.P.res d) with
      | none =>
        cases hm : E.mkdir fs (E.P.res d) <;> cases ha : E.accepts d <;> simp +contextual
      | some x =>
        cases ha : E.accepts d <;> simp
    · unfold setupCmd setupDir
      simp only [hw]
      cases hn : fs (E.P.res d) with
      | none =>
        cases hm : E.mkdir fs (E.P.res d) <;> cases ha : E.accepts d <;> simp +contextual
      | some x =>
        cases ha : E.accepts d <;> simp
  · rintro c (rfl | rfl)
    · unfold setupCmd
      simp only [hw]
      cases hn : fs (E.P.res d) <;> cases ha : E.accepts (E.P.join d "run_config.toml") <;> simp
    · unfold setupCmd
      simp only [hw]
      cases hn : fs (E.P.res d) <;> cases ha : E.accepts (E.P.join d "run_config.toml") <;> simp

variable {C : Type*}

/-- **C195.** **Disagreement** with "required for data analysis functions" of `simulator generate`: a run configuration as a command wrote it makes the input commands work only with the files `synthetic_data.csv`
and `synthetic_uncertainty.csv` in the current directory — not those in the project directory, where the simulator writes them — and only if both have a column named `0`.
Otherwise they end the program (a file is missing) or raise. -/
theorem C195_input (E : SetupEnv L) (fs : L → Option (Node ConfFile)) (d d' : String) (sim : Prop) [Decidable sim]
    (hc : getConfig E fs d false false false = some (.run (expectedRun d' sim)))
    (files : String → Option (Table C)) (hn : ∀ p t, files p = some t → t.cols.Nodup) (he : files "" = none) :
    ((∃ f g s, inputFromConfig E fs d files = .ok f g s) ↔
      sim ∧ ∃ t u, files "synthetic_data.csv" = some t ∧ files "synthetic_uncertainty.csv" = some u ∧ "0" ∈ t.cols ∧ "0" ∈ u.cols) ∧
    (inputFromConfig E fs d files = .exit ↔ ¬sim ∨ files "synthetic_data.csv" = none ∨ files "synthetic_uncertainty.csv" = none) := by
  unfold inputFromConfig
  rw [hc]
  by_cases hs : sim
  · simp only [expectedRun, hs, if_true, true_and, not_true, false_or]
    refine ⟨?_, C176_exit_iff _ _ _ _⟩
    have k1 : KnownEnding "synthetic_data.csv" := (fileExt_known _).1 (by decide +kernel)
    have k2 : KnownEnding "synthetic_uncertainty.csv" := (fileExt_known _).1 (by decide +kernel)
    constructor
    · rintro ⟨f, g, s, h⟩
      have h' := h
      rw [C176_ok_iff files hn] at h'
      obtain ⟨-, -, -, ⟨t, -, ht, -, -⟩, u, -, hu, -, -⟩ := h'
      refine ⟨t, u, ht, hu, ?_⟩
      by_contra hcol
      rw [(C176_command_line files hn _ _ "0" t u ht hu k1 k2 (by decide)).2 hcol] at h
      simp at h
    · rintro ⟨t, u, ht, hu, hcol⟩
      obtain ⟨f, g, h, -, -⟩ := (C176_command_line files hn _ _ "0" t u ht hu k1 k2 (by decide)).1 hcol
      exact ⟨f, g, _, h⟩
  · simp only [expectedRun, hs, if_false, false_and, iff_false, not_false_eq_true, true_or, iff_true]
    have hx : openData files "" "" (cliIndexArg "0") = .exit := (C176_exit_iff _ _ _ _).2 (.inl he)
    rw [hx]
    exact ⟨by simp, rfl⟩

/-- **C195.** Which file `get_config` reads: the first of the flags counts, and a configuration is returned exactly if this file has one; so with a project that was only prepared by `setup` the commands
for errors and constraints get no section at all. -/
theorem C195_get (E : SetupEnv L) (fs : L → Option (Node ConfFile)) (d : String) (e c s : Bool) (x : ConfFile) :
    getConfig E fs d e c s = some x ↔ x ≠ .empty ∧
      ∃ n, fs (E.P.res (E.P.join d n)) = some (.file x) ∧
        ((e = true ∧ n = "error_config.toml") ∨ (e = false ∧ c = true ∧ n = "constrained_config.toml") ∨
          (e = false ∧ c = false ∧ s = true ∧ n = "sim_config.toml") ∨ (e = false ∧ c = false ∧ s = false ∧ n = "run_config.toml")) := by
  have key : ∀ n : String, (match fs (E.P.res (E.P.join d n)) with
      | some (.file .empty) => none
      | some (.file c) => some c
      | _ => none) = some x ↔ x ≠ .empty ∧ fs (E.P.res (E.P.join d n)) = some (.file x) := by
    intro n
    cases h : fs (E.P.res (E.P.join d n)) with
    | none => simp
    | some nd =>
      cases nd with
      | dir => simp
      | file y =>
        cases y with
        | empty =>
          simp only [reduceCtorEq, Option.some.injEq, Node.file.injEq, false_iff, not_and]
          intro hx hy
          exact hx hy.symm
        | _ =>
          simp only [Option.some.injEq, Node.file.injEq]
          constructor
          · rintro rfl
            exact ⟨by simp, rfl⟩
          · exact fun h => h.2
  refine (key _).trans ?_
  cases e <;> cases c <;> cases s <;> simp

/-- A platform for examples: a path is a location, all files can be opened. -/
def exSetup : SetupEnv String where
  P := { norm := id, isAbs := fun _ => true, join := fun a b => a ++ "/" ++ b, res := id, canOpen := fun _ _ => true }
  mkdir := fun _ l => if l = "x/y" then .notFound else .made
  accepts := fun s => !s.toList.contains '%'

/-- Concrete case: `setup a`, `simulator setup b`, `setup c`, `setup-error a` in one process and in separate ones; `setup x/y`; `setup 50%`. -/
example :
    let h : List SetupCmd := [.run "a", .sim "b", .run "c", .error "a"]
    let r := setupRun exSetup .fresh (fun _ => none) h
    let s := setupSeparate exSetup (fun _ => none) h
    r.2.2 = [.done, .done, .done, .done] ∧ s.2 = [.done, .done, .done, .done] ∧
    getConfig exSetup r.2.1 "a" false false false = some (.run ⟨"a", "", ""⟩) ∧
    getConfig exSetup r.2.1 "c" false false false = some (.run ⟨"c", "synthetic_data.csv", "synthetic_uncertainty.csv"⟩) ∧
    getConfig exSetup s.1 "c" false false false = some (.run ⟨"c", "", ""⟩) ∧
    getConfig exSetup r.2.1 "a" true false false = some (.error "a/run_config.toml") ∧
    getConfig exSetup r.2.1 "c" true false false = none ∧
    (setupCmd exSetup .fresh (fun _ => none) (.run "x/y")).2.2 = .message ∧
    (setupCmd exSetup .fresh (fun _ => none) (.run "50%")).2.2 = .raised ∧
    (setupCmd exSetup .fresh (fun _ => none) (.error "a")).2.2 = .usage := by
  decide +kernel

/-- The example satisfies the hypotheses of the theorems. -/
example : ∀ d a b, exSetup.P.res (exSetup.P.join d a) = exSetup.P.res (exSetup.P.join d b) → a = b := by
  intro d a b h
  simpa [exSetup, String.append_assoc, ← String.toList_inj] using h

end c195

end Esat
