import Verif.Model.Cli
import Verif.Props.SaveLoad

/-!
# Properties C71, C72 and C108-C113: the command line interface
-/

namespace Esat

/-! ### C71 -/

/-- The flags of someone who selects exactly the method `m`. -/
def onlyFlag (m : ErrMethod) : Bool × Bool × Bool := (m = .disp, m = .bs, m = .bsdisp)

/-- C71 is refuted: whichever single method is selected, nothing is shown. -/
theorem C71_refuted (m : ErrMethod) : errorShown (onlyFlag m).1 (onlyFlag m).2.1 (onlyFlag m).2.2 = none := by
  cases m <;> rfl

/-- C71: over all flag combinations something is shown only if all three flags are given, and then it is always the
displacement result: bootstrap and BS-DISP results can never be displayed. -/
theorem C71_shown_iff (d b s : Bool) (m : ErrMethod) :
    errorShown d b s = some m ↔ (d = true ∧ b = true ∧ s = true) ∧ m = .disp := by
  cases d <;> cases b <;> cases s <;> cases m <;> simp [errorShown, getErrorModel]

/-- The loader behind the command would do the right thing for a single flag: only the guard is wrong. -/
theorem C71_loader (m : ErrMethod) : getErrorModel (onlyFlag m).1 (onlyFlag m).2.1 (onlyFlag m).2.2 = some m := by
  cases m <;> rfl

/-- The commands that run the methods use `any` and run exactly the selected ones. -/
theorem C71_run_selected (d b s : Bool) (m : ErrMethod) :
    m ∈ runErrorMethods d b s ↔ (match m with | .disp => d | .bs => b | .bsdisp => s) = true := by
  cases d <;> cases b <;> cases s <;> cases m <;> simp [runErrorMethods]

/-! ### C72 -/

variable {L β α : Type*} [DecidableEq L]

/-- What C72 needs of the platform in addition to `Platform.Sane`: joining to a rewritten directory refers to the same
file. -/
structure Platform.PathSane (P : Platform L β) : Prop extends P.Sane where
  /-- `Path` rewriting of the directory does not change what the joined path refers to -/
  res_join_norm : ∀ d p, P.res (P.join (P.norm d) p) = P.res (P.join d p)

theorem pickle_roundtrip (P : Platform L β) (hP : P.PathSane) (pickle : α → β) (unpickle : β → Unpickled α)
    (hpk : ∀ x, unpickle (pickle x) = .ok x) (fs : L → Option (Node β)) (x : α) (name dir : String)
    (ha : P.isAbs dir = true) (hd : fs (P.res dir) ≠ none)
    (ho : P.canOpen fs (P.res (P.join dir (name ++ ".pkl"))) = true) :
    pickleLoad P unpickle (pickleSave P pickle fs x name dir).1 (P.join dir (name ++ ".pkl")) = .ret (some x) := by
  have hfs : pickleSave P pickle fs x name dir
      = (FS.set fs (P.res (P.join dir (name ++ ".pkl"))) (pickle x), .ret (some (P.join (P.norm dir) (name ++ ".pkl")))) := by
    unfold pickleSave
    simp only
    rw [if_neg (by rw [hP.abs_norm, ha]; simp), if_neg (by rw [hP.res_norm]; simpa using hd),
      hP.res_join_norm, if_pos ho]
  rw [hfs]
  unfold pickleLoad
  simp only
  rw [if_neg (by rw [hP.abs_norm, hP.abs_join _ _ ha]; simp), hP.res_norm]
  simp [FS.set, hpk]

theorem ensureDir_exists (P : Platform L β) (fs : L → Option (Node β)) (d : String) :
    ensureDir P fs d (P.res d) ≠ none := by
  unfold ensureDir
  by_cases h : (fs (P.res d)).isNone
  · rw [if_pos h]; simp
  · rw [if_neg h]; simpa using h

/-- What reading a pickle gives, exactly: the object for an absolute path whose file unpickles to it; nothing for a relative path,
a missing file and a file that ends in a `PickleError`; an exception otherwise (a directory, or another error of unpickling such
as `EOFError` for an empty file). -/
theorem C72_load_iff_partial (P : Platform L β) (hP : P.PathSane) (unpickle : β → Unpickled α) (fs : L → Option (Node β)) (p : String) :
    (∀ x, pickleLoad P unpickle fs p = .ret (some x) ↔
      P.isAbs p = true ∧ ∃ c, fs (P.res p) = some (.file c) ∧ unpickle c = .ok x) ∧
    (pickleLoad P unpickle fs p = .ret none ↔
      P.isAbs p = false ∨ fs (P.res p) = none ∨ ∃ c, fs (P.res p) = some (.file c) ∧ unpickle c = .pickleError) ∧
    (pickleLoad P unpickle fs p = .raised ↔
      P.isAbs p = true ∧ (fs (P.res p) = some .dir ∨ ∃ c, fs (P.res p) = some (.file c) ∧ unpickle c = .other)) := by
  unfold pickleLoad
  simp only [hP.abs_norm, hP.res_norm]
  cases ha : P.isAbs p with
  | false => simp
  | true =>
    rcases hf : fs (P.res p) with _ | _ | c
    · simp
    · simp
    · rcases hu : unpickle c with x | _ | _ <;> simp [hu]

/-- C72 (part): for every project name, when the project directory is absolute and is the one recorded in the
configuration, the batch written by `run` is what the analysis commands, `run_error` and `run_constrained` read. -/
theorem C72_batch_partial (P : Platform L β) (hP : P.PathSane) (pickle : α → β) (unpickle : β → Unpickled α)
    (hpk : ∀ x, unpickle (pickle x) = .ok x) (fs : L → Option (Node β)) (batch : α) (name dir : String)
    (ha : P.isAbs dir = true) (ho : ∀ fs' l, P.canOpen fs' l = true) :
    pickleLoad P unpickle (cliRunSave P pickle fs dir name batch).1 (batchPathAnalysis P dir name) = .ret (some batch) ∧
    pickleLoad P unpickle (cliRunSave P pickle fs dir name batch).1 (batchPathRun P dir name) = .ret (some batch) := by
  have := pickle_roundtrip P hP pickle unpickle hpk (ensureDir P fs (P.join dir "output")) batch name
    (P.join dir "output") (hP.abs_join _ _ ha) (ensureDir_exists P fs _) (ho _ _)
  exact ⟨this, this⟩

/-- C72 (part): the result of each error method is read back by the analysis commands. -/
theorem C72_error_partial (P : Platform L β) (hP : P.PathSane) (pickle : α → β) (unpickle : β → Unpickled α)
    (hpk : ∀ x, unpickle (pickle x) = .ok x) (fs : L → Option (Node β)) (m : ErrMethod) (x : α) (name dir : String)
    (ha : P.isAbs dir = true) (ho : ∀ fs' l, P.canOpen fs' l = true) :
    pickleLoad P unpickle (cliErrorSave P pickle fs m dir name x).1 (errorPath P m dir name) = .ret (some x) :=
  pickle_roundtrip P hP pickle unpickle hpk _ x _ _ (hP.abs_join _ _ ha) (ensureDir_exists P fs _) (ho _ _)

/-- The files of different error methods have different names. -/
theorem errFile_ne {m m' : ErrMethod} (h : m ≠ m') (name : String) : errFile m name ++ ".pkl" ≠ errFile m' name ++ ".pkl" := by
  intro e
  have e := congrArg String.length e
  have h1 : "disp-".length = 5 := by decide
  have h2 : "bs-".length = 3 := by decide
  have h3 : "bsdisp-".length = 7 := by decide
  cases m <;> cases m' <;> first | exact absurd rfl h | (simp only [errFile, String.length_append] at e; omega)

/-- C72 (part): the three error methods do not overwrite each other. After one method's result and then another method's
result were stored, both are read back, whatever the project is called and whatever was in the project before. -/
theorem C72_error_coexist_partial (P : Platform L β) (hP : P.PathSane) (pickle : α → β) (unpickle : β → Unpickled α)
    (hpk : ∀ x, unpickle (pickle x) = .ok x) (fs : L → Option (Node β)) (m m' : ErrMethod) (hm : m ≠ m') (x y : α)
    (name dir : String) (ha : P.isAbs dir = true) (ho : ∀ fs' l, P.canOpen fs' l = true)
    (hinj : ∀ p q, P.res (P.join (P.join dir "error") p) = P.res (P.join (P.join dir "error") q) → p = q) :
    pickleLoad P unpickle (cliErrorSave P pickle (cliErrorSave P pickle fs m dir name x).1 m' dir name y).1
      (errorPath P m dir name) = .ret (some x) ∧
    pickleLoad P unpickle (cliErrorSave P pickle (cliErrorSave P pickle fs m dir name x).1 m' dir name y).1
      (errorPath P m' dir name) = .ret (some y) := by
  refine ⟨?_, C72_error_partial P hP pickle unpickle hpk _ m' y name dir ha ho⟩
  have h1 := C72_error_partial P hP pickle unpickle hpk fs m x name dir ha ho
  have hsome : (cliErrorSave P pickle fs m dir name x).1 (P.res (P.join dir "error")) ≠ none := by
    have he := ensureDir_exists P fs (P.join dir "error")
    unfold cliErrorSave pickleSave
    simp only
    split
    · exact he
    · split
      · exact he
      · split
        · simp only [FS.set]
          split
          · simp
          · exact he
        · exact he
  generalize (cliErrorSave P pickle fs m dir name x).1 = g at h1 hsome ⊢
  have hens : ensureDir P g (P.join dir "error") = g := by
    unfold ensureDir
    rw [if_neg (by simpa using hsome)]
  have hkeep : (cliErrorSave P pickle g m' dir name y).1 (P.res (errorPath P m dir name))
      = g (P.res (errorPath P m dir name)) := by
    unfold cliErrorSave pickleSave
    simp only [hens]
    split
    · rfl
    · split
      · rfl
      · split
        · simp only [FS.set]
          rw [if_neg]
          rw [hP.res_join_norm]
          exact fun h => errFile_ne hm name (hinj _ _ h)
        · rfl
  unfold pickleLoad at h1 ⊢
  simp only [hP.res_norm] at h1 ⊢
  rw [hkeep]
  exact h1

/-- C72 (part): the file of a constrained run is found by its own analysis commands (what it contains is C49). -/
theorem C72_constrained_partial (P : Platform L β) (hP : P.PathSane) (pickle : α → β) (unpickle : β → Unpickled α)
    (hpk : ∀ x, unpickle (pickle x) = .ok x) (fs : L → Option (Node β)) (x : α) (name dir : String)
    (ha : P.isAbs dir = true) (ho : ∀ fs' l, P.canOpen fs' l = true) :
    pickleLoad P unpickle (cliConstrainedSave P pickle fs dir name x).1 (constrainedPathAnalysis P dir name)
      = .ret (some x) :=
  pickle_roundtrip P hP pickle unpickle hpk _ x _ _ (hP.abs_join _ _ ha) (ensureDir_exists P fs _) (ho _ _)

theorem constrained_names_differ (name : String) :
    "constrained_" ++ name ++ ".pkl" ≠ "constrained_model-" ++ name ++ ".pkl" := by
  intro h
  have := congrArg String.length h
  simp only [String.length_append] at this
  have h1 : "constrained_".length = 12 := by decide
  have h2 : "constrained_model-".length = 18 := by decide
  omega

/-- C72 is refuted for constrained models: for every project name and directory the file read by `run_error` is not the one
`run_constrained` writes. In a project where that other file does not happen to exist, running an error method on the
constrained solution raises. -/
theorem C72_constrained_error_refuted (P : Platform L β) (hP : P.PathSane) (pickle : α → β) (unpickle : β → Unpickled α)
    (fs : L → Option (Node β)) (x : α) (name dir : String)
    (hinj : ∀ p q, P.res (P.join (P.join dir "constrained") p) = P.res (P.join (P.join dir "constrained") q) → p = q)
    (hdir : ∀ p, P.res (P.join (P.join dir "constrained") p) ≠ P.res (P.join dir "constrained"))
    (habsent : fs (P.res (constrainedPathError P dir name)) = none) :
    P.res (constrainedPathError P dir name) ≠ P.res (constrainedPathAnalysis P dir name) ∧
    errorOnConstrained P unpickle (cliConstrainedSave P pickle fs dir name x).1 dir name = .raised := by
  have hne : P.res (constrainedPathError P dir name) ≠ P.res (constrainedPathAnalysis P dir name) :=
    fun h => constrained_names_differ name (hinj _ _ h)
  refine ⟨hne, ?_⟩
  have hnone : (cliConstrainedSave P pickle fs dir name x).1 (P.res (constrainedPathError P dir name)) = none := by
    have he : ensureDir P fs (P.join dir "constrained") (P.res (constrainedPathError P dir name)) = none := by
      unfold ensureDir
      split
      · simp only
        rw [if_neg (by unfold constrainedPathError; exact hdir _)]
        exact habsent
      · exact habsent
    unfold cliConstrainedSave pickleSave
    simp only
    split
    · exact he
    · split
      · exact he
      · split
        · simp only [FS.set]
          rw [if_neg (by
            rw [hP.res_join_norm]
            exact hne)]
          exact he
        · exact he
  unfold errorOnConstrained pickleLoad
  simp only
  by_cases ha : P.isAbs (P.norm (constrainedPathError P dir name)) = false
  · rw [if_pos ha]
  · rw [if_neg ha, hP.res_norm, hnone]

/-- C72 is refuted for relative project directories: `run` writes nothing at all (apart from the empty `output` directory)
and every later stage reads `None`, for every name. -/
theorem C72_relative_refuted (P : Platform L β) (hP : P.PathSane) (pickle : α → β) (unpickle : β → Unpickled α)
    (fs : L → Option (Node β)) (batch : α) (name dir : String)
    (hr : ∀ p, P.isAbs (P.join dir p) = false) (hrr : ∀ p q, P.isAbs (P.join (P.join dir p) q) = false) :
    cliRunSave P pickle fs dir name batch = (ensureDir P fs (P.join dir "output"), .ret none) ∧
    pickleLoad P unpickle (cliRunSave P pickle fs dir name batch).1 (batchPathRun P dir name) = .ret none := by
  constructor
  · unfold cliRunSave pickleSave
    simp only
    rw [if_pos (by rw [hP.abs_norm]; exact hr _)]
  · unfold pickleLoad batchPathRun
    simp only
    rw [if_pos (by rw [hP.abs_norm]; exact hrr _ _)]

/-- C72 is refuted for a project that is addressed by a directory other than the one recorded at setup (moved, or
reached through another path): `run` writes below the recorded directory, `run_error` and `run_constrained` read below the
argument, and find nothing there. -/
theorem C72_moved_refuted (P : Platform L β) (hP : P.PathSane) (pickle : α → β) (unpickle : β → Unpickled α)
    (fs : L → Option (Node β)) (batch : α) (name cfgDir argDir : String)
    (hne : P.res (batchPathRun P argDir name) ≠ P.res (batchPathAnalysis P cfgDir name))
    (hne' : P.res (batchPathRun P argDir name) ≠ P.res (P.join cfgDir "output"))
    (habsent : fs (P.res (batchPathRun P argDir name)) = none) :
    pickleLoad P unpickle (cliRunSave P pickle fs cfgDir name batch).1 (batchPathRun P argDir name) = .ret none := by
  have he : ensureDir P fs (P.join cfgDir "output") (P.res (batchPathRun P argDir name)) = none := by
    unfold ensureDir
    split
    · simp only
      rw [if_neg hne']
      exact habsent
    · exact habsent
  have hnone : (cliRunSave P pickle fs cfgDir name batch).1 (P.res (batchPathRun P argDir name)) = none := by
    unfold cliRunSave pickleSave
    simp only
    split
    · exact he
    · split
      · exact he
      · split
        · simp only [FS.set]
          rw [if_neg (by rw [hP.res_join_norm]; exact hne)]
          exact he
        · exact he
  unfold pickleLoad
  simp only
  by_cases ha : P.isAbs (P.norm (batchPathRun P argDir name)) = false
  · rw [if_pos ha]
  · rw [if_neg ha, hP.res_norm, hnone]

/-- The exact condition of C72 for a directory argument that may differ from the recorded one: where nothing was stored before,
`run_error` and `run_constrained` get the batch written by `run` exactly if the recorded output directory and the path built
from the argument are absolute and refer to the same file. -/
theorem C72_iff_partial (P : Platform L β) (hP : P.PathSane) (pickle : α → β) (unpickle : β → Unpickled α)
    (hpk : ∀ x, unpickle (pickle x) = .ok x) (fs : L → Option (Node β)) (batch : α) (name cfgDir argDir : String)
    (ho : ∀ fs' l, P.canOpen fs' l = true)
    (hne' : P.res (batchPathRun P argDir name) ≠ P.res (P.join cfgDir "output"))
    (habsent : fs (P.res (batchPathRun P argDir name)) = none) :
    pickleLoad P unpickle (cliRunSave P pickle fs cfgDir name batch).1 (batchPathRun P argDir name) = .ret (some batch) ↔
      P.isAbs (P.join cfgDir "output") = true ∧ P.isAbs (batchPathRun P argDir name) = true ∧
      P.res (batchPathRun P argDir name) = P.res (batchPathAnalysis P cfgDir name) := by
  constructor
  · intro h
    have hres : P.res (batchPathRun P argDir name) = P.res (batchPathAnalysis P cfgDir name) := by
      refine Classical.byContradiction fun hne => ?_
      rw [C72_moved_refuted P hP pickle unpickle fs batch name cfgDir argDir hne hne' habsent] at h
      simp at h
    have habs : P.isAbs (batchPathRun P argDir name) = true := by
      refine Classical.byContradiction fun hc => ?_
      unfold pickleLoad at h
      simp only at h
      rw [if_pos (by rw [hP.abs_norm]; simpa using hc)] at h
      simp at h
    refine ⟨?_, habs, hres⟩
    refine Classical.byContradiction fun hc => ?_
    have hs : (cliRunSave P pickle fs cfgDir name batch).1 = ensureDir P fs (P.join cfgDir "output") := by
      unfold cliRunSave pickleSave
      simp only
      rw [if_pos (by rw [hP.abs_norm]; simpa using hc)]
    have he : ensureDir P fs (P.join cfgDir "output") (P.res (batchPathRun P argDir name)) = none := by
      unfold ensureDir
      split
      · simp only
        rw [if_neg hne']
        exact habsent
      · exact habsent
    rw [hs] at h
    unfold pickleLoad at h
    simp only at h
    rw [if_neg (by rw [hP.abs_norm, habs]; simp), hP.res_norm, he] at h
    simp at h
  · rintro ⟨ha, hb, hres⟩
    have hload := pickle_roundtrip P hP pickle unpickle hpk (ensureDir P fs (P.join cfgDir "output")) batch name
      (P.join cfgDir "output") ha (ensureDir_exists P fs _) (ho _ _)
    have hb' : P.isAbs (batchPathAnalysis P cfgDir name) = true := hP.abs_join _ _ ha
    change pickleLoad P unpickle (cliRunSave P pickle fs cfgDir name batch).1 (batchPathAnalysis P cfgDir name) = _ at hload
    unfold pickleLoad at hload ⊢
    simp only at hload ⊢
    rw [if_neg (by rw [hP.abs_norm, hb']; simp), hP.res_norm] at hload
    rw [if_neg (by rw [hP.abs_norm, hb]; simp), hP.res_norm, hres]
    exact hload

/-- Non-vacuity of the C72 theorems on the demo platform: it satisfies `PathSane`, the injectivity and directory
hypotheses hold, and with a relative directory the joined paths are relative. -/
example : posixDemo.PathSane ∧
    (∀ p q, posixDemo.res (posixDemo.join (posixDemo.join "/prj" "constrained") p)
      = posixDemo.res (posixDemo.join (posixDemo.join "/prj" "constrained") q) → p = q) ∧
    (∀ p, posixDemo.res (posixDemo.join (posixDemo.join "/prj" "constrained") p)
      ≠ posixDemo.res (posixDemo.join "/prj" "constrained")) ∧
    (∀ p, posixDemo.isAbs (posixDemo.join "prj" p) = false) ∧
    posixDemo.res (batchPathRun posixDemo "/moved" "x") ≠ posixDemo.res (batchPathAnalysis posixDemo "/prj" "x") := by
  refine ⟨⟨⟨fun _ => rfl, fun _ => rfl, fun d p h => ?_⟩, fun _ _ => rfl⟩, fun p q h => ?_, fun p h => ?_, fun p => ?_, ?_⟩
  · simp only [posixDemo, decide_eq_true_eq, String.toList_append] at h ⊢
    cases hd : d.toList with
    | nil => simp [hd] at h
    | cons c cs =>
      rw [hd] at h
      simpa using h
  · have := congrArg String.toList h
    simp only [posixDemo, id, String.toList_append, List.append_assoc] at this
    simp only [List.append_cancel_left_eq] at this
    exact String.toList_inj.1 this
  · have := congrArg String.length h
    simp only [posixDemo, id, String.length_append] at this
    have h1 : "/".length = 1 := by decide
    omega
  · have h : "prj".toList = ['p', 'r', 'j'] := by decide
    simp [posixDemo, String.toList_append, h]
  · decide

/-! ### C108: BS-DISP on its own -/

/-- C108: with `--bsdisp` but not `--bs`, and the default (empty) `bootstrap_output`, the run raises: the flag
`False` is passed as the bootstrap object. -/
theorem C108_alone_raises {B : Type*} (runsOf : B → ℕ) (cfgN : ℕ) (loaded : String → Option (Option B)) :
    bsdispInit runsOf cfgN (bsdispArg none "" loaded) = .raised := rfl

/-- C108: exactly when the stage starts: a bootstrap was run in the same command or `bootstrap_output` is not empty. -/
theorem C108_starts_iff {B : Type*} (runsOf : B → ℕ) (cfgN : ℕ) (bsRun : Option B) (output : String)
    (loaded : String → Option (Option B)) :
    (∃ n, bsdispInit runsOf cfgN (bsdispArg bsRun output loaded) = .ret n) ↔ bsRun.isSome = true ∨ output ≠ "" := by
  unfold bsdispArg
  by_cases h : output = ""
  · rw [if_neg (by simpa using h)]
    cases bsRun <;> simp [bsdispInit, h]
  · rw [if_pos h]
    simp only [ne_eq, h, not_false_eq_true, or_true, iff_true]
    rcases loaded output with _ | _ | b
    · exact ⟨_, rfl⟩
    · exact ⟨_, rfl⟩
    · exact ⟨_, rfl⟩

/-- A configured file that does not exist silently runs a new bootstrap with the configured number of runs. -/
theorem C108_missing_file {B : Type*} (runsOf : B → ℕ) (cfgN : ℕ) (bsRun : Option B) (output : String)
    (loaded : String → Option (Option B)) (h : output ≠ "") (hm : loaded output = none) :
    bsdispInit runsOf cfgN (bsdispArg bsRun output loaded) = .ret cfgN := by
  unfold bsdispArg
  rw [if_pos h, hm]
  rfl

/-! ### C109: features of the BS-DISP stage -/

/-- C109: the features listed in the `[bsdisp]` section have no influence: two configurations that differ only
there run the same, and whenever the two sections differ in a non-empty `[bsdisp]` list the stage does not use it. -/
theorem C109_section_ignored (c : ErrConfig) (fs : List Int) :
    bsdispStageFeatures { c with bsdispFeatures := fs } = bsdispStageFeatures c ∧
    (c.bsdispFeatures ≠ [] → c.bsdispFeatures ≠ c.dispFeatures → bsdispStageFeatures c ≠ some c.bsdispFeatures) := by
  refine ⟨rfl, fun _ hne h => ?_⟩
  unfold bsdispStageFeatures at h
  split at h
  · exact hne (Option.some.inj h).symm
  · simp at h

/-- C109: a list of any length in the `[disp]` section is used as it is; only an empty one means the default. -/
theorem C109_used (c : ErrConfig) (l : List Int) : bsdispStageFeatures c = some l ↔ l = c.dispFeatures ∧ ∃ f, f ∈ l := by
  unfold bsdispStageFeatures
  rcases hd : c.dispFeatures with _ | ⟨f, fs⟩
  · simp
    rintro rfl
    simp
  · simp only [List.length_cons, ge_iff_le, Nat.le_add_left, if_true, Option.some.injEq]
    constructor
    · rintro rfl
      exact ⟨rfl, f, by simp⟩
    · rintro ⟨rfl, _⟩
      rfl

/-- Non-vacuity: `[disp] features = []`, `[bsdisp] features = [2]` displaces all features. -/
example : bsdispStageFeatures ⟨[], [2]⟩ = none := rfl

/-! ### C110: boolean settings -/

/-- What a boolean written in a configuration file means. -/
def cfgMeaning (s : String) : Bool := s.toLower = "true"

/-- C110: `parallel` and `verbose` take effect as written. -/
theorem C110_parallel_verbose (i p v : String) :
    (batchBools i p v).parallel = cfgMeaning p ∧ (batchBools i p v).verbose = cfgMeaning v := ⟨rfl, rfl⟩

/-- C110: for `init_norm` and the simulator's `outliers` every non-empty text is true, in particular
`False`, `false`, `no` and `0`; the settings cannot be switched off. -/
theorem C110_cannot_be_switched_off (s p v : String) (hs : s ≠ "") (hm : cfgMeaning s = false) :
    (batchBools s p v).initNorm ≠ cfgMeaning s ∧ simOutliers s ≠ cfgMeaning s := by
  simp [batchBools, simOutliers, pyBoolStr, hs, hm]

/-- Non-vacuity: the text that `configparser` writes for `False`. -/
example : "False" ≠ "" ∧ cfgMeaning "False" = false ∧ cfgMeaning "True" = true := by decide +kernel

/-! ### C111: factor indices on the command line -/

/-- C111: the documented default index 0 shows nothing, for every number of factors. -/
theorem C111_default_shows_nothing (factors : ℕ) : shownFactor factors cliDefaultFactor = none := by
  simp [shownFactor, cliDefaultFactor]

/-- C111: the index given on the command line counts from one: row `r` of the profile matrix is shown for the index `r + 1`
and for no other. -/
theorem C111_one_based (factors : ℕ) (idx : Int) (r : ℕ) :
    shownFactor factors idx = some r ↔ r < factors ∧ idx = r + 1 := by
  unfold shownFactor
  split
  · simp only [reduceCtorEq, false_iff, not_and]; omega
  · simp only [Option.some.injEq]; omega

/-! ### C112: analysis commands and the processed data -/

/-- C112: every analysis command that uses the processed input data raises, for every data set, because the
handler created for it never processed the data. -/
theorem C112_raises {D R : Type*} (d : D) (k : D → R) : useInputDf k (cliAnalysisDh d) = .raised := rfl

/-- C112: one call of `get_data` on the handler is enough and none is too few; after several calls the last one counts, on the data
as read and not on the result of the call before. -/
theorem C112_after_get_data {D R : Type*} (calls : List (D → D)) (d : D) (k : D → R) :
    useInputDf k (calls.foldl (fun s process => dhGetData process s) (cliAnalysisDh d)) =
      match calls.getLast? with
      | none => .raised
      | some process => .ret (k (process d)) := by
  have key : ∀ (l : List (D → D)) (s : DhState D), (l.foldl (fun s process => dhGetData process s) s).inputData = s.inputData := by
    intro l
    induction l with
    | nil => intro s; rfl
    | cons p l ih => intro s; rw [List.foldl_cons, ih]; rfl
  rcases List.eq_nil_or_concat calls with rfl | ⟨l, p, rfl⟩
  · rfl
  · rw [List.concat_eq_append, List.foldl_append, List.getLast?_append]
    have h := key l (cliAnalysisDh d)
    change Outcome.ret (k (p (l.foldl (fun s process => dhGetData process s) (cliAnalysisDh d)).inputData)) = _
    rw [h]
    rfl

/-- Two calls: the second one counts. -/
example : useInputDf id ([fun n => n + 1, fun n => 10 * n].foldl (fun s process => dhGetData process s) (cliAnalysisDh 3)) = .ret 30 := by
  decide

/-! ### C113: every command is reachable -/

/-- C113: a registered command is reachable under its name when no later command has the same name. -/
theorem C113_reachable {F : Type*} (pre post : List (String × F)) (name : String) (f : F)
    (hpost : ∀ c ∈ post, c.1 ≠ name) : cliLookup (pre ++ (name, f) :: post) name = some f := by
  unfold cliLookup
  rw [List.reverse_append, List.reverse_cons, List.append_assoc, List.find?_append]
  have h1 : post.reverse.find? (fun c => decide (c.1 = name)) = none := by
    rw [List.find?_eq_none]
    intro c hc
    simpa using hpost c (by simpa using hc)
  rw [h1]
  simp

/-- C113: the command that shows the profile and contributions of a constrained factor cannot be reached: its
name resolves to the later command, and no name resolves to it. -/
theorem C113_unreachable : cliLookup constrainedCommands "plot-contributions" = some "plot_factor_contributions" ∧
    ∀ name, cliLookup constrainedCommands name ≠ some "plot_profile_contributions" := by
  refine ⟨by decide, fun name h => ?_⟩
  unfold cliLookup at h
  rw [Option.map_eq_some_iff] at h
  obtain ⟨c, hc, hc2⟩ := h
  have hmem := List.mem_of_find?_eq_some hc
  have hname : c.1 = name := by simpa using List.find?_some hc
  have hcc : c = ("plot-contributions", "plot_profile_contributions") := by
    revert hc2
    simp only [constrainedCommands, List.mem_reverse, List.mem_cons, List.not_mem_nil, or_false] at hmem
    rcases hmem with rfl | rfl | rfl | rfl | rfl | rfl | rfl | rfl <;> decide
  subst hcc
  subst hname
  revert hc
  decide

end Esat
