import Verif.Model.SaveLoad
import Mathlib.Tactic.Tauto

/-!
# Properties C23 and C76: saving and loading a model
-/

namespace Esat

variable {L β : Type*} [DecidableEq L]

/-- What the proofs need of the platform: normalising a path does not change what it refers to or whether it is
absolute, and joining a file name that is not itself absolute to an absolute directory gives an absolute path. -/
structure Platform.Sane (P : Platform L β) : Prop where
  /-- `Path` only rewrites -/
  res_norm : ∀ p, P.res (P.norm p) = P.res p
  /-- `Path` keeps the leading slash -/
  abs_norm : ∀ p, P.isAbs (P.norm p) = P.isAbs p
  /-- joining keeps the directory's leading slash -/
  abs_join : ∀ d p, P.isAbs d = true → P.isAbs (P.join d p) = true

/-- C23: unless the directory path is absolute and refers to something that exists, `save` returns `None` and the file
system is unchanged; `load` never changes it and returns `None` for a relative or missing path. -/
theorem C23_path_contract (P : Platform L β) (hP : P.Sane) (empty : β) (pickle : SavedModel β → β)
    (unpickle : β → Unpickled (SavedModel β)) (fs : L → Option (Node β)) (x : SavedModel β) (name p : String)
    (pm hh : Bool) (h : P.isAbs p = false ∨ fs (P.res p) = none) :
    saSave P empty pickle fs x name p pm hh = (fs, .ret none) ∧ saLoad P unpickle fs p = .ret none := by
  constructor
  · unfold saSave
    rcases h with h | h
    · rw [if_pos (by rw [hP.abs_norm, h])]
    · by_cases ha : P.isAbs (P.norm p) = false
      · rw [if_pos ha]
      · rw [if_neg ha, if_pos (by rw [hP.res_norm, h]; rfl)]
  · unfold saLoad
    rcases h with h | h
    · rw [if_pos (by rw [hP.abs_norm, h])]
    · by_cases ha : P.isAbs (P.norm p) = false
      · rw [if_pos ha]
      · rw [if_neg ha]
        simp [hP.res_norm, h]

private theorem writeFiles_frame (P : Platform L β) (empty : β) (fl : List (String × Option β)) :
    ∀ fs l, (∀ q ∈ fl, P.res q.1 ≠ l) → (writeFiles P empty fs fl).1 l = fs l := by
  induction fl with
  | nil => intro fs l _; rfl
  | cons q rest ih =>
    intro fs l hl
    obtain ⟨p, c⟩ := q
    have h1 : (writeFile P empty fs p c).1 l = fs l := by
      have hne : l ≠ P.res p := (hl (p, c) (by simp)).symm
      unfold writeFile
      split
      · cases c <;> simp [FS.set, hne]
      · rfl
    unfold writeFiles
    split
    · rename_i fs' he
      rw [ih fs' l (fun q hq => hl q (by simp [hq])), ← h1, he]
    · rename_i fs' he
      rw [← h1, he]

/-- C23: `save` touches only the files named after the model: every other location keeps its contents, whatever the
outcome. -/
theorem C23_frame (P : Platform L β) (empty : β) (pickle : SavedModel β → β)
    (fs : L → Option (Node β)) (x : SavedModel β) (name dir : String) (pm hh : Bool) (l : L)
    (hl : ∀ suffix ∈ [".pkl", "-metadata.json", "-profile.csv", "-contribution.csv", "-vprime.csv", "-residuals.csv"],
      P.res (P.join (P.norm dir) (name ++ suffix)) ≠ l) :
    (saSave P empty pickle fs x name dir pm hh).1 l = fs l := by
  simp only [List.mem_cons, List.not_mem_nil, or_false, forall_eq_or_imp, forall_eq] at hl
  have hw : (writeFile P empty fs (P.join (P.norm dir) (name ++ ".pkl")) (some (pickle x))).1 l = fs l := by
    unfold writeFile
    split
    · simp [FS.set, hl.1.symm]
    · rfl
  have hws : (writeFiles P empty fs (csvFiles P (P.norm dir) name x hh)).1 l = fs l := by
    refine writeFiles_frame P empty _ fs l ?_
    simp only [csvFiles, List.mem_cons, List.not_mem_nil, or_false, forall_eq_or_imp, forall_eq]
    tauto
  unfold saSave
  simp only
  split
  · rfl
  · split
    · rfl
    · split
      · split
        · rename_i he; rw [← hw, he]
        · rename_i he; rw [← hw, he]
      · split
        · rename_i he; rw [← hws, he]
        · rename_i he; rw [← hws, he]

/-- C23: if `save(..., pickle_model=True)` returns a path then that path is absolute and loading it returns the saved
model, for every model, name and directory. -/
theorem C23_round_trip (P : Platform L β) (hP : P.Sane) (empty : β) (pickle : SavedModel β → β)
    (unpickle : β → Unpickled (SavedModel β)) (hpk : ∀ x, unpickle (pickle x) = .ok x) (fs fs' : L → Option (Node β))
    (x : SavedModel β) (name dir path : String) (hh : Bool)
    (h : saSave P empty pickle fs x name dir true hh = (fs', .ret (some path))) :
    P.isAbs path = true ∧ saLoad P unpickle fs' path = .ret (some x) := by
  unfold saSave at h
  simp only at h
  split at h
  · simp at h
  · rename_i ha
    split at h
    · simp at h
    · simp only [if_true] at h
      split at h
      · rename_i fs2 he
        simp only [Prod.mk.injEq, Outcome.ret.injEq, Option.some.injEq] at h
        obtain ⟨rfl, rfl⟩ := h
        have habs : P.isAbs (P.join (P.norm dir) (name ++ ".pkl")) = true :=
          hP.abs_join _ _ (by simpa using ha)
        refine ⟨habs, ?_⟩
        have hfs : fs2 = FS.set fs (P.res (P.join (P.norm dir) (name ++ ".pkl"))) (pickle x) := by
          unfold writeFile at he
          split at he
          · simp only [Prod.mk.injEq, and_true] at he
            exact he.symm
          · simp at he
        unfold saLoad
        rw [if_neg (by rw [hP.abs_norm, habs]; simp)]
        simp [hP.res_norm, hfs, FS.set, hpk]
      · simp at h

/-- `save(..., pickle_model=True)` succeeds whenever the directory is absolute and exists and the file can be opened. -/
theorem C23_save_succeeds (P : Platform L β) (hP : P.Sane) (empty : β) (pickle : SavedModel β → β)
    (fs : L → Option (Node β)) (x : SavedModel β) (name dir : String) (hh : Bool) (ha : P.isAbs dir = true)
    (hd : fs (P.res dir) ≠ none) (ho : P.canOpen fs (P.res (P.join (P.norm dir) (name ++ ".pkl"))) = true) :
    ∃ fs', saSave P empty pickle fs x name dir true hh = (fs', .ret (some (P.join (P.norm dir) (name ++ ".pkl")))) := by
  have h2 : (fs (P.res (P.norm dir))).isNone = false := by
    rw [hP.res_norm]
    cases hq : fs (P.res dir) <;> simp_all
  refine ⟨FS.set fs (P.res (P.join (P.norm dir) (name ++ ".pkl"))) (pickle x), ?_⟩
  simp [saSave, hP.abs_norm, ha, h2, writeFile, ho]

/-- What `load` returns: an object exactly if the path is absolute and its file unpickles to it; `None` exactly for a relative
path, a missing file and a file that ends in a `PickleError`. -/
theorem C23_load_iff (P : Platform L β) (hP : P.Sane) (unpickle : β → Unpickled (SavedModel β)) (fs : L → Option (Node β))
    (p : String) :
    (∀ x, saLoad P unpickle fs p = .ret (some x) ↔
      P.isAbs p = true ∧ ∃ c, fs (P.res p) = some (.file c) ∧ unpickle c = .ok x) ∧
    (saLoad P unpickle fs p = .ret none ↔
      P.isAbs p = false ∨ fs (P.res p) = none ∨ ∃ c, fs (P.res p) = some (.file c) ∧ unpickle c = .pickleError) := by
  unfold saLoad
  simp only [hP.abs_norm, hP.res_norm]
  cases ha : P.isAbs p with
  | false => simp
  | true =>
    rcases hf : fs (P.res p) with _ | _ | c
    · simp
    · simp
    · rcases hu : unpickle c with x | _ | _ <;> simp [hu]

/-- C23 fails in "returns None in all other cases": `load` of an existing absolute path raises if it is a directory or
if unpickling ends in anything but a `PickleError` (an empty file gives `EOFError`), and `save` raises if the file cannot
be opened (for instance because the "directory" is a regular file). -/
theorem C23_none_otherwise_refuted (P : Platform L β) (hP : P.Sane) (empty : β) (pickle : SavedModel β → β)
    (unpickle : β → Unpickled (SavedModel β)) (fs : L → Option (Node β)) (x : SavedModel β) (name p : String)
    (hh : Bool) (ha : P.isAbs p = true) :
    (fs (P.res p) = some .dir → saLoad P unpickle fs p = .raised) ∧
    (∀ c, fs (P.res p) = some (.file c) → unpickle c = .other → saLoad P unpickle fs p = .raised) ∧
    (fs (P.res p) ≠ none → P.canOpen fs (P.res (P.join (P.norm p) (name ++ ".pkl"))) = false →
      (saSave P empty pickle fs x name p true hh).2 = .raised) := by
  refine ⟨fun h => ?_, fun c h hu => ?_, fun h ho => ?_⟩
  · simp [saLoad, hP.abs_norm, ha, hP.res_norm, h]
  · simp [saLoad, hP.abs_norm, ha, hP.res_norm, h, hu]
  · have h2 : (fs (P.res (P.norm p))).isNone = false := by
      rw [hP.res_norm]
      cases hq : fs (P.res p) <;> simp_all
    simp [saSave, hP.abs_norm, ha, h2, writeFile, ho]

/-! ## C76 -/

/-- C76 fails: without a header (the default) the text form of `save` raises for every model and every existing absolute
directory; if all files can be opened, the metadata and profile files have been written, the contribution file is empty
and the other two are not touched. -/
theorem C76_refuted (P : Platform L β) (hP : P.Sane) (empty : β) (pickle : SavedModel β → β)
    (fs : L → Option (Node β)) (x : SavedModel β) (hb : β) (hx : x.H = some hb) (name dir : String)
    (ha : P.isAbs dir = true) (hd : fs (P.res dir) ≠ none) (ho : ∀ f l, P.canOpen f l = true)
    (hinj : ∀ a b, P.res (P.join (P.norm dir) (name ++ a)) = P.res (P.join (P.norm dir) (name ++ b)) → a = b) :
    ∃ fs', saSave P empty pickle fs x name dir false false = (fs', .raised) ∧
      fs' (P.res (P.join (P.norm dir) (name ++ "-profile.csv"))) = some (.file hb) ∧
      fs' (P.res (P.join (P.norm dir) (name ++ "-contribution.csv"))) = some (.file empty) ∧
      fs' (P.res (P.join (P.norm dir) (name ++ "-residuals.csv")))
        = fs (P.res (P.join (P.norm dir) (name ++ "-residuals.csv"))) := by
  have h2 : (fs (P.res (P.norm dir))).isNone = false := by
    rw [hP.res_norm]
    cases hq : fs (P.res dir) <;> simp_all
  have hne : ∀ a b, a ≠ b → ¬ P.res (P.join (P.norm dir) (name ++ a)) = P.res (P.join (P.norm dir) (name ++ b)) :=
    fun a b hab h => hab (hinj a b h)
  obtain ⟨R, hR⟩ : ∃ R : String → L, R = fun a => P.res (P.join (P.norm dir) (name ++ a)) := ⟨_, rfl⟩
  refine ⟨FS.set (FS.set (FS.set fs (R "-metadata.json") x.metadata) (R "-profile.csv") hb) (R "-contribution.csv") empty,
    ?_, ?_, ?_, ?_⟩
  · simp only [saSave, hP.abs_norm, ha, h2, writeFiles, csvFiles, writeFile, ho, hx, if_true, Bool.false_eq_true,
      Bool.true_eq_false, if_false, hR]
  · simp only [FS.set, hR]
    rw [if_neg (hne _ _ (by decide)), if_pos trivial]
  · simp [FS.set, hR]
  · simp only [FS.set, hR]
    rw [if_neg (hne _ _ (by decide)), if_neg (hne _ _ (by decide)), if_neg (hne _ _ (by decide))]

/-- The text form also raises for a model that was never trained (WH is `None`), whatever the header. -/
theorem C76_untrained_refuted (P : Platform L β) (hP : P.Sane) (empty : β) (pickle : SavedModel β → β)
    (fs : L → Option (Node β)) (x : SavedModel β) (hx : x.WH = none) (name dir : String) (hh : Bool)
    (ha : P.isAbs dir = true) (hd : fs (P.res dir) ≠ none) :
    (saSave P empty pickle fs x name dir false hh).2 = .raised := by
  have h2 : (fs (P.res (P.norm dir))).isNone = false := by
    rw [hP.res_norm]
    cases hq : fs (P.res dir) <;> simp_all
  have key : ∀ (fl : List (String × Option β)) (f : L → Option (Node β)), (∃ q ∈ fl, q.2 = none) →
      (writeFiles P empty f fl).2 = false := by
    intro fl
    induction fl with
    | nil => simp
    | cons q rest ih =>
      rintro f ⟨r, hr, hn⟩
      obtain ⟨p, c⟩ := q
      unfold writeFiles
      split
      · rename_i fs' he
        rcases List.mem_cons.1 hr with rfl | hr
        · exfalso
          simp only at hn
          subst hn
          unfold writeFile at he
          split at he <;> simp at he
        · exact ih fs' ⟨r, hr, hn⟩
      · rfl
  have := key (csvFiles P (P.norm dir) name x hh) fs
    ⟨(P.join (P.norm dir) (name ++ "-vprime.csv"), x.WH), by simp [csvFiles], hx⟩
  unfold saSave
  simp only [hP.abs_norm, ha, h2, Bool.true_eq_false, Bool.false_eq_true, if_false]
  split
  · rename_i he; rw [he] at this; simp at this
  · rfl

/-- C76 otherwise: with a header, a trained model is written completely: the call returns the directory and each of the
five files has its contents. Missing: exactly the two refuted cases above. -/
theorem C76_with_header_partial (P : Platform L β) (hP : P.Sane) (empty : β) (pickle : SavedModel β → β)
    (fs : L → Option (Node β)) (md h w v r : β) (name dir : String)
    (ha : P.isAbs dir = true) (hd : fs (P.res dir) ≠ none) (ho : ∀ f l, P.canOpen f l = true)
    (hinj : ∀ a b, P.res (P.join (P.norm dir) (name ++ a)) = P.res (P.join (P.norm dir) (name ++ b)) → a = b) :
    ∃ fs', saSave P empty pickle fs ⟨md, some h, some w, some v, some r⟩ name dir false true
        = (fs', .ret (some (P.norm dir))) ∧
      ∀ q ∈ [("-metadata.json", md), ("-profile.csv", h), ("-contribution.csv", w), ("-vprime.csv", v),
          ("-residuals.csv", r)], fs' (P.res (P.join (P.norm dir) (name ++ q.1))) = some (.file q.2) := by
  have h2 : (fs (P.res (P.norm dir))).isNone = false := by
    rw [hP.res_norm]
    cases hq : fs (P.res dir) <;> simp_all
  have hne : ∀ a b, a ≠ b → ¬ P.res (P.join (P.norm dir) (name ++ a)) = P.res (P.join (P.norm dir) (name ++ b)) :=
    fun a b hab h => hab (hinj a b h)
  obtain ⟨R, hR⟩ : ∃ R : String → L, R = fun a => P.res (P.join (P.norm dir) (name ++ a)) := ⟨_, rfl⟩
  refine ⟨FS.set (FS.set (FS.set (FS.set (FS.set fs (R "-metadata.json") md) (R "-profile.csv") h)
    (R "-contribution.csv") w) (R "-vprime.csv") v) (R "-residuals.csv") r, ?_, ?_⟩
  · simp only [saSave, hP.abs_norm, ha, h2, writeFiles, csvFiles, writeFile, ho, if_true, Bool.false_eq_true,
      Bool.true_eq_false, if_false, hR]
  · simp only [List.mem_cons, List.not_mem_nil, or_false, forall_eq_or_imp, forall_eq, FS.set, hR]
    refine ⟨?_, ?_, ?_, ?_, ?_⟩ <;>
    simp [hne "-metadata.json" "-profile.csv" (by decide), hne "-metadata.json" "-contribution.csv" (by decide),
      hne "-metadata.json" "-vprime.csv" (by decide), hne "-metadata.json" "-residuals.csv" (by decide),
      hne "-profile.csv" "-contribution.csv" (by decide), hne "-profile.csv" "-vprime.csv" (by decide),
      hne "-profile.csv" "-residuals.csv" (by decide), hne "-contribution.csv" "-vprime.csv" (by decide),
      hne "-contribution.csv" "-residuals.csv" (by decide), hne "-vprime.csv" "-residuals.csv" (by decide)]

theorem writeFiles_ok_iff (P : Platform L β) (empty : β) (ho : ∀ f l, P.canOpen f l = true) (fl : List (String × Option β)) :
    ∀ fs : L → Option (Node β), (writeFiles P empty fs fl).2 = true ↔ ∀ q ∈ fl, q.2.isSome := by
  induction fl with
  | nil => intro fs; simp [writeFiles]
  | cons q fl ih =>
    intro fs
    obtain ⟨p, c⟩ := q
    cases c with
    | none => simp [writeFiles, writeFile, ho]
    | some c =>
      have : writeFiles P empty fs ((p, some c) :: fl) = writeFiles P empty (FS.set fs (P.res p) c) fl := by
        simp [writeFiles, writeFile, ho]
      rw [this, ih]
      simp

/-- C76, exact condition: if every file can be opened in an existing absolute directory, the text form of `save` returns (the directory) exactly if a header was passed and profiles, contributions, reconstruction and residuals exist;
otherwise it raises. -/
theorem C76_iff_partial (P : Platform L β) (hP : P.Sane) (empty : β) (pickle : SavedModel β → β)
    (fs : L → Option (Node β)) (x : SavedModel β) (name dir : String) (hh : Bool)
    (ha : P.isAbs dir = true) (hd : fs (P.res dir) ≠ none) (ho : ∀ f l, P.canOpen f l = true) :
    ((saSave P empty pickle fs x name dir false hh).2 = .ret (some (P.norm dir)) ↔
      hh = true ∧ x.H.isSome ∧ x.W.isSome ∧ x.WH.isSome ∧ x.residuals.isSome) ∧
    ((saSave P empty pickle fs x name dir false hh).2 = .raised ↔
      ¬ (hh = true ∧ x.H.isSome ∧ x.W.isSome ∧ x.WH.isSome ∧ x.residuals.isSome)) := by
  have h2 : (fs (P.res (P.norm dir))).isNone = false := by
    rw [hP.res_norm]
    cases hq : fs (P.res dir) <;> simp_all
  have hw := writeFiles_ok_iff P empty ho (csvFiles P (P.norm dir) name x hh) fs
  have hc : (∀ q ∈ csvFiles P (P.norm dir) name x hh, q.2.isSome) ↔
      hh = true ∧ x.H.isSome ∧ x.W.isSome ∧ x.WH.isSome ∧ x.residuals.isSome := by
    cases hh <;> simp [csvFiles]
  rw [hc] at hw
  unfold saSave
  simp only [hP.abs_norm, ha, h2, Bool.true_eq_false, Bool.false_eq_true, if_false]
  split
  · rename_i he
    rw [he] at hw
    have := hw.1 rfl
    simp [this]
  · rename_i he
    rw [he] at hw
    have h3 : ¬ (hh = true ∧ x.H.isSome ∧ x.W.isSome ∧ x.WH.isSome ∧ x.residuals.isSome) := fun h => by
      have := hw.2 h
      simp at this
    exact ⟨⟨fun h => (by cases h), fun h => absurd h h3⟩, ⟨fun _ => h3, fun _ => rfl⟩⟩

/-- A concrete platform: locations are path strings, absolute means starting with a slash, everything can be opened. -/
def posixDemo : Platform String String :=
  { norm := id, isAbs := fun p => p.toList.head? = some '/', join := fun d p => d ++ "/" ++ p, res := id,
    canOpen := fun _ _ => true }

/-- Non-vacuity: the demo platform is sane (absolute directories are non-empty), file names are distinct, and saving to an
existing absolute directory and loading back works. -/
example : posixDemo.Sane ∧ posixDemo.isAbs "/data" = true ∧
    (∀ a b, posixDemo.res (posixDemo.join (posixDemo.norm "/data") ("m" ++ a))
      = posixDemo.res (posixDemo.join (posixDemo.norm "/data") ("m" ++ b)) → a = b) := by
  refine ⟨⟨fun _ => rfl, fun _ => rfl, fun d p h => ?_⟩, by decide, fun a b h => ?_⟩
  · simp only [posixDemo, decide_eq_true_eq, String.toList_append] at h ⊢
    cases hd : d.toList with
    | nil => simp [hd] at h
    | cons c cs =>
      rw [hd] at h
      simpa using h
  · have := congrArg String.toList h
    simp only [posixDemo, id, String.toList_append, List.append_assoc] at this
    simp only [List.append_cancel_left_eq] at this
    exact String.toList_inj.1 this

end Esat
