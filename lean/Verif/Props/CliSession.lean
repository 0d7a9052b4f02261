import Verif.Model.CliSession
import Verif.Props.SaveErrors
import Verif.Props.Constrained
import Verif.Props.Cli

/-!
# Property C234: sessions with the command line
-/

namespace Esat

section keep
variable {L β α : Type*} [DecidableEq L]

/-- Every file holds a content with the property. -/
def AllFiles (Q : β → Prop) (fs : L → Option (Node β)) : Prop := ∀ l c, fs l = some (.file c) → Q c

variable {Q : β → Prop} (P : Platform L β) {empty : β} {fs : L → Option (Node β)}

theorem allFiles_set (h : AllFiles Q fs) (l : L) {c : β} (hc : Q c) : AllFiles Q (FS.set fs l c) := by
  intro l' c' hl
  unfold FS.set at hl
  split at hl
  · cases hl; exact hc
  · exact h l' c' hl

theorem allFiles_writeFile (he : Q empty) (h : AllFiles Q fs) (p : String) {c : Option β} (hc : ∀ x, c = some x → Q x) :
    AllFiles Q (writeFile P empty fs p c).1 := by
  unfold writeFile
  split
  · cases c with
    | none => exact allFiles_set h _ he
    | some c => exact allFiles_set h _ (hc c rfl)
  · exact h

theorem allFiles_writeFiles (he : Q empty) : ∀ (fl : List (String × Option β)) (fs : L → Option (Node β)), AllFiles Q fs →
    (∀ p ∈ fl, ∀ x, p.2 = some x → Q x) → AllFiles Q (writeFiles P empty fs fl).1
  | [], fs, h, _ => h
  | (p, c) :: rest, fs, h, hq => by
    have h1 := allFiles_writeFile P he h p (c := c) (hq (p, c) (by simp))
    unfold writeFiles
    split
    · next fs' he' =>
      rw [he'] at h1
      exact allFiles_writeFiles he rest fs' h1 fun q hq' => hq q (by simp [hq'])
    · next fs' he' =>
      rw [he'] at h1
      exact h1

theorem allFiles_ensureDir (h : AllFiles Q fs) (d : String) : AllFiles Q (ensureDir P fs d) := by
  unfold ensureDir
  split
  · intro l c hl
    dsimp only at hl
    split at hl
    · cases hl
    · exact h l c hl
  · exact h

/-- All the texts of a model have the property. -/
def SavedModel.All (Q : β → Prop) (x : SavedModel β) : Prop :=
  Q x.metadata ∧ (∀ c, x.H = some c → Q c) ∧ (∀ c, x.W = some c → Q c) ∧ (∀ c, x.WH = some c → Q c) ∧ (∀ c, x.residuals = some c → Q c)

theorem allFiles_saSave (he : Q empty) {pickle : SavedModel β → β} (hpk : ∀ x, Q (pickle x)) (h : AllFiles Q fs) {x : SavedModel β}
    (hx : x.All Q) (name dir : String) (pm hh : Bool) : AllFiles Q (saSave P empty pickle fs x name dir pm hh).1 := by
  obtain ⟨h1, h2, h3, h4, h5⟩ := hx
  unfold saSave
  dsimp only
  split
  · exact h
  split
  · exact h
  split
  · have := allFiles_writeFile P he h (P.join (P.norm dir) (name ++ ".pkl")) (c := some (pickle x)) (by intro y hy; cases hy; exact hpk x)
    split <;> next e => rw [e] at this; exact this
  · have := allFiles_writeFiles P he (csvFiles P (P.norm dir) name x hh) fs h (by
      intro p hp c hc
      simp only [csvFiles, List.mem_cons, List.not_mem_nil, or_false] at hp
      rcases hp with rfl | rfl | rfl | rfl | rfl
      · cases hc; exact h1
      · exact h2 c hc
      · cases hh
        · cases hc
        · exact h3 c hc
      · exact h4 c hc
      · exact h5 c hc)
    split <;> next e => rw [e] at this; exact this

theorem allFiles_batchLoop (he : Q empty) {pickle : SavedModel β → β} (hpk : ∀ x, Q (pickle x)) (name d : String) (pm hh : Bool) :
    ∀ (l : List (Option (SavedModel β))) (i : ℕ) (fs : L → Option (Node β)), AllFiles Q fs → (∀ x, some x ∈ l → x.All Q) →
      AllFiles Q (batchSaveLoop P empty pickle name d pm hh l i fs).1
  | [], i, fs, h, _ => h
  | none :: rest, i, fs, h, hl => by
    unfold batchSaveLoop
    exact allFiles_batchLoop he hpk name d pm hh rest (i + 1) fs h fun x hx => hl x (by simp [hx])
  | some x :: rest, i, fs, h, hl => by
    have h1 := allFiles_saSave P he hpk h (hl x (by simp)) (name ++ "-model-" ++ toString i) d pm hh
    unfold batchSaveLoop
    split
    · next fs' _ e =>
      rw [e] at h1
      exact allFiles_batchLoop he hpk name d pm hh rest (i + 1) fs' h1 fun y hy => hl y (by simp [hy])
    · next fs' e =>
      rw [e] at h1
      exact h1

theorem allFiles_batchSave (he : Q empty) {pb : α → β} (hpb : ∀ x, Q (pb x)) {pickle : SavedModel β → β} (hpk : ∀ x, Q (pickle x)) (h : AllFiles Q fs)
    (b : α) {l : List (Option (SavedModel β))} (hl : ∀ x, some x ∈ l → x.All Q) (name dir : String) (pm p hh : Bool) :
    AllFiles Q (batchSave P empty pb pickle fs b l name dir pm p hh).1 := by
  unfold batchSave
  dsimp only
  split
  · exact h
  split
  · exact h
  split
  · have := allFiles_writeFile P he h (P.join (P.norm dir) (name ++ ".pkl")) (c := some (pb b)) (by intro y hy; cases hy; exact hpb b)
    split <;> next e => rw [e] at this; exact this
  · have := allFiles_batchLoop P he hpk name (P.norm dir) pm hh l 0 fs h hl
    split <;> next e => rw [e] at this; exact this

/-- All the texts of a displacement have the property. -/
def DispFiles.All (Q : β → Prop) (x : DispFiles β) : Prop := Q x.metadata ∧ Q x.increase ∧ Q x.decrease ∧ Q x.swap ∧ ∀ c, x.compiled = some c → Q c

theorem allFiles_dispSave (he : Q empty) {pickle : α → β} (hpk : ∀ x, Q (pickle x)) {texts : α → DispFiles β} (ht : ∀ x, (texts x).All Q)
    (h : AllFiles Q fs) (x : α) (name dir : String) (pr : Bool) : AllFiles Q (dispSave P empty pickle texts fs x name dir pr).1 := by
  obtain ⟨h1, h2, h3, h4, h5⟩ := ht x
  unfold dispSave
  dsimp only
  split
  · exact h
  split
  · exact h
  split
  · have := allFiles_writeFile P he h (P.join (P.norm dir) (name ++ ".pkl")) (c := some (pickle x)) (by intro y hy; cases hy; exact hpk x)
    split <;> next e => rw [e] at this; exact this
  · have := allFiles_writeFiles P he (dispFiles P (P.norm dir) name (texts x)) fs h (by
      intro p hp c hc
      simp only [dispFiles, List.mem_cons, List.not_mem_nil, or_false] at hp
      rcases hp with rfl | rfl | rfl | rfl | rfl
      · cases hc; exact h1
      · cases hc; exact h2
      · cases hc; exact h3
      · cases hc; exact h4
      · exact h5 c hc)
    split <;> next e => rw [e] at this; exact this

/-- All the texts of a bootstrap have the property. -/
def BsFiles.All (Q : β → Prop) (x : BsFiles β) : Prop :=
  Q x.metadata ∧ Q x.results ∧ (∀ c, x.mapping = some c → Q c) ∧ (∀ c, x.qtable = some c → Q c) ∧ Q x.ftables ∧ Q x.profiles ∧ Q x.contributions

theorem allFiles_bsSave (he : Q empty) {pickle : α → β} (hpk : ∀ x, Q (pickle x)) {texts : α → BsFiles β} (ht : ∀ x, (texts x).All Q)
    (h : AllFiles Q fs) (x : α) (name dir : String) (pr : Bool) : AllFiles Q (bsSave P empty pickle texts fs x name dir pr).1 := by
  obtain ⟨h1, h2, h3, h4, h5, h6, h7⟩ := ht x
  unfold bsSave
  dsimp only
  split
  · exact h
  split
  · exact h
  split
  · have := allFiles_writeFile P he h (P.join (P.norm dir) (name ++ ".pkl")) (c := some (pickle x)) (by intro y hy; cases hy; exact hpk x)
    split <;> next e => rw [e] at this; exact this
  · have := allFiles_writeFiles P he (bsFiles P (P.norm dir) name (texts x)) fs h (by
      intro p hp c hc
      simp only [bsFiles, List.mem_cons, List.not_mem_nil, or_false] at hp
      rcases hp with rfl | rfl | rfl | rfl | rfl | rfl | rfl
      · cases hc; exact h1
      · cases hc; exact h2
      · exact h3 c hc
      · exact h4 c hc
      · cases hc; exact h5
      · cases hc; exact h6
      · cases hc; exact h7)
    split <;> next e => rw [e] at this; exact this

theorem allFiles_bsdispLoop {D : Type*} (he : Q empty) {pickle : D → β} (hpk : ∀ x, Q (pickle x)) {texts : D → DispFiles β}
    (ht : ∀ x, (texts x).All Q) (name d : String) : ∀ (l : PyDict ℕ D) (fs : L → Option (Node β)), AllFiles Q fs →
      AllFiles Q (bsdispLoop P empty pickle texts name d l fs).1
  | [], fs, h => h
  | (k, x) :: rest, fs, h => by
    have h1 := allFiles_dispSave P he hpk ht h x (name ++ "-" ++ toString k) d false
    unfold bsdispLoop
    split
    · next fs' _ e =>
      rw [e] at h1
      exact allFiles_bsdispLoop he hpk ht name d rest fs' h1
    · next fs' e =>
      rw [e] at h1
      exact h1

theorem allFiles_bsdispSave {B D : Type*} (he : Q empty) {pickle : α → β} (hpk : ∀ x, Q (pickle x)) {pkB : B → β} (hpB : ∀ x, Q (pkB x))
    {tB : B → BsFiles β} (htB : ∀ x, (tB x).All Q) {pkD : D → β} (hpD : ∀ x, Q (pkD x)) {tD : D → DispFiles β} (htD : ∀ x, (tD x).All Q)
    {texts : α → BsDispFiles β B D} (ht : ∀ x, Q (texts x).metadata ∧ ∀ c, (texts x).compiled = some c → Q c) (h : AllFiles Q fs) (x : α)
    (name dir : String) (pr : Bool) : AllFiles Q (bsdispSave P empty pickle pkB tB pkD tD texts fs x name dir pr).1 := by
  unfold bsdispSave
  dsimp only
  split
  · exact h
  split
  · exact h
  split
  · have := allFiles_writeFile P he h (P.join (P.norm dir) (name ++ ".pkl")) (c := some (pickle x)) (by intro y hy; cases hy; exact hpk x)
    split <;> next e => rw [e] at this; exact this
  · have h1 := allFiles_writeFile P he h (P.join (P.norm dir) (name ++ "-metadata.json")) (c := some (texts x).metadata)
      (by intro y hy; cases hy; exact (ht x).1)
    split
    · next e => rw [e] at h1; exact h1
    · next fs1 e =>
      rw [e] at h1
      split
      · exact h1
      · next b _ =>
        have h2 := allFiles_bsSave P he hpB htB h1 b name (P.norm dir) false
        split
        · next e2 => rw [e2] at h2; exact h2
        · next fs2 _ e2 =>
          rw [e2] at h2
          have h3 := allFiles_bsdispLoop P he hpD htD name (P.norm dir) (texts x).runs fs2 h2
          split
          · next e3 => rw [e3] at h3; exact h3
          · next fs3 e3 =>
            rw [e3] at h3
            have h4 := allFiles_writeFile P he h3 (P.join (P.norm dir) (name ++ "-results.csv")) (c := (texts x).compiled) (ht x).2
            split <;> next e4 => rw [e4] at h4; exact h4

theorem allFiles_simSave (he : Q empty) {pickle : α → β} (hpk : ∀ x, Q (pickle x)) {tables : α → β × β × β × β}
    (ht : ∀ x, Q (tables x).1 ∧ Q (tables x).2.1 ∧ Q (tables x).2.2.1 ∧ Q (tables x).2.2.2) (h : AllFiles Q fs) (x : α) (name dir : String) :
    AllFiles Q (simSave P empty pickle tables fs x name dir).1 := by
  obtain ⟨h1, h2, h3, h4⟩ := ht x
  unfold simSave
  dsimp only
  split
  · exact h
  split
  · exact h
  · have := allFiles_writeFiles P he [(P.join (P.norm dir) "esat_simulator.pkl", some (pickle x)),
       (P.join (P.norm dir) (name ++ "_data.csv"), some (tables x).1),
       (P.join (P.norm dir) (name ++ "_uncertainty.csv"), some (tables x).2.1),
       (P.join (P.norm dir) (name ++ "_profiles.csv"), some (tables x).2.2.1),
       (P.join (P.norm dir) (name ++ "_contributions.csv"), some (tables x).2.2.2)] fs h (by
      intro p hp c hc
      simp only [List.mem_cons, List.not_mem_nil, or_false] at hp
      rcases hp with rfl | rfl | rfl | rfl | rfl
      · cases hc; exact hpk x
      · cases hc; exact h1
      · cases hc; exact h2
      · cases hc; exact h3
      · cases hc; exact h4)
    split <;> next e => rw [e] at this; exact this

theorem allFiles_cSave (he : Q empty) {pickle : SavedModel β → β} (hpk : ∀ x, Q (pickle x)) {metaText : β} (hm : Q metaText) (h : AllFiles Q fs)
    {sa : Option (SavedModel β)} (hs : ∀ x, sa = some x → x.All Q) (name dir : String) (pm : Bool) :
    AllFiles Q (cSave P empty pickle metaText fs sa name dir pm).1 := by
  unfold cSave
  dsimp only
  split
  · exact h
  split
  · exact h
  split
  · exact h
  · next x =>
    have h1 := allFiles_saSave P he hpk h (hs x rfl) ("constrained_model-" ++ name) (P.norm dir) pm true
    split
    · next e => rw [e] at h1; exact h1
    · next fs' _ e =>
      rw [e] at h1
      have h2 := allFiles_writeFile P he h1 (P.join (P.norm dir) ("constrained_model-" ++ name ++ "-metadata.json")) (c := some metaText)
        (by intro y hy; cases hy; exact hm)
      split <;> next e2 => rw [e2] at h2; exact h2

end keep

/-! ## Sessions -/

section session
variable {L : Type*} [DecidableEq L] (P : Platform L Blob) (readText : String → Unpickled PyObj)

/-- No file holds a pickled constrained model. -/
def NoConstrained (fs : L → Option (Node Blob)) : Prop := AllFiles (fun c => c ≠ .pickled .constrained) fs

theorem blobs_all (x : SavedModel String) : x.blobs.All fun c => c ≠ .pickled .constrained := by
  refine ⟨fun h => (by cases h), ?_, ?_, ?_, ?_⟩ <;>
    · intro c hc
      simp only [SavedModel.blobs, Option.map_eq_some_iff] at hc
      obtain ⟨s, _, rfl⟩ := hc
      exact fun h => (by cases h)

theorem dispBlobs_all (x : DispFiles String) : x.blobs.All fun c => c ≠ .pickled .constrained := by
  refine ⟨fun h => (by cases h), fun h => (by cases h), fun h => (by cases h), fun h => (by cases h), ?_⟩
  intro c hc
  simp only [DispFiles.blobs, Option.map_eq_some_iff] at hc
  obtain ⟨s, _, rfl⟩ := hc
  exact fun h => (by cases h)

theorem bsBlobs_all (x : BsFiles String) : x.blobs.All fun c => c ≠ .pickled .constrained := by
  refine ⟨fun h => (by cases h), fun h => (by cases h), ?_, ?_, fun h => (by cases h), fun h => (by cases h), fun h => (by cases h)⟩ <;>
    · intro c hc
      simp only [BsFiles.blobs, Option.map_eq_some_iff] at hc
      obtain ⟨s, _, rfl⟩ := hc
      exact fun h => (by cases h)

theorem saveTwice_keep {f : (L → Option (Node Blob)) → Bool → (L → Option (Node Blob)) × Outcome (Option String)}
    (hf : ∀ fs b, NoConstrained fs → NoConstrained (f fs b).1) {fs : L → Option (Node Blob)} (h : NoConstrained fs) :
    NoConstrained (saveTwice f fs).1 := by
  have h1 := hf fs true h
  unfold saveTwice
  split
  · next e => rw [e] at h1; exact h1
  · next fs1 _ e =>
    rw [e] at h1
    have h2 := hf fs1 false h1
    split <;> next e2 => rw [e2] at h2; exact h2

theorem andThen_keep {r : (L → Option (Node Blob)) × Outcome Unit} {f : (L → Option (Node Blob)) → (L → Option (Node Blob)) × Outcome Unit}
    (hr : NoConstrained r.1) (hf : ∀ fs, NoConstrained fs → NoConstrained (f fs).1) : NoConstrained (andThen r f).1 := by
  obtain ⟨fs, o⟩ := r
  cases o with
  | ret _ => exact hf fs hr
  | raised => exact hr

theorem errorStage_keep {α : Type*} (flag : Bool) (out : Option α)
    {save : α → (L → Option (Node Blob)) → Bool → (L → Option (Node Blob)) × Outcome (Option String)}
    (hs : ∀ x fs b, NoConstrained fs → NoConstrained (save x fs b).1) {fs : L → Option (Node Blob)} (h : NoConstrained fs) :
    NoConstrained (errorStage flag out save fs).1 := by
  unfold errorStage
  split
  · cases out with
    | none => exact h
    | some x => exact saveTwice_keep (hs x) h
  · exact h

theorem cliRunError_keep {fs : L → Option (Node Blob)} (h : NoConstrained fs) (r : ErrorRun) : NoConstrained (cliRunError P readText fs r).1 := by
  have ne : ∀ o, o ≠ .constrained → Blob.pickled o ≠ .pickled .constrained := fun o ho e => ho (by cases e; rfl)
  have nt : ∀ s, Blob.text s ≠ .pickled .constrained := fun s e => (by cases e)
  unfold cliRunError
  split
  · exact h
  split
  · dsimp only
    have h0 : NoConstrained (ensureDir P fs (P.join r.dir "error")) := allFiles_ensureDir P h _
    split
    · exact h
    · split
      · refine andThen_keep (andThen_keep (errorStage_keep _ _ ?_ h0) ?_) ?_
        · intro x fs b hf
          exact allFiles_dispSave (Q := fun c => c ≠ Blob.pickled .constrained) P (nt _) (fun _ => ne _ (by decide)) dispBlobs_all hf _ _ _ _
        · intro fs hf
          refine errorStage_keep _ _ ?_ hf
          intro x fs b hf
          exact allFiles_bsSave (Q := fun c => c ≠ Blob.pickled .constrained) P (nt _) (fun _ => ne _ (by decide)) bsBlobs_all hf _ _ _ _
        · intro fs hf
          refine errorStage_keep _ _ ?_ hf
          intro x fs b hf
          refine allFiles_bsdispSave (Q := fun c => c ≠ Blob.pickled .constrained) P (nt _) (fun _ => ne _ (by decide)) (fun _ => ne _ (by decide)) bsBlobs_all (fun _ => ne _ (by decide)) dispBlobs_all
            (fun x => ⟨nt _, ?_⟩) hf _ _ _ _
          intro c hc
          simp only [BsDispFiles.blobs, Option.map_eq_some_iff] at hc
          obtain ⟨s, _, rfl⟩ := hc
          exact nt s
      · exact h0
  · exact h

theorem cliRun_keep {fs : L → Option (Node Blob)} (h : NoConstrained fs) (d n : String) (out : Option (List (Option (SavedModel String)))) :
    NoConstrained (cliRun P fs d n out).1 := by
  have ne : ∀ o, o ≠ .constrained → Blob.pickled o ≠ .pickled .constrained := fun o ho e => ho (by cases e; rfl)
  unfold cliRun
  cases out with
  | none => exact h
  | some l =>
    dsimp only
    refine saveTwice_keep ?_ (allFiles_ensureDir P h _)
    intro fs b hf
    refine allFiles_batchSave (Q := fun c => c ≠ Blob.pickled .constrained) P (fun e => (by cases e)) (fun _ => ne _ (by decide)) (fun _ => ne _ (by decide)) hf () ?_ _ _ _ _ _
    intro x hx
    rw [List.mem_map] at hx
    obtain ⟨r, _, hr⟩ := hx
    rw [Option.map_eq_some_iff] at hr
    obtain ⟨s, _, rfl⟩ := hr
    exact blobs_all s

theorem cliRunConstrained_keep {fs : L → Option (Node Blob)} (h : NoConstrained fs) (d n : String)
    (out : Option (Option (SavedModel String × String))) : NoConstrained (cliRunConstrained P readText fs d n out).1 := by
  unfold cliRunConstrained
  split
  · exact h
  · exact h
  · exact h
  · dsimp only
    refine saveTwice_keep ?_ (allFiles_ensureDir P h _)
    intro fs b hf
    refine allFiles_cSave P (fun e => (by cases e)) (fun _ e => (by cases e)) (fun e => (by cases e)) hf ?_ _ _ _
    intro x hx
    cases hx
    exact blobs_all _

theorem cliAct_keep {fs : L → Option (Node Blob)} (h : NoConstrained fs) (a : CliAct) : NoConstrained (cliAct P readText fs a) := by
  cases a with
  | write p s => exact allFiles_writeFile P (fun e => (by cases e)) h p (by intro x hx e; cases hx; cases e)
  | mkdir p => exact allFiles_ensureDir P h p
  | delete p =>
    intro l c hl
    unfold cliAct at hl
    dsimp only at hl
    split at hl
    · cases hl
    · exact h l c hl
  | copy p q =>
    unfold cliAct
    dsimp only
    split
    · next c hc => exact allFiles_writeFile P (fun e => (by cases e)) h q (by intro x hx; cases hx; exact h _ c hc)
    · exact h
  | simulator d t =>
    exact allFiles_simSave P (fun e => (by cases e)) (fun _ e => (by cases e))
      (fun _ => ⟨fun e => (by cases e), fun e => (by cases e), fun e => (by cases e), fun e => (by cases e)⟩) h () _ _
  | run d n out => exact cliRun_keep P h d n out
  | runError r => exact cliRunError_keep P readText h r
  | runConstrained d n out => exact cliRunConstrained_keep P readText h d n out

/-- **Whatever is done with the commands and to the files, no file ever holds a pickled constrained model**, unless one did from the start. -/
theorem C234_never_pickled : ∀ (as : List CliAct) (fs : L → Option (Node Blob)), NoConstrained fs → NoConstrained (cliSession P readText fs as)
  | [], _, h => h
  | a :: as, fs, h => C234_never_pickled as (cliAct P readText fs a) (cliAct_keep P readText h a)

/-- What the commands of `analysis-constrained` need, exactly: an absolute path to a file that unpickles to a constrained model. No other class has any of the
seven methods. -/
theorem C234_view_iff (hP : P.Sane) (fs : L → Option (Node Blob)) (dir name cmd method : String) (o : PyObj)
    (hc : cliLookup constrainedCommands cmd = some method) :
    constrainedView P readText fs dir name cmd = .ret (o, method) ↔ o = .constrained ∧ P.isAbs (constrainedPathAnalysis P dir name) = true ∧
      ∃ c, fs (P.res (constrainedPathAnalysis P dir name)) = some (.file c) ∧ unpickleBlob readText c = .ok .constrained := by
  have hm : ∀ x : PyObj, method ∈ x.attrs ↔ x = .constrained := by
    have hmem : method ∈ constrainedCommands.map Prod.snd := by
      unfold cliLookup at hc
      rw [Option.map_eq_some_iff] at hc
      obtain ⟨a, ha, rfl⟩ := hc
      exact List.mem_map_of_mem (List.mem_reverse.1 (List.mem_of_find?_eq_some ha))
    have : ∀ x : PyObj, ∀ q ∈ constrainedCommands.map Prod.snd, q ∈ x.attrs ↔ x = .constrained := by
      intro x; cases x <;> decide +kernel
    exact fun x => this x method hmem
  unfold constrainedView
  rw [hc]
  dsimp only
  unfold objLoad loadedAttr
  dsimp only
  rw [hP.abs_norm, hP.res_norm]
  cases ha : P.isAbs (constrainedPathAnalysis P dir name) with
  | false => simp
  | true =>
    cases hf : fs (P.res (constrainedPathAnalysis P dir name)) with
    | none => simp
    | some x =>
      cases x with
      | dir => simp
      | file c =>
        cases hu : unpickleBlob readText c with
        | pickleError => simp [hu]
        | other => simp [hu]
        | ok x =>
          by_cases hx : method ∈ x.attrs
          · have hx' := (hm x).1 hx
            subst hx'
            simp [hu, hx, eq_comm]
          · have hx' : x ≠ .constrained := fun h => hx ((hm x).2 h)
            simp [hu, hx, hx']

/-- **Disagreement: the commands that show a constrained model never show anything.** In every session, for every directory and project name, each of them
ends with an exception. -/
theorem C234_views (hP : P.Sane) (hr : ∀ s, readText s ≠ .ok .constrained) (fs : L → Option (Node Blob)) (h : NoConstrained fs) (as : List CliAct)
    (dir name cmd : String) : constrainedView P readText (cliSession P readText fs as) dir name cmd = .raised := by
  cases hc : cliLookup constrainedCommands cmd with
  | none => unfold constrainedView; rw [hc]
  | some method =>
    have hn := C234_never_pickled P readText as fs h
    cases hv : constrainedView P readText (cliSession P readText fs as) dir name cmd with
    | raised => rfl
    | ret r =>
      exfalso
      have hr2 : r.2 = method := by
        unfold constrainedView at hv
        rw [hc] at hv
        dsimp only at hv
        split at hv
        · cases hv; rfl
        · cases hv
      obtain ⟨_, _, c, hf, hu⟩ := (C234_view_iff P readText hP _ dir name cmd method r.1 hc).1 (by rw [hv, ← hr2])
      cases c with
      | text s => exact hr s hu
      | pickled o =>
        cases hu
        exact hn _ _ hf rfl

/-- **Disagreement: errors of a constrained model cannot be estimated.** In every session `run-error` with a constrained configuration ends with an exception,
and no file is written: at most the directory for the results is made. -/
theorem C234_run_error (hP : P.Sane) (hr : ∀ s, readText s ≠ .ok .constrained) (fs : L → Option (Node Blob)) (h : NoConstrained fs) (as : List CliAct)
    (r : ErrorRun) (hsel : r.disp = true ∨ r.bs = true ∨ r.bsdisp = true) (hcc : r.constrainedConfig ≠ "") :
    (cliRunError P readText (cliSession P readText fs as) r).2 = .raised ∧
    ∀ l c, (cliRunError P readText (cliSession P readText fs as) r).1 l = some (.file c) ↔ cliSession P readText fs as l = some (.file c) := by
  set g := cliSession P readText fs as with hg
  have hn : NoConstrained g := C234_never_pickled P readText as fs h
  have hb : (!(r.disp || r.bs || r.bsdisp)) = false := by
    rcases hsel with e | e | e <;> simp [e]
  have hkeep : ∀ l c, ensureDir P g (P.join r.dir "error") l = some (.file c) ↔ g l = some (.file c) := by
    intro l c
    unfold ensureDir
    split
    · next hnone =>
      dsimp only
      split
      · next he =>
        subst he
        rw [Option.isNone_iff_eq_none] at hnone
        simp [hnone]
      · rfl
    · rfl
  have hmodel : ∀ b, errorModel P readText (ensureDir P g (P.join r.dir "error")) r b = false := by
    intro b
    unfold errorModel
    rw [if_pos hcc]
    have hl : loadedAttr (objLoad P (unpickleBlob readText) (ensureDir P g (P.join r.dir "error")) (constrainedPathError P r.dir r.name))
        "constrained_model" = .raised := by
      unfold loadedAttr
      split
      · next o ho =>
        have ho' : o ≠ .constrained := by
          rintro rfl
          obtain ⟨_, c, hc, hu⟩ := ((C125_load_iff P hP (unpickleBlob readText) _ _).1 _).1 ho
          cases c with
          | text s => exact hr s hu
          | pickled o =>
            cases hu
            exact hn _ _ ((hkeep _ _).1 hc) rfl
        have : ∀ x : PyObj, "constrained_model" ∈ x.attrs → x = .constrained := by intro x; cases x <;> decide +kernel
        rw [if_neg fun hm => ho' (this o hm)]
      · rfl
    rw [hl]
  unfold cliRunError
  rw [hb]
  simp only [Bool.false_eq_true, if_false]
  cases r.ready with
  | false => exact ⟨rfl, fun _ _ => Iff.rfl⟩
  | true =>
    simp only [if_true]
    split
    · exact ⟨rfl, fun _ _ => Iff.rfl⟩
    · rw [hmodel]
      exact ⟨rfl, hkeep⟩

/-- Saving a constrained model as a pickle, when everything can be written. -/
theorem cSave_pickle_ok {β : Type*} {P : Platform L β} (hP : P.PathSane) (ho : ∀ f l, P.canOpen f l = true) (empty : β) (pickle : SavedModel β → β)
    (metaText : β) (fs : L → Option (Node β)) (x : SavedModel β) (name d : String) (ha : P.isAbs d = true) (hd : fs (P.res d) ≠ none) :
    cSave P empty pickle metaText fs (some x) name d true =
      (FS.set (FS.set fs (P.res (P.join d ("constrained_model-" ++ name ++ ".pkl"))) (pickle x))
        (P.res (P.join d ("constrained_model-" ++ name ++ "-metadata.json"))) metaText, .ret none) := by
  have h2 : (fs (P.res (P.norm d))).isNone = false := by
    rw [hP.res_norm]
    cases hq : fs (P.res d) <;> simp_all
  unfold cSave
  simp only [hP.abs_norm, ha, h2, Bool.true_eq_false, if_false, Bool.false_eq_true]
  rw [saSave_pickle_ok P hP.toSane empty pickle ho fs x _ (P.norm d) true (by rw [hP.abs_norm, ha]) (by rw [hP.res_norm]; exact hd)]
  simp only
  rw [writeFile_ok P empty _ _ _ (ho _ _)]
  simp only [hP.res_join_norm]

/-- Saving a constrained model as texts, when everything can be written. -/
theorem cSave_text_ok {β : Type*} {P : Platform L β} (hP : P.PathSane) (ho : ∀ f l, P.canOpen f l = true) (empty : β) (pickle : SavedModel β → β)
    (metaText : β) (fs : L → Option (Node β)) (x : SavedModel β) (name d : String) (ha : P.isAbs d = true) (hd : fs (P.res d) ≠ none)
    (hH : x.H.isSome) (hW : x.W.isSome) (hWH : x.WH.isSome) (hR : x.residuals.isSome) :
    cSave P empty pickle metaText fs (some x) name d false =
      (FS.set ((csvFiles P (P.norm (P.norm d)) ("constrained_model-" ++ name) x true).foldl (fun f q => FS.set f (P.res q.1) (q.2.getD empty)) fs)
        (P.res (P.join d ("constrained_model-" ++ name ++ "-metadata.json"))) metaText, .ret none) := by
  have h2 : (fs (P.res (P.norm d))).isNone = false := by
    rw [hP.res_norm]
    cases hq : fs (P.res d) <;> simp_all
  have h3 : (fs (P.res (P.norm (P.norm d)))).isNone = false := by rw [hP.res_norm]; exact h2
  unfold cSave
  simp only [hP.abs_norm, ha, h2, Bool.true_eq_false, if_false, Bool.false_eq_true]
  unfold saSave
  simp only [hP.abs_norm, ha, h3, Bool.true_eq_false, if_false, Bool.false_eq_true]
  rw [writeFiles_ok P empty ho _ fs (by simp [csvFiles, hH, hW, hWH, hR])]
  simp only
  rw [writeFile_ok P empty _ _ _ (ho _ _)]
  simp only [hP.res_join_norm]

theorem append_ne_of_suffix (a b c : String) (h : b ≠ c) : a ++ b ≠ a ++ c := fun e => h (by
  have := congrArg String.toList e
  rw [String.toList_append, String.toList_append, List.append_cancel_left_eq] at this
  exact String.toList_inj.1 this)

/-- Why: after `run-constrained` has completed, the file that the views read exists and unpickles, but to an `SA` object. -/
theorem C234_reason (hP : P.PathSane) (ho : ∀ f l, P.canOpen f l = true) (fs : L → Option (Node Blob)) (dir name : String) (x : SavedModel String)
    (metaText : String) (hH : x.H.isSome) (hW : x.W.isSome) (hWH : x.WH.isSome) (hR : x.residuals.isSome)
    (habs : P.isAbs dir = true) (hbatch : ∃ o, loadedAttr (objLoad P (unpickleBlob readText) fs (batchPathRun P dir name)) "results" = .ret o)
    (hinj : ∀ p q, P.res (P.join (P.join dir "constrained") p) = P.res (P.join (P.join dir "constrained") q) → p = q) :
    (cliRunConstrained P readText fs dir name (some (some (x, metaText)))).2 = .ret () ∧
    objLoad P (unpickleBlob readText) (cliRunConstrained P readText fs dir name (some (some (x, metaText)))).1 (constrainedPathAnalysis P dir name)
      = .ret (some .sa) := by
  obtain ⟨o, hb⟩ := hbatch
  have hd : P.isAbs (P.join dir "constrained") = true := hP.abs_join _ _ habs
  have hne : ∀ s, s ≠ ".pkl" → P.res (P.join (P.join dir "constrained") ("constrained_model-" ++ name ++ s)) ≠
      P.res (P.join (P.join dir "constrained") ("constrained_model-" ++ name ++ ".pkl")) := fun s hs e =>
    append_ne_of_suffix _ _ _ hs (hinj _ _ e)
  have hex : ∀ (g : L → Option (Node Blob)) l c, g (P.res (P.join dir "constrained")) ≠ none →
      FS.set g l c (P.res (P.join dir "constrained")) ≠ none := by
    intro g l c hg
    unfold FS.set
    split
    · simp
    · exact hg
  have hrun : cliRunConstrained P readText fs dir name (some (some (x, metaText))) =
      saveTwice (fun fs pk => cSave P (.text "") (fun _ => .pickled .sa) (.text metaText) fs (some x.blobs) name (P.join dir "constrained") pk)
        (ensureDir P fs (P.join dir "constrained")) := by
    unfold cliRunConstrained
    rw [hb]
  rw [hrun]
  unfold saveTwice
  dsimp only
  have h0 := ensureDir_exists P fs (P.join dir "constrained")
  rw [cSave_pickle_ok hP ho _ _ _ _ _ _ _ hd h0]
  dsimp only
  rw [cSave_text_ok hP ho _ _ _ _ _ _ _ hd (hex _ _ _ (hex _ _ _ h0)) (by simpa [SavedModel.blobs] using hH) (by simpa [SavedModel.blobs] using hW)
    (by simpa [SavedModel.blobs] using hWH) (by simpa [SavedModel.blobs] using hR)]
  refine ⟨rfl, ?_⟩
  refine ((C125_load_iff P hP.toSane _ _ _).1 _).2 ⟨hP.abs_join _ _ hd, .pickled .sa, ?_, rfl⟩
  unfold constrainedPathAnalysis
  dsimp only
  rw [FS.set_ne _ _ _ _ (hne "-metadata.json" (by decide)).symm, foldl_set_frame, FS.set_ne _ _ _ _ (hne "-metadata.json" (by decide)).symm, FS.set_self]
  intro q hq
  simp only [csvFiles, List.mem_cons, List.not_mem_nil, or_false] at hq
  rcases hq with rfl | rfl | rfl | rfl | rfl <;> dsimp only <;> simp only [hP.res_join_norm] <;> exact hne _ (by decide)

/-- What the error views need, exactly: without all three flags nothing happens; with them the file of the displacement has to unpickle to an object with the
method. -/
theorem C234_error_views (hP : P.Sane) (fs : L → Option (Node Blob)) (dir name : String) (d b s : Bool) (method : String) :
    (errorView P readText fs dir name d b s method = .ret none ↔ ¬(d = true ∧ b = true ∧ s = true)) ∧
    ∀ o, errorView P readText fs dir name d b s method = .ret (some o) ↔ (d = true ∧ b = true ∧ s = true) ∧ method ∈ o.attrs ∧
      P.isAbs (errorPath P .disp dir name) = true ∧ ∃ c, fs (P.res (errorPath P .disp dir name)) = some (.file c) ∧ unpickleBlob readText c = .ok o := by
  have hl : ∀ o, loadedAttr (objLoad P (unpickleBlob readText) fs (errorPath P .disp dir name)) method = .ret o ↔ method ∈ o.attrs ∧
      P.isAbs (errorPath P .disp dir name) = true ∧ ∃ c, fs (P.res (errorPath P .disp dir name)) = some (.file c) ∧ unpickleBlob readText c = .ok o := by
    intro o
    rw [← (C125_load_iff P hP (unpickleBlob readText) fs (errorPath P .disp dir name)).1 o]
    unfold loadedAttr
    constructor
    · intro h
      split at h
      · next o' ho' =>
        split at h
        · next hm => cases h; exact ⟨hm, ho'⟩
        · cases h
      · cases h
    · rintro ⟨hm, ho⟩
      rw [ho]
      dsimp only
      rw [if_pos hm]
  unfold errorView
  cases he : errorShown d b s with
  | none =>
    have : ¬(d = true ∧ b = true ∧ s = true) := fun h => by
      have := (C71_shown_iff d b s .disp).2 ⟨h, rfl⟩
      rw [he] at this
      cases this
    simp [this]
  | some m =>
    obtain ⟨hf, rfl⟩ := (C71_shown_iff d b s m).1 he
    dsimp only
    constructor
    · constructor
      · intro h
        split at h <;> cases h
      · intro h
        exact absurd hf h
    · intro o
      rw [and_iff_right hf, ← hl o]
      split
      · next o' ho' => rw [ho']; simp
      · next ho' => rw [ho']; simp

end session

/-! ### Non-trivial cases -/

deriving instance DecidableEq for Node

/-- The platform of the examples: plain paths. -/
def sessionPlatform : Platform String Blob := ⟨id, fun p => p.toList.head? = some '/', fun d p => d ++ "/" ++ p, id, fun _ _ => true⟩

/-- A project in which everything was run. -/
def sessionExample : String → Option (Node Blob) :=
  cliSession sessionPlatform (fun _ => .other) (fun l => if l = "/p" then some .dir else none)
    [.write "/p/run_config.toml" "…", .run "/p" "x" (some [some ⟨"m", some "h", some "w", some "wh", some "r"⟩]),
     .runError ⟨"/p", "x", true, false, false, true, "", true, some ⟨"m", "i", "d", "s", some "c"⟩, none, none⟩,
     .runConstrained "/p" "x" (some (some (⟨"m", some "h", some "w", some "wh", some "r"⟩, "meta")))]

/-- All three runs leave their pickles; the file for the constrained views holds an `SA` object, so that they raise, while the displacement can be shown with all flags. -/
example : sessionExample "/p/output/x.pkl" = some (.file (.pickled .batch)) ∧ sessionExample "/p/error/disp-x.pkl" = some (.file (.pickled .disp)) ∧
    sessionExample "/p/constrained/constrained_model-x.pkl" = some (.file (.pickled .sa)) := by decide +kernel

example : errorView sessionPlatform (fun _ => .other) sessionExample "/p" "x" true true true "summary" = .ret (some .disp) ∧
    errorView sessionPlatform (fun _ => .other) sessionExample "/p" "x" true false false "summary" = .ret none ∧
    constrainedView sessionPlatform (fun _ => .other) sessionExample "/p" "x" "summary" = .raised := by decide +kernel

/-- With a pickled constrained model at the place, the view would work. -/
example : constrainedView sessionPlatform (fun _ => .other)
    (fun l => if l = "/p/constrained/constrained_model-x.pkl" then some (.file (.pickled .constrained)) else none) "/p" "x" "plot-q" =
      .ret (.constrained, "plot_Q") := by decide +kernel

/-- The hypotheses on the platform are met. -/
theorem sessionPlatform_sane : sessionPlatform.PathSane ∧ (∀ f l, sessionPlatform.canOpen f l = true) ∧
    ∀ d p q, sessionPlatform.res (sessionPlatform.join d p) = sessionPlatform.res (sessionPlatform.join d q) → p = q := by
  refine ⟨⟨⟨fun _ => rfl, fun _ => rfl, fun d p h => ?_⟩, fun _ _ => rfl⟩, fun _ _ => rfl, fun d p q h => String.append_right_inj _ |>.1 h⟩
  simp only [sessionPlatform, decide_eq_true_eq, String.toList_append] at h ⊢
  cases hd : d.toList with
  | nil => simp [hd] at h
  | cons c cs =>
    rw [hd] at h
    simpa using h

example : ∃ o, loadedAttr (objLoad sessionPlatform (unpickleBlob fun _ => .other) sessionExample (batchPathRun sessionPlatform "/p" "x")) "results" = .ret o :=
  ⟨.batch, by decide +kernel⟩

/-- The hypothesis on the start is met. -/
example : NoConstrained (fun l : String => if l = "/p" then some (Node.dir : Node Blob) else none) := by
  intro l c h
  dsimp only at h
  split at h <;> cases h

end Esat
