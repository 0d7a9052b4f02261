import Verif.Model.SaveErrors
import Verif.Props.SaveLoad
import Verif.Lemmas.PyDict
import Std.Data.String.ToNat

/-!
# Properties C23 (batches) and C125-C128: saving and loading batches, error estimates and simulators
-/

namespace Esat

section files
variable {L β α : Type*} [DecidableEq L]

/-! ## Loading -/

/-- None of the `load` methods opens anything for a relative or missing path; they return `None`. -/
theorem C125_load (P : Platform L β) (hP : P.Sane) (unpickle : β → Unpickled α) (fs : L → Option (Node β)) (p : String)
    (h : P.isAbs p = false ∨ fs (P.res p) = none) : objLoad P unpickle fs p = .ret none := by
  unfold objLoad
  rcases h with h | h
  · rw [if_pos (by rw [hP.abs_norm, h])]
  · simp only
    split
    · rfl
    · rw [hP.res_norm, h]

/-- What the other `load` methods return: an object exactly if the path is absolute and its file unpickles to it; `None` exactly for a relative
path, a missing file and a file that ends in a `PickleError`. -/
theorem C125_load_iff (P : Platform L β) (hP : P.Sane) (unpickle : β → Unpickled α) (fs : L → Option (Node β))
    (p : String) :
    (∀ x, objLoad P unpickle fs p = .ret (some x) ↔
      P.isAbs p = true ∧ ∃ c, fs (P.res p) = some (.file c) ∧ unpickle c = .ok x) ∧
    (objLoad P unpickle fs p = .ret none ↔
      P.isAbs p = false ∨ fs (P.res p) = none ∨ ∃ c, fs (P.res p) = some (.file c) ∧ unpickle c = .pickleError) := by
  unfold objLoad
  simp only [hP.abs_norm, hP.res_norm]
  cases ha : P.isAbs p with
  | false => simp
  | true =>
    rcases hf : fs (P.res p) with _ | _ | c
    · simp
    · simp
    · rcases hu : unpickle c with x | _ | _ <;> simp [hu]

/-- Reading back a file that holds the pickled object. -/
theorem objLoad_file (P : Platform L β) (hP : P.Sane) (pickle : α → β) (unpickle : β → Unpickled α)
    (hpk : ∀ x, unpickle (pickle x) = .ok x) (fs : L → Option (Node β)) (path : String) (x : α)
    (ha : P.isAbs path = true) (hf : fs (P.res path) = some (.file (pickle x))) : objLoad P unpickle fs path = .ret (some x) := by
  unfold objLoad
  rw [if_neg (by rw [hP.abs_norm, ha]; simp), hP.res_norm, hf]
  simp [hpk]

theorem FS.set_self (fs : L → Option (Node β)) (l : L) (c : β) : FS.set fs l c l = some (.file c) := by simp [FS.set]

theorem FS.set_ne (fs : L → Option (Node β)) (l l' : L) (c : β) (h : l' ≠ l) : FS.set fs l c l' = fs l' := by simp [FS.set, h]

theorem writeFile_ok (P : Platform L β) (empty : β) (fs : L → Option (Node β)) (p : String) (c : β)
    (ho : P.canOpen fs (P.res p) = true) : writeFile P empty fs p (some c) = (FS.set fs (P.res p) c, true) := by
  simp [writeFile, ho]

theorem writeFile_true (P : Platform L β) (empty : β) (fs fs' : L → Option (Node β)) (p : String) (c : β)
    (h : writeFile P empty fs p (some c) = (fs', true)) : fs' = FS.set fs (P.res p) c := by
  unfold writeFile at h
  split at h
  · simpa using h.symm
  · simp at h

/-- Files that cannot all be computed: the first one whose text is missing raises. -/
theorem writeFiles_ok (P : Platform L β) (empty : β) (ho : ∀ f l, P.canOpen f l = true) (fl : List (String × Option β)) :
    ∀ fs : L → Option (Node β), (∀ q ∈ fl, q.2.isSome = true) →
      writeFiles P empty fs fl = (fl.foldl (fun f q => FS.set f (P.res q.1) (q.2.getD empty)) fs, true) := by
  induction fl with
  | nil => intro fs _; rfl
  | cons q fl ih =>
    intro fs h
    obtain ⟨p, c⟩ := q
    cases c with
    | none => simpa using h (p, none) (by simp)
    | some c =>
      rw [writeFiles, writeFile_ok P empty fs p c (ho _ _)]
      simp only [List.foldl_cons, Option.getD_some]
      exact ih _ fun q hq => h q (by simp [hq])

/-- Writes to other locations do not matter. -/
theorem foldl_set_frame (P : Platform L β) (empty : β) (l : L) (fl : List (String × Option β)) :
    ∀ fs : L → Option (Node β), (∀ q ∈ fl, P.res q.1 ≠ l) →
      fl.foldl (fun f q => FS.set f (P.res q.1) (q.2.getD empty)) fs l = fs l := by
  induction fl with
  | nil => intro fs _; rfl
  | cons q fl ih =>
    intro fs h
    rw [List.foldl_cons, ih _ fun q hq => h q (by simp [hq]), FS.set_ne _ _ _ _ (h q (by simp)).symm]

/-- A file of the list is there afterwards if no later one goes to the same place. -/
theorem foldl_set_mem (P : Platform L β) (empty : β) (fl : List (String × Option β)) :
    ∀ fs : L → Option (Node β), fl.Pairwise (fun a b => P.res a.1 ≠ P.res b.1) → ∀ p c, (p, some c) ∈ fl →
      fl.foldl (fun f q => FS.set f (P.res q.1) (q.2.getD empty)) fs (P.res p) = some (.file c) := by
  induction fl with
  | nil => intro fs _ p c h; simp at h
  | cons q fl ih =>
    intro fs hd p c h
    rw [List.pairwise_cons] at hd
    rw [List.foldl_cons]
    rcases List.mem_cons.1 h with h | h
    · subst h
      rw [foldl_set_frame P empty _ fl _ fun q hq => (hd.1 q hq).symm, FS.set_self]
      rfl
    · exact ih _ hd.2 p c h

/-! ## Batches -/

/-- C23 for batches: unless the directory path is absolute and exists, nothing is written and the result is `None`. -/
theorem C23_batch_path_contract (P : Platform L β) (hP : P.Sane) (empty : β) (pb : α → β) (pickle : SavedModel β → β)
    (fs : L → Option (Node β)) (b : α) (results : List (Option (SavedModel β))) (name p : String) (pm pbt hh : Bool)
    (h : P.isAbs p = false ∨ fs (P.res p) = none) :
    batchSave P empty pb pickle fs b results name p pm pbt hh = (fs, .ret none) := by
  unfold batchSave
  rcases h with h | h
  · rw [if_pos (by rw [hP.abs_norm, h])]
  · simp only
    split
    · rfl
    · rw [if_pos (by rw [hP.res_norm, h]; rfl)]

/-- A batch saved as one pickle file is read back by `load` from the returned path. -/
theorem C23_batch_round_trip (P : Platform L β) (hP : P.Sane) (empty : β) (pb : α → β) (pickle : SavedModel β → β)
    (unpickle : β → Unpickled α) (hpk : ∀ x, unpickle (pb x) = .ok x) (fs fs' : L → Option (Node β)) (b : α)
    (results : List (Option (SavedModel β))) (name dir path : String) (pm hh : Bool)
    (h : batchSave P empty pb pickle fs b results name dir pm true hh = (fs', .ret (some path))) :
    P.isAbs path = true ∧ objLoad P unpickle fs' path = .ret (some b) := by
  unfold batchSave at h
  simp only at h
  split at h
  · simp at h
  · rename_i ha
    split at h
    · simp at h
    · simp only [if_true] at h
      split at h
      · rename_i fs1 hw
        have e := writeFile_true P empty fs fs1 _ _ hw
        simp only [Prod.mk.injEq, Outcome.ret.injEq, Option.some.injEq] at h
        obtain ⟨h1, h2⟩ := h
        subst h1; subst h2
        have habs : P.isAbs (P.join (P.norm dir) (name ++ ".pkl")) = true := hP.abs_join _ _ (by simpa using ha)
        refine ⟨habs, objLoad_file P hP pb unpickle hpk _ _ b habs ?_⟩
        rw [e, FS.set_self]
      · simp at h

theorem saSave_pickle_ok (P : Platform L β) (hP : P.Sane) (empty : β) (pickle : SavedModel β → β)
    (ho : ∀ f l, P.canOpen f l = true) (fs : L → Option (Node β)) (x : SavedModel β) (name d : String) (hh : Bool)
    (ha : P.isAbs d = true) (hd : fs (P.res d) ≠ none) :
    saSave P empty pickle fs x name d true hh =
      (FS.set fs (P.res (P.join (P.norm d) (name ++ ".pkl"))) (pickle x), .ret (some (P.join (P.norm d) (name ++ ".pkl")))) := by
  have h2 : (fs (P.res (P.norm d))).isNone = false := by
    rw [hP.res_norm]
    cases hq : fs (P.res d) <;> simp_all
  unfold saSave
  simp only [hP.abs_norm, ha, h2, Bool.true_eq_false, if_false, Bool.false_eq_true, if_true]
  rw [writeFile_ok P empty fs _ _ (ho _ _)]

theorem batchLoop_pickle (P : Platform L β) (hP : P.Sane) (empty : β) (pickle : SavedModel β → β)
    (ho : ∀ f l, P.canOpen f l = true) (name d : String) (hh : Bool) (ha : P.isAbs d = true)
    (results : List (Option (SavedModel β))) : ∀ (i : ℕ) (fs : L → Option (Node β)), fs (P.res d) ≠ none →
      ∃ fs', batchSaveLoop P empty pickle name d true hh results i fs = (fs', true) ∧
        (∀ l, (∀ j : ℕ, i ≤ j → P.res (P.join (P.norm d) (name ++ "-model-" ++ toString j ++ ".pkl")) ≠ l) → fs' l = fs l) ∧
        ((∀ a b : ℕ, P.res (P.join (P.norm d) (name ++ "-model-" ++ toString a ++ ".pkl")) =
            P.res (P.join (P.norm d) (name ++ "-model-" ++ toString b ++ ".pkl")) → a = b) →
          ∀ (j : ℕ) x, results[j]? = some (some x) →
            fs' (P.res (P.join (P.norm d) (name ++ "-model-" ++ toString (i + j) ++ ".pkl"))) = some (.file (pickle x))) := by
  induction results with
  | nil => intro i fs _; exact ⟨fs, rfl, fun _ _ => rfl, fun _ j x h => by simp at h⟩
  | cons r rest ih =>
    intro i fs hd
    cases r with
    | none =>
      obtain ⟨fs', h1, h2, h3⟩ := ih (i + 1) fs hd
      refine ⟨fs', h1, fun l hl => h2 l fun j hj => hl j (by omega), fun hinj j x hx => ?_⟩
      cases j with
      | zero => simp at hx
      | succ j =>
        rw [show i + (j + 1) = i + 1 + j by omega]
        exact h3 hinj j x (by simpa using hx)
    | some y =>
      have e := saSave_pickle_ok P hP empty pickle ho fs y (name ++ "-model-" ++ toString i) d hh ha hd
      have hd' : FS.set fs (P.res (P.join (P.norm d) (name ++ "-model-" ++ toString i ++ ".pkl"))) (pickle y) (P.res d) ≠ none := by
        unfold FS.set
        split
        · simp
        · exact hd
      obtain ⟨fs', h1, h2, h3⟩ := ih (i + 1) _ hd'
      refine ⟨fs', ?_, fun l hl => ?_, fun hinj j x hx => ?_⟩
      · rw [batchSaveLoop, e]
        exact h1
      · rw [h2 l fun j hj => hl j (by omega), FS.set_ne _ _ _ _ (hl i (Nat.le_refl i)).symm]
      · cases j with
        | zero =>
          simp only [List.getElem?_cons_zero, Option.some.injEq] at hx
          subst hx
          rw [Nat.add_zero, h2 _ fun j hj hje => ?_, FS.set_self]
          have := hinj _ _ hje
          omega
        | succ j =>
          rw [show i + (j + 1) = i + 1 + j by omega]
          exact h3 hinj j x (by simpa using hx)

/-- A batch saved as separate pickle files: every model that did not fail is in the file with its own number and is read back
by `SA.load`; the result is the directory. -/
theorem C23_batch_models (P : Platform L β) (hP : P.Sane) (empty : β) (pb : α → β) (pickle : SavedModel β → β)
    (unpickle : β → Unpickled (SavedModel β)) (hpk : ∀ x, unpickle (pickle x) = .ok x) (ho : ∀ f l, P.canOpen f l = true)
    (fs : L → Option (Node β)) (b : α) (results : List (Option (SavedModel β))) (name dir : String) (hh : Bool)
    (ha : P.isAbs dir = true) (hd : fs (P.res dir) ≠ none)
    (hinj : ∀ a c, P.res (P.join (P.norm (P.norm dir)) a) = P.res (P.join (P.norm (P.norm dir)) c) → a = c) :
    ∃ fs', batchSave P empty pb pickle fs b results name dir true false hh = (fs', .ret (some (P.norm dir))) ∧
      ∀ (i : ℕ) x, results[i]? = some (some x) →
        saLoad P unpickle fs' (P.join (P.norm (P.norm dir)) (name ++ "-model-" ++ toString i ++ ".pkl")) = .ret (some x) := by
  have ha' : P.isAbs (P.norm dir) = true := by rw [hP.abs_norm, ha]
  have h2 : (fs (P.res (P.norm dir))).isNone = false := by
    rw [hP.res_norm]
    cases hq : fs (P.res dir) <;> simp_all
  obtain ⟨fs', h1, -, h3⟩ := batchLoop_pickle P hP empty pickle ho name (P.norm dir) hh ha' results 0 fs
    (by rw [hP.res_norm]; exact hd)
  refine ⟨fs', ?_, fun i x hx => ?_⟩
  · unfold batchSave
    simp only [ha', h2, Bool.true_eq_false, if_false, Bool.false_eq_true]
    rw [h1]
  · have hnum : ∀ a b : ℕ, P.res (P.join (P.norm (P.norm dir)) (name ++ "-model-" ++ toString a ++ ".pkl")) =
        P.res (P.join (P.norm (P.norm dir)) (name ++ "-model-" ++ toString b ++ ".pkl")) → a = b := fun a b h =>
      Nat.repr_injective (String.append_right_inj _ |>.1 (String.append_left_inj _ |>.1 (hinj _ _ h)))
    have := h3 hnum i x hx
    rw [Nat.zero_add] at this
    unfold saLoad
    have habs : P.isAbs (P.join (P.norm (P.norm dir)) (name ++ "-model-" ++ toString i ++ ".pkl")) = true :=
      hP.abs_join _ _ (by rw [hP.abs_norm, ha'])
    rw [if_neg (by rw [hP.abs_norm, habs]; simp), hP.res_norm, this]
    simp [hpk]

/-- **Disagreement.** A batch saved as text without a header does not get past its first model: `SA.save` raises (C76). -/
theorem C23_batch_text_refuted (P : Platform L β) (hP : P.Sane) (empty : β) (pb : α → β) (pickle : SavedModel β → β)
    (fs : L → Option (Node β)) (b : α) (x : SavedModel β) (hb : β) (hx : x.H = some hb) (rest : List (Option (SavedModel β)))
    (name dir : String) (ha : P.isAbs dir = true) (hd : fs (P.res dir) ≠ none) (ho : ∀ f l, P.canOpen f l = true)
    (hinj : ∀ a c, P.res (P.join (P.norm (P.norm dir)) (name ++ "-model-" ++ toString 0 ++ a)) =
      P.res (P.join (P.norm (P.norm dir)) (name ++ "-model-" ++ toString 0 ++ c)) → a = c) :
    (batchSave P empty pb pickle fs b (some x :: rest) name dir false false false).2 = .raised := by
  have ha' : P.isAbs (P.norm dir) = true := by rw [hP.abs_norm, ha]
  have h2 : (fs (P.res (P.norm dir))).isNone = false := by
    rw [hP.res_norm]
    cases hq : fs (P.res dir) <;> simp_all
  obtain ⟨fs', h, -⟩ := C76_refuted P hP empty pickle fs x hb hx (name ++ "-model-" ++ toString 0) (P.norm dir) ha'
    (by rw [hP.res_norm]; exact hd) ho hinj
  unfold batchSave
  simp only [ha', h2, Bool.true_eq_false, if_false, Bool.false_eq_true]
  rw [batchSaveLoop, h]

/-! ## C125: path contract of the error estimates and the simulator -/

section c125
variable {B D : Type*}

/-- Unless the directory path is absolute and exists, no method writes anything; the result is `None` (`False` for the
simulator). -/
theorem C125_save (P : Platform L β) (hP : P.Sane) (empty : β) (pk : α → β) (pkB : B → β) (tB : B → BsFiles β) (pkD : D → β)
    (tD : D → DispFiles β) (t : α → BsDispFiles β B D) (tables : α → β × β × β × β) (fs : L → Option (Node β)) (x : α) (y : B)
    (z : D) (name p : String) (pr : Bool) (h : P.isAbs p = false ∨ fs (P.res p) = none) :
    dispSave P empty pkD tD fs z name p pr = (fs, .ret none) ∧ bsSave P empty pkB tB fs y name p pr = (fs, .ret none) ∧
    bsdispSave P empty pk pkB tB pkD tD t fs x name p pr = (fs, .ret none) ∧
    simSave P empty pk tables fs x name p = (fs, .ret false) := by
  unfold dispSave bsSave bsdispSave simSave
  rcases h with h | h
  · simp [hP.abs_norm, h]
  · have h' : fs (P.res (P.norm p)) = none := by rw [hP.res_norm, h]
    simp only [h', Option.isNone_none, if_true, ite_self, and_self]

/-- Displacement and BS-DISP results saved as a pickle file are read back from the returned path. -/
theorem C125_round_trip (P : Platform L β) (hP : P.Sane) (empty : β) (pk : α → β) (pkB : B → β) (tB : B → BsFiles β)
    (pkD : D → β) (tD : D → DispFiles β) (t : α → BsDispFiles β B D) (unpkD : β → Unpickled D) (unpk : β → Unpickled α)
    (hD : ∀ x, unpkD (pkD x) = .ok x) (hA : ∀ x, unpk (pk x) = .ok x) (ho : ∀ f l, P.canOpen f l = true)
    (fs : L → Option (Node β)) (x : α) (z : D) (name dir : String) (ha : P.isAbs dir = true) (hd : fs (P.res dir) ≠ none) :
    ∃ path, (∃ fs', dispSave P empty pkD tD fs z name dir true = (fs', .ret (some path)) ∧
        objLoad P unpkD fs' path = .ret (some z)) ∧
      ∃ fs', bsdispSave P empty pk pkB tB pkD tD t fs x name dir true = (fs', .ret (some path)) ∧
        objLoad P unpk fs' path = .ret (some x) := by
  have ha' : P.isAbs (P.norm dir) = true := by rw [hP.abs_norm, ha]
  have h2 : (fs (P.res (P.norm dir))).isNone = false := by
    rw [hP.res_norm]
    cases hq : fs (P.res dir) <;> simp_all
  have habs : P.isAbs (P.join (P.norm dir) (name ++ ".pkl")) = true := hP.abs_join _ _ ha'
  refine ⟨P.join (P.norm dir) (name ++ ".pkl"),
    ⟨FS.set fs (P.res (P.join (P.norm dir) (name ++ ".pkl"))) (pkD z), ?_, objLoad_file P hP pkD unpkD hD _ _ z habs (FS.set_self _ _ _)⟩,
    ⟨FS.set fs (P.res (P.join (P.norm dir) (name ++ ".pkl"))) (pk x), ?_, objLoad_file P hP pk unpk hA _ _ x habs (FS.set_self _ _ _)⟩⟩
  · unfold dispSave
    simp only [ha', h2, Bool.true_eq_false, if_false, Bool.false_eq_true, if_true]
    rw [writeFile_ok P empty fs _ _ (ho _ _)]
  · unfold bsdispSave
    simp only [ha', h2, Bool.true_eq_false, if_false, Bool.false_eq_true, if_true]
    rw [writeFile_ok P empty fs _ _ (ho _ _)]

/-- The simulator: `True` means that the object can be read back and that the four tables were written. -/
theorem C125_simulator (P : Platform L β) (hP : P.Sane) (empty : β) (pk : α → β) (tables : α → β × β × β × β)
    (unpk : β → Unpickled α) (hA : ∀ x, unpk (pk x) = .ok x) (ho : ∀ f l, P.canOpen f l = true)
    (fs : L → Option (Node β)) (x : α) (name dir : String) (ha : P.isAbs dir = true) (hd : fs (P.res dir) ≠ none)
    (hinj : ∀ a b, P.res (P.join (P.norm dir) a) = P.res (P.join (P.norm dir) b) → a = b)
    (hname : ∀ s ∈ ["_data.csv", "_uncertainty.csv", "_profiles.csv", "_contributions.csv"], name ++ s ≠ "esat_simulator.pkl") :
    ∃ fs', simSave P empty pk tables fs x name dir = (fs', .ret true) ∧
      objLoad P unpk fs' (P.join (P.norm dir) "esat_simulator.pkl") = .ret (some x) ∧
      fs' (P.res (P.join (P.norm dir) (name ++ "_data.csv"))) = some (.file (tables x).1) ∧
      fs' (P.res (P.join (P.norm dir) (name ++ "_uncertainty.csv"))) = some (.file (tables x).2.1) ∧
      fs' (P.res (P.join (P.norm dir) (name ++ "_profiles.csv"))) = some (.file (tables x).2.2.1) ∧
      fs' (P.res (P.join (P.norm dir) (name ++ "_contributions.csv"))) = some (.file (tables x).2.2.2) := by
  have ha' : P.isAbs (P.norm dir) = true := by rw [hP.abs_norm, ha]
  have h2 : (fs (P.res (P.norm dir))).isNone = false := by
    rw [hP.res_norm]
    cases hq : fs (P.res dir) <;> simp_all
  have habs : P.isAbs (P.join (P.norm dir) "esat_simulator.pkl") = true := hP.abs_join _ _ ha'
  have hne : ∀ a b : String, a ≠ b → P.res (P.join (P.norm dir) (name ++ a)) ≠ P.res (P.join (P.norm dir) (name ++ b)) := by
    intro a b hab h
    exact hab (String.append_right_inj _ |>.1 (hinj _ _ h))
  have hpw : List.Pairwise (fun a b : String × Option β => P.res a.1 ≠ P.res b.1)
      [(P.join (P.norm dir) "esat_simulator.pkl", some (pk x)),
       (P.join (P.norm dir) (name ++ "_data.csv"), some (tables x).1),
       (P.join (P.norm dir) (name ++ "_uncertainty.csv"), some (tables x).2.1),
       (P.join (P.norm dir) (name ++ "_profiles.csv"), some (tables x).2.2.1),
       (P.join (P.norm dir) (name ++ "_contributions.csv"), some (tables x).2.2.2)] := by
    have hs : ∀ s ∈ ["_data.csv", "_uncertainty.csv", "_profiles.csv", "_contributions.csv"],
        P.res (P.join (P.norm dir) "esat_simulator.pkl") ≠ P.res (P.join (P.norm dir) (name ++ s)) :=
      fun s hs h => hname s hs (hinj _ _ h).symm
    simp only [List.pairwise_cons, List.mem_cons, List.not_mem_nil, or_false, forall_eq_or_imp, forall_eq,
      IsEmpty.forall_iff, implies_true, List.Pairwise.nil, and_true]
    refine ⟨⟨hs _ (by simp), hs _ (by simp), hs _ (by simp), hs _ (by simp)⟩, ⟨hne _ _ (by decide), hne _ _ (by decide), hne _ _ (by decide)⟩,
      ⟨hne _ _ (by decide), hne _ _ (by decide)⟩, hne _ _ (by decide)⟩
  have hm := foldl_set_mem P empty _ fs hpw
  refine ⟨_, ?_, objLoad_file P hP pk unpk hA _ _ x habs (hm _ _ (by simp)), hm _ _ (by simp), hm _ _ (by simp), hm _ _ (by simp),
    hm _ _ (by simp)⟩
  unfold simSave
  simp only [ha', h2, Bool.true_eq_false, if_false, Bool.false_eq_true]
  rw [writeFiles_ok P empty ho _ fs (by simp)]

/-- Results saved as text (`pickle_result=False`): the directory is returned, every file has its own content under its own name, and other
files are as before. -/
theorem C125_disp_text (P : Platform L β) (hP : P.Sane) (empty : β) (pkD : D → β) (tD : D → DispFiles β)
    (ho : ∀ f l, P.canOpen f l = true) (fs : L → Option (Node β)) (z : D) (c : β) (hc : (tD z).compiled = some c) (name dir : String)
    (ha : P.isAbs dir = true) (hd : fs (P.res dir) ≠ none)
    (hinj : ∀ a b, P.res (P.join (P.norm dir) a) = P.res (P.join (P.norm dir) b) → a = b) :
    ∃ fs', dispSave P empty pkD tD fs z name dir false = (fs', .ret (some (P.norm dir))) ∧
      fs' (P.res (P.join (P.norm dir) (name ++ "-metadata.json"))) = some (.file (tD z).metadata) ∧
      fs' (P.res (P.join (P.norm dir) (name ++ "-increase-disp.json"))) = some (.file (tD z).increase) ∧
      fs' (P.res (P.join (P.norm dir) (name ++ "-decrease-disp.json"))) = some (.file (tD z).decrease) ∧
      fs' (P.res (P.join (P.norm dir) (name ++ "-swaptable.csv"))) = some (.file (tD z).swap) ∧
      fs' (P.res (P.join (P.norm dir) (name ++ "-results.csv"))) = some (.file c) ∧
      ∀ l, (∀ s ∈ ["-metadata.json", "-increase-disp.json", "-decrease-disp.json", "-swaptable.csv", "-results.csv"],
        P.res (P.join (P.norm dir) (name ++ s)) ≠ l) → fs' l = fs l := by
  have h2 : (fs (P.res (P.norm dir))).isNone = false := by
    rw [hP.res_norm]
    cases hq : fs (P.res dir) <;> simp_all
  have hne : ∀ a b : String, a ≠ b → P.res (P.join (P.norm dir) (name ++ a)) ≠ P.res (P.join (P.norm dir) (name ++ b)) := by
    intro a b hab h
    exact hab (String.append_right_inj _ |>.1 (hinj _ _ h))
  have hpw : List.Pairwise (fun a b : String × Option β => P.res a.1 ≠ P.res b.1) (dispFiles P (P.norm dir) name (tD z)) := by
    simp only [dispFiles, List.pairwise_cons, List.mem_cons, List.not_mem_nil, or_false, forall_eq_or_imp, forall_eq,
      IsEmpty.forall_iff, implies_true, List.Pairwise.nil, and_true]
    refine ⟨⟨?_, ?_, ?_, ?_⟩, ⟨?_, ?_, ?_⟩, ⟨?_, ?_⟩, ?_⟩ <;> exact hne _ _ (by decide)
  have hm := foldl_set_mem P empty _ fs hpw
  refine ⟨_, ?_, hm _ _ (by simp [dispFiles]), hm _ _ (by simp [dispFiles]), hm _ _ (by simp [dispFiles]), hm _ _ (by simp [dispFiles]),
    hm _ _ (by simp [dispFiles, hc]), ?_⟩
  · unfold dispSave
    simp only [hP.abs_norm, ha, h2, Bool.true_eq_false, if_false, Bool.false_eq_true]
    rw [writeFiles_ok P empty ho _ fs (by simp [dispFiles, hc])]
  · intro l hl
    apply foldl_set_frame
    intro q hq
    simp only [dispFiles, List.mem_cons, List.not_mem_nil, or_false] at hq
    rcases hq with rfl | rfl | rfl | rfl | rfl <;> exact hl _ (by simp)

/-- The same for the seven files of the bootstrap. -/
theorem C125_bs_text (P : Platform L β) (hP : P.Sane) (empty : β) (pkB : B → β) (tB : B → BsFiles β)
    (ho : ∀ f l, P.canOpen f l = true) (fs : L → Option (Node β)) (y : B) (m q : β) (hm : (tB y).mapping = some m)
    (hq : (tB y).qtable = some q) (name dir : String) (ha : P.isAbs dir = true) (hd : fs (P.res dir) ≠ none)
    (hinj : ∀ a b, P.res (P.join (P.norm dir) a) = P.res (P.join (P.norm dir) b) → a = b) :
    ∃ fs', bsSave P empty pkB tB fs y name dir false = (fs', .ret (some (P.norm dir))) ∧
      fs' (P.res (P.join (P.norm dir) (name ++ "-metadata.json"))) = some (.file (tB y).metadata) ∧
      fs' (P.res (P.join (P.norm dir) (name ++ "-results.json"))) = some (.file (tB y).results) ∧
      fs' (P.res (P.join (P.norm dir) (name ++ "-mapping.csv"))) = some (.file m) ∧
      fs' (P.res (P.join (P.norm dir) (name ++ "-qtable.csv"))) = some (.file q) ∧
      fs' (P.res (P.join (P.norm dir) (name ++ "-ftables.json"))) = some (.file (tB y).ftables) ∧
      fs' (P.res (P.join (P.norm dir) (name ++ "-profiles.json"))) = some (.file (tB y).profiles) ∧
      fs' (P.res (P.join (P.norm dir) (name ++ "-contributions.json"))) = some (.file (tB y).contributions) ∧
      ∀ l, (∀ s ∈ ["-metadata.json", "-results.json", "-mapping.csv", "-qtable.csv", "-ftables.json", "-profiles.json", "-contributions.json"],
        P.res (P.join (P.norm dir) (name ++ s)) ≠ l) → fs' l = fs l := by
  have h2 : (fs (P.res (P.norm dir))).isNone = false := by
    rw [hP.res_norm]
    cases hq : fs (P.res dir) <;> simp_all
  have hne : ∀ a b : String, a ≠ b → P.res (P.join (P.norm dir) (name ++ a)) ≠ P.res (P.join (P.norm dir) (name ++ b)) := by
    intro a b hab h
    exact hab (String.append_right_inj _ |>.1 (hinj _ _ h))
  have hpw : List.Pairwise (fun a b : String × Option β => P.res a.1 ≠ P.res b.1) (bsFiles P (P.norm dir) name (tB y)) := by
    simp only [bsFiles, List.pairwise_cons, List.mem_cons, List.not_mem_nil, or_false, forall_eq_or_imp, forall_eq,
      IsEmpty.forall_iff, implies_true, List.Pairwise.nil, and_true]
    refine ⟨⟨?_, ?_, ?_, ?_, ?_, ?_⟩, ⟨?_, ?_, ?_, ?_, ?_⟩, ⟨?_, ?_, ?_, ?_⟩, ⟨?_, ?_, ?_⟩, ⟨?_, ?_⟩, ?_⟩ <;> exact hne _ _ (by decide)
  have hs := foldl_set_mem P empty _ fs hpw
  refine ⟨_, ?_, hs _ _ (by simp [bsFiles]), hs _ _ (by simp [bsFiles]), hs _ _ (by simp [bsFiles, hm]), hs _ _ (by simp [bsFiles, hq]),
    hs _ _ (by simp [bsFiles]), hs _ _ (by simp [bsFiles]), hs _ _ (by simp [bsFiles]), ?_⟩
  · unfold bsSave
    simp only [hP.abs_norm, ha, h2, Bool.true_eq_false, if_false, Bool.false_eq_true]
    rw [writeFiles_ok P empty ho _ fs (by simp [bsFiles, hm, hq])]
  · intro l hl
    apply foldl_set_frame
    intro q hq
    simp only [bsFiles, List.mem_cons, List.not_mem_nil, or_false] at hq
    rcases hq with rfl | rfl | rfl | rfl | rfl | rfl | rfl <;> exact hl _ (by simp)

/-! ## C126, C127 -/

/-- C126: a bootstrap saved as a pickle file is there and can be read back, but the method returns `None`, its documented sign
of failure (`displacement.py`, `bs_disp.py` return the path in the same situation). -/
theorem C126_none (P : Platform L β) (hP : P.Sane) (empty : β) (pkB : B → β) (tB : B → BsFiles β) (unpkB : β → Unpickled B)
    (hB : ∀ x, unpkB (pkB x) = .ok x) (ho : ∀ f l, P.canOpen f l = true) (fs : L → Option (Node β)) (y : B) (name dir : String)
    (ha : P.isAbs dir = true) (hd : fs (P.res dir) ≠ none) :
    ∃ fs', bsSave P empty pkB tB fs y name dir true = (fs', .ret none) ∧
      objLoad P unpkB fs' (P.join (P.norm dir) (name ++ ".pkl")) = .ret (some y) := by
  have ha' : P.isAbs (P.norm dir) = true := by rw [hP.abs_norm, ha]
  have h2 : (fs (P.res (P.norm dir))).isNone = false := by
    rw [hP.res_norm]
    cases hq : fs (P.res dir) <;> simp_all
  refine ⟨FS.set fs (P.res (P.join (P.norm dir) (name ++ ".pkl"))) (pkB y), ?_,
    objLoad_file P hP pkB unpkB hB _ _ y (hP.abs_join _ _ ha') (FS.set_self _ _ _)⟩
  unfold bsSave
  simp only [ha', h2, Bool.true_eq_false, if_false, Bool.false_eq_true, if_true]
  rw [writeFile_ok P empty fs _ _ (ho _ _)]

/-- Whatever happens, with `pickle_result=True` the bootstrap never returns a path. -/
theorem C126_never_path (P : Platform L β) (empty : β) (pkB : B → β) (tB : B → BsFiles β) (fs : L → Option (Node β)) (y : B)
    (name dir path : String) : (bsSave P empty pkB tB fs y name dir true).2 ≠ .ret (some path) := by
  unfold bsSave
  simp only
  split
  · simp
  · split
    · simp
    · simp only [if_true]
      split <;> simp

theorem dispSave_text (P : Platform L β) (hP : P.Sane) (empty : β) (pkD : D → β) (tD : D → DispFiles β)
    (ho : ∀ f l, P.canOpen f l = true) (fs : L → Option (Node β)) (z : D) (name d : String) (ha : P.isAbs d = true)
    (hd : fs (P.res d) ≠ none) (hc : (tD z).compiled.isSome = true) :
    dispSave P empty pkD tD fs z name d false =
      ((dispFiles P (P.norm d) name (tD z)).foldl (fun f q => FS.set f (P.res q.1) (q.2.getD empty)) fs, .ret (some (P.norm d))) := by
  have h2 : (fs (P.res (P.norm d))).isNone = false := by
    rw [hP.res_norm]
    cases hq : fs (P.res d) <;> simp_all
  unfold dispSave
  simp only [hP.abs_norm, ha, h2, Bool.true_eq_false, if_false, Bool.false_eq_true]
  rw [writeFiles_ok P empty ho _ fs (by simp [dispFiles, hc])]

theorem foldl_set_exists (P : Platform L β) (empty : β) (l : L) (fl : List (String × Option β)) :
    ∀ fs : L → Option (Node β), fs l ≠ none → fl.foldl (fun f q => FS.set f (P.res q.1) (q.2.getD empty)) fs l ≠ none := by
  induction fl with
  | nil => intro fs h; exact h
  | cons q fl ih =>
    intro fs h
    rw [List.foldl_cons]
    apply ih
    unfold FS.set
    split
    · simp
    · exact h

theorem bsdispLoop_ok (P : Platform L β) (hP : P.Sane) (empty : β) (pkD : D → β) (tD : D → DispFiles β)
    (ho : ∀ f l, P.canOpen f l = true) (name d : String) (ha : P.isAbs d = true) (runs : PyDict ℕ D)
    (hc : ∀ p ∈ runs, (tD p.2).compiled.isSome = true) : ∀ fs : L → Option (Node β), fs (P.res d) ≠ none →
      bsdispLoop P empty pkD tD name d runs fs =
        ((runs.flatMap fun p => dispFiles P (P.norm d) (name ++ "-" ++ toString p.1) (tD p.2)).foldl
          (fun f q => FS.set f (P.res q.1) (q.2.getD empty)) fs, true) := by
  induction runs with
  | nil => intro fs _; rfl
  | cons p runs ih =>
    intro fs hd
    obtain ⟨k, z⟩ := p
    rw [bsdispLoop, dispSave_text P hP empty pkD tD ho fs z _ d ha hd (hc (k, z) (by simp))]
    simp only [List.flatMap_cons, List.foldl_append]
    exact ih (fun p hp => hc p (by simp [hp])) _ (foldl_set_exists P empty _ _ fs hd)

/-- **Disagreement** (C127). BS-DISP results saved as text: the returned path is that of a pickle file that was not written, and
the metadata file of BS-DISP has been overwritten by the metadata of its bootstrap. -/
theorem C127_text (P : Platform L β) (hP : P.Sane) (empty : β) (pk : α → β) (pkB : B → β) (tB : B → BsFiles β)
    (pkD : D → β) (tD : D → DispFiles β) (t : α → BsDispFiles β B D) (ho : ∀ f l, P.canOpen f l = true)
    (fs : L → Option (Node β)) (x : α) (y : B) (hy : (t x).bootstrap = some y) (hm : (tB y).mapping.isSome = true)
    (hq : (tB y).qtable.isSome = true) (hc : ∀ p ∈ (t x).runs, (tD p.2).compiled.isSome = true) (c : β) (hx : (t x).compiled = some c)
    (name dir : String) (ha : P.isAbs dir = true) (hd : fs (P.res dir) ≠ none) (hnn : ∀ p, P.norm (P.norm p) = P.norm p)
    (hinj : ∀ a b, P.res (P.join (P.norm dir) a) = P.res (P.join (P.norm dir) b) → a = b) :
    ∃ fs', bsdispSave P empty pk pkB tB pkD tD t fs x name dir false = (fs', .ret (some (P.join (P.norm dir) (name ++ ".pkl")))) ∧
      fs' (P.res (P.join (P.norm dir) (name ++ ".pkl"))) = fs (P.res (P.join (P.norm dir) (name ++ ".pkl"))) ∧
      fs' (P.res (P.join (P.norm dir) (name ++ "-metadata.json"))) = some (.file (tB y).metadata) ∧
      fs' (P.res (P.join (P.norm dir) (name ++ "-results.csv"))) = some (.file c) := by
  have ha' : P.isAbs (P.norm dir) = true := by rw [hP.abs_norm, ha]
  have hd' : fs (P.res (P.norm dir)) ≠ none := by rw [hP.res_norm]; exact hd
  have h2 : (fs (P.res (P.norm dir))).isNone = false := by
    cases hq : fs (P.res (P.norm dir)) <;> simp_all
  let S := fun (f : L → Option (Node β)) (q : String × Option β) => FS.set f (P.res q.1) (q.2.getD empty)
  let fs1 := FS.set fs (P.res (P.join (P.norm dir) (name ++ "-metadata.json"))) (t x).metadata
  have hd1 : fs1 (P.res (P.norm dir)) ≠ none := by
    simp only [fs1]
    unfold FS.set
    split
    · simp
    · exact hd'
  have h21 : (fs1 (P.res (P.norm dir))).isNone = false := by
    cases hq : fs1 (P.res (P.norm dir)) <;> simp_all
  let fs2 := (bsFiles P (P.norm dir) name (tB y)).foldl S fs1
  have e2 : bsSave P empty pkB tB fs1 y name (P.norm dir) false = (fs2, .ret (some (P.norm dir))) := by
    unfold bsSave
    simp only [hnn, ha', h21, Bool.true_eq_false, if_false, Bool.false_eq_true]
    rw [writeFiles_ok P empty ho _ fs1 (by simp [bsFiles, hm, hq])]
  have hd2 : fs2 (P.res (P.norm dir)) ≠ none := foldl_set_exists P empty _ _ fs1 hd1
  let rest := (t x).runs.flatMap fun p => dispFiles P (P.norm dir) (name ++ "-" ++ toString p.1) (tD p.2)
  let fs3 := rest.foldl S fs2
  have e3 : bsdispLoop P empty pkD tD name (P.norm dir) (t x).runs fs2 = (fs3, true) := by
    rw [bsdispLoop_ok P hP empty pkD tD ho name (P.norm dir) ha' _ hc fs2 hd2, hnn]
  let fs4 := FS.set fs3 (P.res (P.join (P.norm dir) (name ++ "-results.csv"))) c
  have hne : ∀ a b : String, a ≠ b → P.res (P.join (P.norm dir) (name ++ a)) ≠ P.res (P.join (P.norm dir) (name ++ b)) := by
    intro a b hab h
    exact hab (String.append_right_inj _ |>.1 (hinj _ _ h))
  have hrest : ∀ s : String, (s = ".pkl" ∨ s = "-metadata.json") → ∀ q ∈ rest, P.res q.1 ≠ P.res (P.join (P.norm dir) (name ++ s)) := by
    intro s hs q hq
    simp only [rest, List.mem_flatMap] at hq
    obtain ⟨p, -, hq⟩ := hq
    have key : ∀ u : String, u.length ≥ 11 → (s = "-metadata.json" → u ≠ "-metadata.json" → u.toList.getLast? ≠ "-metadata.json".toList.getLast? ∨ u.length + 1 > 14) →
        P.res (P.join (P.norm dir) (name ++ "-" ++ toString p.1 ++ u)) ≠ P.res (P.join (P.norm dir) (name ++ s)) := by
      intro u hu hu2 h
      have h3 := hinj _ _ h
      have h4 := congrArg String.toList h3
      simp only [String.toList_append, List.append_assoc] at h4
      have h5 := List.append_cancel_left h4
      have h6 := congrArg List.length h5
      simp only [List.length_append, String.length_toList] at h6
      rcases hs with hs | hs
      · subst hs
        have : ("-" : String).length = 1 := by decide
        have : (".pkl" : String).length = 4 := by decide
        omega
      · subst hs
        have e1 : ("-" : String).length = 1 := by decide
        have e2 : ("-metadata.json" : String).length = 14 := by decide
        by_cases hum : u = "-metadata.json"
        · subst hum
          omega
        · rcases hu2 rfl hum with h7 | h7
          · apply h7
            rw [← h5]
            have hne : u.toList ≠ [] := by
              intro h0
              have := congrArg List.length h0
              simp only [String.length_toList, List.length_nil] at this
              omega
            rw [List.getLast?_append_of_ne_nil _ (by simp [hne]), List.getLast?_append_of_ne_nil _ hne]
          · omega
    simp only [dispFiles, List.mem_cons, List.not_mem_nil, or_false] at hq
    rcases hq with hq | hq | hq | hq | hq <;> subst hq
    · exact key _ (by decide) (by intro _ h; exact absurd rfl h)
    · exact key _ (by decide) (by intro _ _; exact Or.inr (by decide))
    · exact key _ (by decide) (by intro _ _; exact Or.inr (by decide))
    · exact key _ (by decide) (by intro _ _; exact Or.inl (by decide))
    · exact key _ (by decide) (by intro _ _; exact Or.inl (by decide))
  refine ⟨fs4, ?_, ?_, ?_, FS.set_self _ _ _⟩
  · unfold bsdispSave
    simp only [ha', h2, Bool.true_eq_false, if_false, Bool.false_eq_true]
    rw [writeFile_ok P empty fs _ _ (ho _ _)]
    simp only [hy]
    rw [show bsSave P empty pkB tB (FS.set fs (P.res (P.join (P.norm dir) (name ++ "-metadata.json"))) (t x).metadata) y name
      (P.norm dir) false = _ from e2]
    simp only
    rw [e3]
    simp only [hx]
    rw [writeFile_ok P empty fs3 _ _ (ho _ _)]
  · simp only [fs4]
    rw [FS.set_ne _ _ _ _ (hne ".pkl" "-results.csv" (by decide))]
    simp only [fs3, S]
    rw [foldl_set_frame P empty _ rest fs2 (hrest ".pkl" (Or.inl rfl))]
    simp only [fs2, S]
    rw [foldl_set_frame P empty _ _ fs1 ?_]
    · simp only [fs1]
      rw [FS.set_ne _ _ _ _ (hne ".pkl" "-metadata.json" (by decide))]
    · intro q hq
      simp only [bsFiles, List.mem_cons, List.not_mem_nil, or_false] at hq
      rcases hq with hq | hq | hq | hq | hq | hq | hq <;> subst hq <;> exact hne _ _ (by decide)
  · simp only [fs4]
    rw [FS.set_ne _ _ _ _ (hne "-metadata.json" "-results.csv" (by decide))]
    simp only [fs3, S]
    rw [foldl_set_frame P empty _ rest fs2 (hrest "-metadata.json" (Or.inr rfl))]
    simp only [fs2, S, bsFiles, List.foldl_cons, List.foldl_nil, Option.getD_some]
    rw [FS.set_ne _ _ _ _ (hne _ _ (by decide)), FS.set_ne _ _ _ _ (hne _ _ (by decide)), FS.set_ne _ _ _ _ (hne _ _ (by decide)),
      FS.set_ne _ _ _ _ (hne _ _ (by decide)), FS.set_ne _ _ _ _ (hne _ _ (by decide)), FS.set_ne _ _ _ _ (hne _ _ (by decide)),
      FS.set_self]

end c125

/-- Non-trivial case: an absolute path, names stay apart, and a batch of three models with one failure saved as separate files. -/
theorem posixDemo_sane : posixDemo.Sane := by
  refine ⟨fun _ => rfl, fun _ => rfl, fun d p h => ?_⟩
  simp only [posixDemo, decide_eq_true_eq, String.toList_append] at h ⊢
  cases hd : d.toList with
  | nil => simp [hd] at h
  | cons c cs =>
    rw [hd] at h
    simpa using h

theorem posixDemo_inj (d a b : String) (h : posixDemo.res (posixDemo.join d a) = posixDemo.res (posixDemo.join d b)) : a = b :=
  String.append_right_inj _ |>.1 h

example : let fs : String → Option (Node String) := fun p => if p = "/data" then some .dir else none
    let x : SavedModel String := ⟨"m", some "h", some "w", some "v", some "r"⟩
    ∃ fs', batchSave posixDemo "" (fun _ : Unit => "b") (fun y => y.metadata ++ "!") fs () [some x, none, some ⟨"n", none, none, none, none⟩]
        "run" "/data" true false false = (fs', .ret (some "/data")) ∧
      (fs' "/data/run-model-0.pkl").isSome = true ∧ (fs' "/data/run-model-1.pkl").isSome = false ∧
      (fs' "/data/run-model-2.pkl").isSome = true :=
  ⟨_, rfl, by decide +kernel⟩

example : let fs : String → Option (Node String) := fun p => if p = "/data" then some .dir else none
    let dz : DispFiles String := ⟨"dm", "i", "d", "s", some "c"⟩
    let bz : BsFiles String := ⟨"bm", "r", some "m", some "q", "f", "p", "co"⟩
    ∃ fs', bsdispSave posixDemo "" (fun _ : Unit => "") (fun _ : Unit => "") (fun _ => bz) (fun _ : Unit => "") (fun _ => dz)
        (fun _ => ⟨"bsdisp metadata", some (), [(1, ()), (2, ())], some "t"⟩) fs () "e" "/data" false =
          (fs', .ret (some "/data/e.pkl")) ∧
      (fs' "/data/e.pkl").isSome = false ∧ (fs' "/data/e-2-swaptable.csv").isSome = true :=
  ⟨_, rfl, by decide +kernel⟩

end files

/-! ## C128: JSON files -/

section json
variable {K : Type*}

mutual
/-- `json.load` of a written value. -/
def jsonLoad : JsonVal K → PyVal K
  | .null => .none
  | .bool b => .bool b
  | .num x => .num x
  | .str s => .str s
  | .arr l => .list (jsonLoadList l)
  | .obj l => .dict (jsonLoadPairs l)

/-- Elements of an array. -/
def jsonLoadList : List (JsonVal K) → List (PyVal K)
  | [] => []
  | v :: l => jsonLoad v :: jsonLoadList l

/-- Entries of an object. -/
def jsonLoadPairs : List (String × JsonVal K) → List (String × PyVal K)
  | [] => []
  | (k, v) :: l => (k, jsonLoad v) :: jsonLoadPairs l
end

mutual
/-- Equal up to the type of the numbers: numpy or Python. Only values made of standard types and numpy values are equal to
anything. -/
inductive SameValue : PyVal K → PyVal K → Prop
  /-- `None` -/
  | none : SameValue .none .none
  /-- truth values -/
  | bool (b : Bool) : SameValue (.bool b) (.bool b)
  /-- numpy truth values -/
  | npBool (b : Bool) : SameValue (.npBool b) (.bool b)
  /-- numbers -/
  | num (x : K) : SameValue (.num x) (.num x)
  /-- numpy numbers -/
  | npNum (x : K) : SameValue (.npNum x) (.num x)
  /-- strings -/
  | str (s : String) : SameValue (.str s) (.str s)
  /-- lists -/
  | list {l l' : List (PyVal K)} (h : SameList l l') : SameValue (.list l) (.list l')
  /-- dictionaries -/
  | dict {l l' : List (String × PyVal K)} (h : SamePairs l l') : SameValue (.dict l) (.dict l')

/-- Lists of equal values. -/
inductive SameList : List (PyVal K) → List (PyVal K) → Prop
  /-- empty -/
  | nil : SameList [] []
  /-- one more -/
  | cons {v w : PyVal K} {l l' : List (PyVal K)} (h : SameValue v w) (t : SameList l l') : SameList (v :: l) (w :: l')

/-- Dictionaries with equal keys and values. -/
inductive SamePairs : List (String × PyVal K) → List (String × PyVal K) → Prop
  /-- empty -/
  | nil : SamePairs [] []
  /-- one more -/
  | cons {k : String} {v w : PyVal K} {l l' : List (String × PyVal K)} (h : SameValue v w) (t : SamePairs l l') :
      SamePairs ((k, v) :: l) ((k, w) :: l')
end

mutual
/-- Whether a set, an array, a model or another object occurs in the value. -/
def hasObject : PyVal K → Bool
  | .list l => hasObjectList l
  | .dict l => hasObjectPairs l
  | .object => true
  | _ => false

/-- In a list. -/
def hasObjectList : List (PyVal K) → Bool
  | [] => false
  | v :: l => hasObject v || hasObjectList l

/-- In a dictionary. -/
def hasObjectPairs : List (String × PyVal K) → Bool
  | [] => false
  | (_, v) :: l => hasObject v || hasObjectPairs l
end

mutual
/-- A value is recovered from its JSON file exactly if it contains no set, array, model or other object. -/
theorem C128_recovered : ∀ v : PyVal K, SameValue v (jsonLoad (jsonDump v)) ↔ hasObject v = false
  | .none => ⟨fun _ => rfl, fun _ => .none⟩
  | .bool b => ⟨fun _ => rfl, fun _ => .bool b⟩
  | .num x => ⟨fun _ => rfl, fun _ => .num x⟩
  | .str s => ⟨fun _ => rfl, fun _ => .str s⟩
  | .npNum x => ⟨fun _ => rfl, fun _ => .npNum x⟩
  | .npBool b => ⟨fun _ => rfl, fun _ => .npBool b⟩
  | .object => ⟨fun h => (by cases h), fun h => by simp [hasObject] at h⟩
  | .list l => by
    rw [jsonDump, jsonLoad, hasObject]
    refine ⟨fun h => ?_, fun h => .list ((C128_list l).2 h)⟩
    cases h with
    | list h => exact (C128_list l).1 h
  | .dict l => by
    rw [jsonDump, jsonLoad, hasObject]
    refine ⟨fun h => ?_, fun h => .dict ((C128_pairs l).2 h)⟩
    cases h with
    | dict h => exact (C128_pairs l).1 h

theorem C128_list : ∀ l : List (PyVal K), SameList l (jsonLoadList (jsonDumpList l)) ↔ hasObjectList l = false
  | [] => ⟨fun _ => rfl, fun _ => .nil⟩
  | v :: l => by
    rw [jsonDumpList, jsonLoadList, hasObjectList, Bool.or_eq_false_iff]
    refine ⟨fun h => ?_, fun h => .cons ((C128_recovered v).2 h.1) ((C128_list l).2 h.2)⟩
    cases h with
    | cons h t => exact ⟨(C128_recovered v).1 h, (C128_list l).1 t⟩

theorem C128_pairs : ∀ l : List (String × PyVal K), SamePairs l (jsonLoadPairs (jsonDumpPairs l)) ↔ hasObjectPairs l = false
  | [] => ⟨fun _ => rfl, fun _ => .nil⟩
  | (k, v) :: l => by
    rw [jsonDumpPairs, jsonLoadPairs, hasObjectPairs, Bool.or_eq_false_iff]
    refine ⟨fun h => ?_, fun h => .cons ((C128_recovered v).2 h.1) ((C128_pairs l).2 h.2)⟩
    cases h with
    | cons h t => exact ⟨(C128_recovered v).1 h, (C128_pairs l).1 t⟩
end

/-- The metadata of a displacement (`displacement.py:92-98`): `excluded_features` is a set. -/
def dispMetadata (model : K) (features : List K) (maxSearch thr : K) : PyVal K :=
  .dict [("selected_model", .num model), ("features", .list (features.map .num)), ("excluded_features", .object),
    ("max_search", .num maxSearch), ("threshold_dQ", .num thr)]

theorem jsonLoad_nums (l : List K) : jsonLoadList (jsonDumpList (l.map PyVal.num)) = l.map .num := by
  induction l with
  | nil => rfl
  | cons x l ih => rw [List.map_cons, jsonDumpList, jsonLoadList, ih]; rfl

/-- **Disagreement.** The excluded features are lost in the metadata file of a displacement: it holds `null` for every set. -/
theorem C128_excluded (model : K) (features : List K) (maxSearch thr : K) :
    jsonLoad (jsonDump (dispMetadata model features maxSearch thr)) =
      .dict [("selected_model", .num model), ("features", .list (features.map .num)), ("excluded_features", .none),
        ("max_search", .num maxSearch), ("threshold_dQ", .num thr)] := by
  simp only [dispMetadata, jsonDump, jsonDumpPairs, jsonLoad, jsonLoadPairs, jsonLoad_nums, jsonAtom, npEncoder]

/-- One entry of the bootstrap results (`bootstrap.py:450-455`): the model is an object, the index list holds Python numbers
(block bootstrap) or numpy numbers. -/
def bsEntry (block : Bool) (index : List K) (mapping : List (String × PyVal K)) : PyVal K :=
  .dict [("model", .object), ("index", .list (index.map (if block then .num else .npNum))), ("mapping", .dict mapping)]

theorem jsonLoad_npNums (l : List K) : jsonLoadList (jsonDumpList (l.map PyVal.npNum)) = l.map .num := by
  induction l with
  | nil => rfl
  | cons x l ih => rw [List.map_cons, jsonDumpList, jsonLoadList, ih]; rfl

/-- **Disagreement.** The text form of a bootstrap contains none of its models; the drawn samples are there. -/
theorem C128_bootstrap (block : Bool) (index : List K) (mapping : List (String × PyVal K)) :
    jsonLoad (jsonDump (bsEntry block index mapping)) =
      .dict [("model", .none), ("index", .list (index.map .num)), ("mapping", .dict (jsonLoadPairs (jsonDumpPairs mapping)))] ∧
    ¬SameValue (bsEntry block index mapping) (jsonLoad (jsonDump (bsEntry block index mapping))) := by
  refine ⟨?_, ?_⟩
  · cases block <;> simp [bsEntry, jsonDump, jsonDumpPairs, jsonLoad, jsonLoadPairs, jsonLoad_nums, jsonLoad_npNums, jsonAtom, npEncoder]
  · rw [C128_recovered]
    simp [bsEntry, hasObject, hasObjectPairs]

/-- Non-trivial case: a mapping with numpy values is recovered. -/
example : SameValue (K := ℕ) (.dict [("match", .npNum 2), ("mapped", .npBool true), ("l", .list [.num 1, .str "a", .none])])
    (.dict [("match", .num 2), ("mapped", .bool true), ("l", .list [.num 1, .str "a", .none])]) :=
  (C128_recovered _).2 rfl

end json

end Esat
