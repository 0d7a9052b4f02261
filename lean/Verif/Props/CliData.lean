import Verif.Model.CliData
import Verif.Props.SaveErrors
import Verif.Props.Cli
import Verif.Props.Constrained
import Mathlib.Data.List.TakeWhile
import Mathlib.Tactic

/-!
# C176–C178: data files, simulator commands and the settings of a constrained run
-/

namespace Esat

/-! ### C176 -/

section c176
variable {C : Type*}

/-- The file has one of the four known endings: nothing or a text ending in a dot, then the ending. -/
def KnownEnding (path : String) : Prop :=
  ∃ e ∈ ["csv", "txt", "xls", "xlsx"], path = e ∨ ∃ p : String, path = p ++ "." ++ e

/-- What a reader expects from `index_col`: the frame has the column designated by the argument as index and the others as columns. -/
def ReadAs (t : Table C) (f : Frame C) (c : Option String) : Prop :=
  f.col = t.col ∧ (match c with
    | none => f.cols = t.cols ∧ f.index = none
    | some c => f.cols = t.cols.erase c ∧ f.index = some (t.col c))

/-- The column that is taken as index: the position 0 and the empty text count as "no index column". -/
def Designated (cols : List String) (ix : IndexArg) (c : Option String) : Prop :=
  match ix with
  | .none => c = none
  | .pos 0 => c = none
  | .pos (i + 1) => ∃ h : i + 1 < cols.length, c = some cols[i + 1]
  | .str s => if s = "" then c = none else s ∈ cols ∧ c = some s

theorem fileExt_eq (path : String) (e : String) (he : '.' ∉ e.toList) :
    fileExt path = e ↔ path = e ∨ ∃ p : String, path = p ++ "." ++ e := by
  have key : ∀ l e' : List Char, '.' ∉ e' → (l.takeWhile (· ≠ '.') = e' ↔ l = e' ∨ ∃ p, l = e' ++ '.' :: p) := by
    intro l
    induction l with
    | nil =>
      intro e' _
      constructor
      · intro h
        left
        simpa using h
      · rintro (h | ⟨p, h⟩)
        · simpa using h
        · simp at h
    | cons a l ih =>
      intro e' h'
      by_cases ha : a = '.'
      · subst ha
        rw [List.takeWhile_cons_of_neg (by simp)]
        constructor
        · rintro rfl
          exact .inr ⟨l, rfl⟩
        · rintro (h | ⟨p, h⟩)
          · subst h
            simp at h'
          · cases e' with
            | nil => rfl
            | cons b e' =>
              simp only [List.cons_append, List.cons.injEq] at h
              rw [← h.1] at h'
              simp at h'
      · rw [List.takeWhile_cons_of_pos (by simpa using ha)]
        cases e' with
        | nil =>
          constructor
          · intro h
            simp at h
          · rintro (h | ⟨p, h⟩)
            · simp at h
            · simp only [List.nil_append, List.cons.injEq] at h
              exact absurd h.1 ha
        | cons b e' =>
          simp only [List.mem_cons, not_or] at h'
          simp only [List.cons.injEq, ih e' h'.2, List.cons_append]
          constructor
          · rintro ⟨rfl, h | ⟨p, h⟩⟩
            · exact .inl ⟨rfl, h⟩
            · exact .inr ⟨p, rfl, h⟩
          · rintro (⟨rfl, h⟩ | ⟨p, rfl, h⟩)
            · exact ⟨rfl, .inl h⟩
            · exact ⟨rfl, .inr ⟨p, h⟩⟩
  have h1 : fileExt path = e ↔ path.toList.reverse.takeWhile (· ≠ '.') = e.toList.reverse := by
    unfold fileExt
    constructor
    · intro h
      have := congrArg String.toList h
      rw [String.toList_ofList] at this
      rw [← this, List.reverse_reverse]
    · intro h
      rw [h, List.reverse_reverse, String.ofList_toList]
  rw [h1, key _ _ (by simpa using he)]
  constructor
  · rintro (h | ⟨p, h⟩)
    · left
      exact String.toList_inj.1 (List.reverse_injective h)
    · right
      refine ⟨String.ofList p.reverse, ?_⟩
      apply String.toList_inj.1
      have := congrArg List.reverse h
      rw [List.reverse_reverse] at this
      rw [this]
      simp [String.toList_append]
  · rintro (h | ⟨p, h⟩)
    · left
      rw [h]
    · right
      refine ⟨p.toList.reverse, ?_⟩
      rw [h]
      simp [String.toList_append]

theorem fileExt_known (path : String) : fileExt path ∈ ["csv", "txt", "xls", "xlsx"] ↔ KnownEnding path := by
  have h : ∀ e ∈ ["csv", "txt", "xls", "xlsx"], '.' ∉ e.toList := by decide
  unfold KnownEnding
  constructor
  · intro hm
    exact ⟨_, hm, (fileExt_eq path _ (h _ hm)).1 rfl⟩
  · rintro ⟨e, he, hp⟩
    rw [(fileExt_eq path e (h e he)).2 hp]
    exact he

theorem dhReadData_iff (path : String) (t : Table C) (ht : t.cols.Nodup) (ix : IndexArg) (f : Frame C) :
    dhReadData path t ix = .ret (some f) ↔ KnownEnding path ∧ ∃ c, Designated t.cols ix c ∧ ReadAs t f c := by
  have hfil : ∀ c : String, t.cols.filter (· ≠ c) = t.cols.erase c := fun c => by
    rw [ht.erase_eq_filter c]
    apply List.filter_congr
    intro x _
    by_cases h : x = c <;> simp [h]
  have hnone : ∀ f : Frame C, (⟨t.cols, t.col, none⟩ : Frame C) = f ↔ ReadAs t f none := by
    rintro ⟨a, b, c⟩
    simp only [Frame.mk.injEq, ReadAs]
    constructor
    · rintro ⟨rfl, rfl, rfl⟩
      exact ⟨rfl, rfl, rfl⟩
    · rintro ⟨rfl, rfl, rfl⟩
      exact ⟨rfl, rfl, rfl⟩
  have hsome : ∀ (f : Frame C) (n : String), (⟨t.cols.filter (· ≠ n), t.col, some (t.col n)⟩ : Frame C) = f ↔ ReadAs t f (some n) := by
    rintro ⟨a, b, c⟩ n
    rw [hfil]
    simp only [Frame.mk.injEq, ReadAs]
    constructor
    · rintro ⟨rfl, rfl, rfl⟩
      exact ⟨rfl, rfl, rfl⟩
    · rintro ⟨rfl, rfl, rfl⟩
      exact ⟨rfl, rfl, rfl⟩
  unfold dhReadData
  by_cases hk : KnownEnding path
  · rw [if_pos ((fileExt_known path).2 hk)]
    simp only [hk, true_and]
    match ix with
    | .none => simp [IndexArg.truthy, Designated, pandasRead, indexName, hnone]
    | .pos 0 => simp [IndexArg.truthy, Designated, pandasRead, indexName, hnone]
    | .pos (i + 1) =>
      simp only [IndexArg.truthy, ne_eq, Nat.add_eq_zero_iff, one_ne_zero, and_false, not_false_eq_true, decide_true, if_true, pandasRead,
        indexName, Designated]
      by_cases hi : i + 1 < t.cols.length
      · rw [List.getElem?_eq_getElem hi]
        simp only [Outcome.ret.injEq, Option.some.injEq]
        rw [hsome]
        constructor
        · intro h
          exact ⟨_, ⟨hi, rfl⟩, h⟩
        · rintro ⟨c, ⟨_, rfl⟩, h⟩
          exact h
      · rw [List.getElem?_eq_none (by omega)]
        simp [hi]
    | .str s =>
      by_cases hs : s = ""
      · subst hs
        simp [IndexArg.truthy, Designated, pandasRead, indexName, hnone]
      · simp only [IndexArg.truthy, ne_eq, hs, not_false_eq_true, decide_true, if_true, pandasRead, indexName, Designated, if_false]
        by_cases hm : s ∈ t.cols
        · rw [if_pos hm]
          simp only [Outcome.ret.injEq, Option.some.injEq, hm, true_and, exists_eq_left]
          exact hsome f s
        · simp [hm]
  · rw [if_neg (fun h => hk ((fileExt_known path).1 h))]
    simp [hk]

/-- The data handler is created exactly when both files exist, both names have a known ending (in lower case) and the index column is found
in both; then the features are the other columns of the input file, in order. -/
theorem C176_ok_iff (files : String → Option (Table C)) (hn : ∀ p t, files p = some t → t.cols.Nodup) (inPath unPath : String)
    (ix : IndexArg) (f g : Frame C) (features : List String) :
    openData files inPath unPath ix = .ok f g features ↔
      KnownEnding inPath ∧ KnownEnding unPath ∧ features = f.cols ∧
      (∃ t c, files inPath = some t ∧ Designated t.cols ix c ∧ ReadAs t f c) ∧
      ∃ u c, files unPath = some u ∧ Designated u.cols ix c ∧ ReadAs u g c := by
  unfold openData
  cases hi : files inPath with
  | none => simp
  | some t =>
    cases hu : files unPath with
    | none => simp
    | some u =>
      have h1 := dhReadData_iff inPath t (hn _ _ hi) ix
      have h2 := dhReadData_iff unPath u (hn _ _ hu) ix
      constructor
      · intro h
        simp only at h
        split at h
        · rename_i f' g' hf hg
          simp only [Opened.ok.injEq] at h
          obtain ⟨rfl, rfl, rfl⟩ := h
          obtain ⟨k1, c, hc, hr⟩ := (h1 _).1 hf
          obtain ⟨k2, c', hc', hr'⟩ := (h2 _).1 hg
          exact ⟨k1, k2, rfl, ⟨t, c, rfl, hc, hr⟩, u, c', rfl, hc', hr'⟩
        · simp at h
      · rintro ⟨k1, k2, rfl, ⟨t', c, ht, hc, hr⟩, u', c', hu', hc', hr'⟩
        obtain rfl := Option.some.inj ht
        obtain rfl := Option.some.inj hu'
        simp only
        rw [(h1 f).2 ⟨k1, c, hc, hr⟩, (h2 g).2 ⟨k2, c', hc', hr'⟩]

/-- The program ends (instead of raising) exactly when a file is missing. -/
theorem C176_exit_iff (files : String → Option (Table C)) (inPath unPath : String) (ix : IndexArg) :
    openData files inPath unPath ix = .exit ↔ files inPath = none ∨ files unPath = none := by
  unfold openData
  cases hi : files inPath with
  | none => simp
  | some t =>
    cases hu : files unPath with
    | none => simp
    | some u =>
      simp only [reduceCtorEq, or_self, iff_false]
      split <;> simp

/-- **Disagreement** with the documented use: position 0 counts as "no index column", so the first column (usually the time) becomes a
feature. -/
theorem C176_zero (files : String → Option (Table C)) (hn : ∀ p t, files p = some t → t.cols.Nodup) (inPath unPath : String) (t u : Table C)
    (hi : files inPath = some t) (hu : files unPath = some u) (k1 : KnownEnding inPath) (k2 : KnownEnding unPath) :
    ∃ f g, openData files inPath unPath (.pos 0) = .ok f g t.cols ∧ f.index = none ∧ g.index = none := by
  refine ⟨⟨t.cols, t.col, none⟩, ⟨u.cols, u.col, none⟩, ?_, rfl, rfl⟩
  rw [C176_ok_iff files hn]
  exact ⟨k1, k2, rfl, ⟨t, none, hi, rfl, rfl, rfl, rfl⟩, u, none, hu, rfl, rfl, rfl, rfl⟩

/-- **Disagreement** between the command line and its own configuration: from a configuration file the index column is always a name, also
when a position was written. The data are read only if both files have a column of exactly that name; `index_col = 0`, which
`setup` writes, therefore fails for every file without a column called `0`. -/
theorem C176_command_line (files : String → Option (Table C)) (hn : ∀ p t, files p = some t → t.cols.Nodup) (inPath unPath value : String)
    (t u : Table C) (hi : files inPath = some t) (hu : files unPath = some u) (k1 : KnownEnding inPath) (k2 : KnownEnding unPath)
    (hv : value ≠ "") :
    (value ∈ t.cols ∧ value ∈ u.cols →
      ∃ f g, openData files inPath unPath (cliIndexArg value) = .ok f g (t.cols.erase value) ∧ f.index = some (t.col value) ∧
        g.index = some (u.col value)) ∧
    (¬(value ∈ t.cols ∧ value ∈ u.cols) → openData files inPath unPath (cliIndexArg value) = .raised) := by
  constructor
  · rintro ⟨h1, h2⟩
    refine ⟨⟨t.cols.erase value, t.col, some (t.col value)⟩, ⟨u.cols.erase value, u.col, some (u.col value)⟩, ?_, rfl, rfl⟩
    rw [C176_ok_iff files hn]
    exact ⟨k1, k2, rfl, ⟨t, some value, hi, by simp [cliIndexArg, Designated, hv, h1], rfl, rfl, rfl⟩, u, some value, hu,
      by simp [cliIndexArg, Designated, hv, h2], rfl, rfl, rfl⟩
  · intro hne
    cases ho : openData files inPath unPath (cliIndexArg value) with
    | raised => rfl
    | exit =>
      rw [C176_exit_iff, hi, hu] at ho
      simp at ho
    | ok f g feat =>
      exfalso
      rw [C176_ok_iff files hn] at ho
      obtain ⟨-, -, -, ⟨t', c, ht, hc, -⟩, u', c', hu', hc', -⟩ := ho
      rw [hi] at ht
      rw [hu] at hu'
      obtain rfl := Option.some.inj ht
      obtain rfl := Option.some.inj hu'
      simp only [cliIndexArg, Designated, hv, if_false] at hc hc'
      exact hne ⟨hc.1, hc'.1⟩

/-- Upper-case endings are unknown; the constructor raises. -/
theorem C176_unknown (files : String → Option (Table C)) (hn : ∀ p t, files p = some t → t.cols.Nodup) (inPath unPath : String)
    (ix : IndexArg) (t u : Table C) (hi : files inPath = some t) (hu : files unPath = some u)
    (hk : ¬KnownEnding inPath ∨ ¬KnownEnding unPath) : openData files inPath unPath ix = .raised := by
  cases ho : openData files inPath unPath ix with
  | raised => rfl
  | exit =>
    rw [C176_exit_iff, hi, hu] at ho
    simp at ho
  | ok f g feat =>
    rw [C176_ok_iff files hn] at ho
    rcases hk with hk | hk
    · exact absurd ho.1 hk
    · exact absurd ho.2.1 hk

/-- Concrete case: a file with a date column and two species. By name the date is the index; with the setting of `setup` reading fails; with
position 0 the date is a feature; with position 1 the first species is the index; `A.CSV` is unknown. -/
example : let t : Table ℚ := ⟨["Date", "Al", "Fe"], fun c => if c = "Date" then [1, 2] else [3, 4]⟩
    let files : String → Option (Table ℚ) := fun p => if p = "/d/c.csv" ∨ p = "/d/u.csv" ∨ p = "/d/A.CSV" then some t else none
    (∃ f g, openData files "/d/c.csv" "/d/u.csv" (cliIndexArg "Date") = .ok f g ["Al", "Fe"]) ∧
    openData files "/d/c.csv" "/d/u.csv" (cliIndexArg "0") = .raised ∧
    (∃ f g, openData files "/d/c.csv" "/d/u.csv" (.pos 0) = .ok f g ["Date", "Al", "Fe"]) ∧
    (∃ f g, openData files "/d/c.csv" "/d/u.csv" (.pos 1) = .ok f g ["Date", "Fe"]) ∧
    openData files "/d/A.CSV" "/d/u.csv" (cliIndexArg "Date") = .raised ∧
    openData files "/d/x.csv" "/d/u.csv" (cliIndexArg "Date") = .exit := by
  have e1 : fileExt "/d/c.csv" = "csv" := by decide +kernel
  have e2 : fileExt "/d/u.csv" = "csv" := by decide +kernel
  have e3 : fileExt "/d/A.CSV" = "CSV" := by decide +kernel
  simp [openData, dhReadData, e1, e2, e3, cliIndexArg, IndexArg.truthy, pandasRead, indexName]

end c176

/-! ### C177 -/

section c177
variable {L β G D R B : Type*} [DecidableEq L]

/-- The comparison a user expects to see: the one of the last `compare` with a batch, against the first generated data. -/
def lastCompare (first : D) (cmp : D → B → R) : List (SimStep L β B) → Option R
  | [] => none
  | s :: h =>
    match lastCompare first cmp h, s with
    | some r, _ => some r
    | none, .cmd (.compare (some b)) => some (cmp first b)
    | none, _ => none

/-- Other programs leave the pickle, the data file and the project directory in place. -/
def KeepsFiles (P : Platform L β) (path : String) : SimStep L β B → Prop
  | .cmd _ => True
  | .other f => ∀ fs, f fs (P.res (P.join path "esat_simulator.pkl")) = fs (P.res (P.join path "esat_simulator.pkl")) ∧
      f fs (P.res (P.join path "synthetic_data.csv")) = fs (P.res (P.join path "synthetic_data.csv")) ∧
      (fs (P.res path) ≠ none → f fs (P.res path) ≠ none)

variable {E : SimEnv L β G D R B} {path : String}

theorem simSave_ok (hP : E.P.PathSane) (ho : ∀ f l, E.P.canOpen f l = true) (ha : E.P.isAbs path = true)
    (hinj : ∀ a b, E.P.res (E.P.join path a) = E.P.res (E.P.join path b) → a = b)
    (fs : L → Option (Node β)) (hd : fs (E.P.res path) ≠ none) (x : SimObj G D R) :
    ∃ fs', simSave E.P E.empty E.pickle (fun x => E.tables x.data) fs x "synthetic" path = (fs', .ret true) ∧
      fs' (E.P.res (E.P.join path "esat_simulator.pkl")) = some (.file (E.pickle x)) ∧
      fs' (E.P.res (E.P.join path "synthetic_data.csv")) = some (.file (E.tables x.data).1) ∧ fs' (E.P.res path) ≠ none := by
  have h1 : E.P.isAbs (E.P.norm path) = true := by rw [hP.abs_norm, ha]
  have h2 : (fs (E.P.res (E.P.norm path))).isNone = false := by
    rw [hP.res_norm]
    cases hq : fs (E.P.res path) <;> simp_all
  have hne : ∀ a b : String, a ≠ b → E.P.res (E.P.join (E.P.norm path) a) ≠ E.P.res (E.P.join (E.P.norm path) b) := by
    intro a b hab h
    rw [hP.res_join_norm, hP.res_join_norm] at h
    exact hab (hinj _ _ h)
  let fl : List (String × Option β) :=
      [(E.P.join (E.P.norm path) "esat_simulator.pkl", some (E.pickle x)),
       (E.P.join (E.P.norm path) ("synthetic" ++ "_data.csv"), some (E.tables x.data).1),
       (E.P.join (E.P.norm path) ("synthetic" ++ "_uncertainty.csv"), some (E.tables x.data).2.1),
       (E.P.join (E.P.norm path) ("synthetic" ++ "_profiles.csv"), some (E.tables x.data).2.2.1),
       (E.P.join (E.P.norm path) ("synthetic" ++ "_contributions.csv"), some (E.tables x.data).2.2.2)]
  have hm := foldl_set_mem E.P E.empty fl fs (by
    simp only [fl]
    simp only [List.pairwise_cons, List.mem_cons, List.not_mem_nil, or_false, forall_eq_or_imp, forall_eq,
      IsEmpty.forall_iff, implies_true, List.Pairwise.nil, and_true]
    refine ⟨⟨hne _ _ (by decide), hne _ _ (by decide), hne _ _ (by decide), hne _ _ (by decide)⟩,
      ⟨hne _ _ (by decide), hne _ _ (by decide), hne _ _ (by decide)⟩, ⟨hne _ _ (by decide), hne _ _ (by decide)⟩, hne _ _ (by decide)⟩)
  refine ⟨fl.foldl (fun f q => FS.set f (E.P.res q.1) (q.2.getD E.empty)) fs, ?_, ?_, ?_, ?_⟩
  rotate_left
  · rw [← hP.res_join_norm]
    exact hm _ _ List.mem_cons_self
  · rw [← hP.res_join_norm]
    exact hm _ _ (List.mem_cons_of_mem _ List.mem_cons_self)
  · exact foldl_set_exists E.P E.empty _ _ fs hd
  · unfold simSave
    simp only [h1, h2, Bool.true_eq_false, if_false, Bool.false_eq_true]
    rw [writeFiles_ok E.P E.empty ho _ fs (by simp)]

/-- State of the directory: before the first command there is no pickle; afterwards it holds the simulator with the first data. -/
def SimState (E : SimEnv L β G D R B) (path : String) (used : Prop) (r : Option R) (fs : L → Option (Node β)) : Prop :=
  fs (E.P.res path) ≠ none ∧
  ((¬used ∧ r = none ∧ fs (E.P.res (E.P.join path "esat_simulator.pkl")) = none) ∨
    (used ∧ fs (E.P.res (E.P.join path "esat_simulator.pkl")) = some (.file (E.pickle ⟨(E.gen E.g0).2, (E.gen E.g0).1, r⟩)) ∧
      fs (E.P.res (E.P.join path "synthetic_data.csv")) = some (.file (E.tables (E.gen E.g0).1).1)))

theorem getSim_state (hP : E.P.PathSane) (ho : ∀ f l, E.P.canOpen f l = true) (ha : E.P.isAbs path = true)
    (hA : ∀ x, E.unpickle (E.pickle x) = .ok x)
    (hinj : ∀ a b, E.P.res (E.P.join path a) = E.P.res (E.P.join path b) → a = b)
    {used : Prop} {r : Option R} (fs : L → Option (Node β)) (hs : SimState E path used r fs) :
    ∃ fs', getSim E fs path = (fs', .ret (some ⟨(E.gen E.g0).2, (E.gen E.g0).1, r⟩)) ∧ SimState E path True r fs' := by
  obtain ⟨hd, ⟨-, rfl, hp⟩ | ⟨-, hp, hc⟩⟩ := hs
  · obtain ⟨fs', h1, h2, h3, h4⟩ := simSave_ok hP ho ha hinj fs hd ⟨(E.gen E.g0).2, (E.gen E.g0).1, none⟩
    refine ⟨fs', ?_, h4, .inr ⟨trivial, h2, h3⟩⟩
    unfold getSim
    rw [hp]
    simp only [Option.isSome_none, Bool.false_eq_true, if_false]
    rw [h1]
  · refine ⟨fs, ?_, hd, .inr ⟨trivial, hp, hc⟩⟩
    unfold getSim
    rw [hp]
    simp only [Option.isSome_some, if_true]
    rw [objLoad_file E.P hP.toSane E.pickle E.unpickle hA fs _ _ (hP.abs_join _ _ ha) hp]

/-- The stored comparison after a command. -/
def afterCmd (first : D) (cmp : D → B → R) (r : Option R) : SimCmd B → Option R
  | .compare (some b) => some (cmp first b)
  | _ => r

theorem simCmd_state (hP : E.P.PathSane) (ho : ∀ f l, E.P.canOpen f l = true) (ha : E.P.isAbs path = true)
    (hA : ∀ x, E.unpickle (E.pickle x) = .ok x)
    (hinj : ∀ a b, E.P.res (E.P.join path a) = E.P.res (E.P.join path b) → a = b)
    {used : Prop} {r : Option R} (fs : L → Option (Node β)) (hs : SimState E path used r fs) (c : SimCmd B) :
    SimState E path True (afterCmd (E.gen E.g0).1 E.cmp r c) (simCmd E fs path c).1 := by
  obtain ⟨fs', h1, h2⟩ := getSim_state hP ho ha hA hinj fs hs
  cases c with
  | generate => simpa [simCmd, h1, afterCmd] using h2
  | estimate => simpa [simCmd, h1, afterCmd] using h2
  | run => simpa [simCmd, h1, afterCmd] using h2
  | plot => simpa [simCmd, h1, afterCmd] using h2
  | compare b =>
    cases b with
    | none => simpa [simCmd, h1, afterCmd] using h2
    | some b =>
      obtain ⟨fs'', g1, g2, g3, g4⟩ := simSave_ok hP ho ha hinj fs' h2.1 ⟨(E.gen E.g0).2, (E.gen E.g0).1, some (E.cmp (E.gen E.g0).1 b)⟩
      simp only [simCmd, h1, g1]
      exact ⟨g4, .inr ⟨trivial, g2, g3⟩⟩

theorem simHistory_state (hP : E.P.PathSane) (ho : ∀ f l, E.P.canOpen f l = true) (ha : E.P.isAbs path = true)
    (hA : ∀ x, E.unpickle (E.pickle x) = .ok x)
    (hinj : ∀ a b, E.P.res (E.P.join path a) = E.P.res (E.P.join path b) → a = b) (h : List (SimStep L β B)) :
    ∀ (used : Prop) (r : Option R) (fs : L → Option (Node β)), SimState E path used r fs → (∀ s ∈ h, KeepsFiles E.P path s) →
      SimState E path (used ∨ ∃ c, SimStep.cmd c ∈ h) ((lastCompare (E.gen E.g0).1 E.cmp h).or r) (simHistory E path fs h) := by
  induction h with
  | nil =>
    intro used r fs hs _
    simpa [lastCompare, simHistory] using hs
  | cons s h ih =>
    intro used r fs hs hk
    have hk' : ∀ s ∈ h, KeepsFiles E.P path s := fun s hs => hk s (List.mem_cons_of_mem _ hs)
    cases s with
    | cmd c =>
      have h1 := ih True _ _ (simCmd_state hP ho ha hA hinj fs hs c) hk'
      have e1 : (True ∨ ∃ c, SimStep.cmd c ∈ h) ↔ (used ∨ ∃ c', SimStep.cmd c' ∈ SimStep.cmd c :: h) :=
        ⟨fun _ => .inr ⟨c, List.mem_cons_self⟩, fun _ => .inl trivial⟩
      have e2 : (lastCompare (E.gen E.g0).1 E.cmp h).or (afterCmd (E.gen E.g0).1 E.cmp r c)
          = (lastCompare (E.gen E.g0).1 E.cmp (SimStep.cmd c :: h)).or r := by
        cases hl : lastCompare (E.gen E.g0).1 E.cmp h with
        | some x => simp [lastCompare, hl, afterCmd]
        | none =>
          cases c with
          | compare b => cases b <;> simp [lastCompare, hl, afterCmd]
          | _ => simp [lastCompare, hl, afterCmd]
      rw [propext e1, e2] at h1
      exact h1
    | other f =>
      have hf : KeepsFiles E.P path (SimStep.other f : SimStep L β B) := hk _ List.mem_cons_self
      have hs' : SimState E path used r (f fs) := by
        obtain ⟨f1, f2, f3⟩ := hf fs
        refine ⟨f3 hs.1, ?_⟩
        rw [f1, f2]
        exact hs.2
      have h1 := ih used r _ hs' hk'
      have e1 : (used ∨ ∃ c, SimStep.cmd c ∈ h) ↔ (used ∨ ∃ c', SimStep.cmd c' ∈ SimStep.other f :: h) := by simp
      have e2 : lastCompare (E.gen E.g0).1 E.cmp (SimStep.other f :: h) = lastCompare (E.gen E.g0).1 E.cmp h := by
        cases hl : lastCompare (E.gen E.g0).1 E.cmp h <;> simp [lastCompare, hl, afterCmd]
      rw [propext e1] at h1
      rw [e2]
      exact h1

/-- **Disagreement** with "the run command will use the generated synthetic data as it would real data". For an absolute project directory
without a pickle and for any history of commands: `run` and `estimate` use the second generation of data, whereas the saved data file has the
first; `plot` shows the last comparison, which was made with the first. -/
theorem C177_history (hP : E.P.PathSane) (ho : ∀ f l, E.P.canOpen f l = true) (ha : E.P.isAbs path = true)
    (hA : ∀ x, E.unpickle (E.pickle x) = .ok x)
    (hinj : ∀ a b, E.P.res (E.P.join path a) = E.P.res (E.P.join path b) → a = b)
    (fs : L → Option (Node β)) (hd : fs (E.P.res path) ≠ none) (hp : fs (E.P.res (E.P.join path "esat_simulator.pkl")) = none)
    (h : List (SimStep L β B)) (hk : ∀ s ∈ h, KeepsFiles E.P path s) :
    (simCmd E (simHistory E path fs h) path .run).2 = .ret (some (E.gen (E.gen E.g0).2).1, none) ∧
    (simCmd E (simHistory E path fs h) path .estimate).2 = .ret (some (E.gen (E.gen E.g0).2).1, none) ∧
    (simCmd E (simHistory E path fs h) path .plot).2 = .ret (none, lastCompare (E.gen E.g0).1 E.cmp h) ∧
    ((∃ c, SimStep.cmd c ∈ h) →
      simHistory E path fs h (E.P.res (E.P.join path "synthetic_data.csv")) = some (.file (E.tables (E.gen E.g0).1).1)) := by
  have hst := simHistory_state hP ho ha hA hinj h False none fs ⟨hd, .inl ⟨id, rfl, hp⟩⟩ hk
  rw [false_or, Option.or_none] at hst
  obtain ⟨fs', h1, h2⟩ := getSim_state hP ho ha hA hinj _ hst
  refine ⟨by simp [simCmd, h1, simGetData], by simp [simCmd, h1, simGetData], by simp [simCmd, h1], fun hc => ?_⟩
  rcases hst.2 with ⟨hn, -⟩ | ⟨-, -, hf⟩
  · exact absurd hc hn
  · exact hf

/-- With a relative project directory nothing is ever saved: every command generates the data again, `run` uses the second generation, and
`plot` shows no comparison, also right after `compare`. -/
theorem C177_relative (hP : E.P.PathSane) (ha : E.P.isAbs path = false) (fs : L → Option (Node β))
    (hp : fs (E.P.res (E.P.join path "esat_simulator.pkl")) = none) :
    (∀ c, (simCmd E fs path c).1 = fs) ∧
    (simCmd E fs path .run).2 = .ret (some (E.gen (E.gen E.g0).2).1, none) ∧
    (simCmd E fs path .plot).2 = .ret (none, none) ∧
    ∀ b, (simCmd E (simCmd E fs path (.compare (some b))).1 path .plot).2 = .ret (none, none) := by
  have hsave : ∀ fs x, simSave E.P E.empty E.pickle (fun x => E.tables x.data) fs x "synthetic" path = (fs, .ret false) := by
    intro fs x
    simp [simSave, hP.abs_norm, ha]
  have hget : getSim E fs path = (fs, .ret (some ⟨(E.gen E.g0).2, (E.gen E.g0).1, none⟩)) := by
    simp [getSim, hp, hsave]
  have hall : ∀ c, (simCmd E fs path c).1 = fs := by
    intro c
    cases c with
    | compare b => cases b <;> simp [simCmd, hget, hsave]
    | _ => simp [simCmd, hget]
  refine ⟨hall, by simp [simCmd, hget, simGetData], by simp [simCmd, hget], fun b => ?_⟩
  rw [hall]
  simp [simCmd, hget]

/-- With a relative directory that has a pickle, loading gives `None` and everything but `generate` raises; no file changes. -/
theorem C177_relative_pickle (hP : E.P.PathSane) (hj : E.P.isAbs (E.P.join path "esat_simulator.pkl") = false)
    (fs : L → Option (Node β)) (hp : fs (E.P.res (E.P.join path "esat_simulator.pkl")) ≠ none) (c : SimCmd B) :
    (simCmd E fs path c).1 = fs ∧ ((simCmd E fs path c).2 = .raised ↔ c ≠ .generate) := by
  have hget : getSim E fs path = (fs, .ret none) := by
    have : (fs (E.P.res (E.P.join path "esat_simulator.pkl"))).isSome = true := by
      rw [← Option.ne_none_iff_isSome]
      exact hp
    simp [getSim, this, objLoad, hP.abs_norm, hj]
  cases c with
  | compare b => cases b <;> simp [simCmd, hget]
  | _ => simp [simCmd, hget]

theorem posixDemo_pathSane : posixDemo.PathSane := { posixDemo_sane with res_join_norm := fun _ _ => rfl }

/-- A simulator whose data are the number of the generation. -/
def demoSim : SimEnv String (String ⊕ SimObj ℕ ℕ (ℕ × ℕ)) ℕ ℕ (ℕ × ℕ) ℕ :=
  { P := { norm := id, isAbs := fun p => p.toList.head? = some '/', join := fun d p => d ++ "/" ++ p, res := id, canOpen := fun _ _ => true },
    empty := .inl "", pickle := .inr, unpickle := fun b => match b with | .inr x => .ok x | .inl _ => .pickleError,
    tables := fun d => (.inl (toString d), .inl "u", .inl "p", .inl "c"), gen := fun g => (g, g + 1), g0 := 1, cmp := fun d b => (d, b) }

/-- Concrete case: the file `synthetic_data.csv` has generation 1, `run` uses generation 2 (before and after a comparison), the comparison
of a batch with the number 7 was made with generation 1; and in a relative directory the plot after `compare` is empty. -/
example : let fs : String → Option (Node (String ⊕ SimObj ℕ ℕ (ℕ × ℕ))) := fun p => if p = "/d" ∨ p = "d" then some .dir else none
    let h : List (SimStep String (String ⊕ SimObj ℕ ℕ (ℕ × ℕ)) ℕ) := [.cmd .run, .other id, .cmd (.compare (some 7)), .cmd .generate]
    (simCmd demoSim fs "/d" .run).2 = .ret (some 2, none) ∧
    (simCmd demoSim (simHistory demoSim "/d" fs h) "/d" .run).2 = .ret (some 2, none) ∧
    (simCmd demoSim (simHistory demoSim "/d" fs h) "/d" .plot).2 = .ret (none, some (1, 7)) ∧
    simHistory demoSim "/d" fs h "/d/synthetic_data.csv" = some (.file (.inl "1")) ∧
    (simCmd demoSim (simHistory demoSim "d" fs h) "d" .plot).2 = .ret (none, none) := by
  have hP : demoSim.P.PathSane := by
    refine { res_norm := fun _ => rfl, abs_norm := fun _ => rfl, abs_join := fun d p h => ?_, res_join_norm := fun _ _ => rfl }
    simp only [demoSim, decide_eq_true_eq, String.toList_append] at h ⊢
    cases hd : d.toList with
    | nil => simp [hd] at h
    | cons c cs =>
      rw [hd] at h
      simpa using h
  have hinj : ∀ a b, demoSim.P.res (demoSim.P.join "/d" a) = demoSim.P.res (demoSim.P.join "/d" b) → a = b :=
    fun a b h => String.append_right_inj _ |>.1 h
  intro fs h
  have hd : fs (demoSim.P.res "/d") ≠ none := by decide +kernel
  have hp : fs (demoSim.P.res (demoSim.P.join "/d" "esat_simulator.pkl")) = none := by decide +kernel
  have hp' : fs (demoSim.P.res (demoSim.P.join "d" "esat_simulator.pkl")) = none := by decide +kernel
  have hk : ∀ s ∈ h, KeepsFiles demoSim.P "/d" s := by
    intro s hs
    simp only [h, List.mem_cons, List.not_mem_nil, or_false] at hs
    rcases hs with rfl | rfl | rfl | rfl <;> simp [KeepsFiles]
  have h0 := C177_history hP (fun _ _ => rfl) (by decide) (fun _ => rfl) hinj fs hd hp [] (by simp)
  have h1 := C177_history hP (fun _ _ => rfl) (by decide) (fun _ => rfl) hinj fs hd hp h hk
  have h2 := C177_relative (E := demoSim) hP (path := "d") (by decide) fs hp'
  refine ⟨h0.1, h1.1, h1.2.2.1, h1.2.2.2 ⟨.run, by simp [h]⟩, ?_⟩
  have : simHistory demoSim "d" fs h = fs := by
    simp only [simHistory, h, List.foldl_cons, List.foldl_nil, h2.1, id]
  rw [this]
  exact h2.2.2.1

end c177

/-! ### C178 -/

section c178
variable {K : Type*}

/-- Leaving out the index `[-1, -1]` makes no difference for constraints on profiles or contributions: `add_constraint` rejects every
negative index anyway. The stored constraints all have non-negative indices, also when the configuration has an entry such as `[-1, 0]`. -/
theorem C178_constraints (m n k : ℕ) (entries : List (Constraint K)) (ht : ∀ c ∈ entries, c.target ≠ .other) :
    configConstraints m n k entries = cRunOps m n k (entries.map .add) ∧
    ∀ p ∈ configConstraints m n k entries, 0 ≤ p.2.index.1 ∧ 0 ≤ p.2.index.2 := by
  have hrej : ∀ (d : PyDict CLabel (Constraint K)) (c : Constraint K), c.target ≠ .other → (c.index.1 < 0 ∨ c.index.2 < 0) →
      addConstraint m n k d c = (d, false) := by
    intro d c hc hneg
    have : cIndexOk m n k c = false := by
      unfold cIndexOk
      cases htc : c.target with
      | other => exact absurd htc hc
      | feature => simp only [decide_eq_false_iff_not]; omega
      | sample => simp only [decide_eq_false_iff_not]; omega
    simp [addConstraint, this]
  have hgo : ∀ (l : List (Constraint K)) (d : PyDict CLabel (Constraint K)), (∀ c ∈ l, c.target ≠ .other) →
      (∀ p ∈ d, 0 ≤ p.2.index.1 ∧ 0 ≤ p.2.index.2) →
      l.foldl (fun d c => if c.index = (-1, -1) then d else (addConstraint m n k d c).1) d
        = (l.map COp.add).foldl (cStep m n k) d ∧
      ∀ p ∈ (l.map COp.add).foldl (cStep m n k) d, 0 ≤ p.2.index.1 ∧ 0 ≤ p.2.index.2 := by
    intro l
    induction l with
    | nil => intro d _ hd; exact ⟨rfl, hd⟩
    | cons c l ih =>
      intro d hl hd
      have hc := hl c List.mem_cons_self
      have hl' : ∀ c ∈ l, c.target ≠ .other := fun c h => hl c (List.mem_cons_of_mem _ h)
      have hstep : (if c.index = (-1, -1) then d else (addConstraint m n k d c).1) = cStep m n k d (.add c) := by
        by_cases h : c.index = (-1, -1)
        · rw [if_pos h]
          simp only [cStep]
          rw [hrej d c hc (by rw [h]; left; decide)]
        · rw [if_neg h]
          rfl
      have hd' : ∀ p ∈ cStep m n k d (.add c), 0 ≤ p.2.index.1 ∧ 0 ≤ p.2.index.2 := by
        by_cases hneg : c.index.1 < 0 ∨ c.index.2 < 0
        · simp only [cStep]
          rw [hrej d c hc hneg]
          exact hd
        · push Not at hneg
          simp only [cStep, addConstraint]
          intro p hp
          split at hp
          · exact hd p hp
          · split at hp
            · exact hd p hp
            · rcases dictSet_mem _ _ _ _ hp with rfl | hp
              · exact hneg
              · exact hd p hp
      simp only [List.foldl_cons, List.map_cons, hstep]
      exact ih _ hl' hd'
  have := hgo entries [] ht (by simp)
  unfold configConstraints cRunOps
  rw [this.1]
  exact ⟨rfl, this.2⟩

/-- An expression is passed on exactly when none of the three texts occurs in it. -/
theorem C178_expressions (e : String) :
    configExpression e = true ↔
      ∀ w ∈ ["factor", "feature", "sample"], ¬∃ p s : String, e = p ++ (w ++ ":-1") ++ s := by
  have key : ∀ w : String, textIn w e = true ↔ ∃ p s : String, e = p ++ w ++ s := by
    intro w
    simp only [textIn, decide_eq_true_eq]
    constructor
    · rintro ⟨p, s, h⟩
      refine ⟨String.ofList p, String.ofList s, ?_⟩
      apply String.toList_inj.1
      simp [String.toList_append, ← h]
    · rintro ⟨p, s, h⟩
      refine ⟨p.toList, s.toList, ?_⟩
      rw [h]
      simp [String.toList_append]
  have e1 : "factor" ++ ":-1" = "factor:-1" := by decide
  have e2 : "feature" ++ ":-1" = "feature:-1" := by decide
  have e3 : "sample" ++ ":-1" = "sample:-1" := by decide
  simp only [configExpression, List.any_cons, List.any_nil, Bool.or_false, Bool.not_eq_true', Bool.or_eq_false_iff, List.mem_cons,
    List.not_mem_nil, or_false, forall_eq_or_imp, forall_eq, e1, e2, e3, ← key, Bool.not_eq_true]

/-- The configuration written by `setup-constrained` adds no constraint and no expression. -/
theorem C178_defaults (m n k : ℕ) (entries : List (Constraint K)) (he : entries.map (·.index) = defaultConstraints) :
    configConstraints m n k entries = [] ∧ defaultExpressions.filter configExpression = [] := by
  constructor
  · have hall : ∀ c ∈ entries, c.index = (-1, -1) := by
      intro c hc
      have : c.index ∈ defaultConstraints := by
        rw [← he]
        exact List.mem_map_of_mem hc
      simp only [defaultConstraints, List.mem_replicate] at this
      exact this.2
    unfold configConstraints
    clear he
    induction entries with
    | nil => rfl
    | cons c l ih =>
      rw [List.foldl_cons, if_pos (hall c List.mem_cons_self)]
      exact ih fun c h => hall c (List.mem_cons_of_mem _ h)
  · decide +kernel

/-- The loop settings: a limit of `-1` iterations, a tolerance that is not positive and a window of `-1` are replaced by those of the batch,
everything else is used as written (also other negative numbers). -/
theorem C178_loop {K : Type*} [Field K] [LinearOrder K] [IsStrictOrderedRing K] (mi cn bi bn : ℤ) (d bd : K) (mi' cn' : ℤ) (d' : K)
    (h : configLoop mi cn d bi bn bd = (mi', d', cn')) :
    (mi = -1 ∧ mi' = bi ∨ mi ≠ -1 ∧ mi' = mi) ∧ (d ≤ 0 ∧ d' = bd ∨ 0 < d ∧ d' = d) ∧ (cn = -1 ∧ cn' = bn ∨ cn ≠ -1 ∧ cn' = cn) := by
  unfold configLoop at h
  simp only [Prod.mk.injEq] at h
  obtain ⟨rfl, rfl, rfl⟩ := h
  refine ⟨?_, ?_, ?_⟩
  · by_cases h : mi = -1 <;> simp [h]
  · by_cases h : 0 < d
    · right; simp [h]
    · left; simp only [not_lt] at h; simp [h, not_lt.2 h]
  · by_cases h : cn = -1 <;> simp [h]

/-- Concrete case: an entry `[-1, 0]` is passed on and rejected, `[0, 1]` is stored; the factor index `-10` is excluded although the message
speaks of `-1`, and `-2` is passed on; tolerance `-1/10` and window `-5`. -/
example : (configConstraints 4 3 2 [⟨.zero, (-1, 0), .feature⟩, ⟨.zero, (-1, -1), .feature⟩, ⟨.zero, (0, 1), .feature⟩]
      : PyDict CLabel (Constraint ℚ)).length = 1 ∧
    configExpression "[factor:-10|feature:2]=0,250" = false ∧ configExpression "[factor:-2|feature:2]=0,250" = true ∧
    configExpression "[factor:0|feature:2]-[factor:1|feature:1]=0,250" = true ∧
    configLoop (-1) (-5) (-1/10 : ℚ) 20000 10 (1/10) = (20000, 1/10, -5) := by
  refine ⟨by decide +kernel, by decide +kernel, by decide +kernel, by decide +kernel, ?_⟩
  norm_num [configLoop]

end c178

end Esat
