import Verif.Model.Runtime
import Verif.Props.ConstraintLists
import Verif.Lemmas.PyDict
import Verif.Lemmas.MapM
import Mathlib.Data.List.Sort
import Mathlib.Data.List.Dedup

/-!
# Property C202: the runtime evaluations
-/

namespace Esat

section keys

theorem ofList_inj' {a b : List Char} (h : String.ofList a = String.ofList b) : a = b := by
  have := congrArg String.toList h
  simpa using this

/-- The text before the last `-` and the one after it. -/
theorem dash_split : ∀ (a b s t : List Char), '-' ∉ s → '-' ∉ t → a ++ '-' :: s = b ++ '-' :: t → a = b ∧ s = t
  | [], [], _, _, _, _, h => by simpa using h
  | [], c :: b, s, t, hs, _, h => by
    rw [List.nil_append, List.cons_append, List.cons.injEq] at h
    exact absurd (h.2 ▸ by simp : '-' ∈ s) hs
  | c :: a, [], s, t, _, ht, h => by
    rw [List.nil_append, List.cons_append, List.cons.injEq] at h
    exact absurd (h.2 ▸ by simp : '-' ∈ t) ht
  | c :: a, d :: b, s, t, hs, ht, h => by
    rw [List.cons_append, List.cons_append, List.cons.injEq] at h
    obtain ⟨h1, h2⟩ := dash_split a b s t hs ht h.2
    exact ⟨by rw [h.1, h1], h2⟩

/-- Different data sets or numbers of factors have different keys, whatever the name of the data set. -/
theorem C202_key (d d' : String) (f f' : ℕ) (h : runKey d f = runKey d' f') : d = d' ∧ f = f' := by
  have h1 := ofList_inj' h
  obtain ⟨h2, h3⟩ := dash_split _ _ _ _ (fun hc => ((natText_mem f).2 _ hc).1 rfl) (fun hc => ((natText_mem f').2 _ hc).1 rfl) h1
  exact ⟨String.toList_inj.1 h2, natText_inj h3⟩

example : runKey "b" 3 = "b-3" ∧ runKey "b-3" 4 = "b-3-4" := by decide +kernel

theorem suffix_inj (m m' s : String) (h : m ++ s = m' ++ s) : m = m' := by
  have := congrArg String.toList h
  rw [String.toList_append, String.toList_append] at this
  exact String.toList_inj.1 (List.append_cancel_right this)

theorem suffix_ne (m m' : String) : m ++ "-runtime" ≠ m' ++ "-Q" := by
  intro h
  have h1 := congrArg (fun s : String => s.toList.getLast?) h
  simp [String.toList_append, List.getLast?_append] at h1

end keys

section runtime
variable {K : Type*}

theorem sortKeys_perm {β : Type*} (d : PyDict String β) : (sortKeys d).Perm d := List.mergeSort_perm _ _

theorem dictGet_perm {β : Type*} {d d' : PyDict String β} (hp : d.Perm d') (hd : (d.map (·.1)).Nodup) (key : String) :
    dictGet d key = dictGet d' key := by
  have hd' : (d'.map (·.1)).Nodup := (hp.map _).nodup_iff.1 hd
  cases h : dictGet d' key with
  | none =>
    cases h2 : dictGet d key with
    | none => rfl
    | some v =>
      have := dictGet_of_mem d' hd' key v (hp.mem_iff.1 (mem_of_dictGet d key v h2))
      rw [h] at this
      cases this
  | some v => exact dictGet_of_mem d hd key v (hp.mem_iff.2 (mem_of_dictGet d' key v h))

theorem recordRun_nodup (cur : PyDict String (RunEntry K)) (hd : (cur.map (·.1)).Nodup) (r : RunDone K) :
    ((recordRun cur r).map (·.1)).Nodup := by
  unfold recordRun
  exact ((sortKeys_perm _).map _).nodup_iff.2 (dictSet_nodup _ hd _ _)

theorem recordRun_get (cur : PyDict String (RunEntry K)) (hd : (cur.map (·.1)).Nodup) (r : RunDone K) (key : String) :
    dictGet (recordRun cur r) key = if key = runKey r.dataset r.factors then
      some (updateEntry ((dictGet cur (runKey r.dataset r.factors)).getD ⟨r.dataset, r.factors, []⟩) r) else dictGet cur key := by
  unfold recordRun
  rw [dictGet_perm (sortKeys_perm _) (((sortKeys_perm _).map _).nodup_iff.2 (dictSet_nodup _ hd _ _)), dictGet_dictSet]

/-- Storing one result sets the runtime and the loss of its method in the entry of its data set and number of factors, and changes
nothing else; afterwards the keys are in increasing order. -/
theorem C202_record (cur : PyDict String (RunEntry K)) (hd : (cur.map (·.1)).Nodup) (r : RunDone K) :
    (∃ e, dictGet (recordRun cur r) (runKey r.dataset r.factors) = some e ∧ e.dataset = r.dataset ∧ e.factors = r.factors ∧
      dictGet e.values (r.method ++ "-runtime") = some r.runtime ∧ dictGet e.values (r.method ++ "-Q") = some r.q ∧
      ∀ s, s ≠ r.method ++ "-runtime" → s ≠ r.method ++ "-Q" →
        dictGet e.values s = (dictGet cur (runKey r.dataset r.factors)).bind fun e0 => dictGet e0.values s) ∧
    (∀ key, key ≠ runKey r.dataset r.factors → dictGet (recordRun cur r) key = dictGet cur key) ∧
    ((recordRun cur r).map (·.1)).Pairwise (· < ·) := by
  refine ⟨⟨_, (recordRun_get cur hd r _).trans (if_pos rfl), rfl, rfl, ?_, ?_, ?_⟩, ?_, ?_⟩
  · simp only [updateEntry]
    rw [dictGet_dictSet, if_neg (suffix_ne _ _), dictGet_dictSet, if_pos rfl]
  · simp only [updateEntry]
    rw [dictGet_dictSet, if_pos rfl]
  · intro s h1 h2
    simp only [updateEntry]
    rw [dictGet_dictSet, if_neg h2, dictGet_dictSet, if_neg h1]
    cases dictGet cur (runKey r.dataset r.factors) <;> rfl
  · intro key hk
    rw [recordRun_get cur hd r, if_neg hk]
  · have h1 : (recordRun cur r).Pairwise fun a b => a.1 ≤ b.1 := by
      have := List.pairwise_mergeSort (le := fun a b : String × RunEntry K => decide (a.1 ≤ b.1))
        (fun a b c h1 h2 => by simp only [decide_eq_true_eq] at *; exact le_trans h1 h2)
        (fun a b => by simp only [Bool.or_eq_true, decide_eq_true_eq]; exact le_total _ _)
        (dictSet cur (runKey r.dataset r.factors)
          (updateEntry ((dictGet cur (runKey r.dataset r.factors)).getD ⟨r.dataset, r.factors, []⟩) r))
      exact this.imp fun h => by simpa using h
    have h2 := recordRun_nodup cur hd r
    rw [List.pairwise_map]
    rw [List.Nodup, List.pairwise_map] at h2
    exact (h1.and h2).imp fun h => lt_of_le_of_ne h.1 h.2

theorem recordRuns_nodup (rs : List (RunDone K)) : ((recordRuns rs).map (·.1)).Nodup := by
  unfold recordRuns
  induction rs using List.reverseRecOn with
  | nil => simp
  | append_singleton rs r ih =>
    rw [List.foldl_append]
    exact recordRun_nodup _ ih r

theorem recordRuns_snoc (rs : List (RunDone K)) (r : RunDone K) : recordRuns (rs ++ [r]) = recordRun (recordRuns rs) r := by
  unfold recordRuns
  rw [List.foldl_append]
  rfl

/-- The file after any sequence of runs: for every data set, number of factors and method it holds the runtime and the loss of the
last run of that kind, and nothing if there was none. -/
theorem C202_last (rs : List (RunDone K)) (d : String) (f : ℕ) (m : String) :
    ((dictGet (recordRuns rs) (runKey d f)).bind fun e => dictGet e.values (m ++ "-runtime")) =
      ((rs.filter fun r => r.dataset = d ∧ r.factors = f ∧ r.method = m).getLast?.map (·.runtime)) ∧
    ((dictGet (recordRuns rs) (runKey d f)).bind fun e => dictGet e.values (m ++ "-Q")) =
      ((rs.filter fun r => r.dataset = d ∧ r.factors = f ∧ r.method = m).getLast?.map (·.q)) := by
  induction rs using List.reverseRecOn with
  | nil => simp [recordRuns, dictGet]
  | append_singleton rs r ih =>
    rw [recordRuns_snoc, List.filter_append]
    obtain ⟨⟨e, he, -, -, h1, h2, h3⟩, h4, -⟩ := C202_record (recordRuns rs) (recordRuns_nodup rs) r
    by_cases hk : r.dataset = d ∧ r.factors = f
    · obtain ⟨rfl, rfl⟩ := hk
      rw [he]
      by_cases hm : r.method = m
      · subst hm
        simp [h1, h2]
      · have hne : m ++ "-runtime" ≠ r.method ++ "-runtime" := fun h => hm (suffix_inj _ _ _ h).symm
        have hne' : m ++ "-Q" ≠ r.method ++ "-Q" := fun h => hm (suffix_inj _ _ _ h).symm
        rw [Option.bind_some, Option.bind_some, h3 _ hne (suffix_ne _ _), h3 _ (fun h => suffix_ne _ _ h.symm) hne', ih.1, ih.2]
        simp [hm]
    · have hkey : runKey d f ≠ runKey r.dataset r.factors := by
        intro h
        obtain ⟨h1, h2⟩ := C202_key _ _ _ _ h
        exact hk ⟨h1.symm, h2.symm⟩
      rw [h4 _ hkey, ih.1, ih.2]
      have : ¬(r.dataset = d ∧ r.factors = f ∧ r.method = m) := fun h => hk ⟨h.1, h.2.1⟩
      simp [this]

/-- The entries of the file carry the data set and the factors of their key. -/
theorem recordRuns_entry (rs : List (RunDone K)) : ∀ p ∈ recordRuns rs, p.1 = runKey p.2.dataset p.2.factors := by
  induction rs using List.reverseRecOn with
  | nil => simp [recordRuns]
  | append_singleton rs r ih =>
    intro p hp
    rw [recordRuns_snoc] at hp
    have hg := dictGet_of_mem _ (recordRun_nodup _ (recordRuns_nodup rs) r) p.1 p.2 hp
    rw [recordRun_get _ (recordRuns_nodup rs)] at hg
    split at hg
    · rename_i hk
      rw [Option.some.injEq] at hg
      rw [hk, ← hg]
      rfl
    · exact ih p (mem_of_dictGet _ _ _ hg)

/-! ### The figure -/

/-- The points of one data set and method, in the order of the file. -/
def entryPoints (cur : PyDict String (RunEntry K)) (d m : String) : List (ℕ × K) :=
  cur.filterMap fun p => if p.2.dataset = d then (dictGet p.2.values (m ++ "-runtime")).map fun r => (p.2.factors, r) else none

theorem ensureKey_get {β : Type*} (d : PyDict String (List β)) (key key' : String) :
    (dictGet (ensureKey d key) key').getD [] = (dictGet d key').getD [] := by
  unfold ensureKey
  split
  · rfl
  · rename_i h
    rw [dictGet_dictSet]
    split
    · rename_i hk
      subst hk
      cases h2 : dictGet d key' with
      | none => rfl
      | some v => simp [h2] at h
    · rfl

/-- The invariant of the loop over the results. -/
def PlotInv (pd : PyDict String (PyDict String (List (ℕ × K)))) (pts : String → String → List (ℕ × K)) : Prop :=
  (pd.map (·.1)).Nodup ∧ (∀ p ∈ pd, (p.2.map (·.1)).Nodup) ∧
    ∀ d m, dictGet ((dictGet pd d).getD []) m = if pts d m = [] then none else some (pts d m)

theorem mem_runSet {κ β : Type*} [DecidableEq κ] (d : PyDict κ β) (key : κ) (v : β) (p : κ × β) (h : p ∈ dictSet d key v) :
    p = (key, v) ∨ p ∈ d := by
  unfold dictSet at h
  split at h
  · obtain ⟨q, hq, rfl⟩ := List.mem_map.1 h
    split
    · exact Or.inl rfl
    · exact Or.inr hq
  · rcases List.mem_append.1 h with h | h
    · exact Or.inr h
    · exact Or.inl (by simpa using h)

theorem nodup_getD {β : Type*} (pd : PyDict String (PyDict String β)) (h : ∀ p ∈ pd, (p.2.map (·.1)).Nodup) (d : String) :
    (((dictGet pd d).getD []).map (·.1)).Nodup := by
  cases hg : dictGet pd d with
  | none => simp
  | some v => exact h _ (mem_of_dictGet _ _ _ hg)

theorem ensureKey_inv (pd : PyDict String (PyDict String (List (ℕ × K)))) (pts) (h : PlotInv pd pts) (d0 : String) :
    PlotInv (ensureKey pd d0) pts := by
  obtain ⟨h1, h2, h3⟩ := h
  refine ⟨?_, ?_, fun d m => by rw [ensureKey_get]; exact h3 d m⟩
  · unfold ensureKey
    split
    · exact h1
    · exact dictSet_nodup _ h1 _ _
  · unfold ensureKey
    split
    · exact h2
    · intro p hp
      rcases mem_runSet _ _ _ _ hp with rfl | hp
      · simp
      · exact h2 p hp

theorem addPoint_inv (e : RunEntry K) (pd) (pts) (h : PlotInv (K := K) pd pts) (m0 : String) :
    PlotInv (addPoint e pd m0) fun d m => pts d m ++ (if d = e.dataset ∧ m = m0 then
      ((dictGet e.values (m0 ++ "-runtime")).map fun r => (e.factors, r)).toList else []) := by
  unfold addPoint
  cases hr : dictGet e.values (m0 ++ "-runtime") with
  | none =>
    simp only [Option.map_none, Option.toList_none, ite_self, List.append_nil]
    exact h
  | some r =>
    obtain ⟨h1, h2, h3⟩ := h
    simp only [Option.map_some, Option.toList_some]
    refine ⟨dictSet_nodup _ h1 _ _, ?_, ?_⟩
    · intro p hp
      rcases mem_runSet _ _ _ _ hp with rfl | hp
      · exact dictSet_nodup _ (nodup_getD pd h2 _) _ _
      · exact h2 p hp
    · intro d m
      beta_reduce
      rw [dictGet_dictSet]
      by_cases hd : d = e.dataset
      · subst hd
        rw [if_pos rfl, Option.getD_some, dictGet_dictSet]
        by_cases hm : m = m0
        · subst hm
          rw [if_pos rfl, show (if e.dataset = e.dataset ∧ m = m then [(e.factors, r)] else []) = [(e.factors, r)] from if_pos ⟨rfl, rfl⟩,
            if_neg (by simp), h3]
          by_cases hp : pts e.dataset m = []
          · rw [if_pos hp, hp]; rfl
          · rw [if_neg hp]; rfl
        · rw [if_neg hm, show (if e.dataset = e.dataset ∧ m = m0 then [(e.factors, r)] else []) = [] from if_neg fun h => hm h.2,
            List.append_nil]
          exact h3 _ m
      · rw [if_neg hd, show (if d = e.dataset ∧ m = m0 then [(e.factors, r)] else []) = [] from if_neg fun h => hd h.1, List.append_nil]
        exact h3 d m

theorem plotData_inv (cur : PyDict String (RunEntry K)) :
    PlotInv (plotData cur) fun d m => if m ∈ plotMethods then entryPoints cur d m else [] := by
  unfold plotData
  induction cur using List.reverseRecOn with
  | nil => exact ⟨by simp, by simp, fun d m => by simp [entryPoints, dictGet]⟩
  | append_singleton cur p ih =>
    rw [List.foldl_append, List.foldl_cons, List.foldl_nil]
    have h1 := ensureKey_inv _ _ ih p.2.dataset
    have h2 := addPoint_inv p.2 _ _ h1 "ls-nmf"
    have h3 := addPoint_inv p.2 _ _ h2 "ws-nmf"
    have hstep : ∀ (pd : PyDict String (PyDict String (List (ℕ × K)))) (f : String → String → List (ℕ × K)) (g),
        f = g → PlotInv pd f → PlotInv pd g := fun _ _ _ e h => e ▸ h
    refine hstep _ _ _ ?_ h3
    funext d m
    symm
    have hsplit : entryPoints (cur ++ [p]) d m = entryPoints cur d m ++
        (if p.2.dataset = d then ((dictGet p.2.values (m ++ "-runtime")).map fun r => (p.2.factors, r)).toList else []) := by
      unfold entryPoints
      rw [List.filterMap_append]
      congr 1
      simp only [List.filterMap_cons, List.filterMap_nil]
      by_cases hd : p.2.dataset = d
      · rw [if_pos hd, if_pos hd]
        cases dictGet p.2.values (m ++ "-runtime") <;> rfl
      · rw [if_neg hd, if_neg hd]
    by_cases hl : m = "ls-nmf"
    · subst hl
      have hmm : "ls-nmf" ∈ plotMethods := by simp [plotMethods]
      rw [if_pos hmm, if_pos hmm, hsplit, List.append_assoc]
      congr 1
      by_cases hd : p.2.dataset = d
      · subst hd; simp
      · simp [hd, Ne.symm hd]
    · by_cases hw : m = "ws-nmf"
      · subst hw
        have hmm : "ws-nmf" ∈ plotMethods := by simp [plotMethods]
        rw [if_pos hmm, if_pos hmm, hsplit, List.append_assoc]
        congr 1
        by_cases hd : p.2.dataset = d
        · subst hd; simp
        · simp [hd, Ne.symm hd]
      · simp [plotMethods, hl, hw]

/-- The traces of the figure: one for every data set and method with a stored runtime, named once, with all its points in the
order of the numbers of factors. -/
theorem C202_traces (cur : PyDict String (RunEntry K)) :
    (∀ d m pts, (d, m, pts) ∈ runTraces cur ↔ m ∈ ["ls-nmf", "ws-nmf"] ∧ entryPoints cur d m ≠ [] ∧
      pts = (entryPoints cur d m).mergeSort fun a b => decide (a.1 ≤ b.1)) ∧
    ((runTraces cur).map fun t => (t.1, t.2.1)).Nodup ∧
    ∀ t ∈ runTraces cur, (t.2.2.map (·.1)).Pairwise (· ≤ ·) ∧ t.2.2.Perm (entryPoints cur t.1 t.2.1) := by
  obtain ⟨h1, h2, h3⟩ := plotData_inv cur
  have hmem : ∀ d m pts, (d, m, pts) ∈ runTraces cur ↔ m ∈ ["ls-nmf", "ws-nmf"] ∧ entryPoints cur d m ≠ [] ∧
      pts = (entryPoints cur d m).mergeSort fun a b => decide (a.1 ≤ b.1) := by
    intro d m pts
    have h3' := h3 d m
    beta_reduce at h3'
    unfold runTraces
    rw [List.mem_flatMap]
    constructor
    · rintro ⟨p, hp, hq⟩
      obtain ⟨q, hqm, he⟩ := List.mem_filterMap.1 hq
      split at he
      · cases he
      · rename_i hne
        simp only [Option.some.injEq, Prod.mk.injEq] at he
        obtain ⟨rfl, rfl, rfl⟩ := he
        rw [dictGet_of_mem _ h1 p.1 p.2 hp, Option.getD_some, dictGet_of_mem _ (h2 p hp) q.1 q.2 hqm] at h3'
        by_cases hm : q.1 ∈ plotMethods
        · rw [if_pos hm] at h3'
          split at h3'
          · cases h3'
          · rename_i hpt
            rw [Option.some.injEq] at h3'
            exact ⟨hm, hpt, by rw [h3']⟩
        · rw [if_neg hm] at h3'
          simp at h3'
    · rintro ⟨hm, hne, rfl⟩
      rw [if_pos (show m ∈ plotMethods from hm), if_neg hne] at h3'
      cases hg : dictGet (plotData cur) d with
      | none => rw [hg] at h3'; simp [dictGet] at h3'
      | some md =>
        rw [hg, Option.getD_some] at h3'
        refine ⟨(d, md), mem_of_dictGet _ _ _ hg, List.mem_filterMap.2 ⟨(m, entryPoints cur d m), mem_of_dictGet _ _ _ h3', ?_⟩⟩
        rw [if_neg (by simpa using hne)]
  refine ⟨hmem, ?_, ?_⟩
  · unfold runTraces
    rw [List.map_flatMap]
    rw [List.nodup_flatMap]
    constructor
    · intro p hp
      have h2p := h2 p hp
      rw [List.map_filterMap]
      rw [List.Nodup, List.pairwise_map] at h2p
      rw [List.Nodup, List.pairwise_filterMap]
      refine h2p.imp fun {a b} hab x hx y hy hxy => hab ?_
      subst hxy
      split at hx
      · cases hx
      · split at hy
        · cases hy
        · simp only [Option.map_some, Option.some.injEq] at hx hy
          rw [← hy] at hx
          exact (Prod.ext_iff.1 hx).2
    · rw [List.Nodup, List.pairwise_map] at h1
      refine h1.imp fun {a b} hab => ?_
      rw [Function.onFun, List.disjoint_left]
      intro x hx hy
      obtain ⟨t, ht, rfl⟩ := List.mem_map.1 hx
      obtain ⟨t', ht', he⟩ := List.mem_map.1 hy
      obtain ⟨q, -, hq⟩ := List.mem_filterMap.1 ht
      obtain ⟨q', -, hq'⟩ := List.mem_filterMap.1 ht'
      split at hq
      · cases hq
      · split at hq'
        · cases hq'
        · rw [Option.some.injEq] at hq hq'
          subst hq hq'
          exact hab (Prod.ext_iff.1 he).1.symm
  · rintro ⟨d, m, pts⟩ ht
    obtain ⟨-, -, rfl⟩ := (hmem d m pts).1 ht
    refine ⟨?_, List.mergeSort_perm _ _⟩
    rw [List.pairwise_map]
    have := List.pairwise_mergeSort (le := fun a b : ℕ × K => decide (a.1 ≤ b.1))
      (fun a b c h1 h2 => by simp only [decide_eq_true_eq] at *; exact le_trans h1 h2)
      (fun a b => by simp only [Bool.or_eq_true, decide_eq_true_eq]; exact le_total _ _) (entryPoints cur d m)
    exact this.imp fun h => by simpa using h

/-- From the runs to the figure: a point is drawn for a data set, method and number of factors exactly with the runtime of the
last such run. -/
theorem C202_figure (rs : List (RunDone K)) (d m : String) (hm : m ∈ ["ls-nmf", "ws-nmf"]) (f : ℕ) (r : K) :
    (∃ pts, (d, m, pts) ∈ runTraces (recordRuns rs) ∧ (f, r) ∈ pts) ↔
      ((rs.filter fun x => x.dataset = d ∧ x.factors = f ∧ x.method = m).getLast?.map (·.runtime)) = some r := by
  obtain ⟨h1, -, -⟩ := C202_traces (recordRuns rs)
  have hpt : (f, r) ∈ entryPoints (recordRuns rs) d m ↔
      ((rs.filter fun x => x.dataset = d ∧ x.factors = f ∧ x.method = m).getLast?.map (·.runtime)) = some r := by
    rw [← (C202_last rs d f m).1]
    unfold entryPoints
    rw [List.mem_filterMap]
    constructor
    · rintro ⟨p, hp, he⟩
      split at he
      · rename_i hd
        rw [Option.map_eq_some_iff] at he
        obtain ⟨r', hr', he⟩ := he
        simp only [Prod.mk.injEq] at he
        obtain ⟨hf, rfl⟩ := he
        have hk := recordRuns_entry rs p hp
        rw [hd, hf] at hk
        rw [dictGet_of_mem _ (recordRuns_nodup rs) (runKey d f) p.2 (by rw [← hk]; exact hp)]
        exact hr'
      · cases he
    · intro h
      rw [Option.bind_eq_some_iff] at h
      obtain ⟨e, he, hr⟩ := h
      have hmem := mem_of_dictGet _ _ _ he
      have hk := recordRuns_entry rs _ hmem
      obtain ⟨hd, hf⟩ := C202_key _ _ _ _ hk
      simp only at hd hf
      refine ⟨_, hmem, ?_⟩
      simp only
      rw [if_pos hd.symm, hr, ← hf]
      rfl
  constructor
  · rintro ⟨pts, hp, hf⟩
    obtain ⟨-, -, rfl⟩ := (h1 d m pts).1 hp
    exact hpt.1 ((List.mergeSort_perm _ _).mem_iff.1 hf)
  · intro h
    have hf := hpt.2 h
    exact ⟨_, (h1 d m _).2 ⟨hm, List.ne_nil_of_mem hf, rfl⟩, (List.mergeSort_perm _ _).mem_iff.2 hf⟩

/-- Two data sets; the second run of `b` with three factors replaces the first one. -/
example (pts) : let cur := recordRuns (K := ℚ) [⟨"b", 10, "ls-nmf", 7, 1⟩, ⟨"b", 3, "ls-nmf", 5, 1⟩, ⟨"a", 3, "ws-nmf", 4, 1⟩, ⟨"b", 3, "ls-nmf", 6, 1⟩]
    (∃ pts, ("b", "ls-nmf", pts) ∈ runTraces cur ∧ (3, 6) ∈ pts) ∧ (∃ pts, ("a", "ws-nmf", pts) ∈ runTraces cur ∧ (3, 4) ∈ pts) ∧
      (("b", "ls-nmf", pts) ∈ runTraces cur → (3, 5) ∉ pts) :=
  ⟨(C202_figure _ _ _ (by simp) _ _).2 (by decide +kernel), (C202_figure _ _ _ (by simp) _ _).2 (by decide +kernel),
    fun h hp => absurd ((C202_figure _ "b" "ls-nmf" (by simp) 3 5).1 ⟨pts, h, hp⟩) (by decide +kernel)⟩

/-- **Disagreement.** The clean up removes the old results but never the old figure: its test asks for the file removed just
before. -/
theorem C202_cleanup (results figure : Bool) : runtimeCleanup results figure = (false, figure) := by
  cases results <;> rfl

/-! ### The benchmark with and without GPU -/

theorem find?_benchRows (t : ℕ → Bool → K) (g : Bool) (s : ℕ) : ∀ (sizes : List ℕ) (o : ℕ), s ∈ sizes →
    ((((sizes.zipIdx o).flatMap fun p => [false, true].map fun g' => (⟨p.1, g', t p.2 g'⟩ : BenchRow K)).find?
      fun r => decide (r.size = s) && (r.gpu == g)).map (·.time)) = some (t (o + sizes.idxOf s) g)
  | [], _, h => by simp at h
  | a :: l, o, h => by
    rw [List.zipIdx_cons, List.flatMap_cons, List.find?_append]
    by_cases ha : a = s
    · subst ha
      cases g <;> simp
    · have hs : s ∈ l := by
        rcases List.mem_cons.1 h with h | h
        · exact absurd h.symm ha
        · exact h
      have := find?_benchRows t g s l (o + 1) hs
      rw [List.idxOf_cons_ne _ ha]
      have e : o + (l.idxOf s + 1) = o + 1 + l.idxOf s := by omega
      rw [Nat.succ_eq_add_one, e, ← this]
      simp [ha]

theorem mapM_bench {α β : Type*} (g : α → β) : ∀ l : List α, (l.mapM fun s => some (g s)) = some (l.map g)
  | [] => rfl
  | a :: l => by rw [List.mapM_cons, mapM_bench g l]; rfl

/-- The lines of the benchmark: the distinct sizes in increasing order, each with the times of its first occurrence in the list of
sizes; a size that is listed again is run again, but its times are not shown (**Disagreement**). -/
theorem C202_bench (t : ℕ → Bool → K) (sizes : List ℕ) :
    ∃ xs, benchLines (benchRows t sizes) =
        some (xs, xs.map (fun s => t (sizes.idxOf s) false), xs.map fun s => t (sizes.idxOf s) true) ∧
      xs.Pairwise (· < ·) ∧ ∀ s, s ∈ xs ↔ s ∈ sizes := by
  have hsz : ∀ s, s ∈ (benchRows t sizes).map (·.size) ↔ s ∈ sizes := by
    intro s
    unfold benchRows
    simp only [List.mem_map, List.mem_flatMap]
    constructor
    · rintro ⟨r, ⟨p, hp, g, -, rfl⟩, rfl⟩
      exact List.fst_mem_of_mem_zipIdx hp
    · intro hs
      obtain ⟨i, hi, rfl⟩ := List.getElem_of_mem hs
      exact ⟨⟨sizes[i], false, t i false⟩, ⟨(sizes[i], i), List.mk_mem_zipIdx_iff_getElem?.2 (List.getElem?_eq_getElem hi), false, by simp, rfl⟩, rfl⟩
  have hmem : ∀ s, s ∈ ((benchRows t sizes).map (·.size)).dedup.mergeSort ↔ s ∈ sizes := by
    intro s
    rw [(List.mergeSort_perm _ _).mem_iff, List.mem_dedup, hsz]
  refine ⟨_, ?_, ?_, hmem⟩
  · unfold benchLines
    dsimp only
    generalize hx : ((benchRows t sizes).map (·.size)).dedup.mergeSort = xs at hmem
    have key : ∀ g, (xs.mapM fun s => ((benchRows t sizes).find? fun r => decide (r.size = s) && (r.gpu == g)).map (·.time)) =
        some (xs.map fun s => t (sizes.idxOf s) g) := by
      intro g
      rw [mapM_option_congr _ (fun s => some (t (sizes.idxOf s) g)) xs ?_]
      · exact mapM_bench _ xs
      · intro s hs
        have := find?_benchRows t g s sizes 0 ((hmem s).1 hs)
        rw [Nat.zero_add] at this
        exact this
    have k1 := key true
    have k2 := key false
    simp only [beq_true, beq_false] at k1 k2
    rw [k1, k2]
    rfl
  · have h1 := List.pairwise_mergeSort (le := fun a b : ℕ => decide (a ≤ b))
      (fun a b c h1 h2 => by simp only [decide_eq_true_eq] at *; exact le_trans h1 h2)
      (fun a b => by simp only [Bool.or_eq_true, decide_eq_true_eq]; exact le_total _ _) ((benchRows t sizes).map (·.size)).dedup
    have h2 : (((benchRows t sizes).map (·.size)).dedup.mergeSort).Nodup := (List.mergeSort_perm _ _).nodup_iff.2 (List.nodup_dedup _)
    exact (h1.and h2).imp fun h => lt_of_le_of_ne (by simpa using h.1) h.2

/-- The second run of size 100 does not appear. -/
example : benchLines (benchRows (K := ℚ) (fun i g => if g then 10 + i else i) [200, 100, 100]) = some ([100, 200], [1, 0], [11, 10]) := by
  obtain ⟨xs, h, hp, hm⟩ := C202_bench (K := ℚ) (fun i g => if g then 10 + i else i) [200, 100, 100]
  have hx : xs = [100, 200] :=
    List.Perm.eq_of_pairwise (fun a b _ _ h1 h2 => absurd h1 (lt_asymm h2)) hp (by decide)
      ((List.perm_ext_iff_of_nodup (hp.imp fun h => h.ne) (by decide)).2 fun s => by rw [hm]; simp; tauto)
  rw [h, hx]
  decide +kernel

end runtime

end Esat
