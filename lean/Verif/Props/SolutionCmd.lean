import Verif.Model.SolutionCmd
import Verif.Props.Metrics
import Mathlib.Data.Fin.VecNotation

/-!
# Theorems about the solution commands (C187) and the residual histogram (C188)
-/

namespace Esat

open Finset

section cmd
variable {K L : Type*} [Field K] [LinearOrder K]

/-- The data handler of a command: the constructor does not process the data (`datahandler.py:90,107-111`). -/
def Fresh (P : Project K L) : Prop := ∀ dh, P.handler = some dh → dh.df = none

/-- The entry of the batch a command works with, and its number: the best model for -1, otherwise the number given, counted from the end if
it is negative. -/
def Chosen (P : Project K L) (sel : ℤ) (dh : AnHandler L) (M : Option (SaView K)) (t : ℤ) : Prop :=
  P.handler = some dh ∧ ∃ b, P.batch = some b ∧ ((sel = -1 ∧ b.best = some t) ∨ (sel ≠ -1 ∧ t = sel)) ∧
    ∃ pos : ℕ, b.results[pos]? = some M ∧ ((0 ≤ t ∧ t = pos) ∨ (t < 0 ∧ t + b.results.length = pos))

/-- What a command shows on unprocessed data: only four of the ten commands show anything. -/
inductive Shown (E : FigEnv K L) (dh : AnHandler L) (M : SaView K) (t : ℤ) : SolutionCmd → List (Fig K) → Prop
  /-- scaled residuals of a feature counted from zero -/
  | residuals (f : String) (j : Fin M.n) : dh.features[j.1]? = some f →
      E.distplot (List.ofFn fun i => (M.V i j - M.WH i j) / M.U i j) = true →
      Shown E dh M t (.residuals j.1) [.residuals f (List.ofFn fun i => (M.V i j - M.WH i j) / M.U i j)]
  /-- the fingerprints -/
  | fingerprints : Shown E dh M t .fingerprints
      [.fingerprints (t + 1) (List.ofFn fun f => (f.1, List.ofFn fun j => fingerprint M.H f j)).reverse]
  /-- two factors counted from one -/
  | gspace (x y : Fin M.k) : Shown E dh M t (.gspace (x.1 + 1) (y.1 + 1))
      [.gspace (t + 1) (List.ofFn fun i => gSpaceContr (fun l => M.W l x) i) (List.ofFn fun i => gSpaceContr (fun l => M.W l y) i)]
  /-- the shares of the factors -/
  | composition : Shown E dh M t .composition
      [.composition (List.ofFn fun f => List.ofFn fun j => if ∑ g, M.H g j = 0 then none else some (M.H f j / ∑ g, M.H g j))]

theorem pyIndex_iff {β : Type*} (l : List β) (t : ℤ) (x : β) : pyIndex l t = some x ↔
    ∃ pos : ℕ, l[pos]? = some x ∧ ((0 ≤ t ∧ t = pos) ∨ (t < 0 ∧ t + l.length = pos)) := by
  unfold pyIndex
  constructor
  · intro h
    split at h
    · exact ⟨t.toNat, h, .inl ⟨by assumption, by omega⟩⟩
    · split at h
      · exact ⟨(t + l.length).toNat, h, .inr ⟨by omega, by omega⟩⟩
      · cases h
  · rintro ⟨pos, h, ⟨h0, rfl⟩ | ⟨h0, h1⟩⟩
    · rw [if_pos h0]; simpa using h
    · rw [if_neg (by omega), if_pos (by omega), h1]; simpa using h

omit [Field K] [LinearOrder K] in
theorem modelAnalysis_iff (P : Project K L) (sel : ℤ) (a : AnObj K L) :
    modelAnalysis P sel = some a ↔ ∃ t, Chosen P sel a.dh a.model t ∧ a.selected = some t := by
  unfold modelAnalysis Chosen
  rcases P with ⟨_ | dh, _ | b⟩
  · simp
  · simp
  · simp
  · have key : ∀ t, ((if sel = -1 then b.best else some sel) = some t ↔ (sel = -1 ∧ b.best = some t) ∨ (sel ≠ -1 ∧ t = sel)) := by
      intro t
      split <;> rename_i h
      · simp [h]
      · simp [h, eq_comm]
    simp only [Option.some.injEq, exists_eq_left', ← pyIndex_iff, ← key]
    cases hs : (if sel = -1 then b.best else some sel) with
    | none => simp
    | some i =>
      simp only [Option.map_eq_some_iff, Option.some.injEq]
      constructor
      · rintro ⟨M, hM, rfl⟩
        exact ⟨i, ⟨rfl, rfl, hM⟩, rfl⟩
      · rintro ⟨t, ⟨h1, rfl, h2⟩, h3⟩
        exact ⟨a.model, h2, by rcases a with ⟨d, M, s⟩; simp_all⟩

theorem shownFactor_eq (k : ℕ) (i : ℤ) (f : ℕ) : shownFactor k i = some f ↔ f < k ∧ i = f + 1 := by
  unfold shownFactor
  split
  · simp only [reduceCtorEq, false_iff, not_and]; omega
  · simp only [Option.some.injEq]; omega

theorem shownFactor_none (k : ℕ) (i : ℤ) : shownFactor k i = none ↔ i < 1 ∨ (k : ℤ) < i := by
  unfold shownFactor
  split <;> simp <;> omega

theorem wrapAxis_nonneg (r : ℕ) (i : ℤ) (h : 0 ≤ i) (j : Fin r) : wrapAxis r i = some j ↔ i = j.1 := by
  unfold wrapAxis
  split
  · rename_i hh
    simp only [Option.some.injEq, Fin.ext_iff]; omega
  · rename_i hh
    rw [dif_neg (by omega)]
    simp only [reduceCtorEq, false_iff]
    have := j.2
    omega

theorem wrapAxis_nonneg_none (r : ℕ) (i : ℤ) (h : 0 ≤ i) : wrapAxis r i = none ↔ (r : ℤ) ≤ i := by
  unfold wrapAxis
  split
  · simp only [reduceCtorEq, false_iff]; omega
  · rw [dif_neg (by omega)]; simp only [true_iff]; omega

theorem chosenFeature_idx (fs : List String) (i : ℤ) (x : String × ℤ) :
    chosenFeature fs (some i) none = some x ↔ 0 ≤ i ∧ fs[i.toNat]? = some x.1 ∧ x.2 = i := by
  unfold chosenFeature
  dsimp only
  split
  · rename_i h
    simp only [reduceCtorEq, false_iff, not_and]
    intro h0 h1
    rcases h with h | h
    · omega
    · rw [List.getElem?_eq_none (by omega)] at h1; cases h1
  · rename_i h
    simp only [Option.map_eq_some_iff]
    constructor
    · rintro ⟨f, hf, rfl⟩; exact ⟨by omega, hf, rfl⟩
    · rintro ⟨_, h1, h2⟩; exact ⟨x.1, h1, by rw [← h2]⟩

theorem chosenFeature_idx_none (fs : List String) (i : ℤ) :
    chosenFeature fs (some i) none = none ↔ i < 0 ∨ (fs.length : ℤ) ≤ i := by
  unfold chosenFeature
  dsimp only
  split
  · simp_all
  · rename_i h
    simp only [Option.map_eq_none_iff, List.getElem?_eq_none_iff]
    omega

/-- **C187.** On unprocessed data, which is all the commands ever have, a command shows exactly the figures described by `Shown`: residuals,
fingerprints, g-space and composition of the chosen model. **Disagreement** with the documentation of the commands: `statistics`, `plot-estimated`,
`plot-timeseries`, `plot-profile`, `plot-contributions` and `plot-surface` never show anything, whatever the project and the options. -/
theorem C187_figures (E : FigEnv K L) (P : Project K L) (hP : Fresh P) (sel : ℤ) (c : SolutionCmd) (figs : List (Fig K)) (hne : figs ≠ []) :
    (solutionCmd E P sel c).1 = figs ↔ ∃ dh M t, Chosen P sel dh (some M) t ∧ Shown E dh M t c figs := by
  unfold solutionCmd
  cases ha : modelAnalysis P sel with
  | none =>
    simp only
    constructor
    · intro h; exact absurd h.symm hne
    · rintro ⟨dh, M, t, h, -⟩
      have := (modelAnalysis_iff P sel ⟨dh, some M, some t⟩).2 ⟨t, h, rfl⟩
      rw [ha] at this; cases this
  | some a =>
    obtain ⟨t, ht, hs⟩ := (modelAnalysis_iff P sel a).1 ha
    have hdf : a.dh.df = none := hP _ ht.1
    have huniq : ∀ dh M t', Chosen P sel dh (some M) t' → dh = a.dh ∧ some M = a.model ∧ t' = t := by
      intro dh M t' h
      have := (modelAnalysis_iff P sel ⟨dh, some M, some t'⟩).2 ⟨t', h, rfl⟩
      rw [ha] at this
      cases this
      exact ⟨rfl, rfl, by simpa using hs⟩
    have red : (∃ dh M t, Chosen P sel dh (some M) t ∧ Shown E dh M t c figs) ↔ ∃ M, a.model = some M ∧ Shown E a.dh M t c figs := by
      constructor
      · rintro ⟨dh, M, t', h, hsh⟩
        obtain ⟨rfl, hM, rfl⟩ := huniq _ _ _ h
        exact ⟨M, hM.symm, hsh⟩
      · rintro ⟨M, hM, hsh⟩
        exact ⟨a.dh, M, t, hM ▸ ht, hsh⟩
    rw [red]
    simp only
    obtain ⟨dh, model, selected⟩ := a
    simp only at hs hdf ⊢
    subst hs
    have hnil : ∀ {c}, (¬ ∃ M, model = some M ∧ Shown E dh M t c figs) → ([] = figs ↔ ∃ M, model = some M ∧ Shown E dh M t c figs) :=
      fun h => ⟨fun h' => absurd h'.symm hne, fun h' => absurd h' h⟩
    cases c with
    | residuals i =>
      cases model with
      | none => exact hnil (by simp)
      | some M =>
        simp only [solutionMethod, residualHistogram]
        cases hc : chosenFeature dh.features (some i) none with
        | none =>
          rw [chosenFeature_idx_none] at hc
          refine hnil ?_
          rintro ⟨M', hM, hsh⟩
          cases hM
          cases hsh with
          | residuals f j hf hd =>
            have := (List.getElem?_eq_some_iff.1 hf).1
            omega
        | some x =>
          obtain ⟨f, i'⟩ := x
          obtain ⟨h0, hf, hi⟩ := (chosenFeature_idx _ _ _).1 hc
          simp only at hi hf; subst hi
          simp only
          cases hw : wrapAxis M.n i' with
          | none =>
            rw [wrapAxis_nonneg_none _ _ h0] at hw
            refine hnil ?_
            rintro ⟨M', hM, hsh⟩
            cases hM
            cases hsh with
            | residuals f j hf hd => have := j.2; omega
          | some j =>
            rw [wrapAxis_nonneg _ _ h0] at hw
            subst hw
            simp only [residualColumn, if_true]
            cases hd : E.distplot (List.ofFn fun i => (M.V i j - M.WH i j) / M.U i j) with
            | false =>
              simp only [Bool.false_eq_true, if_false]
              refine hnil ?_
              rintro ⟨M', hM, hsh⟩
              cases hM
              generalize hc' : SolutionCmd.residuals (j.1 : ℤ) = c' at hsh
              cases hsh <;> simp only [SolutionCmd.residuals.injEq, reduceCtorEq] at hc'
              rename_i f' j' hf' hd'
              have : j' = j := Fin.ext (by omega)
              subst this
              rw [hd] at hd'; cases hd'
            | true =>
              simp only [if_true]
              constructor
              · rintro rfl
                exact ⟨M, rfl, .residuals f j (by simpa using hf) hd⟩
              · rintro ⟨M', hM, hsh⟩
                cases hM
                generalize hc' : SolutionCmd.residuals (j.1 : ℤ) = c' at hsh
                cases hsh <;> simp only [SolutionCmd.residuals.injEq, reduceCtorEq] at hc'
                rename_i f' j' hf' hd'
                have : j' = j := Fin.ext (by omega)
                subst this
                have : f' = f := by simpa [hf'] using hf
                subst this
                first | rfl | skip
    | statistics =>
      refine Iff.trans ?_ (hnil (by rintro ⟨M, -, h⟩; cases h))
      cases model <;> simp [solutionMethod, anStatistics, hdf]
    | estimated i =>
      refine Iff.trans ?_ (hnil (by rintro ⟨M, -, h⟩; cases h))
      have : estimatedFits (⟨dh, model, some t⟩ : AnObj K L) = false := by
        unfold estimatedFits; simp only [hdf]
      simp only [solutionMethod, anEstimated, this]
      split <;> simp
    | timeseries i =>
      refine Iff.trans ?_ (hnil (by rintro ⟨M, -, h⟩; cases h))
      simp only [solutionMethod, anTimeseries, hdf]
      split <;> simp
    | profile i =>
      refine Iff.trans ?_ (hnil (by rintro ⟨M, -, h⟩; cases h))
      simp only [solutionMethod, anProfile, hdf]
      cases model with
      | none => rfl
      | some M => simp only; cases shownFactor M.k i <;> rfl
    | fingerprints =>
      cases model with
      | none => exact hnil (by simp)
      | some M =>
        simp only [solutionMethod, anFingerprints, titled, titleModel]
        constructor
        · rintro rfl
          exact ⟨M, rfl, .fingerprints⟩
        · rintro ⟨M', hM, hsh⟩
          cases hM
          cases hsh
          rfl
    | gspace x y =>
      cases model with
      | none => exact hnil (by simp)
      | some M =>
        simp only [solutionMethod, anGspace]
        cases hx : shownFactor M.k x with
        | none =>
          rw [shownFactor_none] at hx
          refine hnil ?_
          rintro ⟨M', hM, hsh⟩
          cases hM
          cases hsh with
          | gspace x y => have := x.2; omega
        | some fx =>
          simp only
          cases hy : shownFactor M.k y with
          | none =>
            rw [shownFactor_none] at hy
            refine hnil ?_
            rintro ⟨M', hM, hsh⟩
            cases hM
            cases hsh with
            | gspace x y => have := y.2; omega
          | some fy =>
            rw [shownFactor_eq] at hx hy
            obtain ⟨hx, rfl⟩ := hx
            obtain ⟨hy, rfl⟩ := hy
            simp only [dif_pos (And.intro hx hy), titled, titleModel]
            constructor
            · rintro rfl
              exact ⟨M, rfl, .gspace ⟨fx, hx⟩ ⟨fy, hy⟩⟩
            · rintro ⟨M', hM, hsh⟩
              cases hM
              generalize hc' : SolutionCmd.gspace ((fx : ℤ) + 1) ((fy : ℤ) + 1) = c' at hsh
              cases hsh <;> simp only [SolutionCmd.gspace.injEq, reduceCtorEq] at hc'
              rename_i x y
              have h1 : x = ⟨fx, hx⟩ := Fin.ext (by simp only; omega)
              have h2 : y = ⟨fy, hy⟩ := Fin.ext (by simp only; omega)
              rw [h1, h2]
    | contributions i =>
      refine Iff.trans ?_ (hnil (by rintro ⟨M, -, h⟩; cases h))
      simp [solutionMethod, anContributions, hdf]
    | composition =>
      cases model with
      | none => exact hnil (by simp)
      | some M =>
        simp only [solutionMethod, anComposition]
        constructor
        · rintro rfl
          exact ⟨M, rfl, .composition⟩
        · rintro ⟨M', hM, hsh⟩
          cases hM
          cases hsh
          rfl
    | surface i fs =>
      refine Iff.trans ?_ (hnil (by rintro ⟨M, -, h⟩; cases h))
      simp only [solutionMethod, anSurface, hdf]
      cases model with
      | none => split <;> simp_all
      | some M =>
        split <;> try rfl
        simp only
        split
        · rfl
        · rfl

/-- **C187.** Without a chosen entry (no configuration, no data files, no batch, no best model, a number outside the batch) every command ends
with an exception; otherwise exactly those of the list do. -/
theorem C187_raises (E : FigEnv K L) (P : Project K L) (hP : Fresh P) (sel : ℤ) (c : SolutionCmd) :
    (solutionCmd E P sel c).2 = false ↔ ∀ dh M t, Chosen P sel dh M t →
      match c with
      | .residuals i => ∀ M', M = some M' → 0 ≤ i ∧ i < dh.features.length ∧
          ∀ j : Fin M'.n, i = j.1 → E.distplot (List.ofFn fun s => (M'.V s j - M'.WH s j) / M'.U s j) = false
      | .statistics | .contributions _ => True
      | .estimated i | .timeseries i => 0 ≤ i ∧ i < dh.features.length
      | .profile i => ∀ M', M = some M' → 1 ≤ i ∧ i ≤ M'.k
      | .fingerprints | .gspace _ _ | .composition => M = none
      | .surface i fs => if i = -1 then fs ≠ [] else ∀ M', M = some M' → 1 ≤ i ∧ i ≤ M'.k := by
  unfold solutionCmd
  cases ha : modelAnalysis P sel with
  | none =>
    simp only [true_iff]
    intro dh M t h
    have := (modelAnalysis_iff P sel ⟨dh, M, some t⟩).2 ⟨t, h, rfl⟩
    rw [ha] at this; cases this
  | some a =>
    obtain ⟨t, ht, hs⟩ := (modelAnalysis_iff P sel a).1 ha
    have hdf : a.dh.df = none := hP _ ht.1
    have huniq : ∀ dh M t', Chosen P sel dh M t' → dh = a.dh ∧ M = a.model ∧ t' = t := by
      intro dh M t' h
      have := (modelAnalysis_iff P sel ⟨dh, M, some t'⟩).2 ⟨t', h, rfl⟩
      rw [ha] at this
      cases this
      exact ⟨rfl, rfl, by simpa using hs⟩
    have red : ∀ (Q : AnHandler L → Option (SaView K) → Prop), (∀ dh M t, Chosen P sel dh M t → Q dh M) ↔ Q a.dh a.model := by
      intro Q
      constructor
      · intro h; exact h _ _ _ ht
      · intro h dh M t' hh
        obtain ⟨rfl, rfl, -⟩ := huniq _ _ _ hh
        exact h
    rw [red fun dh M => match c with
      | .residuals i => ∀ M', M = some M' → 0 ≤ i ∧ i < dh.features.length ∧
          ∀ j : Fin M'.n, i = j.1 → E.distplot (List.ofFn fun s => (M'.V s j - M'.WH s j) / M'.U s j) = false
      | .statistics | .contributions _ => True
      | .estimated i | .timeseries i => 0 ≤ i ∧ i < dh.features.length
      | .profile i => ∀ M', M = some M' → 1 ≤ i ∧ i ≤ M'.k
      | .fingerprints | .gspace _ _ | .composition => M = none
      | .surface i fs => if i = -1 then fs ≠ [] else ∀ M', M = some M' → 1 ≤ i ∧ i ≤ M'.k]
    obtain ⟨dh, model, selected⟩ := a
    simp only at hs hdf ⊢
    subst hs
    cases c with
    | residuals i =>
      cases model with
      | none => simp [solutionMethod, residualHistogram]
      | some M =>
        simp only [solutionMethod, residualHistogram, Option.some.injEq, forall_eq']
        cases hc : chosenFeature dh.features (some i) none with
        | none =>
          rw [chosenFeature_idx_none] at hc
          simp only [Bool.true_eq_false, false_iff]
          omega
        | some x =>
          obtain ⟨f, i'⟩ := x
          obtain ⟨h0, hf, hi⟩ := (chosenFeature_idx _ _ _).1 hc
          simp only at hi hf; subst hi
          have hlt := (List.getElem?_eq_some_iff.1 hf).1
          have hlt' : i' < dh.features.length := by omega
          simp only [h0, hlt', true_and]
          cases hw : wrapAxis M.n i' with
          | none =>
            rw [wrapAxis_nonneg_none _ _ h0] at hw
            simp only [true_iff]
            intro j hj
            have := j.2
            omega
          | some j =>
            rw [wrapAxis_nonneg _ _ h0] at hw
            subst hw
            simp only [residualColumn, if_true]
            have : (∀ j' : Fin M.n, (j.1 : ℤ) = j'.1 → E.distplot (List.ofFn fun s => (M.V s j' - M.WH s j') / M.U s j') = false) ↔
                E.distplot (List.ofFn fun s => (M.V s j - M.WH s j) / M.U s j) = false := by
              constructor
              · intro h; exact h j rfl
              · intro h j' hj'
                have : j' = j := Fin.ext (by omega)
                rw [this]; exact h
            rw [this]
            cases E.distplot (List.ofFn fun s => (M.V s j - M.WH s j) / M.U s j) <;> simp
    | statistics =>
      cases model <;> simp [solutionMethod, anStatistics, hdf]
    | estimated i =>
      have : estimatedFits (⟨dh, model, some t⟩ : AnObj K L) = false := by
        unfold estimatedFits; simp only [hdf]
      simp only [solutionMethod, anEstimated, this]
      split <;> simp <;> omega
    | timeseries i =>
      simp only [solutionMethod, anTimeseries, hdf]
      split <;> simp <;> omega
    | profile i =>
      cases model with
      | none => simp [solutionMethod, anProfile]
      | some M =>
        simp only [solutionMethod, anProfile, hdf, Option.some.injEq, forall_eq']
        cases hx : shownFactor M.k i with
        | none => rw [shownFactor_none] at hx; simp only [Bool.true_eq_false, false_iff]; omega
        | some f => rw [shownFactor_eq] at hx; simp only [true_iff]; omega
    | fingerprints =>
      cases model <;> simp [solutionMethod, anFingerprints, titled, titleModel]
    | gspace x y =>
      cases model with
      | none => simp [solutionMethod, anGspace]
      | some M =>
        simp only [solutionMethod, anGspace, reduceCtorEq, iff_false]
        cases hx : shownFactor M.k x with
        | none => simp
        | some fx =>
          cases hy : shownFactor M.k y with
          | none => simp
          | some fy =>
            simp only [dif_pos (And.intro ((shownFactor_eq _ _ _).1 hx).1 ((shownFactor_eq _ _ _).1 hy).1), titled, titleModel]
            simp
    | contributions i => simp [solutionMethod, anContributions, hdf]
    | composition =>
      cases model <;> simp [solutionMethod, anComposition]
    | surface i fs =>
      simp only [solutionMethod]
      by_cases hi : i = -1
      · simp only [hi, ne_eq, not_true_eq_false, if_false, if_true]
        cases fs <;> simp [anSurface]
      · simp only [hi, ne_eq, not_false_eq_true, if_true, if_false]
        cases model with
        | none => simp [anSurface]
        | some M =>
          simp only [anSurface, hdf, Option.some.injEq, forall_eq']
          cases hx : shownFactor M.k i with
          | none =>
            rw [shownFactor_none] at hx
            simp only [Bool.true_eq_false, false_iff]
            intro hh
            omega
          | some f =>
            rw [shownFactor_eq] at hx
            have : 1 ≤ i ∧ i ≤ M.k := by omega
            by_cases hfl : fs.length > 0 <;> simp [hfl, this]

/-- The default options of the commands (`esat_cli.py:497-694`). -/
def defaultCmds : List SolutionCmd :=
  [.residuals 0, .statistics, .estimated 0, .timeseries 0, .profile 0, .fingerprints, .gspace 0 1, .contributions 0, .composition, .surface 0 []]

/-- **C112.** Which commands that means: with the data handler of a command, `statistics` and `plot-contributions` always raise, `plot-estimated` and
`plot-timeseries` for every existing feature, `plot-profile` and `plot-surface` for every existing factor. With a handler that has processed
its data the same methods work (`C187_processed`). -/
theorem C112_commands (E : FigEnv K L) (P : Project K L) (hP : Fresh P) (sel : ℤ) :
    (solutionCmd E P sel .statistics).2 = false ∧ (∀ i, (solutionCmd E P sel (.contributions i)).2 = false) ∧
    ∀ dh M t, Chosen P sel dh (some M) t →
      (∀ i : ℕ, i < dh.features.length → (solutionCmd E P sel (.estimated i)).2 = false ∧ (solutionCmd E P sel (.timeseries i)).2 = false) ∧
      (∀ f : ℕ, f < M.k → (solutionCmd E P sel (.profile (f + 1))).2 = false ∧ ∀ fs, (solutionCmd E P sel (.surface (f + 1) fs)).2 = false) := by
  refine ⟨(C187_raises E P hP sel _).2 fun _ _ _ _ => trivial, fun i => (C187_raises E P hP sel _).2 fun _ _ _ _ => trivial, fun dh M t h => ?_⟩
  have huniq : ∀ dh' M' t', Chosen P sel dh' M' t' → dh' = dh ∧ M' = some M := by
    intro dh' M' t' h'
    have e1 := (modelAnalysis_iff P sel ⟨dh, some M, some t⟩).2 ⟨t, h, rfl⟩
    have e2 := (modelAnalysis_iff P sel ⟨dh', M', some t'⟩).2 ⟨t', h', rfl⟩
    rw [e1] at e2
    injection e2 with e2
    injection e2 with a b c
    exact ⟨a.symm, b.symm⟩
  refine ⟨fun i hi => ⟨(C187_raises E P hP sel _).2 ?_, (C187_raises E P hP sel _).2 ?_⟩,
    fun f hf => ⟨(C187_raises E P hP sel _).2 ?_, fun fs => (C187_raises E P hP sel _).2 ?_⟩⟩
  · intro dh' M' t' h'
    obtain ⟨rfl, -⟩ := huniq _ _ _ h'
    dsimp only
    omega
  · intro dh' M' t' h'
    obtain ⟨rfl, -⟩ := huniq _ _ _ h'
    dsimp only
    omega
  · intro dh' M' t' h'
    obtain ⟨-, rfl⟩ := huniq _ _ _ h'
    rintro M' ⟨⟩
    omega
  · intro dh' M' t' h'
    obtain ⟨-, rfl⟩ := huniq _ _ _ h'
    dsimp only
    rw [if_neg (by omega)]
    rintro M' ⟨⟩
    omega

/-- **C187.** With the default options, in a project with a best model and at least one feature: three commands show a figure, four end with an
exception, and three print a message only. -/
theorem C187_default (E : FigEnv K L) (P : Project K L) (hP : Fresh P) (dh : AnHandler L) (M : SaView K) (t : ℤ) (h : Chosen P (-1) dh (some M) t)
    (hf : dh.features ≠ []) (hn : 0 < M.n) (hd : ∀ l, E.distplot l = true) :
    (defaultCmds.map fun c => ((solutionCmd E P (-1) c).1.length, (solutionCmd E P (-1) c).2)) =
      [(1, true), (0, false), (0, false), (0, false), (0, true), (1, true), (0, true), (0, false), (1, true), (0, true)] := by
  have ha := (modelAnalysis_iff P (-1) ⟨dh, some M, some t⟩).2 ⟨t, h, rfl⟩
  have hdf : dh.df = none := hP _ h.1
  obtain ⟨f, fs, hfs⟩ := List.exists_cons_of_ne_nil hf
  have e1 : chosenFeature dh.features (some 0) none = some (f, 0) := (chosenFeature_idx _ _ _).2 ⟨le_rfl, by simp [hfs], rfl⟩
  have e2 : wrapAxis M.n 0 = some ⟨0, hn⟩ := (wrapAxis_nonneg _ _ le_rfl _).2 rfl
  have e3 : shownFactor M.k 0 = none := (shownFactor_none _ _).2 (.inl (by omega))
  have e4 : ¬ ((0 : ℤ) < 0 ∨ (dh.features.length : ℤ) ≤ 0) := by rw [hfs, List.length_cons]; omega
  simp [defaultCmds, solutionCmd, ha, solutionMethod, residualHistogram, e1, e2, hd, anStatistics,
    anEstimated, anTimeseries, anProfile, anFingerprints, anGspace, anContributions, anComposition, anSurface, e3, hdf, titled, titleModel,
    estimatedFits, hf]

/-- **C187.** With one call of `get_data` on the handler (`df` is present and its shape is that of the model) every command shows what it
promises for every index in range, except `plot-surface` with `-f`, which raises then as well. -/
theorem C187_processed (E : FigEnv K L) (a : AnObj K L) (M : SaView K) (t : ℤ) (labels : List L) (ha : a.model = some M) (hs : a.selected = some t)
    (hdf : a.dh.df = some (labels, M.n)) (hl : labels.length = M.m) (hq : a.dh.plotRows = some M.m) (hf : a.dh.features.length = M.n)
    (hd : ∀ l, E.distplot l = true) (hdt : E.dates labels = true) (hst : E.stats M = true) (j : Fin M.n) (x y : Fin M.k) (fs : List ℤ) (hfs : fs ≠ []) :
    (solutionMethod E a (.residuals j.1)).1.length = 1 ∧ solutionMethod E a .statistics = ([.table], true) ∧
    solutionMethod E a (.estimated j.1) = ([.estimated j.1], true) ∧ solutionMethod E a (.timeseries j.1) = ([.timeseries j.1 (t + 1)], true) ∧
    solutionMethod E a (.profile (x.1 + 1)) = ([.profile x.1 (t + 1), .contribution x.1 (t + 1)], true) ∧
    (solutionMethod E a .fingerprints).1.length = 1 ∧ (solutionMethod E a (.gspace (x.1 + 1) (y.1 + 1))).1.length = 1 ∧
    solutionMethod E a (.contributions j.1) = ([.pie j.1 (t + 1), .contributions (t + 1)], true) ∧
    (solutionMethod E a .composition).1.length = 1 ∧ solutionMethod E a (.surface (x.1 + 1) []) = ([.surface x.1], true) ∧
    solutionMethod E a (.surface (x.1 + 1) fs) = ([], false) := by
  have hx : shownFactor M.k (x.1 + 1) = some x.1 := (shownFactor_eq _ _ _).2 ⟨x.2, rfl⟩
  have hy : shownFactor M.k (y.1 + 1) = some y.1 := (shownFactor_eq _ _ _).2 ⟨y.2, rfl⟩
  have hj : wrapAxis M.n (j.1 : ℤ) = some j := (wrapAxis_nonneg _ _ (by omega) _).2 rfl
  have hj' : j.1 < a.dh.features.length := by rw [hf]; exact j.2
  have hc : chosenFeature a.dh.features (some (j.1 : ℤ)) none = some (a.dh.features[j.1], (j.1 : ℤ)) :=
    (chosenFeature_idx _ _ _).2 ⟨by omega, by simp, rfl⟩
  have hr : ¬ ((j.1 : ℤ) < 0 ∨ (a.dh.features.length : ℤ) ≤ (j.1 : ℤ)) := by omega
  have hr' : ¬ ((M.n : ℤ) - 1 < (j.1 : ℤ) ∨ (j.1 : ℤ) < 0) := by have := j.2; omega
  have hi : ((x.1 : ℤ) + 1 = -1) = False := eq_false (by omega)
  have hfit : estimatedFits a = true := by unfold estimatedFits; simp [ha, hdf, hq, hf, hl]
  have hlen : 0 < fs.length := List.length_pos_iff.2 hfs
  refine ⟨?_, ?_, ?_, ?_, ?_, ?_, ?_, ?_, ?_, ?_, ?_⟩
  · simp [solutionMethod, residualHistogram, ha, hc, hj, hd]
  · simp [solutionMethod, anStatistics, ha, hdf, hst]
  · simp only [solutionMethod, anEstimated, if_neg hr, hfit, if_true]
  · simp only [solutionMethod, anTimeseries, if_neg hr, hfit, hdf, hdt, and_self, if_true, titled, titleModel, hs]
  · simp only [solutionMethod, anProfile, ha, hx, hdf, hl, hdt, and_self, if_true, titled, titleModel, hs]
  · simp [solutionMethod, anFingerprints, ha, titled, titleModel, hs]
  · simp [solutionMethod, anGspace, ha, hx, hy, x.2, y.2, titled, titleModel, hs]
  · simp only [solutionMethod, anContributions, hdf, if_neg hr', ha, hj, titleModel, hs, hl, hdt, and_self, if_true]
  · simp [solutionMethod, anComposition, ha]
  · simp [solutionMethod, anSurface, hi, ha, hx, hdf]
  · simp [solutionMethod, anSurface, hi, ha, hx, hdf, hlen]

/-- **C187.** Row labels that are no dates: the pie chart of the contributions is still shown, then the command raises. -/
theorem C187_no_dates (E : FigEnv K L) (a : AnObj K L) (M : SaView K) (t : ℤ) (labels : List L) (ha : a.model = some M) (hs : a.selected = some t)
    (hdf : a.dh.df = some (labels, M.n)) (hdt : E.dates labels = false) (j : Fin M.n) :
    solutionMethod E a (.contributions j.1) = ([.pie j.1 (t + 1)], false) := by
  have hj : wrapAxis M.n (j.1 : ℤ) = some j := (wrapAxis_nonneg _ _ (by omega) _).2 rfl
  have hr' : ¬ ((M.n : ℤ) - 1 < (j.1 : ℤ) ∨ (j.1 : ℤ) < 0) := by have := j.2; omega
  simp [solutionMethod, anContributions, hdf, if_neg hr', ha, hj, titleModel, hs, hdt]

/-- The model, the list of features and both tables of the data handler agree, row by row and column by column. -/
def SameShapes (a : AnObj K L) (M : SaView K) (labels : List L) : Prop :=
  a.model = some M ∧ a.dh.df = some (labels, M.n) ∧ labels.length = M.m ∧ a.dh.features.length = M.n ∧ a.dh.plotRows = some M.m

theorem estimatedFits_iff (a : AnObj K L) : estimatedFits a = true ↔ ∃ M labels, SameShapes a M labels := by
  unfold estimatedFits SameShapes
  obtain ⟨⟨features, df, q⟩, model, sel⟩ := a
  cases model with
  | none => simp
  | some M =>
    cases df with
    | none => simp
    | some p =>
      cases q with
      | none => simp
      | some q =>
        obtain ⟨labels, c⟩ := p
        simp only [decide_eq_true_eq, Option.some.injEq, Prod.mk.injEq]
        constructor
        · rintro ⟨h1, h2, h3, h4⟩
          exact ⟨M, labels, rfl, ⟨rfl, h3⟩, h2, h1.symm, h4⟩
        · rintro ⟨M', l', rfl, ⟨rfl, h1⟩, h2, h3, h4⟩
          exact ⟨h3.symm, h2, h1, h4⟩

/-- **C187.** In every state of the data and the model: the figures of observed and estimated values are shown exactly if the feature is in range and the
tables fit the model, the time series exactly if, in addition, the dates can be read and a model number is set. -/
theorem C187_fits (E : FigEnv K L) (a : AnObj K L) (i : ℤ) (figs : List (Fig K)) (hne : figs ≠ []) :
    ((solutionMethod E a (.estimated i)).1 = figs ↔
      0 ≤ i ∧ i < a.dh.features.length ∧ (∃ M labels, SameShapes a M labels) ∧ figs = [.estimated i]) ∧
    ((solutionMethod E a (.timeseries i)).1 = figs ↔
      0 ≤ i ∧ i < a.dh.features.length ∧ ∃ M labels t, SameShapes a M labels ∧ E.dates labels = true ∧ a.selected = some t ∧
        figs = [.timeseries i (t + 1)]) ∧
    ((solutionMethod E a (.estimated i)).2 = false ↔ 0 ≤ i ∧ i < a.dh.features.length ∧ ¬∃ M labels, SameShapes a M labels) ∧
    ((solutionMethod E a (.timeseries i)).2 = false ↔ 0 ≤ i ∧ i < a.dh.features.length ∧
      ¬∃ M labels t, SameShapes a M labels ∧ E.dates labels = true ∧ a.selected = some t) := by
  simp only [solutionMethod, anEstimated, anTimeseries]
  by_cases hr : i < 0 ∨ (a.dh.features.length : ℤ) ≤ i
  · have hr' : ¬(0 ≤ i ∧ i < a.dh.features.length) := by omega
    simp only [if_pos hr, ← and_assoc, hr', false_and, iff_false, Bool.true_eq_false, not_false_eq_true, and_true]
    exact ⟨fun h => hne h.symm, fun h => hne h.symm⟩
  · have h0 : 0 ≤ i := by omega
    have h1 : i < a.dh.features.length := by omega
    simp only [if_neg hr, h0, h1, true_and]
    by_cases hf : estimatedFits a = true
    · obtain ⟨M, labels, hM⟩ := (estimatedFits_iff a).1 hf
      have huniq : ∀ M' l', SameShapes a M' l' → M' = M ∧ l' = labels := by
        intro M' l' h'
        have e1 := hM.1.symm.trans h'.1
        have e2 := hM.2.1.symm.trans h'.2.1
        simp only [Option.some.injEq, Prod.mk.injEq] at e1 e2
        exact ⟨e1.symm, e2.1.symm⟩
      have hdf := hM.2.1
      simp only [hf, if_true, hdf, true_and]
      have hex : ∃ M labels, SameShapes a M labels := ⟨M, labels, hM⟩
      simp only [hex, true_and, not_true_eq_false, Bool.true_eq_false]
      refine ⟨eq_comm, ?_, ?_⟩
      · by_cases hd : E.dates labels = true
        · rw [if_pos hd]
          unfold titled titleModel
          cases hs : a.selected with
          | none => simpa using Ne.symm hne
          | some t =>
            constructor
            · intro h
              exact ⟨M, labels, t, hM, hd, rfl, h.symm⟩
            · rintro ⟨M', l', t', -, -, h', rfl⟩
              cases h'
              rfl
        · rw [if_neg hd]
          constructor
          · intro h
            exact absurd h.symm hne
          · rintro ⟨M', l', t', h', hd', -, -⟩
            rw [(huniq M' l' h').2] at hd'
            exact absurd hd' hd
      · by_cases hd : E.dates labels = true
        · rw [if_pos hd]
          unfold titled titleModel
          cases hs : a.selected with
          | none => simp
          | some t =>
            simp only [Bool.true_eq_false, false_iff, not_not]
            exact ⟨M, labels, t, hM, hd, rfl⟩
        · rw [if_neg hd]
          simp only [true_iff]
          rintro ⟨M', l', t', h', hd', -⟩
          rw [(huniq M' l' h').2] at hd'
          exact hd hd'
    · have hno : ¬∃ M labels, SameShapes a M labels := fun h => hf ((estimatedFits_iff a).2 h)
      have hno' : ∀ M labels, ¬SameShapes a M labels := fun M l h => hno ⟨M, l, h⟩
      simp only [hf, Bool.false_eq_true, if_false, false_and]
      cases a.dh.df with
      | none => simpa [hno'] using Ne.symm hne
      | some p => simpa [hno'] using Ne.symm hne

/-- A batch of three with a failed model. -/
def exModel : SaView ℚ := ⟨2, 1, 2, ![![3], ![4]], ![![1], ![2]], ![![2], ![2]], ![![1, 1], ![0, 1]], ![![1], ![1]]⟩

/-- A project with it. -/
def exProject : Project ℚ ℕ := ⟨some ⟨["Al"], none, some 2⟩, some ⟨some 2, [some exModel, none, some exModel]⟩⟩

/-- Everything works. -/
def exFigEnv : FigEnv ℚ ℕ := ⟨fun _ => true, fun _ => true, fun _ => true⟩

example : Fresh exProject ∧ Chosen exProject (-1) ⟨["Al"], none, some 2⟩ (some exModel) 2 ∧
    Chosen exProject (-3) ⟨["Al"], none, some 2⟩ (some exModel) (-3) ∧ Chosen exProject 1 ⟨["Al"], none, some 2⟩ none 1 :=
  ⟨fun _ h => by cases h; rfl, ⟨rfl, _, rfl, .inl ⟨rfl, rfl⟩, 2, rfl, .inl ⟨by decide, rfl⟩⟩,
    ⟨rfl, _, rfl, .inr ⟨by decide, rfl⟩, 0, rfl, .inr ⟨by decide, rfl⟩⟩, ⟨rfl, _, rfl, .inr ⟨by decide, rfl⟩, 1, rfl, .inl ⟨by decide, rfl⟩⟩⟩

example : solutionCmd exFigEnv exProject (-1) (.residuals 0) = ([.residuals "Al" [1, 1]], true) ∧
    solutionCmd exFigEnv exProject (-1) (.residuals 1) = ([], true) ∧
    solutionCmd exFigEnv exProject (-3) (.gspace 1 2) = ([.gspace (-2) [some 1, some 0] [some (1 / 2), some (1 / 2)]], true) ∧
    solutionCmd exFigEnv exProject 1 .composition = ([], false) ∧
    solutionCmd exFigEnv exProject 2 (.profile 1) = ([], false) := by decide +kernel

end cmd

/-! ## C188: the residual histogram -/

section hist
variable {K L : Type*} [Field K] [LinearOrder K] [IsStrictOrderedRing K]

/-- The feature `plot_residual_histogram` is asked for: the one with the index, or without index the first one with the name. -/
def AskedFeature (features : List String) (idx : Option ℤ) (name : Option String) (f : String) (j : ℕ) : Prop :=
  features[j]? = some f ∧ (idx = some (j : ℤ) ∨ (idx = none ∧ name = some f ∧ ∀ i < j, features[i]? ≠ some f))

theorem chosenFeature_iff (features : List String) (idx : Option ℤ) (name : Option String) (f : String) (i : ℤ) :
    chosenFeature features idx name = some (f, i) ↔ ∃ j : ℕ, i = j ∧ AskedFeature features idx name f j := by
  unfold AskedFeature
  cases idx with
  | some x =>
    have : chosenFeature features (some x) name = chosenFeature features (some x) none := rfl
    rw [this, chosenFeature_idx]
    simp only [Option.some.injEq, reduceCtorEq, false_and, or_false]
    constructor
    · rintro ⟨h0, h1, h2⟩
      exact ⟨x.toNat, by omega, h1, by omega⟩
    · rintro ⟨j, h1, h2, h3⟩
      subst h1 h3
      exact ⟨by omega, by simpa using h2, rfl⟩
  | none =>
    cases name with
    | none => simp [chosenFeature]
    | some g =>
      simp only [chosenFeature, reduceCtorEq, false_or, true_and, Option.some.injEq]
      by_cases hg : g ∈ features
      · rw [if_pos hg]
        simp only [Option.some.injEq, Prod.mk.injEq]
        have hlt := List.idxOf_lt_length_iff.2 hg
        constructor
        · rintro ⟨rfl, rfl⟩
          refine ⟨_, rfl, ?_, rfl, ?_⟩
          · rw [List.getElem?_eq_getElem hlt, List.getElem_idxOf]
          · intro i hi h
            have h' := List.getElem?_eq_some_iff.1 h
            have := List.not_of_lt_findIdx (xs := features) (p := (· == g)) (i := i) (by simpa [List.idxOf] using hi)
            simp [h'.2] at this
        · rintro ⟨j, rfl, h1, rfl, h2⟩
          refine ⟨rfl, ?_⟩
          have h' := List.getElem?_eq_some_iff.1 h1
          have hle : features.idxOf g ≤ j := by
            by_contra hcon
            have := List.not_of_lt_findIdx (xs := features) (p := (· == g)) (i := j) (by simpa [List.idxOf] using hcon)
            simp [h'.2] at this
          rcases Nat.lt_or_ge (features.idxOf g) j with h | h
          · exact absurd (by rw [List.getElem?_eq_getElem hlt, List.getElem_idxOf]) (h2 _ h)
          · exact_mod_cast (le_antisymm hle h)
      · rw [if_neg hg]
        simp only [reduceCtorEq, false_iff, not_exists, not_and]
        rintro j rfl h1 rfl
        exact absurd (List.mem_of_getElem? h1) hg

theorem zip_ofFn_eq {m : ℕ} (labels : List L) (hl : labels.length = m) (r : Fin m → K) :
    labels.zip (List.ofFn r) = (List.finRange m).map fun i => (labels[i.1]'(by rw [hl]; exact i.2), r i) := by
  apply List.ext_getElem
  · simp [hl]
  · intro i h1 h2
    simp

theorem residualTable_eq {m : ℕ} (labels : List L) (hl : labels.length = m) (r : Fin m → K) (thr : K) :
    residualTable labels (List.ofFn r) thr =
      ((List.finRange m).filter fun i => thr < |r i|).map fun i => (labels[i.1]'(by rw [hl]; exact i.2), r i) := by
  unfold residualTable
  by_cases h : thr = -1
  · rw [if_neg (not_not.2 h), zip_ofFn_eq labels hl]
    congr 1
    symm
    rw [List.filter_eq_self]
    intro i _
    simp only [decide_eq_true_eq, h]
    linarith [abs_nonneg (r i)]
  · rw [if_pos h, zip_ofFn_eq labels hl, List.filter_map]
    rfl

/-- **C188.** With `show=False` the histogram is returned exactly if there is a trained model, the feature exists in the handler and in the model, the
figure can be drawn, and the data were processed to as many rows as the model has. The table then contains, in the order of the samples, exactly the
scaled residuals whose absolute value exceeds the threshold; the special value -1 of the threshold is not needed, every negative one lists all. -/
theorem C188_table (E : FigEnv K L) (a : AnObj K L) (idx : Option ℤ) (name : Option String) (thr : K) (f : String) (r : List K) (tab : List (L × K)) :
    residualHistogram E a idx name thr false = .returned f r tab ↔
      ∃ (M : SaView K) (j : Fin M.n) (labels : List L) (c : ℕ) (hl : labels.length = M.m), a.model = some M ∧
        AskedFeature a.dh.features idx name f j ∧ a.dh.df = some (labels, c) ∧ E.distplot r = true ∧
        r = List.ofFn (fun i => (M.V i j - M.WH i j) / M.U i j) ∧
        tab = ((List.finRange M.m).filter fun i => thr < |(M.V i j - M.WH i j) / M.U i j|).map
          fun i => (labels[i.1]'(by rw [hl]; exact i.2), (M.V i j - M.WH i j) / M.U i j) := by
  unfold residualHistogram
  obtain ⟨dh, model, sel⟩ := a
  simp only [Bool.false_eq_true, if_false]
  cases model with
  | none => simp
  | some M =>
    simp only [Option.some.injEq]
    cases hc : chosenFeature dh.features idx name with
    | none =>
      simp only [reduceCtorEq, false_iff]
      rintro ⟨M', j, labels, c, hl, rfl, hA, -⟩
      have := (chosenFeature_iff dh.features idx name f j.1).2 ⟨j.1, rfl, hA⟩
      rw [hc] at this; cases this
    | some x =>
      obtain ⟨g, i⟩ := x
      obtain ⟨j₀, rfl, hA⟩ := (chosenFeature_iff _ _ _ _ _).1 hc
      have huniq : ∀ f' j', AskedFeature dh.features idx name f' j' → f' = g ∧ j' = j₀ := by
        intro f' j' h
        have := (chosenFeature_iff dh.features idx name f' j').2 ⟨j', rfl, h⟩
        rw [hc] at this
        simp only [Option.some.injEq, Prod.mk.injEq] at this
        exact ⟨this.1.symm, by omega⟩
      simp only
      cases hw : wrapAxis M.n (j₀ : ℤ) with
      | none =>
        rw [wrapAxis_nonneg_none _ _ (by omega)] at hw
        simp only [reduceCtorEq, false_iff]
        rintro ⟨M', j, labels, c, hl, rfl, hA', -⟩
        have := (huniq _ _ hA').2
        have := j.2
        omega
      | some j =>
        rw [wrapAxis_nonneg _ _ (by omega)] at hw
        have hj : j₀ = j.1 := by omega
        subst hj
        simp only
        cases hd : E.distplot (residualColumn M.V M.U M.WH j) with
        | false =>
          simp only [Bool.false_eq_true, if_false, reduceCtorEq, false_iff]
          rintro ⟨M', j', labels, c, hl, rfl, hA', -, hd', rfl, -⟩
          have : j' = j := Fin.ext (huniq _ _ hA').2
          subst this
          unfold residualColumn at hd
          rw [hd] at hd'; cases hd'
        | true =>
          simp only [if_true]
          cases hdf : dh.df with
          | none => simp
          | some p =>
            obtain ⟨labels, c⟩ := p
            simp only
            by_cases hl : labels.length = M.m
            · rw [if_pos hl]
              simp only [HistResult.returned.injEq, residualColumn]
              constructor
              · rintro ⟨rfl, rfl, rfl⟩
                exact ⟨M, j, labels, c, hl, rfl, hA, rfl, hd, rfl, residualTable_eq labels hl _ thr⟩
              · rintro ⟨M', j', labels', c', hl', rfl, hA', h, -, rfl, rfl⟩
                have : j' = j := Fin.ext (huniq _ _ hA').2
                subst this
                cases h
                exact ⟨(huniq _ _ hA').1.symm, rfl, residualTable_eq labels hl _ thr⟩
            · rw [if_neg hl]
              simp only [reduceCtorEq, false_iff]
              rintro ⟨M', j', labels', c', hl', rfl, hA', h, -⟩
              cases h
              exact hl hl'

/-- **C188.** The listed residuals of all features bound how many there can be: their number times the square of the threshold is at most Q(true). -/
theorem C188_count {m n k : ℕ} (V U : Mat m n K) (W : Mat m k K) (H : Mat k n K) (labels : List L) (hl : labels.length = m) (thr : K) (ht : 0 ≤ thr) :
    ((∑ j, (residualTable labels (residualColumn V U (W ⬝ H) j) thr).length : ℕ) : K) * thr ^ 2 ≤ qLoss V U W H := by
  rw [C09_formula, sum_comm]
  push_cast
  rw [sum_mul]
  refine sum_le_sum fun j _ => ?_
  unfold residualColumn
  rw [residualTable_eq labels hl, List.length_map]
  have hlen : ((List.finRange m).filter fun i => decide (thr < |(V i j - (W ⬝ H) i j) / U i j|)).length =
      (univ.filter fun i => thr < |(V i j - (W ⬝ H) i j) / U i j|).card := by
    rw [← List.toFinset_card_of_nodup ((List.nodup_finRange m).filter _)]
    congr 1
    ext i
    simp
  rw [hlen, ← nsmul_eq_mul]
  calc _ ≤ ∑ i ∈ univ.filter (fun i => thr < |(V i j - (W ⬝ H) i j) / U i j|), ((V i j - (W ⬝ H) i j) / U i j) ^ 2 := by
        refine card_nsmul_le_sum _ _ _ fun i hi => ?_
        rw [← sq_abs ((V i j - (W ⬝ H) i j) / U i j)]
        exact pow_le_pow_left₀ ht (mem_filter.1 hi).2.le 2
    _ ≤ ∑ i, ((V i j - (W ⬝ H) i j) / U i j) ^ 2 := sum_le_sum_of_subset_of_nonneg (filter_subset _ _) fun _ _ _ => sq_nonneg _
    _ = _ := rfl

/-- The example data, processed: of the residuals 1 and 1 none exceeds 1, both exceed 1/2 and -2. -/
example : let a : AnObj ℚ ℕ := ⟨⟨["Al"], some ([10, 20], 1), some 2⟩, some exModel, none⟩
    residualHistogram exFigEnv a none (some "Al") 1 false = .returned "Al" [1, 1] [] ∧
    residualHistogram exFigEnv a (some 0) none (1 / 2) false = .returned "Al" [1, 1] [(10, 1), (20, 1)] ∧
    residualHistogram exFigEnv a (some 0) none (-2) false = .returned "Al" [1, 1] [(10, 1), (20, 1)] := by decide +kernel

end hist

/-- **C188.** With the threshold of the robust loss the tables of all features list exactly the residuals by which the two losses differ:
Q(true) - Q(robust) is the sum of r² - α|r| over them. -/
theorem C188_robust {L : Type*} {m n k : ℕ} (V U : Mat m n ℝ) (W : Mat m k ℝ) (H : Mat k n ℝ) (hU : ∀ i j, 0 < U i j) (α : ℝ) (hα : 0 < α)
    (labels : List L) (hl : labels.length = m) :
    qLoss V U W H - (qrLoss V U W H α).1 =
      ∑ j, ((residualTable labels (residualColumn V U (W ⬝ H) j) α).map fun p => p.2 ^ 2 - α * |p.2|).sum := by
  rw [C10_is_huber V U W H α hα hU, C09_formula, ← sum_sub_distrib, sum_congr rfl fun i _ => (sum_sub_distrib _ _).symm, sum_comm]
  refine sum_congr rfl fun j _ => ?_
  unfold residualColumn
  rw [residualTable_eq labels hl, List.map_map]
  have : ∀ (l : List (Fin m)) (p : Fin m → Bool) (g : Fin m → ℝ), ((l.filter p).map g).sum = (l.map fun i => if p i then g i else 0).sum := by
    intro l p g
    induction l with
    | nil => rfl
    | cons x l ih => by_cases h : p x <;> simp [List.filter_cons, h, ih]
  rw [this, ← List.ofFn_eq_map, List.sum_ofFn]
  refine sum_congr rfl fun i _ => ?_
  simp only [sub_mmul_eq_residual, decide_eq_true_eq, Function.comp_apply, huber]
  by_cases h : α < |residual V W H i j / U i j|
  · rw [if_pos h, if_neg (not_le.2 h)]
  · rw [if_neg h, if_pos (not_lt.1 h), sq_abs, sub_self]

end Esat
