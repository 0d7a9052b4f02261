import Mathlib.Tactic.Linarith
import Mathlib.Tactic.NormNum
import Mathlib.Algebra.Order.Field.Basic
import Mathlib.Algebra.Order.BigOperators.Group.List
import Mathlib.Algebra.Order.Field.Rat
import Mathlib.Data.Fin.VecNotation
import Verif.Model.Impute

/-!
# C147, C148: imputing missing values
-/

namespace Esat
variable {K : Type*} {m n : ℕ}

/-- **C147.** A `DataImputer` can never be created: with scikit-learn installed the name `sklearn` is unbound, without it the
constructor reports the missing package.  **Disagreement** with the documentation: the class is unusable. -/
theorem C147_never (importOk : Bool) :
    imputerInit importOk = .error (if importOk then .nameError else .importError) ∧
    ∀ u, imputerInit importOk ≠ .ok u := by
  cases importOk <;> exact ⟨by decide, fun u h => by cases h⟩

/-- Column `j` has no present cell. -/
def EmptyCol (X : Mat m n (Option K)) (j : Fin n) : Prop := ∀ i, X i j = none

theorem mem_keptCols (X : Mat m n (Option K)) (j : Fin n) : j ∈ keptCols X ↔ ¬ EmptyCol X j := by
  unfold keptCols EmptyCol
  simp only [List.mem_filter, List.mem_finRange, true_and, List.any_eq_true, not_forall]
  constructor
  · rintro ⟨i, h⟩
    exact ⟨i, by rw [Option.isSome_iff_ne_none] at h; exact h⟩
  · rintro ⟨i, h⟩
    exact ⟨i, by rw [Option.isSome_iff_ne_none]; exact h⟩

theorem keptCols_all {X : Mat m n (Option K)} (h : ∀ j, ¬ EmptyCol X j) : keptCols X = List.finRange n := by
  unfold keptCols
  rw [List.filter_eq_self]
  intro j _
  have := (mem_keptCols X j).mpr (h j)
  exact (List.mem_filter.mp this).2

theorem keptCols_length_iff (X : Mat m n (Option K)) : (keptCols X).length = n ↔ ∀ j, ¬ EmptyCol X j := by
  constructor
  · intro h j
    have hs : (keptCols X).Sublist (List.finRange n) := List.filter_sublist
    have he : keptCols X = List.finRange n := hs.eq_of_length (by rw [h, List.length_finRange])
    rw [← mem_keptCols, he]
    exact List.mem_finRange j
  · intro h
    rw [keptCols_all h, List.length_finRange]

/-- The table after the missing value was replaced: a cell is missing if it was, or if it is the number given as missing. -/
def CellMissing (missing : Option (Option K)) (X : Mat m n (Option K)) (i : Fin m) (j : Fin n) : Prop :=
  X i j = none ∨ ∃ x, missing = some (some x) ∧ X i j = some x

theorem markMissing_none [DecidableEq K] (missing : Option (Option K)) (X : Mat m n (Option K)) (i : Fin m) (j : Fin n) :
    markMissing missing X i j = none ↔ CellMissing missing X i j := by
  unfold markMissing CellMissing
  split
  · rename_i x
    split
    · rename_i h
      simp [h]
    · rename_i h
      constructor
      · exact .inl
      · rintro (h' | ⟨y, hy, h'⟩)
        · exact h'
        · cases hy
          exact absurd h' h
  · rename_i h
    constructor
    · exact .inl
    · rintro (h' | ⟨y, hy, h'⟩)
      · exact h'
      · exact absurd hy (h y)

/-- **C148.** With a missing value other than `None`, also with the default `np.nan`, every valid strategy ends in an
`AttributeError` for all data: `np.where` turns the uncertainty table into an array without columns.  The mask is set (to
the cells missing in one of the tables), the imputed tables are not. -/
theorem C148_default [DecidableEq K] (fill : Mat m n (Option K) → Fin m → Fin n → K) {strategy : String}
    (hs : strategy ∈ ["mean", "median", "most_frequent", "knn", "iterative"]) (mv : Option K)
    (V U : Mat m n (Option K)) (s : ImputeState m n K) :
    (impute fill strategy (some mv) (some (V, U)) s).1 = .error .attributeError ∧
    (impute fill strategy (some mv) (some (V, U)) s).2.data = s.data ∧
    (impute fill strategy (some mv) (some (V, U)) s).2.unc = s.unc ∧
    ∃ M, (impute fill strategy (some mv) (some (V, U)) s).2.mask = some M ∧
      ∀ i j, M i j = true ↔ CellMissing (some mv) V i j ∨ CellMissing (some mv) U i j := by
  unfold impute
  rw [if_neg (not_not.mpr hs)]
  refine ⟨rfl, rfl, rfl, _, rfl, fun i j => ?_⟩
  rw [Bool.or_eq_true, Option.isNone_iff_eq_none, Option.isNone_iff_eq_none, markMissing_none, markMissing_none]

/-- **C148.** An unknown strategy is rejected and nothing is changed; without a data handler nothing happens. -/
theorem C148_rejected [DecidableEq K] (fill : Mat m n (Option K) → Fin m → Fin n → K) (strategy : String)
    (missing : Option (Option K)) (s : ImputeState m n K) :
    (strategy ∉ ["mean", "median", "most_frequent", "knn", "iterative"] → ∀ h,
      impute fill strategy missing h s = (.error .valueError, s)) ∧
    (strategy ∈ ["mean", "median", "most_frequent", "knn", "iterative"] →
      impute fill strategy missing none s = (.ok none, s)) := by
  constructor
  · intro h hd
    unfold impute
    rw [if_pos h]
  · intro h
    unfold impute
    rw [if_neg (not_not.mpr h)]

/-- The list of columns is the table `X` with its missing cells filled. -/
def FilledBy (fill : Mat m n (Option K) → Fin m → Fin n → K) (X : Mat m n (Option K)) (cols : List (Fin m → K)) : Prop :=
  cols.length = n ∧ ∀ (j : Fin n) (i : Fin m), ∃ c, cols[(j : ℕ)]? = some c ∧
    (∀ x, X i j = some x → c i = x) ∧ (X i j = none → c i = fill X i j)

theorem fitTransform_filled (fill : Mat m n (Option K) → Fin m → Fin n → K) {X : Mat m n (Option K)}
    (h : ∀ j, ¬ EmptyCol X j) : FilledBy fill X (fitTransform fill X) := by
  unfold FilledBy fitTransform
  rw [keptCols_all h]
  refine ⟨by simp, fun j i => ⟨fun i => (X i j).getD (fill X i j), by simp, ?_, ?_⟩⟩
  · intro x hx; simp [hx]
  · intro hx; simp [hx]

/-- **C148.** With `missing_value=None`: if every column of both tables has a present cell, both filled tables are returned
and stored, present cells are unchanged and missing cells get the value of the imputer; otherwise a `ValueError` is raised,
because the imputer drops the empty columns. -/
theorem C148_filled [DecidableEq K] (fill : Mat m n (Option K) → Fin m → Fin n → K) {strategy : String}
    (hs : strategy ∈ ["mean", "median", "most_frequent", "knn", "iterative"])
    (V U : Mat m n (Option K)) (s : ImputeState m n K) :
    ((∀ j, ¬ EmptyCol V j) ∧ (∀ j, ¬ EmptyCol U j) → ∃ d u,
      (impute fill strategy none (some (V, U)) s).1 = .ok (some (d, u)) ∧
      (impute fill strategy none (some (V, U)) s).2.data = some d ∧
      (impute fill strategy none (some (V, U)) s).2.unc = some u ∧ FilledBy fill V d ∧ FilledBy fill U u) ∧
    ((∃ j, EmptyCol V j) ∨ (∃ j, EmptyCol U j) →
      (impute fill strategy none (some (V, U)) s).1 = .error .valueError ∧
      (impute fill strategy none (some (V, U)) s).2.unc = s.unc) := by
  have hlen : ∀ X : Mat m n (Option K), (fitTransform fill X).length = n ↔ ∀ j, ¬ EmptyCol X j := fun X => by
    unfold fitTransform
    rw [List.length_map, keptCols_length_iff]
  have hmk : ∀ X : Mat m n (Option K), mkFrame true n (fitTransform fill X) =
      if (fitTransform fill X).length ≠ n then .error .valueError else .ok (fitTransform fill X) := fun X => rfl
  unfold impute
  rw [if_neg (not_not.mpr hs)]
  simp only [Option.isNone_none, markMissing]
  rw [hmk V, hmk U]
  constructor
  · rintro ⟨h1, h2⟩
    rw [if_neg (by simpa using (hlen V).mpr h1), if_neg (by simpa using (hlen U).mpr h2)]
    exact ⟨_, _, rfl, rfl, rfl, fitTransform_filled fill h1, fitTransform_filled fill h2⟩
  · intro h
    by_cases h1 : ∀ j, ¬ EmptyCol V j
    · have h2 : ¬ ∀ j, ¬ EmptyCol U j := by
        rcases h with ⟨j, hj⟩ | ⟨j, hj⟩
        · exact absurd hj (h1 j)
        · exact fun h => h j hj
      rw [if_neg (by simpa using (hlen V).mpr h1), if_pos (fun e => h2 ((hlen U).mp e))]
      exact ⟨rfl, rfl⟩
    · rw [if_pos (fun e => h1 ((hlen V).mp e))]
      exact ⟨rfl, rfl⟩

/-- **C148.** The mean strategy fills a missing cell with a value between any lower and upper bound of the present cells of
its column. -/
theorem C148_mean [Field K] [LinearOrder K] [IsStrictOrderedRing K] (X : Mat m n (Option K)) (i : Fin m) (j : Fin n)
    (hj : ¬ EmptyCol X j) {lo hi : K} (h : ∀ r x, X r j = some x → lo ≤ x ∧ x ≤ hi) :
    lo ≤ meanFill X i j ∧ meanFill X i j ≤ hi := by
  have hmem : ∀ x ∈ presentCells X j, lo ≤ x ∧ x ≤ hi := by
    intro x hx
    unfold presentCells at hx
    rw [List.mem_filterMap] at hx
    obtain ⟨r, _, hr⟩ := hx
    exact h r x hr
  have hne : presentCells X j ≠ [] := by
    intro he
    apply hj
    intro r
    by_contra hc
    obtain ⟨x, hx⟩ := Option.ne_none_iff_exists'.mp hc
    have : x ∈ presentCells X j := List.mem_filterMap.mpr ⟨r, List.mem_finRange r, hx⟩
    rw [he] at this
    cases this
  have hpos : (0 : K) < ((presentCells X j).length : K) := by
    have := List.length_pos_iff.mpr hne
    exact_mod_cast this
  unfold meanFill
  constructor
  · rw [le_div_iff₀ hpos, mul_comm]
    have := List.card_nsmul_le_sum (presentCells X j) lo (fun x hx => (hmem x hx).1)
    rwa [nsmul_eq_mul] at this
  · rw [div_le_iff₀ hpos, mul_comm]
    have := List.sum_le_card_nsmul (presentCells X j) hi (fun x hx => (hmem x hx).2)
    rwa [nsmul_eq_mul] at this

/-- A table with a missing cell and no empty column. -/
example : (∀ j, ¬ EmptyCol (m := 2) (n := 2) ![![some (1 : ℚ), none], ![some 3, some 4]] j) ∧
    meanFill (m := 2) (n := 2) ![![some (1 : ℚ), none], ![some 3, some 4]] 0 1 = 4 := by
  constructor
  · unfold EmptyCol; decide
  · simp [meanFill, presentCells, List.finRange]

end Esat
