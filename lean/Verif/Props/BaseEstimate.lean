import Verif.Model.BaseEstimate
import Verif.Lemmas.MapM
import Verif.Lemmas.PyDict
import Verif.Lemmas.AxisIndex
import Verif.Props.Fingerprints
import Mathlib.Tactic.Linarith
import Mathlib.Data.Fin.VecNotation

/-!
# The base estimate of a comparison and the figure of a perturbed factor (C201)
-/

namespace Esat

section base
variable {K L : Type*} [Field K] [DecidableEq L] {m n : ℕ}

/-- **C201.** The contributions of the base factors exist exactly if every label of the profiles is a label of the contributions; further labels of the contributions and the order of both frames do not matter. Each label of the profiles has one
matrix, the products of its contribution and its profile; the estimate of the data is the sum of these matrices. -/
theorem C201_estimate (profiles : ColFrame n L K) (contributions : ColFrame m L K) (hp : (profiles.map (·.1)).Nodup) :
    ((baseWH profiles contributions).isSome ↔ ∀ l ∈ profiles.map (·.1), l ∈ contributions.map (·.1)) ∧
    ∀ wh v, baseWH profiles contributions = some (wh, v) →
      wh.map (·.1) = profiles.map (·.1) ∧
      (∀ l h w, dictGet profiles l = some h → dictGet contributions l = some w → dictGet wh l = some fun i j => w i * h j) ∧
      ∀ i j, v i j = (wh.map fun p => p.2 i j).sum := by
  unfold baseWH
  dsimp only
  constructor
  · rw [Option.isSome_map, mapM_isSome_iff]
    constructor
    · intro h l hl
      have := h l hl
      cases hc : dictGet contributions l with
      | none => rw [hc] at this; simp at this
      | some w => exact (dictGet_isSome _ _).1 (by rw [hc]; rfl)
    · intro h l hl
      obtain ⟨w, hw⟩ := Option.isSome_iff_exists.1 ((dictGet_isSome _ _).2 (h l hl))
      obtain ⟨x, hx⟩ := Option.isSome_iff_exists.1 ((dictGet_isSome _ _).2 hl)
      simp [hw, hx]
  · intro wh v h
    rw [Option.map_eq_some_iff] at h
    obtain ⟨cols, hc, h⟩ := h
    have hlen := mapM_option_length _ _ _ hc
    have hget := mapM_option_get _ _ _ hc
    have hlab : cols.map (·.1) = profiles.map (·.1) := by
      apply List.ext_getElem (by simp [hlen])
      intro i h1 h2
      have h3 := hget i h2
      rw [Option.bind_eq_some_iff] at h3
      obtain ⟨w, -, h3⟩ := h3
      rw [Option.map_eq_some_iff] at h3
      obtain ⟨x, -, h3⟩ := h3
      rw [List.getElem_map, ← h3]
    have hfold : ∀ (cols : List (L × (Fin m → K) × (Fin n → K))) (d : PyDict L (Mat m n K)), (d.map (·.1) ++ cols.map (·.1)).Nodup →
        cols.foldl (fun d c => dictSet d c.1 fun i j => c.2.1 i * c.2.2 j) d = d ++ cols.map fun c => (c.1, fun i j => c.2.1 i * c.2.2 j) := by
      intro cols
      induction cols with
      | nil => simp
      | cons c cs ih =>
        intro d hd
        have hnot : c.1 ∉ d.map (·.1) := by
          intro hmem
          rw [List.nodup_append] at hd
          exact hd.2.2 _ hmem _ (List.mem_cons_self) rfl
        have hset : dictSet d c.1 (fun i j => c.2.1 i * c.2.2 j) = d ++ [(c.1, fun i j => c.2.1 i * c.2.2 j)] := by
          unfold dictSet
          rw [if_neg]
          intro hany
          rw [List.any_eq_true] at hany
          obtain ⟨p, hp, he⟩ := hany
          exact hnot (List.mem_map.2 ⟨p, hp, by simpa using he⟩)
        rw [List.foldl_cons, hset, ih _ (by simpa using hd)]
        simp
    have hwh : wh = cols.map fun c => (c.1, fun i j => c.2.1 i * c.2.2 j) := by
      refine (Prod.ext_iff.1 h).1.symm.trans ?_
      show cols.foldl _ [] = _
      rw [hfold cols [] (by simpa [hlab] using hp)]
      rfl
    have hv : v = fun i j => (cols.map fun c => c.2.1 i * c.2.2 j).sum := (Prod.ext_iff.1 h).2.symm
    have hkeys : wh.map (·.1) = profiles.map (·.1) := by
      rw [hwh, ← hlab, List.map_map]
      rfl
    refine ⟨hkeys, fun l x w hx hw => ?_, fun i j => ?_⟩
    · have hl : l ∈ profiles.map (·.1) := (dictGet_isSome _ _).1 (by rw [hx]; rfl)
      obtain ⟨i, hi, he⟩ := List.getElem_of_mem hl
      have h3 := hget i hi
      rw [he, hw, hx] at h3
      simp only [Option.bind_some, Option.map_some, Option.some.injEq] at h3
      apply dictGet_of_mem _ (by rw [hkeys]; exact hp)
      rw [hwh, List.mem_map]
      exact ⟨cols[i], List.getElem_mem _, by rw [← h3]⟩
    · rw [hv, hwh, List.map_map]
      rfl

/-- Two factors, the contributions with the factors in the other order and one factor more. -/
example : (baseWH (L := ℕ) (m := 1) (n := 2) (K := ℚ) [(1, ![2, 3]), (2, ![5, 7])] [(2, ![10]), (3, ![1000]), (1, ![1])]).map (fun r => (r.2 0 0, r.2 0 1)) = some (52, 73) := by
  decide +kernel

end base

section figure
variable {K : Type*} [Field K] [DecidableEq K] {k n N : ℕ}

/-- **C201.** With base and perturbed models of the same sizes and as many factors as the constructor was told: nothing is shown without a comparison and for indices from the number of factors on; indices below minus the number of factors raise if there is a comparison;
every other index shows a figure, negative ones for the factor counted from the end. -/
theorem C201_outcome (compared : Option (Fin k → Fin n → Fin N → Option K)) (base : Mat k n K) (idx : ℤ) :
    (perturbedFactor compared base k idx = .ret none ↔ compared = none ∨ (k : ℤ) ≤ idx) ∧
    (perturbedFactor compared base k idx = .raised ↔ compared ≠ none ∧ idx < -(k : ℤ)) ∧
    ((∃ f, perturbedFactor compared base k idx = .ret (some f)) ↔ compared ≠ none ∧ -(k : ℤ) ≤ idx ∧ idx < k) := by
  cases compared with
  | none => simp [perturbedFactor]
  | some P =>
    unfold perturbedFactor
    dsimp only
    by_cases h1 : (k : ℤ) ≤ idx
    · rw [if_pos h1]
      have h3 : ¬ idx < -(k : ℤ) := by omega
      have h4 : ¬ idx < (k : ℤ) := by omega
      simp [h1, h3, h4]
    · rw [if_neg h1]
      by_cases h2 : -(k : ℤ) ≤ idx
      · obtain ⟨a, ha⟩ := Option.isSome_iff_exists.1 (axisIndex_isSome.2 ⟨h2, by omega⟩)
        have hm : ((List.range n).mapM fun j => (axisIndex k idx).bind fun a => if h : j < n then some (P a ⟨j, h⟩) else none).isSome := by
          rw [mapM_isSome_iff]
          intro j hj
          simp [ha, List.mem_range.1 hj]
        obtain ⟨b, hb⟩ := Option.isSome_iff_exists.1 hm
        rw [hb, ha]
        have h3 : ¬ idx < -(k : ℤ) := by omega
        have h4 : idx < (k : ℤ) := by omega
        simp [h1, h2, h3, h4]
      · have ha : axisIndex k idx = none := by
          rw [← Option.not_isSome_iff_eq_none, axisIndex_isSome]
          omega
        have h3 : idx < -(k : ℤ) := by omega
        rw [ha]
        cases (List.range n).mapM fun j => (none : Option (Fin k)).bind fun a => if h : j < n then some (P a ⟨j, h⟩) else none <;> simp [h1, h2, h3]

/-- **C201.** What is shown for a perturbation with these models and mappings: for each feature and model the share that the mapped factor of the model has in its column, as a marker the share of the factor of the base model; the markers of all factors of a feature sum to one.
The title has the index as it was given, counted from zero. -/
theorem C201_values (hs : Fin N → Mat k n K) (maps : Fin N → Fin k → Fin k) (base : Mat k n K) (idx : ℤ) (f : PerturbFig n N K)
    (h : perturbedFactor (some (alignedProfiles hs maps)) base k idx = .ret (some f)) :
    f.title = idx ∧ ∃ a : Fin k, ((a.1 : ℤ) = idx ∨ (a.1 : ℤ) = idx + k) ∧ f.boxes.length = n ∧
      (∀ j : Fin n, ∃ b, f.boxes[j.1]? = some b ∧ ∀ p, (b p = none ↔ ∑ c, hs p c j = 0) ∧ (∑ c, hs p c j ≠ 0 → b p = some (hs p (maps p a) j / ∑ c, hs p c j))) ∧
      (∀ j, (f.base j = none ↔ ∑ c, base c j = 0) ∧ (∑ c, base c j ≠ 0 → f.base j = some (base a j / ∑ c, base c j))) ∧
      ((∀ p, hs p = base) → (∀ p i, maps p i = i) → ∀ j : Fin n, f.boxes[j.1]? = some fun _ => f.base j) := by
  have hshare : ∀ (H : Mat k n K) a j, (columnShares H a j = none ↔ ∑ c, H c j = 0) ∧ (∑ c, H c j ≠ 0 → columnShares H a j = some (H a j / ∑ c, H c j)) := by
    intro H a j
    unfold columnShares
    split_ifs with h <;> simp [h]
  unfold perturbedFactor at h
  dsimp only at h
  split_ifs at h with h1
  · simp at h
  · generalize hb : (List.range n).mapM (fun j => (axisIndex k idx).bind fun a => if h : j < n then some (alignedProfiles hs maps a ⟨j, h⟩) else none) = bs at h
    cases bs with
    | none => cases h
    | some boxes =>
      cases ha : axisIndex k idx with
      | none => rw [ha] at h; cases h
      | some a =>
        rw [ha] at h
        simp only [Outcome.ret.injEq, Option.some.injEq] at h
        subst h
        have hl := mapM_option_length _ _ _ hb
        have hg := mapM_option_get _ _ _ hb
        have hbox : ∀ j : Fin n, boxes[j.1]? = some (alignedProfiles hs maps a j) := by
          intro j
          have hj : j.1 < boxes.length := by rw [hl]; simp
          have h3 := hg j.1 (by simp)
          rw [List.getElem?_eq_getElem hj, ← h3]
          simp [ha]
        refine ⟨rfl, a, ?_, by simpa using hl, fun j => ⟨_, hbox j, fun p => hshare (hs p) (maps p a) j⟩, fun j => hshare base a j, fun h3 h4 j => ?_⟩
        · rcases axisIndex_eq_some.1 ha with h5 | h5
          · omega
          · omega
        · rw [hbox j]
          congr 1
          funext p
          unfold alignedProfiles
          rw [h3 p, h4 p a]

/-- **C201.** The markers of all factors sum to one for each feature that is not zero throughout. -/
theorem C201_markers (base : Mat k n K) (j : Fin n) (h : ∑ c, base c j ≠ 0) :
    ∃ x : Fin k → K, (∀ a, columnShares base a j = some (x a)) ∧ ∑ a, x a = 1 := by
  refine ⟨fun a => base a j / ∑ c, base c j, fun a => if_neg h, ?_⟩
  rw [← Finset.sum_div, div_self h]

/-- Factor -1 is the last one. -/
example : ∃ f, perturbedFactor (k := 2) (n := 1) (N := 1) (some (alignedProfiles (fun _ => fun a _ => if a = 0 then (1 : ℚ) else 3) fun _ i => i)) (k0 := 2) (n0 := 1) (fun a _ => if a = 0 then (1 : ℚ) else 3) 2 (-1) = .ret (some f) ∧ f.base (0 : Fin 1) = some (3 / 4) :=
  ⟨_, rfl, by decide +kernel⟩

end figure

end Esat
