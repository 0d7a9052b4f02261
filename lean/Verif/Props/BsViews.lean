import Verif.Model.BsViews
import Verif.Props.ErrorSummary

/-!
# C196: the figures of a bootstrap in any order
-/

namespace Esat

variable {K : Type*} [Field K] [LinearOrder K] {k m n : ℕ}

/-- The base profiles after some calls: the small entries of the factors whose results were shown are zero. -/
noncomputable def baseAfter (cut : K) (H : Mat k n K) (ran : Prop) (h : List BsView) : Mat k n K := fun i j =>
  open Classical in if ran ∧ BsView.factor ((i : ℕ) + 1 : ℤ) ∈ h ∧ H i j < cut then 0 else H i j

theorem bsView_keeps (cut floor : K) (s : BsViewObj m k n K) (v : BsView) (hv : ∀ f, v ≠ .factor f) : (bsView cut floor s v).1 = s := by
  cases v with
  | factor f => exact absurd rfl (hv f)
  | mapping =>
    unfold bsView
    dsimp only
    split <;> rfl
  | profile f =>
    unfold bsView
    dsimp only
    split
    · rfl
    · rfl
    · split_ifs <;> rfl
  | contribution f =>
    unfold bsView
    dsimp only
    split
    · rfl
    · rfl
    · split_ifs <;> rfl

theorem bsView_factor (cut floor : K) (s : BsViewObj m k n K) (f : ℤ) :
    (bsView cut floor s (.factor f)).1 = { s with H := if s.compiled ≠ none then showFactor cut s.H f else s.H } := by
  obtain ⟨W, H, c⟩ := s
  unfold bsView
  dsimp only
  cases c with
  | none => split <;> simp_all
  | some c =>
    split
    · rename_i h
      simp [showFactor, h]
    · simp_all
    · simp

/-- **C196.** Calling views never changes anything but the small profile entries of the base model, and these exactly for the factors whose results were shown; the order and the number of calls do not matter. -/
theorem C196_state (cut floor : K) (s : BsViewObj m k n K) (h : List BsView) :
    (bsViews cut floor s h).1 = { s with H := baseAfter cut s.H (s.compiled ≠ none) h } := by
  classical
  induction h generalizing s with
  | nil =>
    have : baseAfter cut s.H (s.compiled ≠ none) [] = s.H := by
      funext i j
      simp [baseAfter]
    rw [this]
    rfl
  | cons v h ih =>
    simp only [bsViews]
    rw [ih]
    have hkeep : ∀ v', (∀ f, v' ≠ BsView.factor f) → baseAfter cut s.H (s.compiled ≠ none) (v' :: h) = baseAfter cut s.H (s.compiled ≠ none) h := by
      intro v' hv'
      funext i j
      have : BsView.factor ((i : ℕ) + 1 : ℤ) ≠ v' := fun e => hv' _ e.symm
      simp [baseAfter, this]
    cases v with
    | mapping => rw [hkeep _ (by simp), bsView_keeps cut floor s _ (by simp)]
    | profile f => rw [hkeep _ (by simp), bsView_keeps cut floor s _ (by simp)]
    | contribution f => rw [hkeep _ (by simp), bsView_keeps cut floor s _ (by simp)]
    | factor f =>
      rw [bsView_factor]
      cases hp : plotFactor k f with
      | none =>
        have hne : ∀ i : Fin k, ((i : ℕ) + 1 : ℤ) ≠ f := by
          intro i hi
          rw [← hi, plotFactor_some] at hp
          simp at hp
        have e : (if s.compiled ≠ none then showFactor cut s.H f else s.H) = s.H := by
          unfold showFactor
          rw [hp]
          simp
        have e2 : baseAfter cut s.H (s.compiled ≠ none) (.factor f :: h) = baseAfter cut s.H (s.compiled ≠ none) h := by
          funext i j
          simp [baseAfter, hne i]
        rw [e, e2]
      | some i0 =>
        have hf := (plotFactor_iff f i0).1 hp
        have e2 : baseAfter cut s.H (s.compiled ≠ none) (.factor f :: h) =
            baseAfter cut (if s.compiled ≠ none then showFactor cut s.H f else s.H) (s.compiled ≠ none) h := by
          funext i j
          have he : ((i : ℕ) + 1 : ℤ) = f ↔ i = i0 := by
            rw [hf, Fin.ext_iff]
            omega
          by_cases hc : s.compiled = none
          · simp [baseAfter, hc]
          · simp only [baseAfter, showFactor, hp, hc, ne_eq, not_false_eq_true, true_and, if_true, List.mem_cons, BsView.factor.injEq, he]
            by_cases h1 : i = i0
            · by_cases h2 : s.H i j < cut
              · by_cases h3 : BsView.factor ((i : ℕ) + 1 : ℤ) ∈ h <;> simp [h1 ▸ h2, h1]
              · have h2' : ¬s.H i0 j < cut := h1 ▸ h2
                simp [h1, h2']
            · simp [h1]
        rw [e2]

/-- The view of a valid factor. -/
def boxesSpec (runs : ℕ) (f : ℤ) (box : Fin n → List (Option K)) (base : Fin n → Option K) : BsShown k n K :=
  if runs = 0 ∧ 0 < n then .raised else .shown (.boxes f box base)

/-- **C196.** What each call of a sequence shows, given the calls before it. Before `run` every view of an existing factor raises; a factor outside `1 … k` gives a message. After it the
boxes have one point per run and do not depend on the calls before. **Disagreement:** the base markers do: they are those of the profiles in which the small entries are zero for the factors shown before. -/
theorem C196_shown (cut floor : K) (s : BsViewObj m k n K) (pre post : List BsView) (v : BsView) :
    (bsViews cut floor s (pre ++ v :: post)).2.length = pre.length + 1 + post.length ∧
    ∃ out, (bsViews cut floor s (pre ++ v :: post)).2[pre.length]? = some out ∧
      (∀ f : ℤ, (f < 1 ∨ (k : ℤ) < f) → v = .factor f ∨ v = .profile f ∨ v = .contribution f → out = .message) ∧
      (s.compiled = none → v = .mapping → out = .raised) ∧
      (s.compiled = none → ∀ i : Fin k, v = .factor (i + 1) ∨ v = .profile (i + 1) ∨ v = .contribution (i + 1) → out = .raised) ∧
      ∀ c, s.compiled = some c →
        let H := baseAfter cut s.H True pre
        (v = .mapping → out = .shown (.mapping c.mapping.counts c.mapping.unmapped)) ∧
        ∀ i : Fin k,
          (v = .factor (i + 1) → out = .shown (.factor i)) ∧
          (v = .profile (i + 1) → out = boxesSpec (c.profiles i).length (i + 1) (fun j => (c.profiles i).map fun r => (r j).map (100 * ·))
            fun j => if ∑ b, H b j = 0 then none else some (100 * (H i j / ∑ b, H b j))) ∧
          (v = .contribution (i + 1) → out = boxesSpec (c.contributions i).length (i + 1) (fun j => (c.contributions i).map fun r => some (max floor (r j)))
            fun j => some (max floor (∑ t, s.W t i * H i j))) := by
  have happ : ∀ (pre : List BsView) (s : BsViewObj m k n K), (bsViews cut floor s (pre ++ v :: post)).2 =
      (bsViews cut floor s pre).2 ++ (bsView cut floor (bsViews cut floor s pre).1 v).2 ::
        (bsViews cut floor (bsView cut floor (bsViews cut floor s pre).1 v).1 post).2 := by
    intro pre
    induction pre with
    | nil => intro s; rfl
    | cons a pre ih => intro s; simp only [List.cons_append, bsViews]; rw [ih]
  have hlen : ∀ (l : List BsView) (s : BsViewObj m k n K), (bsViews cut floor s l).2.length = l.length := by
    intro l
    induction l with
    | nil => intro s; rfl
    | cons a l ih => intro s; simp [bsViews, ih]
  have hfl : ∀ x : K, floorAt floor x = max floor x := by
    intro x
    unfold floorAt
    split_ifs with h
    · exact (max_eq_left h.le).symm
    · exact (max_eq_right (not_lt.1 h)).symm
  rw [happ]
  refine ⟨by simp [hlen]; omega, (bsView cut floor (bsViews cut floor s pre).1 v).2, by simp [hlen], ?_, ?_, ?_, ?_⟩
  · intro f hf hv
    have hp : plotFactor k f = none := by
      unfold plotFactor
      rw [dif_neg]
      omega
    rcases hv with rfl | rfl | rfl <;> simp [bsView, hp]
  · rintro hc rfl
    rw [C196_state]
    simp [bsView, hc]
  · rintro hc i hv
    rw [C196_state]
    rcases hv with rfl | rfl | rfl <;> simp [bsView, hc, plotFactor_some]
  · intro c hc
    have hran : (s.compiled ≠ none) = True := by simp [hc]
    rw [C196_state, hran]
    refine ⟨?_, fun i => ⟨?_, ?_, ?_⟩⟩
    · rintro rfl
      simp [bsView, hc]
    · rintro rfl
      simp [bsView, hc, plotFactor_some]
    · rintro rfl
      simp only [bsView, hc, plotFactor_some, boxesSpec, List.length_eq_zero_iff]
      split_ifs <;> rfl
    · rintro rfl
      simp only [bsView, hc, plotFactor_some, boxesSpec, List.length_eq_zero_iff, hfl]
      split_ifs <;> rfl

/-- **C196.** The boxes of the compiled runs: for each run in order, the percentage of the factor in the feature, and its contribution to the sum of the feature. -/
theorem C196_boxes (rnd : K → K) (eps : K) (t : MapTable k) (runs : List (Mat m k K × Mat k n K)) (i : Fin k) (j : Fin n) :
    (((bsCompileRuns rnd eps t runs).profiles i).map fun r => (r j).map (100 * ·)) = runs.map (fun r => (bsProfile rnd eps r.2 i j).map (100 * ·)) ∧
    (((bsCompileRuns rnd eps t runs).contributions i).map fun r => r j) = runs.map (fun r => bsContribution rnd eps r.1 r.2 i j) := by
  simp [bsCompileRuns, Function.comp_def]

variable [IsStrictOrderedRing K]

/-- **C196.** How the markers move. For base profiles without negative entries: after any calls a marker is missing exactly if every entry of the feature is zero or (for a factor shown before) below the cut; the existing
markers of a feature add up to 100; a factor whose own entry is not cut gets a marker at least as high as before the calls, and exactly as high if no positive entry of the feature is cut. -/
theorem C196_markers (cut : K) (H : Mat k n K) (hH : ∀ i j, 0 ≤ H i j) (h : List BsView) (j : Fin n) :
    let G := baseAfter cut H True h
    ((∑ b, G b j = 0) ↔ ∀ i : Fin k, H i j = 0 ∨ (BsView.factor ((i : ℕ) + 1 : ℤ) ∈ h ∧ H i j < cut)) ∧
    (∑ b, G b j ≠ 0 → ∑ i, 100 * (G i j / ∑ b, G b j) = 100 ∧
      ∀ i : Fin k, ¬(BsView.factor ((i : ℕ) + 1 : ℤ) ∈ h ∧ H i j < cut) →
        100 * (H i j / ∑ b, H b j) ≤ 100 * (G i j / ∑ b, G b j) ∧
        ((∀ b : Fin k, BsView.factor ((b : ℕ) + 1 : ℤ) ∈ h → H b j < cut → H b j = 0) → 100 * (H i j / ∑ b, H b j) = 100 * (G i j / ∑ b, G b j)) ∧
        (0 < H i j → (∃ b : Fin k, BsView.factor ((b : ℕ) + 1 : ℤ) ∈ h ∧ H b j < cut ∧ 0 < H b j) →
          100 * (H i j / ∑ b, H b j) < 100 * (G i j / ∑ b, G b j))) := by
  classical
  intro G
  have hG : ∀ i, G i j = if BsView.factor ((i : ℕ) + 1 : ℤ) ∈ h ∧ H i j < cut then 0 else H i j := by
    intro i
    simp only [G, baseAfter, true_and]
  have h0 : ∀ i, 0 ≤ G i j := by
    intro i
    rw [hG]
    split_ifs
    · exact le_refl _
    · exact hH _ _
  have hle : ∀ i, G i j ≤ H i j := by
    intro i
    rw [hG]
    split_ifs
    · exact hH _ _
    · exact le_refl _
  refine ⟨?_, ?_⟩
  · rw [Finset.sum_eq_zero_iff_of_nonneg (fun i _ => h0 i)]
    simp only [Finset.mem_univ, forall_const, hG]
    refine forall_congr' fun i => ?_
    split_ifs with h1
    · simp [h1]
    · simp [h1]
  · intro hne
    have hpos : 0 < ∑ b, G b j := lt_of_le_of_ne (Finset.sum_nonneg fun i _ => h0 i) (Ne.symm hne)
    have hsum : ∑ b, G b j ≤ ∑ b, H b j := Finset.sum_le_sum fun b _ => hle b
    refine ⟨?_, ?_⟩
    · rw [← Finset.mul_sum, ← Finset.sum_div, div_self hne, mul_one]
    · intro i hi
      have hGi : G i j = H i j := by rw [hG, if_neg hi]
      refine ⟨?_, ?_, ?_⟩
      · rw [hGi]
        exact mul_le_mul_of_nonneg_left (div_le_div_of_nonneg_left (hH i j) hpos hsum) (by norm_num)
      · intro hb
        have : ∑ b, G b j = ∑ b, H b j := by
          refine Finset.sum_congr rfl fun b _ => ?_
          rw [hG]
          split_ifs with h1
          · exact (hb b h1.1 h1.2).symm
          · rfl
        rw [hGi, this]
      · rintro hpi ⟨b, hb1, hb2, hb3⟩
        have hlt : ∑ b, G b j < ∑ b, H b j := by
          refine Finset.sum_lt_sum (fun b _ => hle b) ⟨b, Finset.mem_univ _, ?_⟩
          rw [hG, if_pos ⟨hb1, hb2⟩]
          exact hb3
        rw [hGi]
        exact mul_lt_mul_of_pos_left (div_lt_div_of_pos_left hpi hpos hlt) (by norm_num)

/-- **C196.** `summary` after `run` shows the mapping table and the results of all factors, and cuts all profiles. -/
theorem C196_summary (cut floor : K) (s : BsViewObj m k n K) (c : BsCompiled k n K) (hc : s.compiled = some c) :
    (bsViews cut floor s (bsSummaryViews k)).1 = { s with H := bootSummary cut s.H } ∧
    (bsViews cut floor s (bsSummaryViews k)).2.length = k + 1 ∧
    ∀ i : Fin k, (bsViews cut floor s (bsSummaryViews k)).2[(i : ℕ) + 1]? = some (.shown (.factor i)) := by
  classical
  refine ⟨?_, ?_, ?_⟩
  · rw [C196_state, C135_base]
    congr 1
    funext i j
    have hmem : BsView.factor ((i : ℕ) + 1 : ℤ) ∈ bsSummaryViews k := by
      simp only [bsSummaryViews, List.mem_cons, List.mem_map, List.mem_range]
      exact .inr ⟨i, i.2, rfl⟩
    simp [baseAfter, hc, hmem]
  · have hlen : ∀ (l : List BsView) (s : BsViewObj m k n K), (bsViews cut floor s l).2.length = l.length := by
      intro l
      induction l with
      | nil => intro s; rfl
      | cons a l ih => intro s; simp [bsViews, ih]
    rw [hlen]
    simp [bsSummaryViews]
  · intro i
    have hsp : bsSummaryViews k = (bsSummaryViews k).take (i + 1) ++ BsView.factor ((i : ℕ) + 1 : ℤ) :: (bsSummaryViews k).drop (i + 2) := by
      have hl : (i : ℕ) + 1 < (bsSummaryViews k).length := by simp [bsSummaryViews]
      conv_lhs => rw [← List.take_append_drop (i + 1) (bsSummaryViews k)]
      rw [List.drop_eq_getElem_cons hl]
      congr 2
      simp [bsSummaryViews]
    obtain ⟨-, out, h1, -, -, -, h2⟩ := C196_shown cut floor s ((bsSummaryViews k).take (i + 1)) ((bsSummaryViews k).drop (i + 2)) (.factor ((i : ℕ) + 1 : ℤ))
    rw [← hsp] at h1
    rw [((h2 c hc).2 i).1 rfl] at h1
    have hl : ((bsSummaryViews k).take (i + 1)).length = i + 1 := by
      simp [bsSummaryViews]
    rwa [hl] at h1

/-- An object for examples: two factors, two features; the second feature is small in both profiles. -/
def exBs : BsViewObj 1 2 2 ℚ :=
  ⟨![![1, 1]], ![![1, 1 / 10 ^ 6], ![3, 3 / 10 ^ 6]], some (bsCompileRuns id (1 / 10 ^ 8) ⟨fun _ _ => 1, fun _ => 0⟩ [(![![1, 1]], ![![1, 1], ![1, 3]])])⟩

/-- The markers of a call. -/
def markersOf {k n : ℕ} {K : Type*} : BsShown k n K → Option (Fin n → Option K)
  | .shown (.boxes _ _ b) => some b
  | _ => none

/-- Concrete case: `plot_factor(2)` first shows 75 % for both features; after the results of factor 1 it shows 100 % for the second one, after `summary` nothing. -/
example :
    let show2 := fun pre => ((bsViews (1 / 10 ^ 5) (1 / 10 ^ 4) exBs (pre ++ [.profile 2])).2[pre.length]?).bind markersOf
    (show2 []).map List.ofFn = some [some 75, some 75] ∧ (show2 [.factor 1]).map List.ofFn = some [some 75, some 100] ∧
    (show2 (bsSummaryViews 2)).map List.ofFn = some [some 75, none] ∧ ∀ i j, 0 ≤ exBs.H i j := by
  decide +kernel

end Esat
