import Verif.Model.PerturbCompare
import Verif.Lemmas.MapM
import Verif.Props.FactorCompare
import Verif.Props.Quantile

/-!
# C233: the comparison of perturbed models
-/

namespace Esat

variable {K : Type*} [Field K] [LinearOrder K] [IsStrictOrderedRing K] [FloorRing K] {N n : ℕ}

/-- Row `j` is the first row with the smallest entry of column `c`. -/
def FirstMinRow (A : Mat (N + 1) (N + 1) K) (c j : Fin (N + 1)) : Prop := (∀ i, A j c ≤ A i c) ∧ ∀ i < j, A j c < A i c

/-- No row is the first minimum of two columns. -/
def DistinctMinima (A : Mat (N + 1) (N + 1) K) : Prop := ∀ a b j, FirstMinRow A a j → FirstMinRow A b j → a = b

omit [Field K] [IsStrictOrderedRing K] [FloorRing K] in
private theorem argBest_first (v : Fin (N + 1) → K) (i : Fin (N + 1)) (hi : i < argBest ltB v) : v (argBest ltB v) < v i := by
  have key : ∀ (l : List (Fin (N + 1))) (b : Fin (N + 1)) (S : Fin (N + 1) → Prop), S b → (∀ i, S i → v b ≤ v i) → (∀ i, S i → i < b → v b < v i) →
      (∀ i, S i → ∀ j ∈ l, i ≤ j) → l.Pairwise (· < ·) → ∀ i, (S i ∨ i ∈ l) →
      i < l.foldl (fun b j => if ltB (v j) (v b) then j else b) b → v (l.foldl (fun b j => if ltB (v j) (v b) then j else b) b) < v i := by
    intro l
    induction l with
    | nil =>
      intro b S _ _ h2 _ _ i hi hlt
      rcases hi with hi | hi
      · exact h2 i hi hlt
      · cases hi
    | cons a l ih =>
      intro b S h0 h1 h2 h3 h4 i hi
      rw [List.pairwise_cons] at h4
      rw [List.foldl_cons]
      have hSa : ∀ i, (S i ∨ i = a) → ∀ j ∈ l, i ≤ j := by
        intro i hi j hj
        rcases hi with hi | rfl
        · exact h3 i hi j (List.mem_cons_of_mem _ hj)
        · exact (h4.1 j hj).le
      have hi' : (S i ∨ i = a) ∨ i ∈ l := by
        rcases hi with hi | hi
        · exact .inl (.inl hi)
        · rcases List.mem_cons.1 hi with rfl | hi
          · exact .inl (.inr rfl)
          · exact .inr hi
      by_cases hb : v a < v b
      · rw [if_pos (by simpa [ltB] using hb)]
        refine ih a (fun i => S i ∨ i = a) (.inr rfl) ?_ ?_ hSa h4.2 i hi'
        · intro i hi
          rcases hi with hi | rfl
          · exact (hb.trans_le (h1 i hi)).le
          · exact le_rfl
        · intro i hi hlt
          rcases hi with hi | rfl
          · exact hb.trans_le (h1 i hi)
          · exact absurd hlt (lt_irrefl _)
      · rw [if_neg (by simpa [ltB] using hb)]
        refine ih b (fun i => S i ∨ i = a) (.inl h0) ?_ ?_ hSa h4.2 i hi'
        · intro i hi
          rcases hi with hi | rfl
          · exact h1 i hi
          · exact not_lt.1 hb
        · intro i hi hlt
          rcases hi with hi | rfl
          · exact h2 i hi hlt
          · exact absurd (h3 b h0 i (by simp)) (not_le.2 hlt)
  refine key (List.finRange (N + 1)) 0 (fun i => i = 0) rfl ?_ ?_ ?_ ?_ i (.inr (List.mem_finRange i)) hi
  · rintro i rfl; exact le_rfl
  · rintro i rfl h; exact absurd h (lt_irrefl _)
  · rintro i rfl j _; exact Fin.zero_le j
  · exact List.pairwise_lt_finRange _

private theorem firstMin_iff (A : Mat (N + 1) (N + 1) K) (c j : Fin (N + 1)) : FirstMinRow A c j ↔ argBest ltB (fun j => A j c) = j := by
  have h1 : ∀ i, A (argBest ltB fun j => A j c) c ≤ A i c := fun i => argBest_lt (fun j => A j c) i
  have h2 : ∀ i < argBest ltB (fun j => A j c), A (argBest ltB fun j => A j c) c < A i c := fun i hi => argBest_first (fun j => A j c) i hi
  constructor
  · rintro ⟨h3, h4⟩
    rcases lt_trichotomy (argBest ltB fun j => A j c) j with h | h | h
    · exact absurd (h1 j) (not_le.2 (h4 _ h))
    · exact h
    · exact absurd (h3 _) (not_le.2 (h2 j h))
  · rintro rfl
    exact ⟨h1, h2⟩

private theorem distinct_iff (A : Mat (N + 1) (N + 1) K) :
    DistinctMinima A ↔ ∀ a b, argBest ltB (fun j => A j a) = argBest ltB (fun j => A j b) → a = b := by
  unfold DistinctMinima
  constructor
  · intro h a b hab
    exact h a b _ ((firstMin_iff A a _).2 hab) ((firstMin_iff A b _).2 rfl)
  · intro h a b j ha hb
    exact h a b (((firstMin_iff A a j).1 ha).trans ((firstMin_iff A b j).1 hb).symm)

/-- The shape of the values of one model: numbers exactly for distinct minima. -/
private theorem determineMap_shape (rnd : K → K) (matching : Mat (N + 1) (N + 1) K → Option (Fin (N + 1) → Fin (N + 1))) (A : Mat (N + 1) (N + 1) K)
    (d : (Fin (N + 1) → Fin (N + 1)) × (Fin (N + 1) → MapVal K)) (h : determineMap ltB rnd matching A = some d) :
    (stackShape ((List.ofFn d.2).map fun x => some x.shape) = some [N + 1] ↔ DistinctMinima A) ∧
    (stackShape ((List.ofFn d.2).map fun x => some x.shape) ≠ some []) := by
  rw [distinct_iff]
  by_cases hd : ∀ a b, argBest ltB (fun j => A j a) = argBest ltB (fun j => A j b) → a = b
  · have h' := h
    unfold determineMap at h'
    dsimp only at h'
    rw [if_pos hd, Option.some.injEq] at h'
    have hs : stackShape ((List.ofFn d.2).map fun x => some x.shape) = some [N + 1] := by
      rw [← h', List.ofFn_succ]
      simp [stackShape, MapVal.shape, List.all_eq_true]
    rw [hs]
    exact ⟨⟨fun _ => hd, fun _ => rfl⟩, by simp⟩
  · have h' := h
    unfold determineMap at h'
    dsimp only at h'
    rw [if_neg hd, Option.map_eq_some_iff] at h'
    obtain ⟨cols, _, hc⟩ := h'
    have h0 : (d.2 0).shape = [N + 1] := by
      rw [← hc]; simp [MapVal.shape]
    have hs : ∀ s, stackShape ((List.ofFn d.2).map fun x => some x.shape) = some s → s = [N + 1, N + 1] := by
      intro s hs
      rw [List.ofFn_succ, List.map_cons, stackShape] at hs
      split_ifs at hs with hall
      rw [h0] at hs
      simpa using hs.symm
    refine ⟨⟨fun hs' => ?_, fun h => absurd h hd⟩, fun hs' => ?_⟩
    · have := hs _ hs'; simp at this
    · have := hs _ hs'; simp at this

private theorem stackShape_head (l : List (Option (List ℕ))) (hl : l ≠ []) (s : List ℕ) (h : stackShape l = some s) : s.head? = some l.length := by
  cases l with
  | nil => exact absurd rfl hl
  | cons a l =>
    rw [stackShape] at h
    split_ifs at h
    rw [Option.map_eq_some_iff] at h
    obtain ⟨s', _, rfl⟩ := h
    rfl

private theorem meanTableOk_iff (rnd : K → K) (matching : Mat (N + 1) (N + 1) K → Option (Fin (N + 1) → Fin (N + 1))) (factors : ℕ)
    (As : List (Mat (N + 1) (N + 1) K)) (hne : As ≠ []) (ds : List ((Fin (N + 1) → Fin (N + 1)) × (Fin (N + 1) → MapVal K)))
    (h : As.mapM (fun A => determineMap ltB rnd matching A) = some ds) :
    meanTableOk factors (ds.map (·.2)) = true ↔ factors = N + 1 ∧ ∀ A ∈ As, DistinctMinima A := by
  have hlen := mapM_option_length _ _ _ h
  have hget := mapM_option_get _ _ _ h
  have hsh : ∀ i (hi : i < As.length), (stackShape ((List.ofFn (ds[i]'(by omega)).2).map fun x => some x.shape) = some [N + 1] ↔ DistinctMinima As[i]) ∧
      (stackShape ((List.ofFn (ds[i]'(by omega)).2).map fun x => some x.shape) ≠ some []) := fun i hi => determineMap_shape rnd matching _ _ (hget i hi)
  cases ds with
  | nil => exact absurd (List.length_eq_zero_iff.1 hlen.symm) hne
  | cons d ds =>
    have h0 : 0 < As.length := by rw [← hlen]; simp
    unfold meanTableOk
    rw [List.map_cons, List.map_cons, stackShape]
    constructor
    · intro hok
      split_ifs at hok with hall
      cases hs : stackShape ((List.ofFn d.2).map fun x => some x.shape) with
      | none => rw [hs] at hok; exact absurd hok (by simp)
      | some s =>
        rw [hs] at hok
        simp only [Option.map_some, decide_eq_true_eq] at hok
        have hd0 := hsh 0 h0
        simp only [List.getElem_cons_zero] at hd0
        rcases hok with hok | ⟨hok, _⟩
        · have hh := stackShape_head _ (by simp) s hs
          rw [hok] at hh
          simp only [List.head?_cons, List.length_map, List.length_ofFn, Option.some.injEq] at hh
          refine ⟨hh, ?_⟩
          intro A hA
          obtain ⟨i, hi, rfl⟩ := List.getElem_of_mem hA
          rw [← (hsh i hi).1]
          cases i with
          | zero => simp only [List.getElem_cons_zero]; rw [hs, hok, hh]
          | succ i =>
            simp only [List.getElem_cons_succ]
            have hi' : i < ds.length := by simp only [List.length_cons] at hlen; omega
            have := List.all_eq_true.1 hall (stackShape ((List.ofFn ds[i].2).map fun x => some x.shape))
              (List.mem_map.2 ⟨ds[i].2, List.mem_map.2 ⟨ds[i], List.getElem_mem _, rfl⟩, rfl⟩)
            rw [decide_eq_true_eq] at this
            rw [this, hs, hok, hh]
        · rw [hs, hok] at hd0
          exact absurd rfl hd0.2
    · rintro ⟨rfl, hA⟩
      have hall : ∀ i (hi : i < (d :: ds).length), stackShape ((List.ofFn (d :: ds)[i].2).map fun x => some x.shape) = some [N + 1] := by
        intro i hi
        exact (hsh i (by omega)).1.2 (hA _ (List.getElem_mem _))
      have hd := hall 0 (by simp)
      simp only [List.getElem_cons_zero] at hd
      rw [if_pos, hd]
      · simp
      · rw [List.all_eq_true]
        intro s hs
        obtain ⟨v, hv, rfl⟩ := List.mem_map.1 hs
        obtain ⟨e, he, rfl⟩ := List.mem_map.1 hv
        obtain ⟨i, hi, rfl⟩ := List.getElem_of_mem he
        have := hall (i + 1) (by simpa using hi)
        simp only [List.getElem_cons_succ] at this
        rw [this, hd]
        simp

private theorem determineMap_distinct (rnd : K → K) (matching : Mat (N + 1) (N + 1) K → Option (Fin (N + 1) → Fin (N + 1))) (A : Mat (N + 1) (N + 1) K)
    (h : DistinctMinima A) : determineMap ltB rnd matching A =
      some (fun c => argBest ltB fun j => A j c, fun j => .num (rnd (A j (argBest ltB fun i => A i j)))) := by
  rw [distinct_iff] at h
  unfold determineMap
  dsimp only
  rw [if_pos h]

/-- **C233.** The comparison of the perturbed models by the relative error completes exactly if there is a model, there are at least two factors, their number
is that of the base model, and no base factor is the best match of two factors of the same model: whenever a matching is needed, the comparison raises. -/
theorem C233_completes (factors : ℕ) (rnd : K → K) (matching : Mat (N + 1) (N + 1) K → Option (Fin (N + 1) → Fin (N + 1)))
    (base : Mat (N + 1) n K) (models : Option (List (Mat (N + 1) (N + 1) K × Mat (N + 1) n K × List K)))
    (hmul : ∀ ms, models = some ms → ∀ p ∈ ms, p.2.2 ≠ []) :
    (∃ r, perturbCompare factors ltB rnd matching base models = .ret r) ↔
      ∃ ms, models = some ms ∧ ms ≠ [] ∧ 1 ≤ N ∧ factors = N + 1 ∧ ∀ p ∈ ms, DistinctMinima p.1 := by
  cases models with
  | none => simp [perturbCompare]
  | some ms =>
    simp only [Option.some.injEq, exists_eq_left']
    have hmul' := hmul ms rfl
    by_cases hne : ms = []
    · subst hne
      simp only [perturbCompare, List.mapM_nil, Option.pure_def, ne_eq, not_true, false_and, iff_false]
      rintro ⟨r, hr⟩
      split_ifs at hr
      simp [multiplierStats] at hr
    · unfold perturbCompare
      dsimp only
      have hmap : (ms.mapM fun p => determineMap ltB rnd matching p.1) = (ms.map (·.1)).mapM fun A => determineMap ltB rnd matching A := by
        rw [List.mapM_map]
        rfl
      have hne' : ms.map (·.1) ≠ [] := by simpa using hne
      cases hds : ms.mapM fun p => determineMap ltB rnd matching p.1 with
      | none =>
        simp only [reduceCtorEq, exists_false, false_iff, not_and]
        intro _ _ _ hall
        have : (ms.mapM fun p => determineMap ltB rnd matching p.1).isSome := by
          rw [mapM_isSome_iff]
          intro p hp
          rw [determineMap_distinct rnd matching p.1 (hall p hp)]
          rfl
        rw [hds] at this
        cases this
      | some ds =>
        dsimp only
        rw [hmap] at hds
        have hok := meanTableOk_iff rnd matching factors (ms.map (·.1)) hne' ds hds
        obtain ⟨a₁, a₂, a₃, a₄, a₅, hst, _⟩ := C174_multipliers (ms.map (·.2.2)) (by simpa using hne) (by
          intro l hl
          obtain ⟨p, hp, rfl⟩ := List.mem_map.1 hl
          exact hmul' p hp)
        rw [hst]
        have hq : (∀ A ∈ ms.map (·.1), DistinctMinima A) ↔ ∀ p ∈ ms, DistinctMinima p.1 := by simp
        rw [hq] at hok
        by_cases hm : meanTableOk factors (ds.map (·.2)) = true
        · rw [if_pos hm]
          obtain ⟨hf, hall⟩ := hok.1 hm
          by_cases hN : 1 ≤ N
          · refine ⟨fun _ => ⟨hne, hN, hf, hall⟩, fun _ => ?_⟩
            unfold perturbTable
            rw [dif_pos (by omega)]
            exact ⟨_, rfl⟩
          · refine ⟨fun h => ?_, fun h => absurd h.2.1 hN⟩
            unfold perturbTable at h
            rw [dif_neg (by omega)] at h
            obtain ⟨r, hr⟩ := h
            cases hr
        · rw [if_neg hm]
          refine ⟨fun h => ?_, fun h => absurd (hok.2 ⟨h.2.2.1, h.2.2.2⟩) hm⟩
          obtain ⟨r, hr⟩ := h
          cases hr

/-- **C233.** What a completed comparison stores for each model: the row of the first minimum of each column, the rounded metric at row `j` and that row taken as a
column; and the rows of the table are those of the second factor, whose profiles are taken from the mapped factor. -/
theorem C233_stored (factors : ℕ) (rnd : K → K) (matching : Mat (N + 1) (N + 1) K → Option (Fin (N + 1) → Fin (N + 1)))
    (base : Mat (N + 1) n K) (ms : List (Mat (N + 1) (N + 1) K × Mat (N + 1) n K × List K)) (hmul : ∀ p ∈ ms, p.2.2 ≠ []) (r : PerturbCompared N n K)
    (h : perturbCompare factors ltB rnd matching base (some ms) = .ret r) :
    r.maps.length = ms.length ∧
    (∀ i (hi : i < ms.length), ∃ d, r.maps[i]? = some d ∧ (∀ c, FirstMinRow ms[i].1 c (d.1 c)) ∧ ∀ j, d.2 j = .num (rnd (ms[i].1 j (d.1 j)))) ∧
    ∃ h1 : 1 < N + 1, ∀ j, r.table j = perturbRow (base ⟨1, h1⟩ j) (List.zipWith (fun d p => p.2.1 (d.1 ⟨1, h1⟩) j) r.maps ms) := by
  obtain ⟨ms', hms, hne, hN, hf, hall⟩ := (C233_completes factors rnd matching base (some ms) (by
    intro ms' hms p hp
    simp only [Option.some.injEq] at hms
    exact hmul p (hms ▸ hp))).1 ⟨r, h⟩
  simp only [Option.some.injEq] at hms
  subst hms
  unfold perturbCompare at h
  dsimp only at h
  cases hds : ms.mapM fun p => determineMap ltB rnd matching p.1 with
  | none => rw [hds] at h; cases h
  | some ds =>
    rw [hds] at h
    dsimp only at h
    split_ifs at h with hm
    cases hst : multiplierStats (ms.map (·.2.2)) with
    | none => rw [hst] at h; cases h
    | some st =>
      rw [hst] at h
      unfold perturbTable at h
      rw [dif_pos (by omega)] at h
      simp only [Outcome.ret.injEq] at h
      rw [← h]
      have hlen := mapM_option_length _ _ _ hds
      refine ⟨hlen, ?_, by omega, ?_⟩
      · intro i hi
        refine ⟨ds[i]'(by omega), by simp [hlen, hi], ?_⟩
        have hg := mapM_option_get _ _ _ hds i hi
        rw [determineMap_distinct rnd matching _ (hall _ (List.getElem_mem _)), Option.some.injEq] at hg
        rw [← hg]
        exact ⟨fun c => (firstMin_iff _ _ _).2 rfl, fun j => rfl⟩
      · intro j
        simp only [List.map_zipWith, alignRows]

/-- **C233.** Models that are copies of the base model: the comparison by the relative error completes exactly if no two factors of the base model have the same
contributions. -/
theorem C233_unperturbed {m : ℕ} (hN : 1 ≤ N) (rnd : K → K) (matching : Mat (N + 1) (N + 1) K → Option (Fin (N + 1) → Fin (N + 1)))
    (base : Mat (N + 1) n K) (W : Fin (N + 1) → Fin (m + 1) → K) (hW : ∀ j, 0 < ∑ i, W j i) (A : Mat (N + 1) (N + 1) K)
    (hA : ∀ j c, raaeMetric (W j) (W c) = some (A j c)) (ms : List (Mat (N + 1) (N + 1) K × Mat (N + 1) n K × List K)) (hne : ms ≠ [])
    (hms : ∀ p ∈ ms, p.1 = A ∧ p.2.2 ≠ []) :
    (∃ r, perturbCompare (N + 1) ltB rnd matching base (some ms) = .ret r) ↔ Function.Injective W := by
  have hz : ∀ j c, 0 ≤ A j c ∧ (A j c = 0 ↔ W c = W j) := by
    intro j c
    obtain ⟨r, hr, _, h0, h1⟩ := C103_raae (W j) (W c) (hW j)
    rw [hA j c, Option.some.injEq] at hr
    rw [hr]
    exact ⟨h0, h1⟩
  rw [C233_completes (N + 1) rnd matching base (some ms) (by
    intro ms' h p hp
    simp only [Option.some.injEq] at h
    exact (hms p (h ▸ hp)).2)]
  have hd : DistinctMinima A ↔ Function.Injective W := by
    constructor
    · intro h a b hab
      have hcol : ∀ j, A j a = A j b := by
        intro j
        have h1 := hA j a
        rw [hab, hA j b, Option.some.injEq] at h1
        exact h1.symm
      refine h a b (argBest ltB fun j => A j a) ((firstMin_iff A a _).2 rfl) ((firstMin_iff A b _).2 ?_)
      congr 1
      funext j
      exact (hcol j).symm
    · intro h a b j ha hb
      have h1 : ∀ c, FirstMinRow A c j → c = j := by
        intro c hc
        have h2 := hc.1 c
        rw [(hz c c).2.2 rfl] at h2
        exact h ((hz j c).2.1 (le_antisymm h2 (hz j c).1))
      rw [h1 a ha, h1 b hb]
  constructor
  · rintro ⟨ms', h, _, _, _, hall⟩
    simp only [Option.some.injEq] at h
    obtain ⟨p, hp⟩ := List.exists_mem_of_ne_nil ms hne
    have := hall p (h ▸ hp)
    rw [(hms p hp).1] at this
    exact hd.1 this
  · intro h
    refine ⟨ms, rfl, hne, hN, rfl, fun p hp => ?_⟩
    rw [(hms p hp).1]
    exact hd.2 h

-- a model whose two factors both match the first base factor: the matching is found and the comparison raises
example : ¬ ∃ r, perturbCompare (n := 1) 2 ltB id (fun _ => some id) (fun _ _ => (1 / 2 : ℚ)) (some [(![![0, 1], ![2, 2]], fun _ _ => 1 / 2, [1])]) = .ret r := by
  rw [C233_completes]
  · rintro ⟨ms, h, _, _, _, hall⟩
    simp only [Option.some.injEq] at h
    have := hall _ (h ▸ List.mem_singleton.2 rfl)
    have h01 := this 0 1 0 ⟨by decide, by decide⟩ ⟨by decide, by decide⟩
    exact absurd h01 (by decide)
  · intro ms h p hp
    simp only [Option.some.injEq] at h
    subst h
    simp only [List.mem_singleton] at hp
    subst hp
    simp

-- a model whose factors match different base factors
example : ∃ r, perturbCompare (n := 1) 2 ltB id (fun _ => none) (fun _ _ => (1 / 2 : ℚ)) (some [(![![0, 1], ![2, 0]], fun _ _ => 1 / 2, [1])]) = .ret r := by
  rw [C233_completes]
  · refine ⟨_, rfl, by simp, le_rfl, rfl, ?_⟩
    intro p hp
    simp only [List.mem_singleton] at hp
    subst hp
    unfold DistinctMinima FirstMinRow
    decide
  · intro ms h p hp
    simp only [Option.some.injEq] at h
    subst h
    simp only [List.mem_singleton] at hp
    subst hp
    simp

end Esat
