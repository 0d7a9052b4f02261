import Verif.Model.CatalogTable
import Verif.Props.FactorCatalog
import Verif.Props.Quantile
import Mathlib.Data.Rat.Floor
import Mathlib.Data.List.Sort
import Mathlib.Algebra.Order.BigOperators.Group.List

/-!
# C254: the table of the factor catalog
-/

namespace Esat

variable {X K : Type*} [Field K] [LinearOrder K] [IsStrictOrderedRing K] [FloorRing K]

/-- A correlation that may be stored: the number of a first member, or one within the threshold. -/
def CorrFits (raae : Bool) (thr r : K) : Prop := if raae then r ≤ max 0 thr else min 1 thr ≤ r

/-- What holds for every stored entry. -/
def EntryFits (raae : Bool) (thr : K) (e : CatEntry X K) : Prop :=
  e.models.length = e.members.length ∧ e.corrs.length = e.members.length ∧ e.members ≠ [] ∧ ∀ r ∈ e.corrs, CorrFits raae thr r

omit [FloorRing K] in
theorem addFactor_fits (raae : Bool) (thr : K) (pc : X → X → Option K) (c c' : Catalog X K) (x : X) (model : ℕ) (flag : Bool)
    (hc : ∀ p ∈ c.factors, EntryFits raae thr p.2) (h : addFactor raae thr pc c x model = some (c', flag)) :
    ∀ p ∈ c'.factors, EntryFits raae thr p.2 := by
  have hset : ∀ key (e : CatEntry X K), EntryFits raae thr e → ∀ p ∈ dictSet c.factors key e, EntryFits raae thr p.2 := by
    intro key e he p hp
    unfold dictSet at hp
    split_ifs at hp
    · obtain ⟨q, hq, rfl⟩ := List.mem_map.1 hp
      split_ifs
      · exact he
      · exact hc q hq
    · rcases List.mem_append.1 hp with hp | hp
      · exact hc p hp
      · rw [List.mem_singleton] at hp
        subst hp
        exact he
  unfold addFactor at h
  simp only at h
  by_cases hnew : (decide (c.idx = 0) || (if raae = true then decide (thr < (checkFactor raae pc c x).2)
    else decide ((checkFactor raae pc c x).2 < thr))) = true
  · rw [if_pos hnew] at h
    simp only [Option.some.injEq, Prod.mk.injEq] at h
    obtain ⟨rfl, -⟩ := h
    refine hset _ _ ⟨rfl, rfl, by simp, ?_⟩
    intro r hr
    rw [List.mem_singleton] at hr
    subst hr
    cases raae <;> simp [CorrFits]
  · rw [if_neg hnew, Option.bind_eq_some_iff] at h
    obtain ⟨key, -, h⟩ := h
    rw [Option.map_eq_some_iff] at h
    obtain ⟨e, he, h⟩ := h
    simp only [Prod.mk.injEq] at h
    obtain ⟨rfl, -⟩ := h
    obtain ⟨f1, f2, f3, f4⟩ := hc _ (mem_of_dictGet _ _ _ he)
    refine hset _ _ ⟨by simp [f1], by simp [f2], by simp, ?_⟩
    intro r hr
    rcases List.mem_append.1 hr with hr | hr
    · exact f4 r hr
    · rw [List.mem_singleton] at hr
      subst hr
      cases raae
      · simp only [Bool.false_eq_true, if_false, Bool.or_eq_true, decide_eq_true_eq, not_or, not_lt] at hnew
        exact (min_le_right _ _).trans hnew.2
      · simp only [if_true, Bool.or_eq_true, decide_eq_true_eq, not_or, not_lt] at hnew
        exact hnew.2.trans (le_max_right _ _)

omit [FloorRing K] in
theorem addFactors_fits (raae : Bool) (thr : K) (pc : X → X → Option K) : ∀ (calls : List (X × ℕ)) (c c' : Catalog X K)
    (flags : List Bool), (∀ p ∈ c.factors, EntryFits raae thr p.2) → addFactors raae thr pc c calls = some (c', flags) →
    ∀ p ∈ c'.factors, EntryFits raae thr p.2 := by
  intro calls
  induction calls with
  | nil =>
    intro c c' flags hc h
    simp only [addFactors, Option.some.injEq, Prod.mk.injEq] at h
    obtain ⟨rfl, -⟩ := h
    exact hc
  | cons a calls ih =>
    intro c c' flags hc h
    simp only [addFactors, Option.bind_eq_some_iff, Option.map_eq_some_iff] at h
    obtain ⟨⟨c1, flag⟩, h1, ⟨c2, fs⟩, h2, h3⟩ := h
    simp only [Prod.mk.injEq] at h3
    obtain ⟨rfl, -⟩ := h3
    exact ih c1 c2 fs (addFactor_fits raae thr pc c c1 a.1 a.2 flag hc h1) h2

/-- A mean is within every bound of its numbers. -/
theorem listMean_bounds (l : List K) (hl : l ≠ []) :
    ∃ v, listMean l = some v ∧ (∀ b, (∀ r ∈ l, r ≤ b) → v ≤ b) ∧ ∀ b, (∀ r ∈ l, b ≤ r) → b ≤ v := by
  have hp : (0 : K) < l.length := by exact_mod_cast List.length_pos_iff.2 hl
  refine ⟨_, if_neg hl, fun b hb => ?_, fun b hb => ?_⟩
  · rw [div_le_iff₀ hp, mul_comm, ← nsmul_eq_mul]
    exact List.sum_le_card_nsmul l b hb
  · rw [le_div_iff₀ hp, mul_comm, ← nsmul_eq_mul]
    exact List.card_nsmul_le_sum l b hb

/-- Percentages of different counts have different roundings to two digits if the model count is at most 10000. -/
theorem occ_lt (M a b : ℕ) (hM : 0 < M) (hM' : M ≤ 10000) (h : a < b) :
    roundTo 2 (100 * (a : K) / (M : K)) < roundTo 2 (100 * (b : K) / (M : K)) := by
  have hMp : (0 : K) < M := by exact_mod_cast hM
  unfold roundTo
  refine div_lt_div_of_pos_right ?_ (by norm_num)
  rw [Int.cast_lt]
  have e : ∀ c : ℕ, 100 * (c : K) / (M : K) * 10 ^ 2 = 10000 * (c : K) / M := fun c => by ring
  rw [e, e]
  rcases Nat.lt_or_ge M 10000 with h1 | h1
  · have h2 : 10000 * (a : K) / M + 1 < 10000 * (b : K) / M := by
      have h3 : (a : K) + 1 ≤ b := by exact_mod_cast h
      have h4 : (M : K) < 10000 := by exact_mod_cast h1
      rw [div_add_one hMp.ne', div_lt_div_iff_of_pos_right hMp]
      linarith
    have b1 := (rint_bounds (10000 * (a : K) / M)).2
    have b2 := (rint_bounds (10000 * (b : K) / M)).1
    have : (rint (10000 * (a : K) / M) : K) < rint (10000 * (b : K) / M) := by linarith
    exact_mod_cast this
  · obtain rfl : M = 10000 := le_antisymm hM' h1
    have e2 : ∀ c : ℕ, 10000 * (c : K) / ((10000 : ℕ) : K) = ((c : ℤ) : K) := fun c => by
      push_cast
      rw [mul_div_assoc, mul_comm, div_mul_cancel₀ _ (by norm_num)]
    rw [e2, e2, rint_int, rint_int]
    exact_mod_cast h

/-- **C254, rows.** The table of a catalog filled by any calls has one row for each entry, the counts add up to the number of factors added, and every row has a positive
count, a percentage within half of a hundredth of its exact value, and a mean correlation within the threshold: every bound with four digits for the threshold and the number
of a first member holds for it too. -/
theorem C254_rows (raae : Bool) (thr : K) (pc : X → X → Option K) (calls : List (X × ℕ)) (c : Catalog X K) (flags : List Bool)
    (h : addFactors raae thr pc Catalog.empty calls = some (c, flags)) (t : List (CatRow K)) (ht : CatTable c t) :
    (t.map (·.factor)).Perm (List.range (flags.count true)) ∧ (t.map (·.count)).sum = calls.length ∧
    (t.Pairwise fun a b => b.occ ≤ a.occ) ∧
    ∀ r ∈ t, 0 < r.count ∧ |r.occ - 100 * (r.count : K) / (c.modelCount : K)| ≤ 1 / 200 ∧
      ∃ v, r.corr = some v ∧ ∀ z : ℤ, (raae = true → 0 ≤ (z : K) / 10 ^ 4 → thr ≤ z / 10 ^ 4 → v ≤ z / 10 ^ 4) ∧
        (raae = false → (z : K) / 10 ^ 4 ≤ 1 → (z : K) / 10 ^ 4 ≤ thr → (z : K) / 10 ^ 4 ≤ v) := by
  obtain ⟨rows, hr, hp, hs⟩ := ht
  obtain ⟨i1, i2, i3, -, -⟩ := addFactors_steps raae thr pc calls _ c flags (by rfl) h
  have hf := addFactors_fits raae thr pc calls _ c flags (by simp [Catalog.empty]) h
  unfold catRows at hr
  split_ifs at hr
  simp only [Option.some.injEq] at hr
  subst hr
  refine ⟨?_, ?_, hs, ?_⟩
  · refine (hp.map _).trans ?_
    rw [List.map_map, show ((fun x : CatRow K => x.factor) ∘ catRow c) = fun p => p.1 from rfl, show c.factors.map (fun p => p.1) = _ from i1]
    have : c.idx = flags.count true := by
      have e : c.factors.length = c.idx := by
        have := congrArg List.length (show c.factors.map (fun p => p.1) = _ from i1)
        simpa using this
      rw [← e, i2]
      simp [Catalog.empty]
    rw [this]
  · rw [(hp.map _).sum_eq, List.map_map]
    have e1 : c.factors.map ((fun x : CatRow K => x.count) ∘ catRow c) = c.factors.map fun p => p.2.members.length :=
      List.map_congr_left fun p hp => (hf p hp).1
    rw [e1]
    have e2 := i3.length_eq
    rw [List.length_flatMap] at e2
    simpa [Catalog.empty] using e2
  · intro r hr
    obtain ⟨p, hp', rfl⟩ := List.mem_map.1 (hp.mem_iff.1 hr)
    obtain ⟨f1, f2, f3, f4⟩ := hf p hp'
    have hne : p.2.corrs ≠ [] := by
      intro e
      rw [e] at f2
      exact f3 (List.length_eq_zero_iff.1 f2.symm)
    obtain ⟨v, hv, hu, hl⟩ := listMean_bounds p.2.corrs hne
    refine ⟨?_, ?_, roundTo 4 v, ?_, ?_⟩
    · show 0 < p.2.models.length
      rw [f1]
      exact List.length_pos_iff.2 f3
    · have := roundTo_bounds 2 (100 * (p.2.models.length : K) / (c.modelCount : K))
      rw [show (1 : K) / (2 * 10 ^ 2) = 1 / 200 by norm_num] at this
      show |roundTo 2 (100 * (p.2.models.length : K) / (c.modelCount : K)) - 100 * (p.2.models.length : K) / (c.modelCount : K)| ≤ _
      rw [abs_le]
      constructor <;> linarith [this.1, this.2]
    · show (listMean p.2.corrs).map (roundTo 4) = _
      rw [hv]
      rfl
    · intro z
      have hz : roundTo 4 ((z : K) / 10 ^ 4) = (z : K) / 10 ^ 4 := (roundTo_eq_iff 4 _).2 ⟨z, div_mul_cancel₀ _ (by norm_num)⟩
      refine ⟨fun hra h0 ht => ?_, fun hra h1 ht => ?_⟩
      · subst hra
        rw [← hz]
        refine roundTo_mono 4 (hu _ fun r hr => ?_)
        exact (show r ≤ max 0 thr from f4 r hr).trans (max_le h0 ht)
      · subst hra
        rw [← hz]
        refine roundTo_mono 4 (hl _ fun r hr => ?_)
        exact (le_min h1 ht).trans (show min 1 thr ≤ r from f4 r hr)

/-- **C254, order.** With at most 10000 models the rows are in descending order of the counts, and rows with the same percentage have the same count. -/
theorem C254_order (c : Catalog X K) (hc : c.modelCount ≤ 10000) (t : List (CatRow K)) (ht : CatTable c t) :
    (t.Pairwise fun a b => b.count ≤ a.count) ∧ ∀ a ∈ t, ∀ b ∈ t, a.occ = b.occ ↔ a.count = b.count := by
  obtain ⟨rows, hr, hp, hs⟩ := ht
  unfold catRows at hr
  split_ifs at hr with h0
  simp only [Option.some.injEq] at hr
  subst hr
  have hocc : ∀ r ∈ t, 0 < c.modelCount ∧ r.occ = roundTo 2 (100 * (r.count : K) / (c.modelCount : K)) := by
    intro r hr
    obtain ⟨p, hp', rfl⟩ := List.mem_map.1 (hp.mem_iff.1 hr)
    refine ⟨?_, rfl⟩
    rcases Nat.eq_zero_or_pos c.modelCount with h1 | h1
    · exact absurd ⟨h1, List.ne_nil_of_mem hp'⟩ h0
    · exact h1
  refine ⟨?_, fun a ha b hb => ⟨fun e => ?_, fun e => ?_⟩⟩
  · refine hs.imp_of_mem fun {a b} ha hb hab => ?_
    by_contra hlt
    rw [(hocc a ha).2, (hocc b hb).2] at hab
    exact absurd hab (not_le.2 (occ_lt _ _ _ (hocc a ha).1 hc (not_le.1 hlt)))
  · rw [(hocc a ha).2, (hocc b hb).2] at e
    by_contra hne
    rcases Nat.lt_or_gt_of_ne hne with hlt | hlt
    · exact absurd e (occ_lt _ _ _ (hocc a ha).1 hc hlt).ne
    · exact absurd e.symm (occ_lt _ _ _ (hocc a ha).1 hc hlt).ne
  · rw [(hocc a ha).2, (hocc b hb).2, e]

/-- **C254, errors.** `to_df` and `summary` of a catalog filled by any calls return exactly if no factor was added or one of a model with a number other than zero: with
factors of model number zero only they raise. -/
theorem C254_raises (raae : Bool) (thr : K) (pc : X → X → Option K) (calls : List (X × ℕ)) (c : Catalog X K) (flags : List Bool)
    (h : addFactors raae thr pc Catalog.empty calls = some (c, flags)) :
    ((∃ t, CatTable c t) ↔ calls = [] ∨ ∃ a ∈ calls, a.2 ≠ 0) ∧ ((∃ s, catSummary c = some s) ↔ calls = [] ∨ ∃ a ∈ calls, a.2 ≠ 0) := by
  obtain ⟨-, -, i3, -, i5⟩ := addFactors_steps raae thr pc calls _ c flags (by rfl) h
  have hf := addFactors_fits raae thr pc calls _ c flags (by simp [Catalog.empty]) h
  have hnil : c.factors = [] ↔ calls = [] := by
    have e2 := i3.length_eq
    rw [List.length_flatMap] at e2
    simp only [Catalog.empty, List.flatMap_nil, List.append_nil, List.length_map] at e2
    constructor
    · intro e
      rw [e] at e2
      simpa using e2.symm
    · intro e
      rw [e] at e2
      simp only [List.length_nil, List.sum_eq_zero_iff, List.mem_map, forall_exists_index, and_imp] at e2
      rw [List.eq_nil_iff_forall_not_mem]
      intro p hp
      exact (hf p hp).2.2.1 (List.length_eq_zero_iff.1 (e2 _ p hp rfl))
  have key : ∀ (l : List ℕ) (mc : ℕ), l.foldl (fun mc i => if mc < i then i + 1 else mc) mc = 0 ↔ mc = 0 ∧ ∀ i ∈ l, i = 0 := by
    intro l
    induction l with
    | nil => intro mc; simp
    | cons i l ih =>
      intro mc
      rw [List.foldl_cons, ih]
      split_ifs with hi
      · simp only [Nat.succ_ne_zero, false_and, List.mem_cons, forall_eq_or_imp, false_iff, not_and]
        intro h1 h2
        omega
      · simp only [List.mem_cons, forall_eq_or_imp]
        constructor
        · rintro ⟨rfl, h2⟩
          exact ⟨rfl, by omega, h2⟩
        · rintro ⟨h1, -, h2⟩
          exact ⟨h1, h2⟩
  have hmc : c.modelCount = 0 ↔ ∀ a ∈ calls, a.2 = 0 := by
    rw [i5, key]
    simp only [Catalog.empty, true_and, List.forall_mem_map]
  have hcond : ¬ (c.modelCount = 0 ∧ c.factors ≠ []) ↔ calls = [] ∨ ∃ a ∈ calls, a.2 ≠ 0 := by
    rw [hmc, Ne, hnil]
    push Not
    constructor
    · intro hx
      by_cases hy : ∀ a ∈ calls, a.2 = 0
      · exact Or.inl (hx hy)
      · push Not at hy
        exact Or.inr hy
    · rintro (hx | ⟨a, ha, hne⟩) hy
      · exact hx
      · exact absurd (hy a ha) hne
  constructor
  · rw [← hcond]
    constructor
    · rintro ⟨t, rows, hr, -⟩ hx
      rw [catRows, if_pos hx] at hr
      cases hr
    · intro hx
      refine ⟨(c.factors.map (catRow c)).insertionSort fun a b => b.occ ≤ a.occ, _, if_neg hx, List.perm_insertionSort _ _, ?_⟩
      have : Std.Total (fun a b : CatRow K => b.occ ≤ a.occ) := ⟨fun a b => le_total _ _⟩
      have : IsTrans (CatRow K) (fun a b : CatRow K => b.occ ≤ a.occ) := ⟨fun a b c h1 h2 => le_trans h2 h1⟩
      exact List.pairwise_insertionSort _ _
  · rw [← hcond]
    unfold catSummary
    by_cases hx : c.modelCount = 0 ∧ c.factors ≠ []
    · simp [hx]
    · simp only [if_neg hx]
      simpa using hx

deriving instance DecidableEq for CatEntry
deriving instance DecidableEq for Catalog

/-- A metric for numbers. -/
def sameNumber (a b : ℕ) : Option ℚ := some (if a = b then 1 else 0)

/-- **C254, fine percentages.** **Disagreement.** With more models the order is not that of the counts: of 40000 models, a factor of one and a factor of two of them both have
the percentage zero, and may be listed in that order. -/
theorem C254_fine : ∃ c flags t, addFactors false (9 / 10 : ℚ) sameNumber Catalog.empty [(0, 0), (1, 1), (1, 39999)] = some (c, flags) ∧ CatTable c t ∧
    t.map (fun r => (r.factor, r.count, r.occ)) = [(0, 1, 0), (1, 2, 0)] := by
  have hr : (addFactors false (9 / 10 : ℚ) sameNumber Catalog.empty [(0, 0), (1, 1), (1, 39999)]) =
      some (⟨[(0, ⟨[0], [0], [1]⟩), (1, ⟨[1, 1], [1, 39999], [1, 1]⟩)], 2, 40000⟩, [true, true, false]) := by
    decide +kernel
  refine ⟨_, _, _, hr, ⟨_, rfl, List.Perm.refl _, ?_⟩, ?_⟩
  · decide +kernel
  · decide +kernel

/-- Three models: two factors of the first, the second also in the second and third model. The model count is two, so that the percentages are 50 and 150. -/
example : ∃ c flags t, addFactors false (9 / 10 : ℚ) sameNumber Catalog.empty [(0, 0), (1, 0), (1, 1), (1, 2)] = some (c, flags) ∧ CatTable c t ∧
    t = [⟨1, 3, 150, some 1⟩, ⟨0, 1, 50, some 1⟩] := by
  have hr : (addFactors false (9 / 10 : ℚ) sameNumber Catalog.empty [(0, 0), (1, 0), (1, 1), (1, 2)]) =
      some (⟨[(0, ⟨[0], [0], [1]⟩), (1, ⟨[1, 1, 1], [0, 1, 2], [1, 1, 1]⟩)], 2, 2⟩, [true, true, false, false]) := by
    decide +kernel
  refine ⟨_, _, _, hr, ⟨_, rfl, List.Perm.swap _ _ _, ?_⟩, ?_⟩
  · decide +kernel
  · decide +kernel

end Esat
