import Verif.Model.PerturbRun
import Verif.Props.BsRun
import Mathlib.Algebra.BigOperators.Field
import Mathlib.Algebra.Order.BigOperators.Ring.Finset
import Mathlib.Data.Fin.VecNotation
import Mathlib.Tactic.FieldSimp
import Mathlib.Tactic.Linarith
import Mathlib.Tactic.Ring

/-!
# C185: running the perturbation, and its figures
-/

namespace Esat

section run
variable {G S M X : Type*}

theorem bsTasks_zero (draw : G → S × G) (n i : ℕ) (g : G) :
    (bsTasks draw n i g).1.map Prod.snd = (List.range n).map (fun t => NthDraw draw g (t + 1)) ∧
      (bsTasks draw n i g).2 = (fun g => (draw g).2)^[n] g := by
  induction n generalizing i g with
  | zero => exact ⟨rfl, rfl⟩
  | succ n ih =>
    rw [bsTasks]
    dsimp only
    obtain ⟨h1, h2⟩ := ih (i + 1) (draw g).2
    refine ⟨?_, ?_⟩
    · rw [List.map_cons, h1, List.range_succ_eq_map, List.map_cons, List.map_map]
      congr 1
    · rw [h2, Function.iterate_succ_apply]

theorem mapM_some_get {α β : Type*} (f : α → Option β) (l : List α) (ms : List β) (h : l.mapM f = some ms) :
    ms.length = l.length ∧ ∀ i (hi : i < l.length) (hi' : i < ms.length), f l[i] = some ms[i] := by
  induction l generalizing ms with
  | nil =>
    rw [List.mapM_nil] at h
    obtain rfl := Option.some.inj h
    exact ⟨rfl, fun i hi => absurd hi (by simp)⟩
  | cons x l ih =>
    rw [List.mapM_cons] at h
    obtain ⟨r, hr, h⟩ := Option.bind_eq_some_iff.1 h
    obtain ⟨rs, hrs, h⟩ := Option.bind_eq_some_iff.1 h
    obtain rfl := Option.some.inj h
    obtain ⟨h1, h2⟩ := ih rs hrs
    refine ⟨by simp [h1], ?_⟩
    intro i hi hi'
    cases i with
    | zero => exact hr
    | succ i => exact h2 i (by simpa using hi) (by simpa using hi')

/-- **C185.** With a base model (given or trained by the first run) a run of `n` perturbations succeeds exactly if the pool starts and no
perturbation fails; then entry `i` of the results is the perturbation of the base model with the `i`-th draw, whatever the order in which the
workers finish. If it fails, earlier results stay. The generator moves by `n` draws if the pool starts, also when a perturbation fails, and not
at all otherwise, so that the next run uses the next draws. The base model is trained at most once and kept even if the run fails; it is not trained
again when `V`, `U` or the settings were changed in between. -/
theorem C185_run (E : PtEnv G S M X) (pool : ℤ) (n : ℕ) (o : PtObj G M X) (b : M) (hb : o.base.or E.trainBase = some b) :
    (ptRun E pool n o).1.base = some b ∧
    ((ptRun E pool n o).2 = true ↔ 1 ≤ pool ∧ ∀ i, 1 ≤ i → i ≤ n → ∃ r, E.perturb b (NthDraw E.draw o.rng i) = some r) ∧
    ((ptRun E pool n o).2 = true → ∃ ms, (ptRun E pool n o).1.models = some ms ∧ ms.length = n ∧
      ∀ i (h : i < ms.length), E.perturb b (NthDraw E.draw o.rng (i + 1)) = some ms[i]) ∧
    ((ptRun E pool n o).2 = false → (ptRun E pool n o).1.models = o.models) ∧
    (ptRun E pool n o).1.rng = (if 1 ≤ pool then (fun g => (E.draw g).2)^[n] o.rng else o.rng) ∧
    (∀ E' : PtEnv G S M X, (ptRun E' pool n (ptRun E pool n o).1).1.base = some b) := by
  have hbase : ∀ (E : PtEnv G S M X) (o : PtObj G M X), o.base.or E.trainBase = some b → (ptRun E pool n o).1.base = some b := by
    intro E o hb
    unfold ptRun
    simp only [hb]
    split_ifs
    · cases (List.mapM (fun t => E.perturb b t.2) (bsTasks E.draw n 0 o.rng).1) <;> rfl
    · rfl
  have hmapM : (bsTasks E.draw n 0 o.rng).1.mapM (fun t => E.perturb b t.2)
      = ((List.range n).map fun t => NthDraw E.draw o.rng (t + 1)).mapM (E.perturb b) := by
    rw [← (bsTasks_zero E.draw n 0 o.rng).1, List.mapM_map]
    rfl
  have hsome : ∀ ms, ((List.range n).map fun t => NthDraw E.draw o.rng (t + 1)).mapM (E.perturb b) = some ms →
      ms.length = n ∧ ∀ i (h : i < ms.length), E.perturb b (NthDraw E.draw o.rng (i + 1)) = some ms[i] := by
    intro ms h
    obtain ⟨h1, h2⟩ := mapM_some_get _ _ _ h
    have hlen : ms.length = n := by simpa using h1
    refine ⟨hlen, ?_⟩
    intro i hi
    have h3 := h2 i (by simpa [hlen] using hi) hi
    simpa using h3
  refine ⟨hbase E o hb, ?_, ?_, ?_, ?_, ?_⟩
  rotate_left 3
  · unfold ptRun
    simp only [hb]
    by_cases hp : poolStarts pool = true
    · rw [if_pos hp, if_pos ((poolStarts_iff _).1 hp), ← (bsTasks_zero E.draw n 0 o.rng).2]
      cases (List.mapM (fun t => E.perturb b t.2) (bsTasks E.draw n 0 o.rng).1) <;> rfl
    · rw [if_neg hp, if_neg fun h => hp ((poolStarts_iff _).2 h)]
  rotate_left 1
  · unfold ptRun
    simp only [hb, hmapM]
    by_cases hp : poolStarts pool = true
    · rw [if_pos hp]
      cases hm : ((List.range n).map fun t => NthDraw E.draw o.rng (t + 1)).mapM (E.perturb b) with
      | some ms =>
        simp only [true_iff]
        refine ⟨(poolStarts_iff _).1 hp, ?_⟩
        intro i h1 h2
        obtain ⟨hl, hget⟩ := hsome ms hm
        refine ⟨ms[i - 1]'(by omega), ?_⟩
        have := hget (i - 1) (by omega)
        rwa [show i - 1 + 1 = i by omega] at this
      | none =>
        simp only [Bool.false_eq_true, false_iff]
        rintro ⟨-, hall⟩
        have hx : ∀ x ∈ (List.range n).map fun t => NthDraw E.draw o.rng (t + 1), (E.perturb b x).isSome = true := by
          intro x hx
          obtain ⟨t, ht, rfl⟩ := List.mem_map.1 hx
          have := List.mem_range.1 ht
          obtain ⟨r, hr⟩ := hall (t + 1) (by omega) (by omega)
          rw [hr]; rfl
        have hs : (((List.range n).map fun t => NthDraw E.draw o.rng (t + 1)).mapM (E.perturb b)).isSome = true := by
          clear hm hmapM hsome hall
          generalize ((List.range n).map fun t => NthDraw E.draw o.rng (t + 1)) = l at hx
          induction l with
          | nil => rfl
          | cons x l ih =>
            rw [List.mapM_cons]
            obtain ⟨r, hr⟩ := Option.isSome_iff_exists.1 (hx x List.mem_cons_self)
            obtain ⟨rs, hrs⟩ := Option.isSome_iff_exists.1 (ih fun y hy => hx y (List.mem_cons_of_mem _ hy))
            simp [hr, hrs]
        rw [hm] at hs
        exact absurd hs (by simp)
    · rw [if_neg hp]
      simp only [Bool.false_eq_true, false_iff]
      rintro ⟨h, -⟩
      exact hp ((poolStarts_iff _).2 h)
  · intro h
    unfold ptRun at h ⊢
    simp only [hb, hmapM] at h ⊢
    by_cases hp : poolStarts pool = true
    · rw [if_pos hp] at h ⊢
      cases hm : ((List.range n).map fun t => NthDraw E.draw o.rng (t + 1)).mapM (E.perturb b) with
      | none => simp [hm] at h
      | some ms => exact ⟨ms, rfl, hsome ms hm⟩
    · rw [if_neg hp] at h
      simp at h
  · intro h
    unfold ptRun at h ⊢
    simp only [hb, hmapM] at h ⊢
    by_cases hp : poolStarts pool = true
    · rw [if_pos hp] at h ⊢
      cases hm : ((List.range n).map fun t => NthDraw E.draw o.rng (t + 1)).mapM (E.perturb b) with
      | none => rfl
      | some ms => simp [hm] at h
    · rw [if_neg hp]
  · intro E'
    exact hbase E' _ (by rw [hbase E o hb]; rfl)

end run

section fig
variable {K : Type*} [Field K] [LinearOrder K] [IsStrictOrderedRing K] {m k N : ℕ}

theorem rowShares_sum (W : Mat m k K) (t : Fin m) (h : ∑ b, W t b ≠ 0) : ∑ a, rowShares W t a = 1 := by
  unfold rowShares
  rw [← Finset.sum_div, div_self h]

/-- The total of the bars. -/
theorem perturbBars_total (ws : Fin N → Mat m k K) (maps : Fin N → Fin k → Fin k) :
    ∑ i, perturbBars ws maps i = 100 * ((∑ p, ∑ t, ∑ i, rowShares (ws p) t (maps p i)) / ((m : K) * N)) := by
  unfold perturbBars alignedShares
  rw [← Finset.mul_sum, ← Finset.sum_div]
  congr 2
  rw [Finset.sum_comm]
  calc ∑ t, ∑ i, ∑ p, rowShares (ws p) t (maps p i) = ∑ t, ∑ p, ∑ i, rowShares (ws p) t (maps p i) := by
        apply Finset.sum_congr rfl; intro t _; rw [Finset.sum_comm]
    _ = _ := Finset.sum_comm

/-- **C185.** The bars of the base model add up to 100. Those of the perturbed models add up to 100 for all positive contributions exactly if
every factor mapping is a permutation (which `determine_map` does not ensure: C67). -/
theorem C185_bars_total (hm : 0 < m) (hN : 0 < N) :
    (∀ W : Mat m k K, (∀ t, ∑ b, W t b ≠ 0) → ∑ i, baseBars W i = 100) ∧
    ∀ maps : Fin N → Fin k → Fin k, (∀ ws : Fin N → Mat m k K, (∀ p t a, 0 < ws p t a) → (0 < k → ∑ i, perturbBars ws maps i = 100)) ↔
      ∀ p, Function.Bijective (maps p) := by
  have hmK : (m : K) ≠ 0 := Nat.cast_ne_zero.2 hm.ne'
  have hNK : (N : K) ≠ 0 := Nat.cast_ne_zero.2 hN.ne'
  constructor
  · intro W hW
    unfold baseBars
    rw [← Finset.mul_sum, ← Finset.sum_div, Finset.sum_comm, Finset.sum_congr rfl fun t _ => rowShares_sum W t (hW t)]
    simp [hmK]
  · intro maps
    constructor
    · intro h p
      by_contra hb
      have hk : 0 < k := by
        rcases Nat.eq_zero_or_pos k with rfl | hk
        · exact absurd ⟨fun a => a.elim0, fun a => a.elim0⟩ hb
        · exact hk
      have hsurj : ¬ Function.Surjective (maps p) := fun hs => hb (Finite.injective_iff_bijective.1 (Finite.injective_iff_surjective.2 hs))
      unfold Function.Surjective at hsurj
      push Not at hsurj
      obtain ⟨c, hc⟩ := hsurj
      set ws : Fin N → Mat m k K := fun q _ a => if q = p ∧ a = c then 2 else 1 with hws
      have hpos : ∀ q t a, 0 < ws q t a := by
        intro q t a
        simp only [hws]
        split_ifs <;> norm_num
      have hkK : (k : K) ≠ 0 := Nat.cast_ne_zero.2 hk.ne'
      have htot := h ws hpos hk
      rw [perturbBars_total] at htot
      have hother : ∀ q, q ≠ p → ∀ t, ∑ i, rowShares (ws q) t (maps q i) = 1 := by
        intro q hq t
        have : ∀ a, ws q t a = 1 := fun a => by simp [hws, hq]
        unfold rowShares
        simp [this, hkK]
      have hself : ∀ t, ∑ i, rowShares (ws p) t (maps p i) = k / (k + 1) := by
        intro t
        have hden : ∑ b, ws p t b = (k : K) + 1 := by
          have : ∀ b, ws p t b = 1 + if b = c then 1 else 0 := by
            intro b
            simp only [hws, true_and]
            split_ifs <;> norm_num
          simp only [this]
          rw [Finset.sum_add_distrib, Finset.sum_ite_eq' Finset.univ c]
          simp
        have hnum : ∀ i, ws p t (maps p i) = 1 := fun i => by
          simp only [hws, true_and, if_neg (hc i)]
        unfold rowShares
        simp only [hnum, hden]
        rw [Finset.sum_const, Finset.card_univ, Fintype.card_fin, nsmul_eq_mul]
        ring
      have hsum : ∑ q, ∑ t, ∑ i, rowShares (ws q) t (maps q i) = (N : K) * m - m / (k + 1) := by
        have hterm : ∀ q, ∑ t, ∑ i, rowShares (ws q) t (maps q i) = (m : K) - if q = p then (m : K) / (k + 1) else 0 := by
          intro q
          have hk1 : (k : K) + 1 ≠ 0 := by positivity
          by_cases hq : q = p
          · subst hq
            rw [Finset.sum_congr rfl fun t _ => hself t, Finset.sum_const, Finset.card_univ, Fintype.card_fin, nsmul_eq_mul, if_pos rfl]
            field_simp
            ring
          · rw [Finset.sum_congr rfl fun t _ => hother q hq t, if_neg hq]
            simp
        rw [Finset.sum_congr rfl fun q _ => hterm q, Finset.sum_sub_distrib, Finset.sum_ite_eq' Finset.univ p]
        simp
      rw [hsum] at htot
      have hk1 : (0 : K) < (k : K) + 1 := by positivity
      have hmpos : (0 : K) < m := Nat.cast_pos.2 hm
      have hdiv : (0 : K) < m / (k + 1) := div_pos hmpos hk1
      have hone : ((N : K) * m - m / (k + 1)) / ((m : K) * N) = 1 := by linarith
      rw [div_eq_one_iff_eq (mul_ne_zero hmK hNK)] at hone
      have : (N : K) * m = m * N := mul_comm _ _
      linarith
    · intro h ws hws hk
      rw [perturbBars_total]
      have : ∀ p t, ∑ i, rowShares (ws p) t (maps p i) = 1 := by
        intro p t
        rw [(h p).sum_comp fun a => rowShares (ws p) t a]
        apply rowShares_sum
        exact (Finset.sum_pos (fun a _ => hws p t a) ⟨⟨0, hk⟩, Finset.mem_univ _⟩).ne'
      simp only [this]
      simp
      field_simp

/-- **C185.** If the perturbed models have the contributions of the base model with factors renamed, and the maps undo the renaming, bars and boxes
show the base model. -/
theorem C185_same (W : Mat m k K) (σ : Fin N → Fin k ≃ Fin k) (hN : 0 < N) (i : Fin k) :
    perturbBars (fun p t a => W t (σ p a)) (fun p => (σ p).symm) i = baseBars W i ∧
    ∀ p, 100 * contributionBox (fun p t a => W t (σ p a)) (fun p => (σ p).symm) i p = baseBars W i := by
  have hNK : (N : K) ≠ 0 := Nat.cast_ne_zero.2 hN.ne'
  have hsh : ∀ t p, alignedShares (fun p t a => W t (σ p a)) (fun p => (σ p).symm) i t p = rowShares W t i := by
    intro t p
    unfold alignedShares rowShares
    dsimp only
    rw [Equiv.apply_symm_apply, Equiv.sum_comp (σ p) fun b => W t b]
  constructor
  · unfold perturbBars baseBars
    simp only [hsh]
    rw [Finset.sum_congr rfl fun t _ => Finset.sum_const _]
    simp only [Finset.card_univ, Fintype.card_fin, nsmul_eq_mul]
    rw [← Finset.mul_sum]
    congr 1
    rcases Nat.eq_zero_or_pos m with rfl | hm
    · simp
    · have hmK : (m : K) ≠ 0 := Nat.cast_ne_zero.2 hm.ne'
      field_simp
  · intro p
    unfold contributionBox baseBars
    simp only [hsh]

/-- **C185.** The box labelled Factor `i` of the correlation figure holds the metric of factor `maps p i`, so that it is the metric of factor `i`
for all metrics exactly if all maps are the identity. The horizontal line is the mean of all metrics, for all metrics, exactly if all maps are
permutations.

**Disagreement.** `perturb_correlations` is already in the order of the base factors; arranging it by the mapping once more puts values into
the wrong boxes. -/
theorem C185_metrics (maps : Fin N → Fin k → Fin k) (hN : 0 < N) :
    ((∀ (metric : Fin N → Fin k → K) i p, metricBox metric maps i p = metric p i) ↔ ∀ p i, maps p i = i) ∧
    (0 < k → ((∀ metric : Fin N → Fin k → K, metricLine metric maps = (∑ p, ∑ i, metric p i) / ((N : K) * k)) ↔
      ∀ p, Function.Bijective (maps p))) := by
  have hNK : (N : K) ≠ 0 := Nat.cast_ne_zero.2 hN.ne'
  constructor
  · constructor
    · intro h p i
      have := h (fun _ a => if a = i then 1 else 0) i p
      unfold metricBox at this
      dsimp only at this
      rw [if_pos rfl] at this
      by_contra hne
      rw [if_neg hne] at this
      exact zero_ne_one this
    · intro h metric i p
      unfold metricBox
      rw [h]
  · intro hk
    have hkK : (k : K) ≠ 0 := Nat.cast_ne_zero.2 hk.ne'
    unfold metricLine metricBox
    constructor
    · intro h p
      rw [← Finite.injective_iff_bijective, Finite.injective_iff_surjective]
      intro c
      by_contra hc
      push Not at hc
      have h1 := h fun q a => if q = p ∧ a = c then 1 else 0
      rw [div_left_inj' (mul_ne_zero hNK hkK)] at h1
      have hl : (∑ q, ∑ i, if q = p ∧ maps q i = c then (1 : K) else 0) = 0 := by
        apply Finset.sum_eq_zero
        intro q _
        apply Finset.sum_eq_zero
        intro i _
        rw [if_neg]
        rintro ⟨rfl, e⟩
        exact hc i e
      have hr : (∑ q, ∑ i, if q = p ∧ i = c then (1 : K) else 0) = 1 := by
        rw [Finset.sum_eq_single p]
        · simp
        · intro q _ hq
          simp [hq]
        · simp
      rw [hl, hr] at h1
      exact zero_ne_one h1
    · intro h metric
      congr 1
      apply Finset.sum_congr rfl
      intro p _
      exact (h p).sum_comp fun a => metric p a

/-- Two factors, one model that has exchanged them: the boxes are exchanged; a map that is no permutation gives bars with total 50. -/
example :
    metricBox (fun _ a => if a = 0 then (9 / 10 : ℚ) else 1 / 10) (fun _ : Fin 1 => ![1, 0]) 0 0 = 1 / 10 ∧
    perturbBars (fun (_ : Fin 1) (_ : Fin 1) (a : Fin 2) => if a = 0 then (1 : ℚ) else 3) (fun _ => ![0, 0]) 0
      + perturbBars (fun (_ : Fin 1) (_ : Fin 1) (a : Fin 2) => if a = 0 then (1 : ℚ) else 3) (fun _ => ![0, 0]) 1 = 50 := by
  decide +kernel

end fig

/-- Three perturbations with draws 0, 1, 2; a second run keeps the base model and goes on with draw 3; on one processor the run fails. -/
example :
    let E : PtEnv ℕ ℕ ℕ ℕ := ⟨fun g => (g, g + 1), some 100, fun b s => some (b + s, s)⟩
    (ptRun E 3 3 ⟨0, none, none⟩).1.models = some [(100, 0), (101, 1), (102, 2)] ∧
    (ptRun { E with trainBase := some 200 } 3 1 (ptRun E 3 3 ⟨0, none, none⟩).1).1.models = some [(103, 3)] ∧
    (ptRun E 0 3 ⟨0, none, none⟩).2 = false ∧ (ptRun E 0 3 ⟨0, none, none⟩).1.base = some 100 :=
  ⟨rfl, rfl, rfl, rfl⟩

end Esat
