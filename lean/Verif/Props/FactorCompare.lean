import Verif.Model.FactorCompare
import Verif.Lemmas.MapM
import Verif.Lemmas.Correlation
import Mathlib.Data.List.Perm.Basic
import Mathlib.Algebra.BigOperators.Fin
import Mathlib.Data.List.OfFn
import Mathlib.Data.Fin.VecNotation
import Mathlib.Tactic.FinCases
import Mathlib.Tactic.Linarith
import Mathlib.Tactic.NormNum
import Mathlib.Tactic.Ring
import Mathlib.Tactic.FieldSimp
import Mathlib.Algebra.BigOperators.Ring.Finset

/-!
# Properties of the factor comparison: C66, C67, C100–C103
-/

namespace Esat

/-! ### Specification -/

section spec
variable {K : Type*} [Field K] [LinearOrder K]

/-- `s` is the mean of `r` finite numbers. -/
def IsMeanOf {r : ℕ} (T : Fin r → Option K) (s : K) : Prop :=
  ∃ v : Fin r → K, (∀ i, T i = some (v i)) ∧ 0 < r ∧ s = (∑ i, v i) / r

/-- `s` is the average the chosen method assigns to `r` matched pairs with the given squared correlations of the profiles, the
contributions and the products. -/
def IsScore {r : ℕ} (method : CmpMethod) (h w wh : Fin r → Option K) (s : K) : Prop :=
  match method with
  | .all => ∃ a b c, IsMeanOf h a ∧ IsMeanOf w b ∧ IsMeanOf wh c ∧ s = (a + b + c) / 3
  | .W => IsMeanOf w s
  | .H => IsMeanOf h s
  | .WH => IsMeanOf wh s

end spec

/-! ### Permutations -/

theorem mem_pyPerms {α : Type*} [DecidableEq α] : ∀ (r : ℕ) (l : List α), l.Nodup →
    ∀ p, p ∈ pyPerms r l ↔ p.Nodup ∧ p.length = r ∧ ∀ a ∈ p, a ∈ l := by
  intro r
  induction r with
  | zero =>
    intro l _ p
    simp only [pyPerms, List.mem_singleton]
    constructor
    · rintro rfl; simp
    · rintro ⟨-, h, -⟩; exact List.length_eq_zero_iff.mp h
  | succ r ih =>
    intro l hl p
    simp only [pyPerms, List.mem_flatMap, List.mem_map]
    constructor
    · rintro ⟨a, ha, q, hq, rfl⟩
      rw [ih _ (hl.erase a)] at hq
      obtain ⟨h1, h2, h3⟩ := hq
      refine ⟨List.nodup_cons.mpr ⟨fun h => ?_, h1⟩, by simp [h2], ?_⟩
      · exact (hl.mem_erase_iff.mp (h3 a h)).1 rfl
      · intro b hb
        rcases List.mem_cons.mp hb with rfl | hb
        · exact ha
        · exact List.mem_of_mem_erase (h3 b hb)
    · rintro ⟨h1, h2, h3⟩
      cases p with
      | nil => simp at h2
      | cons a q =>
        refine ⟨a, h3 a (by simp), q, ?_, rfl⟩
        rw [ih _ (hl.erase a)]
        obtain ⟨h4, h5⟩ := List.nodup_cons.mp h1
        refine ⟨h5, by simpa using h2, ?_⟩
        intro b hb
        rw [hl.mem_erase_iff]
        exact ⟨fun e => h4 (e ▸ hb), h3 b (by simp [hb])⟩

/-- The permutations of `r` out of `range n` are the one-to-one maps from `r` to `n`. -/
theorem mem_pyPerms_range (r n : ℕ) (p : List ℕ) :
    p ∈ pyPerms r (List.range n) ↔ ∃ σ : Fin r → Fin n, Function.Injective σ ∧ p = List.ofFn fun i => (σ i).1 := by
  rw [mem_pyPerms r _ List.nodup_range]
  constructor
  · rintro ⟨h1, rfl, h3⟩
    refine ⟨fun i => ⟨p[i.1], List.mem_range.mp (h3 _ (List.getElem_mem _))⟩, ?_, ?_⟩
    · intro i j h
      simp only [Fin.mk.injEq] at h
      exact Fin.ext ((List.Nodup.getElem_inj_iff h1).mp h)
    · exact (List.ofFn_getElem (xs := p)).symm
  · rintro ⟨σ, hσ, rfl⟩
    refine ⟨?_, by simp, ?_⟩
    · rw [List.nodup_ofFn]
      exact fun i j h => hσ (Fin.ext h)
    · intro a ha
      obtain ⟨i, rfl⟩ := (List.mem_ofFn' _ _).mp ha
      exact List.mem_range.mpr (σ i).2

section scores
variable {K : Type*} [Field K] [LinearOrder K]

theorem mapM_id_ofFn {r : ℕ} (T : Fin r → Option K) (v : List K) :
    (List.ofFn T).mapM id = some v ↔ ∃ g : Fin r → K, (∀ i, T i = some (g i)) ∧ v = List.ofFn g := by
  induction r generalizing v with
  | zero =>
    simp only [List.ofFn_zero, List.mapM_nil, Option.pure_def, Option.some.injEq]
    constructor
    · rintro rfl; exact ⟨fun i => i.elim0, fun i => i.elim0, rfl⟩
    · rintro ⟨g, -, rfl⟩; rfl
  | succ r ih =>
    rw [List.ofFn_succ, List.mapM_cons]
    cases h0 : T 0 with
    | none =>
      simp only [id, Option.bind_eq_bind, Option.bind_none, reduceCtorEq, false_iff]
      rintro ⟨g, hg, -⟩
      rw [hg 0] at h0
      cases h0
    | some a =>
      simp only [id, Option.bind_eq_bind, Option.bind_some, Option.pure_def, Option.bind_eq_some_iff, Option.some.injEq]
      constructor
      · rintro ⟨w, hw, rfl⟩
        obtain ⟨g, hg, rfl⟩ := (ih _ _).mp hw
        refine ⟨Fin.cons a g, ?_, by rw [List.ofFn_succ]; rfl⟩
        intro i
        refine Fin.cases ?_ (fun i => ?_) i
        · exact h0
        · exact hg i
      · rintro ⟨g, hg, rfl⟩
        refine ⟨List.ofFn fun i => g i.succ, (ih _ _).mpr ⟨_, fun i => hg i.succ, rfl⟩, ?_⟩
        rw [hg 0] at h0
        cases h0
        rw [List.ofFn_succ]

theorem rValues_ofFn {r : ℕ} (baseK : Bool) (T : ℕ → ℕ → Option K) (g : Fin r → ℕ) :
    rValues baseK T (List.ofFn g) = List.ofFn fun i => if baseK then T (g i) i.1 else T i.1 (g i) := by
  unfold rValues
  apply List.ext_getElem
  · simp
  · intro i h1 h2
    simp

theorem npMeanOpt_ofFn {r : ℕ} (T : Fin r → Option K) (s : K) : npMeanOpt (List.ofFn T) = some s ↔ IsMeanOf T s := by
  unfold npMeanOpt IsMeanOf
  by_cases hr : r = 0
  · subst hr; simp
  · have : List.ofFn T ≠ [] := fun h => hr (List.ofFn_eq_nil_iff.mp h)
    rw [if_neg this, Option.map_eq_some_iff]
    constructor
    · rintro ⟨v, hv, rfl⟩
      obtain ⟨g, hg, rfl⟩ := (mapM_id_ofFn T v).mp hv
      exact ⟨g, hg, Nat.pos_of_ne_zero hr, by rw [List.sum_ofFn, List.length_ofFn]⟩
    · rintro ⟨g, hg, -, rfl⟩
      exact ⟨_, (mapM_id_ofFn T _).mpr ⟨g, hg, rfl⟩, by rw [List.sum_ofFn, List.length_ofFn]⟩

theorem permScore_iff {r : ℕ} (method : CmpMethod) (baseK : Bool) (t : CorrTables K) (g : Fin r → ℕ) (s : K) :
    permScore method baseK t (List.ofFn g) = some s ↔
      IsScore method (fun i => if baseK then t.h (g i) i.1 else t.h i.1 (g i))
        (fun i => if baseK then t.w (g i) i.1 else t.w i.1 (g i))
        (fun i => if baseK then t.wh (g i) i.1 else t.wh i.1 (g i)) s := by
  unfold permScore IsScore
  simp only [rValues_ofFn]
  cases method with
  | all =>
    simp only [Option.bind_eq_some_iff, Option.map_eq_some_iff, npMeanOpt_ofFn]
    constructor
    · rintro ⟨a, ha, b, hb, c, hc, rfl⟩; exact ⟨a, b, c, ha, hb, hc, rfl⟩
    · rintro ⟨a, b, c, ha, hb, hc, rfl⟩; exact ⟨a, ha, b, hb, c, hc, rfl⟩
  | W => exact npMeanOpt_ofFn _ _
  | H => exact npMeanOpt_ofFn _ _
  | WH => exact npMeanOpt_ofFn _ _

/-- The running maximum: afterwards the value bounds the start and all scores, and is either the start or a score. -/
theorem cmpStep_foldl {α : Type*} (score : α → Option K) : ∀ (l : List α) (st : K × Option α),
    st.1 ≤ (l.foldl (cmpStep score) st).1 ∧
    (∀ a ∈ l, ∀ s, score a = some s → s ≤ (l.foldl (cmpStep score) st).1) ∧
    ((l.foldl (cmpStep score) st) = st ∨
      ∃ a ∈ l, (l.foldl (cmpStep score) st).2 = some a ∧ score a = some (l.foldl (cmpStep score) st).1 ∧
        st.1 < (l.foldl (cmpStep score) st).1) := by
  intro l
  induction l with
  | nil => intro st; simp
  | cons a l ih =>
    intro st
    rw [List.foldl_cons]
    obtain ⟨h1, h2, h3⟩ := ih (cmpStep score st a)
    have hstep : (score a = some (cmpStep score st a).1 ∧ (cmpStep score st a).2 = some a ∧ st.1 < (cmpStep score st a).1) ∨
        (cmpStep score st a = st ∧ ∀ s, score a = some s → s ≤ st.1) := by
      unfold cmpStep
      cases hs : score a with
      | none => right; simp
      | some s =>
        simp only
        split
        · next h => left; exact ⟨rfl, rfl, h⟩
        · next h => right; exact ⟨rfl, fun s' e => by cases e; exact not_lt.mp h⟩
    generalize cmpStep score st a = st' at h1 h2 h3 hstep
    rcases hstep with ⟨e1, e2, e3⟩ | ⟨rfl, e⟩
    · refine ⟨le_trans e3.le h1, ?_, ?_⟩
      · intro b hb s hs
        rcases List.mem_cons.mp hb with rfl | hb
        · rw [e1] at hs; cases hs; exact h1
        · exact h2 b hb s hs
      · right
        rcases h3 with h3 | ⟨b, hb, f1, f2, f3⟩
        · rw [h3]; exact ⟨a, by simp, e2, e1, e3⟩
        · exact ⟨b, by simp [hb], f1, f2, lt_trans e3 f3⟩
    · refine ⟨h1, ?_, ?_⟩
      · intro b hb s hs
        rcases List.mem_cons.mp hb with rfl | hb
        · exact le_trans (e s hs) h1
        · exact h2 b hb s hs
      · rcases h3 with h3 | ⟨b, hb, f⟩
        · exact Or.inl h3
        · exact Or.inr ⟨b, by simp [hb], f⟩

/-- The common part of both directions: the result is one of the candidates, with a positive score which bounds all others. -/
theorem compareFactors_spec (M B S : ℕ) (t : ℕ → CorrTables K) (method : CmpMethod) (res : CompareResult K)
    (h : compareFactors M B S t method = some res) (perms : List (List ℕ))
    (hp : perms = if S ≤ B then pyPerms S (List.range B) else pyPerms B (List.range S)) :
    res.baseK = decide (S ≤ B) ∧ res.model < M ∧ res.factorMap ∈ perms ∧
      permScore method (decide (S ≤ B)) (t res.model) res.factorMap = some res.avg ∧ 0 < res.avg ∧
      ∀ m < M, ∀ p ∈ perms, ∀ s, permScore method (decide (S ≤ B)) (t m) p = some s → s ≤ res.avg := by
  unfold compareFactors at h
  simp only [← hp, Option.map_eq_some_iff] at h
  obtain ⟨a, ha, rfl⟩ := h
  obtain ⟨-, h2, h3⟩ := cmpStep_foldl (fun a : ℕ × List ℕ => permScore method (decide (S ≤ B)) (t a.1) a.2)
    ((List.range M).flatMap fun m => perms.map fun p => (m, p)) ((0 : K), none)
  rcases h3 with h3 | ⟨b, hb, e1, e2, e3⟩
  · rw [h3] at ha; cases ha
  · rw [e1] at ha
    cases ha
    simp only [List.mem_flatMap, List.mem_range, List.mem_map] at hb
    obtain ⟨m, hm, p, hpm, rfl⟩ := hb
    refine ⟨rfl, hm, hpm, e2, e3, ?_⟩
    intro m' hm' p' hp' s hs
    exact h2 (m', p') (by simp only [List.mem_flatMap, List.mem_range, List.mem_map]; exact ⟨m', hm', p', hp', rfl⟩) s hs

/-- **C66**, at least as many base factors as model factors: the reported map is a one-to-one assignment of a base factor to
each model factor, the reported average is its score in the reported model, and no assignment in any model has a higher
score. -/
theorem C66_best_assignment (M B S : ℕ) (hBS : S ≤ B) (t : ℕ → CorrTables K) (method : CmpMethod) (res : CompareResult K)
    (h : compareFactors M B S t method = some res) :
    ∃ σ : Fin S → Fin B, Function.Injective σ ∧ (res.factorMap = List.ofFn fun i => (σ i).1) ∧ res.model < M ∧
      IsScore method (fun i => (t res.model).h (σ i) i) (fun i => (t res.model).w (σ i) i)
        (fun i => (t res.model).wh (σ i) i) res.avg ∧
      ∀ m < M, ∀ τ : Fin S → Fin B, Function.Injective τ → ∀ s,
        IsScore method (fun i => (t m).h (τ i) i) (fun i => (t m).w (τ i) i) (fun i => (t m).wh (τ i) i) s →
        s ≤ res.avg := by
  obtain ⟨-, h1, h2, h3, -, h5⟩ := compareFactors_spec M B S t method res h _ rfl
  simp only [hBS, if_true, decide_true] at h2 h3 h5
  obtain ⟨σ, hσ, hm⟩ := (mem_pyPerms_range S B _).mp h2
  rw [hm, permScore_iff] at h3
  refine ⟨σ, hσ, hm, h1, by simpa using h3, ?_⟩
  intro m hm' τ hτ s hs
  refine h5 m hm' _ ((mem_pyPerms_range S B _).mpr ⟨τ, hτ, rfl⟩) s ?_
  rw [permScore_iff]
  simpa using hs

/-- **C66**, fewer base factors than model factors: the map is a one-to-one assignment of a model factor to each base factor, and
it is the best one. -/
theorem C66_best_assignment_more_model_factors (M B S : ℕ) (hBS : B < S) (t : ℕ → CorrTables K) (method : CmpMethod)
    (res : CompareResult K) (h : compareFactors M B S t method = some res) :
    ∃ σ : Fin B → Fin S, Function.Injective σ ∧ (res.factorMap = List.ofFn fun i => (σ i).1) ∧ res.model < M ∧
      IsScore method (fun i => (t res.model).h i (σ i)) (fun i => (t res.model).w i (σ i))
        (fun i => (t res.model).wh i (σ i)) res.avg ∧
      ∀ m < M, ∀ τ : Fin B → Fin S, Function.Injective τ → ∀ s,
        IsScore method (fun i => (t m).h i (τ i)) (fun i => (t m).w i (τ i)) (fun i => (t m).wh i (τ i)) s →
        s ≤ res.avg := by
  have hBS' : ¬ S ≤ B := by omega
  obtain ⟨-, h1, h2, h3, -, h5⟩ := compareFactors_spec M B S t method res h _ rfl
  simp only [hBS', if_false, decide_false] at h2 h3 h5
  obtain ⟨σ, hσ, hm⟩ := (mem_pyPerms_range B S _).mp h2
  rw [hm, permScore_iff] at h3
  refine ⟨σ, hσ, hm, h1, by simpa using h3, ?_⟩
  intro m hm' τ hτ s hs
  refine h5 m hm' _ ((mem_pyPerms_range B S _).mpr ⟨τ, hτ, rfl⟩) s ?_
  rw [permScore_iff]
  simpa using hs

/-- **C66, when a result exists**: exactly when some assignment in some model has a positive average. -/
theorem C66_result_iff (M B S : ℕ) (hBS : S ≤ B) (t : ℕ → CorrTables K) (method : CmpMethod) :
    (compareFactors M B S t method).isSome ↔
      ∃ m < M, ∃ τ : Fin S → Fin B, Function.Injective τ ∧ ∃ s, 0 < s ∧
        IsScore method (fun i => (t m).h (τ i) i) (fun i => (t m).w (τ i) i) (fun i => (t m).wh (τ i) i) s := by
  constructor
  · intro h
    obtain ⟨res, h⟩ := Option.isSome_iff_exists.mp h
    obtain ⟨σ, h1, -, h3, h4, -⟩ := C66_best_assignment M B S hBS t method res h
    obtain ⟨-, -, -, -, h5, -⟩ := compareFactors_spec M B S t method res h _ rfl
    exact ⟨_, h3, σ, h1, _, h5, h4⟩
  · rintro ⟨m, hm, τ, hτ, s, hs, hsc⟩
    unfold compareFactors
    simp only [hBS, if_true, decide_true, Option.isSome_map]
    obtain ⟨-, h2, h3⟩ := cmpStep_foldl (fun a : ℕ × List ℕ => permScore method true (t a.1) a.2)
      ((List.range M).flatMap fun m => (pyPerms S (List.range B)).map fun p => (m, p)) ((0 : K), none)
    rcases h3 with h3 | ⟨b, -, e1, -⟩
    · have := h2 (m, List.ofFn fun i => (τ i).1)
        (by simp only [List.mem_flatMap, List.mem_range, List.mem_map]
            exact ⟨m, hm, _, (mem_pyPerms_range S B _).mpr ⟨τ, hτ, rfl⟩, rfl⟩) s
        (by simp only; rw [permScore_iff]; simpa using hsc)
      rw [h3] at this
      exact absurd this (not_le.mpr hs)
    · rw [e1]; rfl

/-- **C66 refuted, undefined correlations**: if one model factor has an undefined correlation with every base factor (a constant
profile), `compare` raises instead of reporting a map, whatever the other correlations. -/
theorem C66_constant_factor_refuted (M B S : ℕ) (hBS : S ≤ B) (t : ℕ → CorrTables K) (j : Fin S)
    (hj : ∀ m < M, ∀ b, (t m).h b j = none) : compareFactors M B S t .all = none := by
  rw [← Option.not_isSome_iff_eq_none, C66_result_iff M B S hBS]
  rintro ⟨m, hm, τ, -, s, -, a, b, c, ⟨v, hv, -⟩, -⟩
  have := hv j
  simp only [hj m hm] at this
  cases this

/-- **C66, results of the single models**: the stored average of a model bounds the score of each of its assignments. -/
theorem C66_model_results (M B S : ℕ) (hBS : S ≤ B) (t : ℕ → CorrTables K) (method : CmpMethod) (res : CompareResult K)
    (h : compareFactors M B S t method = some res) (m : ℕ) (hm : m < M) (τ : Fin S → Fin B) (hτ : Function.Injective τ) (s : K)
    (hs : IsScore method (fun i => (t m).h (τ i) i) (fun i => (t m).w (τ i) i) (fun i => (t m).wh (τ i) i) s) (hs0 : 0 < s) :
    ∃ a p, res.results m = some (a, p) ∧ s ≤ a ∧ a ≤ res.avg ∧ ∃ σ : Fin S → Fin B, Function.Injective σ ∧
      (p = List.ofFn fun i => (σ i).1) ∧
      IsScore method (fun i => (t m).h (σ i) i) (fun i => (t m).w (σ i) i) (fun i => (t m).wh (σ i) i) a := by
  obtain ⟨-, -, -, -, -, hle⟩ := compareFactors_spec M B S t method res h _ rfl
  unfold compareFactors at h
  simp only [hBS, if_true, decide_true, Option.map_eq_some_iff] at h hle
  obtain ⟨x, -, rfl⟩ := h
  simp only [not_le.mpr hm, if_false]
  obtain ⟨-, h2, h3⟩ := cmpStep_foldl (fun p : List ℕ => permScore method true (t m) p) (pyPerms S (List.range B)) ((0 : K), none)
  have hb := h2 _ ((mem_pyPerms_range S B _).mpr ⟨τ, hτ, rfl⟩) s (by rw [permScore_iff]; simpa using hs)
  rcases h3 with h3 | ⟨p, hp, e1, e2, -⟩
  · rw [h3] at hb
    exact absurd hb (not_le.mpr hs0)
  · obtain ⟨σ, hσ, rfl⟩ := (mem_pyPerms_range S B _).mp hp
    refine ⟨_, _, by rw [e1]; rfl, hb, ?_, σ, hσ, rfl, ?_⟩
    · exact hle m hm _ hp _ e2
    · rw [permScore_iff] at e2
      simpa using e2

end scores

/-- A case with a result: two models and two factors; the second model with exchanged factors is best. -/
def exTables : ℕ → CorrTables ℚ := fun m =>
  let T : ℕ → ℕ → Option ℚ := fun a b => if m = 0 then some 1 else if a = b then some 0 else some 2
  ⟨T, T, T⟩

theorem C66_case : (compareFactors 2 2 2 exTables .all).map (fun r => (r.model, r.avg, r.factorMap)) = some (1, 2, [1, 0]) := by
  decide +kernel

/-! ### C67 -/

section v2
variable {K : Type*} [Field K] [LinearOrder K] [IsStrictOrderedRing K] {m n k N : ℕ}

theorem argBest_spec (better : K → K → Bool) (htr : ∀ a b c, better b a = false → better c b = false → better c a = false)
    (hrefl : ∀ a, better a a = false) (hasym : ∀ a b, better a b = true → better b a = false) (v : Fin (N + 1) → K) (j) :
    better (v j) (v (argBest better v)) = false := by
  have key : ∀ (l : List (Fin (N + 1))) (b0 : Fin (N + 1)),
      better (v b0) (v (l.foldl (fun b j => if better (v j) (v b) then j else b) b0)) = false ∧
      ∀ j ∈ l, better (v j) (v (l.foldl (fun b j => if better (v j) (v b) then j else b) b0)) = false := by
    intro l
    induction l with
    | nil => intro b0; exact ⟨hrefl _, by simp⟩
    | cons a l ih =>
      intro b0
      rw [List.foldl_cons]
      obtain ⟨h1, h2⟩ := ih (if better (v a) (v b0) then a else b0)
      by_cases hb : better (v a) (v b0) = true
      · simp only [hb, if_true] at h1 h2 ⊢
        refine ⟨htr _ _ _ h1 (hasym _ _ hb), ?_⟩
        intro j hj
        rcases List.mem_cons.mp hj with rfl | hj
        · exact h1
        · exact h2 j hj
      · have hb' : better (v a) (v b0) = false := by simpa using hb
        simp only [hb', Bool.false_eq_true, if_false] at h1 h2 ⊢
        refine ⟨h1, ?_⟩
        intro j hj
        rcases List.mem_cons.mp hj with rfl | hj
        · exact htr _ _ _ h1 hb'
        · exact h2 j hj
  exact (key _ 0).2 j (List.mem_finRange j)

/-- "Smaller is better", for raae. -/
def ltB : K → K → Bool := fun a b => decide (a < b)

theorem argBest_lt (v : Fin (N + 1) → K) (j) : v (argBest ltB v) ≤ v j := by
  have := argBest_spec (N := N) (ltB (K := K)) (fun a b c h1 h2 => by simp [ltB] at *; exact le_trans h1 h2)
    (fun a => by simp [ltB]) (fun a b h => by simp [ltB] at *; exact h.le) v j
  simpa [ltB] using this

/-- **C67, what holds**: if the column minima lie in different rows, the returned map is one-to-one, and it takes each *model*
factor to the base factor with the best metric; the reported number of base factor `j` is the metric at row `j` and column
`map j`. (The property asks for a map from base factors to model factors; see the refutations.) -/
theorem C67_unique_partial (rnd : K → K) (matching : Mat (N + 1) (N + 1) K → Option (Fin (N + 1) → Fin (N + 1)))
    (A : Mat (N + 1) (N + 1) K)
    (hu : ∀ a b c, (∀ j, A c a ≤ A j a) → (∀ j, A c b ≤ A j b) → a = b) :
    ∃ map vals, determineMap ltB rnd matching A = some (map, vals) ∧ Function.Injective map ∧
      (∀ c j, A (map c) c ≤ A j c) ∧ ∀ j, vals j = .num (rnd (A j (map j))) := by
  have hmin : ∀ c j, A (argBest ltB fun j => A j c) c ≤ A j c := fun c j => argBest_lt (fun j => A j c) j
  have hinj : ∀ a b, (argBest ltB fun j => A j a) = (argBest ltB fun j => A j b) → a = b := by
    intro a b h
    refine hu a b (argBest ltB fun j => A j a) (hmin a) ?_
    rw [h]
    exact hmin b
  refine ⟨_, _, by unfold determineMap; simp only; rw [if_pos hinj], fun a b h => hinj a b h, hmin, fun j => rfl⟩

/-- **C67, direction**: if the model is a relabelled copy of the base model, model factor `c j` being the one which belongs to base
factor `j`, then the returned map is the inverse of `c`. -/
theorem C67_returns_inverse (rnd : K → K) (matching : Mat (N + 1) (N + 1) K → Option (Fin (N + 1) → Fin (N + 1)))
    (A : Mat (N + 1) (N + 1) K) (c : Fin (N + 1) ≃ Fin (N + 1)) (hc : ∀ j j', j' ≠ j → A j (c j) < A j' (c j)) :
    ∃ vals, determineMap ltB rnd matching A = some (⇑c.symm, vals) ∧ ∀ j, vals j = .num (rnd (A j (c.symm j))) := by
  have hmin : ∀ a, (argBest ltB fun j => A j a) = c.symm a := by
    intro a
    by_contra h
    have h1 := hc (c.symm a) _ h
    rw [c.apply_symm_apply] at h1
    exact absurd (argBest_lt (fun j => A j a) (c.symm a)) (not_le.mpr h1)
  refine ⟨fun j => .num (rnd (A j (c.symm j))), ?_, fun j => rfl⟩
  unfold determineMap
  simp only [hmin]
  rw [if_pos (fun a b h => c.symm.injective h)]

/-- **C67, alignment**: for such a copy the rows arranged by the returned map show base factor `i` in row `i` exactly if relabelling twice brings `i` back. -/
theorem C67_aligned_iff {α : Type*} (rnd : K → K) (matching : Mat (N + 1) (N + 1) K → Option (Fin (N + 1) → Fin (N + 1)))
    (A : Mat (N + 1) (N + 1) K) (c : Fin (N + 1) ≃ Fin (N + 1)) (hc : ∀ j j', j' ≠ j → A j (c j) < A j' (c j)) (H : Fin (N + 1) → α) (hH : Function.Injective H) :
    ∃ map vals, determineMap ltB rnd matching A = some (map, vals) ∧ ∀ i, alignRows map (fun a => H (c.symm a)) i = H i ↔ c (c i) = i := by
  obtain ⟨vals, h, _⟩ := C67_returns_inverse rnd matching A c hc
  refine ⟨_, vals, h, fun i => ?_⟩
  show H (c.symm (c.symm i)) = H i ↔ _
  rw [hH.eq_iff, Equiv.symm_apply_eq, Equiv.symm_apply_eq]
  exact eq_comm

end v2

/-- The rotation `0 → 1 → 2 → 0`. -/
def rot3 : Fin 3 ≃ Fin 3 where
  toFun := ![1, 2, 0]
  invFun := ![2, 0, 1]
  left_inv := by decide
  right_inv := by decide

/-- Metric of a model whose factor `rot3 j` is an exact copy of base factor `j`. -/
def rotMetric : Mat 3 3 ℚ := fun j c => if rot3 j = c then 0 else 1

/-- **C67 refuted, direction**: three factors, the model being the base model with rotated labels. The returned map is one-to-one
but not the matching, every reported metric is 1 although every factor has an exact copy, and the profiles arranged by the map
are all those of the wrong factor. -/
theorem C67_direction_refuted (matching : Mat 3 3 ℚ → Option (Fin 3 → Fin 3)) :
    ∃ map vals, determineMap ltB id matching rotMetric = some (map, vals) ∧ Function.Injective map ∧
      (∀ j, map j ≠ rot3 j ∧ rotMetric j (rot3 j) = 0 ∧ vals j = .num 1) ∧
      ∀ (H : Fin 3 → ℚ), Function.Injective H → ∀ i, alignRows map (fun c => H (rot3.symm c)) i ≠ H i := by
  obtain ⟨vals, h, hv⟩ := C67_returns_inverse id matching rotMetric rot3 (by decide +kernel)
  refine ⟨_, vals, h, rot3.symm.injective, ?_, ?_⟩
  · intro j
    refine ⟨by revert j; decide, by simp [rotMetric], ?_⟩
    rw [hv]
    have : rotMetric j (rot3.symm j) = 1 := by revert j; decide +kernel
    simp [this]
  · intro H hH i he
    have := hH he
    clear he
    revert i
    decide

/-- A metric where two model factors are closest to the same base factor. -/
def collideMetric : Mat 3 3 ℚ := ![![1, 1, 9], ![2, 9, 1], ![9, 3, 9]]

/-- **C67 refuted, collisions**: if two model factors are closest to the same base factor, the returned map is not one-to-one,
the first two reported metrics are whole arrays and the third is still -1, whatever the matching routine returns. -/
theorem C67_collision_refuted (cols : Fin 3 → Fin 3) :
    ∃ map vals, determineMap ltB id (fun _ => some cols) collideMetric = some (map, vals) ∧ ¬ Function.Injective map ∧
      vals 0 = .arr [1, 1, 9] ∧ vals 2 = .unset := by
  have h : ¬ ∀ a b : Fin 3, (argBest ltB fun j => collideMetric j a) = (argBest ltB fun j => collideMetric j b) → a = b := by
    intro h
    exact absurd (h 0 1 (by decide +kernel)) (by decide)
  refine ⟨_, _, by unfold determineMap; simp only; rw [if_neg h]; rfl, fun hi => h fun a b e => hi e, ?_, ?_⟩
  · simp [collideMetric, List.ofFn_succ]
  · simp

/-! ### C100–C103 -/

/-- **C100**: without failed models all models are compared. -/
theorem C100_all_compared {α : Type*} (l : List α) : comparedModels (l.map some) = some l := by
  unfold comparedModels
  have hc : (l.map some).countP Option.isSome = l.length := by
    rw [List.countP_map]
    simp
  rw [hc]
  have h : ∀ (f : ℕ → Option α) (l : List α) (k : ℕ), (∀ i (hi : i < l.length), f (k + i) = some l[i]) →
      (List.range' k l.length).mapM f = some l := by
    intro f l
    induction l with
    | nil => intros; rfl
    | cons a l ih =>
      intro k hk
      rw [List.length_cons, List.range'_succ, List.mapM_cons, ih (k + 1) (fun i hi => by
        have := hk (i + 1) (by simpa using hi)
        rw [show k + 1 + i = k + (i + 1) by omega]
        simpa using this)]
      have := hk 0 (by simp)
      simp at this
      simp [this]
  rw [List.range_eq_range']
  exact h _ l 0 (fun i hi => by simp [hi])

/-- **C100 refuted**: a failed first model makes the comparison raise a `KeyError`, although failed models are meant to be
skipped. -/
theorem C100_failed_model_refuted {α : Type*} (rest : List (Option α)) (h : ∃ a, some a ∈ rest) :
    comparedModels (none :: rest) = none := by
  unfold comparedModels
  have hc : 0 < (none :: rest).countP Option.isSome := by
    obtain ⟨a, ha⟩ := h
    exact List.countP_pos_iff.mpr ⟨some a, by simp [ha], rfl⟩
  obtain ⟨c, hc⟩ : ∃ c, (none :: rest).countP Option.isSome = c + 1 := ⟨_, (Nat.succ_pred_eq_of_pos hc).symm⟩
  rw [hc, List.range_succ_eq_map, List.mapM_cons]
  simp

/-- **C100**: exactly when the comparison works: if all failed models come after all others; then the others are compared in
their order. -/
theorem C100_compared_iff {α : Type*} (results : List (Option α)) (l : List α) :
    comparedModels results = some l ↔ ∃ r, results = l.map some ++ List.replicate r none := by
  constructor
  · intro h
    unfold comparedModels at h
    have hlen : l.length = results.countP Option.isSome := by
      have := mapM_option_length _ _ _ h
      simpa using this
    have hget : ∀ i (hi : i < l.length), results[i]? = some (some l[i]) := by
      intro i hi
      have := mapM_option_get _ _ _ h i (by simpa [← hlen] using hi)
      simp only [List.getElem_range] at this
      rw [Option.join_eq_some_iff] at this
      exact this
    have hle : l.length ≤ results.length := by rw [hlen]; exact List.countP_le_length
    have htake : results.take l.length = l.map some := by
      apply List.ext_getElem?
      intro i
      rw [List.getElem?_take, List.getElem?_map]
      by_cases hi : i < l.length
      · rw [if_pos hi, hget i hi, List.getElem?_eq_getElem hi]; rfl
      · rw [if_neg hi, List.getElem?_eq_none (by omega)]; rfl
    have hcount : (results.drop l.length).countP Option.isSome = 0 := by
      have e : results.countP Option.isSome =
          (results.take l.length).countP Option.isSome + (results.drop l.length).countP Option.isSome := by
        rw [← List.countP_append, List.take_append_drop]
      have e2 : (l.map some).countP Option.isSome = l.length := by rw [List.countP_map]; simp
      rw [htake, e2] at e
      omega
    refine ⟨(results.drop l.length).length, ?_⟩
    conv_lhs => rw [← List.take_append_drop l.length results, htake]
    congr 1
    rw [List.eq_replicate_iff]
    refine ⟨rfl, fun o ho => ?_⟩
    have := List.countP_eq_zero.mp hcount o ho
    simpa using this
  · rintro ⟨r, rfl⟩
    have hc : (l.map some ++ List.replicate r none).countP Option.isSome = l.length := by
      rw [List.countP_append, List.countP_map, List.countP_replicate]
      simp
    have := C100_all_compared l
    unfold comparedModels at this ⊢
    have e2 : (l.map some).countP Option.isSome = l.length := by rw [List.countP_map]; simp
    rw [hc]
    rw [e2] at this
    rw [← this]
    apply mapM_option_congr
    intro i hi
    rw [List.mem_range] at hi
    rw [List.getElem?_append_left (by simpa using hi)]

example : comparedModels [some 'a', none, some 'b'] = none ∧ comparedModels [some 'a', some 'b', none] = some ['a', 'b'] := by
  decide

section q
variable {K : Type*} [Field K] [LinearOrder K] [IsStrictOrderedRing K] {m n k : ℕ}

/-- **C101 refuted**: the printed base loss does not depend on the uncertainties; with one cell, data 2, model 1 and uncertainty 1
it is 1/4 instead of 1. -/
theorem C101_base_loss_refuted :
    (∀ (V U U' : Mat m n K) (W : Mat m k K) (H : Mat k n K), printedBaseQ V U W H = printedBaseQ V U' W H) ∧
    printedBaseQ (m := 1) (n := 1) (k := 1) (fun _ _ => (2 : ℚ)) (fun _ _ => 1) (fun _ _ => 1) (fun _ _ => 1) = 1 / 4 ∧
    qLoss (m := 1) (n := 1) (k := 1) (fun _ _ => (2 : ℚ)) (fun _ _ => 1) (fun _ _ => 1) (fun _ _ => 1) = 1 := by
  refine ⟨fun _ _ _ _ _ => rfl, ?_, ?_⟩
  · simp [printedBaseQ, qLoss, mmul]
    norm_num
  · simp [qLoss, mmul]
    norm_num

/-- **C101**: the printed value is right if the uncertainties equal the data; for uncertainties below the data and a model that
does not fit exactly it is too small. -/
theorem C101_base_loss (V U : Mat m n K) (W : Mat m k K) (H : Mat k n K) :
    (U = V → printedBaseQ V U W H = qLoss V U W H) ∧
    ((∀ i j, 0 < U i j ∧ U i j < V i j) → (∃ i j, V i j ≠ (W ⬝ H) i j) → printedBaseQ V U W H < qLoss V U W H) := by
  refine ⟨fun h => by rw [h]; rfl, ?_⟩
  rintro hU ⟨i0, j0, h0⟩
  have key : ∀ i j, (V i j - (W ⬝ H) i j) / V i j * ((V i j - (W ⬝ H) i j) / V i j) ≤
      (V i j - (W ⬝ H) i j) / U i j * ((V i j - (W ⬝ H) i j) / U i j) ∧ (V i j ≠ (W ⬝ H) i j →
      (V i j - (W ⬝ H) i j) / V i j * ((V i j - (W ⬝ H) i j) / V i j) <
      (V i j - (W ⬝ H) i j) / U i j * ((V i j - (W ⬝ H) i j) / U i j)) := by
    intro i j
    obtain ⟨h1, h2⟩ := hU i j
    have hv : 0 < V i j := h1.trans h2
    have hsq : U i j * U i j < V i j * V i j := mul_lt_mul'' h2 h2 h1.le h1.le
    rw [div_mul_div_comm, div_mul_div_comm]
    have hr : 0 ≤ (V i j - (W ⬝ H) i j) * (V i j - (W ⬝ H) i j) := mul_self_nonneg _
    refine ⟨div_le_div_of_nonneg_left hr (mul_pos h1 h1) hsq.le, fun hne => ?_⟩
    have hr' : 0 < (V i j - (W ⬝ H) i j) * (V i j - (W ⬝ H) i j) := mul_self_pos.mpr (sub_ne_zero.mpr hne)
    exact div_lt_div_of_pos_left hr' (mul_pos h1 h1) hsq
  simp only [printedBaseQ, qLoss, if_true]
  apply Finset.sum_lt_sum
  · exact fun i _ => Finset.sum_le_sum fun j _ => (key i j).1
  · exact ⟨i0, Finset.mem_univ _, Finset.sum_lt_sum (fun j _ => (key i0 j).1) ⟨j0, Finset.mem_univ _, (key i0 j0).2 h0⟩⟩

/-- **C101, exactly**: for positive data and uncertainties and at least one factor, the printed value is right for every non-negative base solution iff the uncertainties equal the data. Missing: all other uncertainties, where it is wrong for some
base solution. -/
theorem C101_iff_partial (V U : Mat m n K) (hV : ∀ i j, 0 < V i j) (hU : ∀ i j, 0 < U i j) :
    (∀ (W : Mat m (k + 1) K) (H : Mat (k + 1) n K), (∀ i a, 0 ≤ W i a) → (∀ a j, 0 ≤ H a j) → printedBaseQ V U W H = qLoss V U W H) ↔ U = V := by
  refine ⟨fun h => ?_, fun h W H _ _ => (C101_base_loss V U W H).1 h⟩
  funext i0 j0
  -- a base solution with a single entry
  have hp : ∀ t : K, ((fun i a => if i = i0 ∧ a = 0 then t else 0 : Mat m (k + 1) K) ⬝ (fun a j => if a = 0 ∧ j = j0 then 1 else 0)) = fun i j => if i = i0 ∧ j = j0 then t else 0 := fun t => by
    funext i j
    unfold mmul
    rw [Finset.sum_eq_single 0 (fun b _ hb => by simp [hb]) (by simp)]
    by_cases hi : i = i0 <;> by_cases hj : j = j0 <;> simp [hi, hj]
  have hq : ∀ (X : Mat m n K) (t : K), qLoss V X (fun i a => if i = i0 ∧ a = 0 then t else 0 : Mat m (k + 1) K) (fun a j => if a = 0 ∧ j = j0 then 1 else 0) - qLoss V X (fun i a => if i = i0 ∧ a = 0 then 0 else 0 : Mat m (k + 1) K) (fun a j => if a = 0 ∧ j = j0 then 1 else 0) =
      (V i0 j0 - t) / X i0 j0 * ((V i0 j0 - t) / X i0 j0) - V i0 j0 / X i0 j0 * (V i0 j0 / X i0 j0) := fun X t => by
    simp only [qLoss, if_true, hp]
    rw [← Finset.sum_sub_distrib, Finset.sum_eq_single i0 (fun i _ hi => by rw [← Finset.sum_sub_distrib]; exact Finset.sum_eq_zero fun j _ => by simp [hi]) (by simp),
      ← Finset.sum_sub_distrib, Finset.sum_eq_single j0 (fun j _ hj => by simp [hj]) (by simp)]
    simp
  have nW : ∀ t : K, 0 ≤ t → ∀ (i : Fin m) (a : Fin (k + 1)), 0 ≤ (if i = i0 ∧ a = 0 then t else 0 : K) := fun t ht i a => by split <;> first | exact ht | exact le_rfl
  have nH : ∀ (a : Fin (k + 1)) (j : Fin n), 0 ≤ (if a = 0 ∧ j = j0 then 1 else 0 : K) := fun a j => by split <;> first | exact zero_le_one | exact le_rfl
  have e0 := h _ _ (nW 0 le_rfl) nH
  have e1 := h _ _ (nW (V i0 j0) (hV i0 j0).le) nH
  unfold printedBaseQ at e0 e1
  have a1 := hq V (V i0 j0)
  have a2 := hq U (V i0 j0)
  rw [e0, e1, a2, div_self (hV i0 j0).ne', sub_self, zero_div, zero_div] at a1
  have hv := hV i0 j0
  have hu := hU i0 j0
  have hsq : V i0 j0 / U i0 j0 * (V i0 j0 / U i0 j0) = 1 := by linear_combination -a1
  rw [div_mul_div_comm, div_eq_one_iff_eq (mul_pos hu hu).ne'] at hsq
  exact ((mul_self_inj hv.le hu.le).1 hsq).symm

/-- Case for `C101_iff_partial`: with uncertainties of one and data of two the printed value is wrong for some base solution with two factors. -/
example : ∃ (W : Mat 3 2 ℚ) (H : Mat 2 2 ℚ), (∀ i a, 0 ≤ W i a) ∧ (∀ a j, 0 ≤ H a j) ∧ printedBaseQ (fun _ _ => 2) (fun _ _ => 1) W H ≠ qLoss (fun _ _ => 2) (fun _ _ => 1) W H := by
  by_contra hc
  have := (C101_iff_partial (m := 3) (n := 2) (k := 1) (fun _ _ => (2 : ℚ)) (fun _ _ => 1) (fun _ _ => by norm_num) (fun _ _ => by norm_num)).1 fun W H hW hH => by
    by_contra hn
    exact hc ⟨W, H, hW, hH, hn⟩
  have := congrFun (congrFun this 0) 0
  norm_num at this

/-- **C102**: whenever it is defined by non-vanishing totals, the EMC metric is the squared correlation of the two profiles; using
the mean of the first factor for all of them has no effect, nor have the contributions at all. -/
theorem C102_emc_is_profile_correlation (W W' : Mat m (k + 1) K) (H H' : Mat (k + 1) n K)
    (hs : vmean (fun i => W i 0) ≠ 0) (hs' : vmean (fun i => W' i 0) ≠ 0)
    (ht : ∑ a, ∑ j, H a j ≠ 0) (ht' : ∑ a, ∑ j, H' a j ≠ 0) (a b : Fin (k + 1)) :
    emcMetric W W' H H' a b = r2 (H a) (H' b) := by
  have key : ∀ (W : Mat m (k + 1) K) (H : Mat (k + 1) n K), vmean (fun i => W i 0) ≠ 0 → ∑ a, ∑ j, H a j ≠ 0 →
      ∃ c, c ≠ 0 ∧ massMatrix W H = some fun a j => c * H a j := by
    intro W H hs ht
    unfold massMatrix
    have e : ∑ a, ∑ j, vmean (fun i => W i 0) * H a j = vmean (fun i => W i 0) * ∑ a, ∑ j, H a j := by
      rw [Finset.mul_sum]
      exact Finset.sum_congr rfl fun a _ => (Finset.mul_sum _ _ _).symm
    have hne : ∑ a, ∑ j, vmean (fun i => W i 0) * H a j ≠ 0 := by rw [e]; exact mul_ne_zero hs ht
    simp only
    rw [if_neg hne]
    refine ⟨vmean (fun i => W i 0) / ∑ a, ∑ j, vmean (fun i => W i 0) * H a j, div_ne_zero hs hne, ?_⟩
    congr 1
    funext a j
    ring
  obtain ⟨c, hc, e⟩ := key W H hs ht
  obtain ⟨c', hc', e'⟩ := key W' H' hs' ht'
  unfold emcMetric
  rw [e, e', Option.bind_some, Option.bind_some, r2_smul_left c' hc', r2_smul_right c hc, r2_comm]

/-- **C102, identical factors**: the metric of a factor with itself is one. -/
theorem C102_emc_self (W : Mat m (k + 1) K) (H : Mat (k + 1) n K) (hs : vmean (fun i => W i 0) ≠ 0)
    (ht : ∑ a, ∑ j, H a j ≠ 0) (a : Fin (k + 1)) (ha : scov (H a) (H a) ≠ 0) : emcMetric W W H H a a = some 1 := by
  rw [C102_emc_is_profile_correlation W W H H hs hs ht ht, r2_self _ ha]

/-- A case: one factor with profile (1, 2) and contribution 1. -/
theorem C102_case : emcMetric (m := 1) (k := 0) (n := 2) (fun _ _ => (1 : ℚ)) (fun _ _ => 1) (fun _ => ![1, 2]) (fun _ => ![2, 1]) 0 0
    = some 1 := by
  decide +kernel

/-- **C103**: for a base contribution with positive sum the relative average absolute error is the total absolute difference over
the total base contribution; it is not negative, and zero exactly for equal contributions. -/
theorem C103_raae (j x : Fin (m + 1) → K) (hj : 0 < ∑ i, j i) :
    ∃ r, raaeMetric j x = some r ∧ r = (∑ i, |x i - j i|) / ∑ i, j i ∧ 0 ≤ r ∧ (r = 0 ↔ x = j) := by
  have hm : (1 : K) / ((m + 1 : ℕ) : K) ≠ 0 := by
    have : ((m + 1 : ℕ) : K) ≠ 0 := by exact_mod_cast Nat.succ_ne_zero m
    exact one_div_ne_zero this
  have hr : raaeMetric j x = some ((∑ i, |x i - j i|) / ∑ i, j i) := by
    unfold raaeMetric
    simp only
    rw [if_neg (mul_ne_zero hj.ne' hm), mul_div_mul_right _ _ hm]
  refine ⟨_, hr, rfl, div_nonneg (Finset.sum_nonneg fun i _ => abs_nonneg _) hj.le, ?_⟩
  rw [div_eq_zero_iff, or_iff_left hj.ne', Finset.sum_eq_zero_iff_of_nonneg (fun i _ => abs_nonneg _)]
  constructor
  · intro h
    funext i
    have := h i (Finset.mem_univ i)
    rw [abs_eq_zero, sub_eq_zero] at this
    exact this
  · rintro rfl i _
    simp

/-- **C103, not symmetric**: the metric of two contributions with positive sums depends on which one is the base, unless they are
equal or have the same total. -/
theorem C103_raae_not_symmetric (j x : Fin (m + 1) → K) (hj : 0 < ∑ i, j i) (hx : 0 < ∑ i, x i) :
    raaeMetric j x = raaeMetric x j ↔ x = j ∨ ∑ i, x i = ∑ i, j i := by
  obtain ⟨r, h1, h2, -, h4⟩ := C103_raae j x hj
  obtain ⟨r', h1', h2', -, -⟩ := C103_raae x j hx
  have habs : ∑ i, |j i - x i| = ∑ i, |x i - j i| := Finset.sum_congr rfl fun i _ => abs_sub_comm _ _
  rw [h1, h1', Option.some_inj, ← h4]
  rw [habs] at h2'
  rw [h2, h2', div_eq_div_iff hj.ne' hx.ne', div_eq_zero_iff, or_iff_left hj.ne']
  constructor
  · intro h
    by_cases h0 : ∑ i, |x i - j i| = 0
    · exact Or.inl h0
    · exact Or.inr (mul_left_cancel₀ h0 h)
  · rintro (h | h)
    · rw [h, zero_mul, zero_mul]
    · rw [h]

/-- Contributions 1 and 2: the metric is 1 one way and 1/2 the other. -/
example : raaeMetric (m := 1) (fun _ => (1 : ℚ)) (fun _ => 2) = some 1 ∧
    raaeMetric (m := 1) (fun _ => (2 : ℚ)) (fun _ => 1) = some (1 / 2) := by
  constructor
  · simp [raaeMetric]; norm_num
  · simp [raaeMetric]
    rw [abs_of_nonpos] <;> norm_num

end q

/-! ### The theorems applied to the examples -/

/-- Case for `C66_best_assignment`: two factors, two models. -/
example : ∃ res, compareFactors 2 2 2 exTables .all = some res ∧
    ∃ σ : Fin 2 → Fin 2, Function.Injective σ ∧ (res.factorMap = List.ofFn fun i => (σ i).1) ∧ res.model < 2 := by
  obtain ⟨res, h, -⟩ := Option.map_eq_some_iff.1 C66_case
  obtain ⟨σ, h1, h2, h3, -⟩ := C66_best_assignment 2 2 2 le_rfl exTables .all res h
  exact ⟨res, h, σ, h1, h2, h3⟩

/-- Case for `C66_best_assignment_more_model_factors`: one base factor, two model factors. -/
example : ∃ res, compareFactors 2 1 2 exTables .all = some res ∧
    ∃ σ : Fin 1 → Fin 2, Function.Injective σ ∧ (res.factorMap = List.ofFn fun i => (σ i).1) ∧ res.model < 2 := by
  obtain ⟨res, h⟩ : ∃ res, compareFactors 2 1 2 exTables .all = some res := Option.isSome_iff_exists.1 (by decide +kernel)
  obtain ⟨σ, h1, h2, h3, -⟩ := C66_best_assignment_more_model_factors 2 1 2 (by decide) exTables .all res h
  exact ⟨res, h, σ, h1, h2, h3⟩

/-- Case for `C67_aligned_iff` and `C67_unique_partial`: rotated labels. -/
example (matching : Mat 3 3 ℚ → Option (Fin 3 → Fin 3)) :
    (∃ map vals, determineMap ltB id matching rotMetric = some (map, vals) ∧
      ∀ i : Fin 3, alignRows map (fun a => rot3.symm a) i = i ↔ rot3 (rot3 i) = i) ∧
    ∃ map vals, determineMap ltB id matching rotMetric = some (map, vals) ∧ Function.Injective map := by
  constructor
  · exact C67_aligned_iff (N := 2) id matching rotMetric rot3 (by decide +kernel) id (fun _ _ h => h)
  · obtain ⟨map, vals, h1, h2, -⟩ := C67_unique_partial (N := 2) id matching rotMetric (by decide +kernel)
    exact ⟨map, vals, h1, h2⟩

/-- Case for `C102_emc_is_profile_correlation` and `C103_raae`. -/
example : emcMetric (m := 1) (k := 0) (n := 3) (fun _ _ => (1 : ℚ)) (fun _ _ => 2) (fun _ => ![1, 2, 4]) (fun _ => ![2, 1, 5]) 0 0
      = r2 ![1, 2, 4] ![2, 1, 5] ∧
    ∃ r, raaeMetric ![(1 : ℚ), 3] ![2, 3] = some r ∧ 0 ≤ r :=
  ⟨C102_emc_is_profile_correlation (m := 1) (k := 0) (n := 3) (fun _ _ => (1 : ℚ)) (fun _ _ => 2) (fun _ => ![1, 2, 4]) (fun _ => ![2, 1, 5])
    (by decide +kernel) (by decide +kernel) (by decide +kernel) (by decide +kernel) 0 0,
   (C103_raae (m := 1) ![(1 : ℚ), 3] ![2, 3] (by decide +kernel)).imp fun r h => ⟨h.1, h.2.2.1⟩⟩

end Esat
