import Verif.Props.WsFixed
import Verif.Props.ConstrainedTrain
import Verif.Props.LsNmf
import Mathlib.Tactic.FinCases
import Mathlib.Tactic.FieldSimp

/-!
# C247: constraints without effect

The update of ws-nmf replaces the contributions before it reads them (`ws_nmf.py:44-66`), and with a single factor the update of ls-nmf forgets the profile (`ls_nmf.py:41-44`). `train` moves the factors before the update
(`constrained.py:500-503`), so in these two cases the moves are lost.
-/

namespace Esat

/-! ## Specification -/

/-- Repeated application of an update, without any constraint. -/
def freeRun {σ : Type*} (update : σ → Option σ) : ℕ → σ → Option σ
  | 0, s => some s
  | t + 1, s => (update s).bind (freeRun update t)

/-- `WSNMF.update` as `train` calls it; `none` = a value that is not a real number. -/
noncomputable def wsPlain {m n k : ℕ} (inv : Mat k k ℝ → Mat k k ℝ) (V We : Mat m n ℝ) (W : Mat m k ℝ) (H : Mat k n ℝ) : Option (Mat m k ℝ × Mat k n ℝ) :=
  (wsUpdate inv V We false W H).2.map fun H' => ((wsUpdate inv V We false W H).1, H')

section generic
variable {K : Type*} [Field K] [LinearOrder K] {m n k : ℕ}

/-! ## Constraints on profiles and on contributions -/

theorem applyConstraints_some (E : CEnv m n k K) (W : Mat m k K) (H : Mat k n K) : ∀ (cs : List (Constraint K)) (D : Mat m k K × Mat k n K),
    (∀ c ∈ cs, (cEntry m n k c).isSome) → ∃ D', applyConstraints E W H cs D = some D'
  | [], D, _ => ⟨D, rfl⟩
  | c :: cs, D, h => by
    obtain ⟨e, he⟩ := Option.isSome_iff_exists.1 (h c (by simp))
    have : ∃ D1, applyOne E W H D c = some D1 := by
      unfold applyOne
      rw [he]
      rcases e with ⟨a, j⟩ | ⟨i, a⟩ <;> exact ⟨_, rfl⟩
    obtain ⟨D1, h1⟩ := this
    obtain ⟨D2, h2⟩ := applyConstraints_some E W H cs D1 fun c hc => h c (by simp [hc])
    exact ⟨D2, by simp only [applyConstraints, h1, Option.bind_some, h2]⟩

theorem applyOne_feature (E : CEnv m n k K) (W : Mat m k K) (H : Mat k n K) (D D' : Mat m k K × Mat k n K) (c : Constraint K) (hc : c.target = .feature)
    (h : applyOne E W H D c = some D') : D'.1 = D.1 ∧ ∀ X, applyOne E W H (X, D.2) c = some (X, D'.2) := by
  unfold applyOne at h ⊢
  cases he : cEntry m n k c with
  | none => rw [he] at h; cases h
  | some e =>
    rw [he] at h
    rcases e with ⟨a, j⟩ | ⟨i, a⟩
    · simp only [Option.some.injEq] at h
      subst h
      exact ⟨rfl, fun X => rfl⟩
    · exfalso
      unfold cEntry at he
      rw [hc] at he
      obtain ⟨x, -, he⟩ := Option.bind_eq_some_iff.1 he
      obtain ⟨y, -, he⟩ := Option.map_eq_some_iff.1 he
      cases he

theorem applyOne_sample (E : CEnv m n k K) (W : Mat m k K) (H : Mat k n K) (D D' : Mat m k K × Mat k n K) (c : Constraint K) (hc : c.target ≠ .feature)
    (h : applyOne E W H D c = some D') : D'.2 = D.2 ∧ ∀ Y, applyOne E W H (D.1, Y) c = some (D'.1, Y) := by
  unfold applyOne at h ⊢
  cases he : cEntry m n k c with
  | none => rw [he] at h; cases h
  | some e =>
    rw [he] at h
    rcases e with ⟨a, j⟩ | ⟨i, a⟩
    · exfalso
      unfold cEntry at he
      cases ht : c.target with
      | feature => exact hc ht
      | sample =>
        rw [ht] at he
        obtain ⟨x, -, he⟩ := Option.bind_eq_some_iff.1 he
        obtain ⟨y, -, he⟩ := Option.map_eq_some_iff.1 he
        cases he
      | other =>
        rw [ht] at he
        obtain ⟨x, -, he⟩ := Option.bind_eq_some_iff.1 he
        obtain ⟨y, -, he⟩ := Option.map_eq_some_iff.1 he
        cases he
    · simp only [Option.some.injEq] at h
      subst h
      exact ⟨rfl, fun X => rfl⟩

/-- The pull of the profiles comes from the constraints on profiles alone. -/
theorem applyConstraints_features (E : CEnv m n k K) (W : Mat m k K) (H : Mat k n K) : ∀ (cs : List (Constraint K)) (D D' : Mat m k K × Mat k n K) (X : Mat m k K),
    applyConstraints E W H cs D = some D' → applyConstraints E W H (cs.filter fun c => decide (c.target = .feature)) (X, D.2) = some (X, D'.2)
  | [], D, D', X, h => by
    cases h
    rfl
  | c :: cs, D, D', X, h => by
    obtain ⟨D1, h1, h2⟩ := Option.bind_eq_some_iff.1 h
    by_cases hc : c.target = .feature
    · rw [List.filter_cons_of_pos (by simpa using hc)]
      simp only [applyConstraints, (applyOne_feature E W H D D1 c hc h1).2 X, Option.bind_some]
      exact applyConstraints_features E W H cs D1 D' X h2
    · rw [List.filter_cons_of_neg (by simpa using hc), ← (applyOne_sample E W H D D1 c hc h1).1]
      exact applyConstraints_features E W H cs D1 D' X h2

/-- The pull of the contributions comes from the other constraints alone. -/
theorem applyConstraints_samples (E : CEnv m n k K) (W : Mat m k K) (H : Mat k n K) : ∀ (cs : List (Constraint K)) (D D' : Mat m k K × Mat k n K) (Y : Mat k n K),
    applyConstraints E W H cs D = some D' → applyConstraints E W H (cs.filter fun c => decide (c.target ≠ .feature)) (D.1, Y) = some (D'.1, Y)
  | [], D, D', Y, h => by
    cases h
    rfl
  | c :: cs, D, D', Y, h => by
    obtain ⟨D1, h1, h2⟩ := Option.bind_eq_some_iff.1 h
    by_cases hc : c.target = .feature
    · rw [List.filter_cons_of_neg (by simpa using hc), ← (applyOne_feature E W H D D1 c hc h1).1]
      exact applyConstraints_samples E W H cs D1 D' Y h2
    · rw [List.filter_cons_of_pos (by simpa using hc)]
      simp only [applyConstraints, (applyOne_sample E W H D D1 c hc h1).2 Y, Option.bind_some]
      exact applyConstraints_samples E W H cs D1 D' Y h2

/-- Expressions on contributions do not pull the profiles. -/
theorem applyExpressions_samples (lsq : Lsq K) (E : CEnv m n k K) (soft baseQ : K) (labeled : List (List (List Char) × K)) (mapping : PyDict (List Char) (ExprEntry K))
    (hm : ∀ p ∈ mapping, p.2.kind ≠ "feature".toList) (W : Mat m k K) (H : Mat k n K) (P : Mat m k K × Mat k n K) (h : applyExpressions lsq E soft baseQ labeled mapping W H = some P) :
    P.2 = fun _ _ => 0 := by
  have ht : ∀ (mp : PyDict (List Char) (ExprEntry K)), (∀ p ∈ mp, p.2.kind ≠ "feature".toList) → ∀ (x : ℕ → K) (T T' : Mat m k K × Mat k n K), exprTargets x mp T = some T' → T'.2 = T.2 := by
    intro mp
    induction mp with
    | nil => intro _ x T T' e; cases e; rfl
    | cons p ps ih =>
      intro hp x T T' e
      unfold exprTargets at e
      rw [if_neg (hp p (by simp))] at e
      obtain ⟨i, -, e⟩ := Option.bind_eq_some_iff.1 e
      obtain ⟨a, -, e⟩ := Option.bind_eq_some_iff.1 e
      have := ih (fun q hq => hp q (by simp [hq])) x (setEntry T.1 i a (x p.2.col), T.2) T' e
      exact this
  unfold applyExpressions at h
  split_ifs at h
  · cases h
    rfl
  · obtain ⟨rows, -, h⟩ := Option.bind_eq_some_iff.1 h
    obtain ⟨x, -, h⟩ := Option.bind_eq_some_iff.1 h
    obtain ⟨T, hT, rfl⟩ := Option.map_eq_some_iff.1 h
    have e := ht mapping hm x _ T hT
    funext a j
    simp [exprPull, scaled, exprDiff, e]

/-! ## The loop -/

theorem cLoopQ_follows {σ : Type*} (step : σ → Option (σ × ConsQ K)) (u : σ → Option σ) (P : σ → Prop) (hu : ∀ s p, P s → step s = some p → u s = some p.1 ∧ P p.1)
    (convN : ℕ) (delta : K) : ∀ (r : ℕ) (win : List K) (s s' : σ) (conv : Bool) (qs : List (ConsQ K)), P s →
      cLoopQ step convN delta r win s = some (s', conv, qs) → freeRun u qs.length s = some s'
  | 0, win, s, s', conv, qs, _, h => by
    cases h
    rfl
  | r + 1, win, s, s', conv, qs, hs, h => by
    unfold cLoopQ at h
    obtain ⟨p, hp, h⟩ := Option.bind_eq_some_iff.1 h
    obtain ⟨h1, h2⟩ := hu s p hs hp
    have hrec : ∀ win, ((cLoopQ step convN delta r win p.1).map fun x => (x.1, x.2.1, p.2 :: x.2.2)) = some (s', conv, qs) → freeRun u qs.length s = some s' := fun win e => by
      obtain ⟨⟨s1, c1, q1⟩, e1, e2⟩ := Option.map_eq_some_iff.1 e
      cases e2
      simp only [List.length_cons, freeRun, h1, Option.bind_some]
      exact cLoopQ_follows step u P hu convN delta r win p.1 s1 c1 q1 h2 e1
    split_ifs at h
    · cases hw : windowMet delta (win ++ [p.2.qt + p.2.qa]).tail with
      | none => rw [hw] at h; cases h
      | some b =>
        rw [hw] at h
        cases b with
        | true =>
          cases h
          simp only [List.length_cons, List.length_nil, freeRun, h1, Option.bind_some]
        | false => exact hrec _ h
    · exact hrec _ h

/-- What a training stores, if every iteration has the outcome of the update `u`. -/
theorem consTrain_follows (step : Mat m k K × Mat k n K → Option ((Mat m k K × Mat k n K) × ConsQ K)) (u : Mat m k K × Mat k n K → Option (Mat m k K × Mat k n K)) (P : Mat m k K × Mat k n K → Prop)
    (hu : ∀ s p, P s → step s = some p → u s = some p.1 ∧ P p.1) (maxIter convN : ℕ) (delta : K) (base : Option K) (W0 : Mat m k K) (H0 : Mat k n K) (h0 : P (W0, H0))
    (o : ConsObj m n k K) (ho : 0 < o.constraints + o.expressions) (hr : (consTrain (some step) maxIter convN delta base W0 H0 o).2 = true) :
    ∃ M s, (consTrain (some step) maxIter convN delta base W0 H0 o).1.model = some M ∧ freeRun u (M.steps + 1) (W0, H0) = some s ∧ M.W = s.1 ∧ M.H = floorPos s.2 := by
  unfold consTrain at hr ⊢
  rw [if_neg (by omega)] at hr ⊢
  simp only [Option.bind_some] at hr ⊢
  cases hl : cLoopQ step convN delta maxIter [] (W0, H0) with
  | none => rw [hl] at hr; cases hr
  | some x =>
    obtain ⟨s, conv, qs⟩ := x
    rw [hl] at hr
    have hne : qs ≠ [] := by
      rintro rfl
      simp at hr
    refine ⟨_, s, rfl, ?_, rfl, rfl⟩
    have hlen : qs.length - 1 + 1 = qs.length := by
      have := List.length_pos_iff.2 hne
      omega
    dsimp only
    rw [hlen]
    exact cLoopQ_follows step u P hu convN delta maxIter [] _ _ _ _ h0 hl

end generic

/-! ## ws-nmf -/

section ws
variable {m n k : ℕ}

/-- **C247 (ws-nmf, one iteration), Disagreement.** For a model of ws-nmf an iteration with constraints has the outcome of the iteration with the constraints on profiles only, whatever the expressions: constraints on
contributions do not count. -/
theorem C247_ws_iteration (lsq : Lsq ℝ) (E : CEnv m n k ℝ) (soft baseQ : ℝ) (labeled : List (List (List Char) × ℝ)) (mapping : PyDict (List Char) (ExprEntry ℝ)) (cs : List (Constraint ℝ))
    (hcs : ∀ c ∈ cs, (cEntry m n k c).isSome) (inv : Mat k k ℝ → Mat k k ℝ) (We : Mat m n ℝ) (s : Mat m k ℝ × Mat k n ℝ) :
    pullIteration lsq E soft baseQ labeled mapping cs (wsPlain inv E.V We) s =
      pullIteration lsq E soft baseQ labeled mapping (cs.filter fun c => decide (c.target = .feature)) (wsPlain inv E.V We) s := by
  unfold pullIteration calcPull
  cases applyExpressions lsq E soft baseQ labeled mapping s.1 s.2 with
  | none => rfl
  | some P =>
    obtain ⟨D, hD⟩ := applyConstraints_some E s.1 s.2 cs P hcs
    have := applyConstraints_features E s.1 s.2 cs P D P.1 hD
    simp only [Option.bind_some, hD, Prod.mk.eta] at this ⊢
    rw [this]
    rfl

/-- **C247 (ws-nmf, training), Disagreement.** A training of a ws-nmf model with constraints and expressions on contributions only, of any kind and number, returns a result of as many plain updates of the base model as it made
iterations: the values asked for have no influence on the factors. -/
theorem C247_ws_training (lsq : Lsq ℝ) (E : CEnv m n k ℝ) (soft baseQ : ℝ) (labeled : List (List (List Char) × ℝ)) (mapping : PyDict (List Char) (ExprEntry ℝ)) (hm : ∀ p ∈ mapping, p.2.kind ≠ "feature".toList) (cs : List (Constraint ℝ)) (hcs : ∀ c ∈ cs, c.target ≠ .feature)
    (inv : Mat k k ℝ → Mat k k ℝ) (We : Mat m n ℝ) (rob : Mat m k ℝ → Mat k n ℝ → ℝ) (maxIter convN : ℕ) (delta : ℝ) (base : Option ℝ) (o : ConsObj m n k ℝ)
    (ho : 0 < o.constraints + o.expressions) (hH : ∀ a j, 0 ≤ E.H0 a j)
    (hr : (consTrain (some (consStep lsq E soft baseQ labeled mapping cs rob (wsPlain inv E.V We))) maxIter convN delta base E.W0 E.H0 o).2 = true) :
    ∃ M s, (consTrain (some (consStep lsq E soft baseQ labeled mapping cs rob (wsPlain inv E.V We))) maxIter convN delta base E.W0 E.H0 o).1.model = some M ∧
      freeRun (fun s => wsPlain inv E.V We s.1 s.2) (M.steps + 1) (E.W0, E.H0) = some s ∧ M.W = s.1 ∧ M.H = floorPos s.2 := by
  refine consTrain_follows _ _ (fun s => ∀ a j, 0 ≤ s.2 a j) (fun s p hs hp => ?_) maxIter convN delta base E.W0 E.H0 hH o ho hr
  unfold consStep calcPull at hp
  obtain ⟨D, hD, hp⟩ := Option.bind_eq_some_iff.1 hp
  obtain ⟨P, hP, hD⟩ := Option.bind_eq_some_iff.1 hD
  obtain ⟨t, ht, rfl⟩ := Option.map_eq_some_iff.1 hp
  have h2 : D.2 = fun _ _ => 0 := by
    have := applyConstraints_features E s.1 s.2 cs _ D 0 hD
    rw [List.filter_eq_nil_iff.2 (fun c hc => by simpa using hcs c hc)] at this
    simp only [applyConstraints, Option.some.injEq, Prod.mk.injEq, true_and] at this
    rw [← this, applyExpressions_samples lsq E soft baseQ labeled mapping hm s.1 s.2 P hP]
  have h3 : (pulled s.1 s.2 D).2 = s.2 := by
    funext a j
    simp only [pulled, h2, zero_add]
    exact abs_of_nonneg (hs a j)
  rw [h3] at ht
  have h4 : wsPlain inv E.V We s.1 s.2 = some t := ht
  refine ⟨h4, fun a j => ?_⟩
  unfold wsPlain at h4
  obtain ⟨H', e1, rfl⟩ := Option.map_eq_some_iff.1 h4
  simp only [wsUpdate, Bool.false_eq_true, if_false, wsStepH] at e1
  split_ifs at e1
  cases e1
  exact mul_nonneg (hs a j) (Real.sqrt_nonneg _)

end ws

/-! ## One factor under ls-nmf -/

section one
variable {K : Type*} [Field K] [LinearOrder K] [IsStrictOrderedRing K] {m n : ℕ}

/-- **C247 (one factor).** With one factor an update of ls-nmf has the same outcome for all profiles without a zero, and none for the others. -/
theorem C247_one_factor_update (V We : Mat m n K) (W : Mat m 1 K) (H H' : Mat 1 n K) (hH : ∀ j, H 0 j ≠ 0) :
    ((∀ j, H' 0 j ≠ 0) → lsUpdate V We false W H' = lsUpdate V We false W H) ∧ ((∃ j, H' 0 j = 0) → lsUpdate V We false W H' = none) := by
  have den : ∀ (X : Mat 1 n K) (a : Fin 1) j, lsHDen We W X a j = X 0 j * ∑ i, W i 0 * (We i j * W i 0) := fun X a j => by
    obtain rfl : a = 0 := Subsingleton.elim _ _
    rw [lsHDen_apply, Finset.mul_sum]
    refine Finset.sum_congr rfl fun i _ => ?_
    rw [Fin.sum_univ_one]
    ring
  refine ⟨fun h' => ?_, fun ⟨j, hj⟩ => ?_⟩
  · have hs : lsStepH V We W H' = lsStepH V We W H := by
      have hz : NoZero (lsHDen We W H') ↔ NoZero (lsHDen We W H) := by
        constructor <;> intro h a j e
        · exact h a j (by rw [den] at e ⊢; rw [(mul_eq_zero.1 e).resolve_left (hH j), mul_zero])
        · exact h a j (by rw [den] at e ⊢; rw [(mul_eq_zero.1 e).resolve_left (h' j), mul_zero])
      unfold lsStepH
      by_cases h : NoZero (lsHDen We W H)
      · rw [if_pos h, if_pos (hz.2 h)]
        congr 1
        funext a j
        simp only [emul, ediv, den]
        obtain rfl : a = 0 := Subsingleton.elim _ _
        have hS : ∑ i, W i 0 * (We i j * W i 0) ≠ 0 := fun e => h 0 j (by rw [den, e, mul_zero])
        have e1 := hH j
        have e2 := h' j
        field_simp
      · rw [if_neg h, if_neg (fun x => h (hz.1 x))]
    simp only [lsUpdate, hs, Bool.false_eq_true, if_false]
  · have : lsStepH V We W H' = none := by
      unfold lsStepH
      rw [if_neg (fun h => h 0 j (by rw [den, hj, zero_mul]))]
    simp [lsUpdate, this]

/-- **C247 (one factor, one iteration), Disagreement.** For a model with one factor of ls-nmf, without expressions, an iteration with constraints that completes has the outcome of the iteration without the constraints on
the profile. It does not complete if a constraint moves an entry of the profile to zero. -/
theorem C247_one_factor_iteration (lsq : Lsq K) (E : CEnv m n 1 K) (soft baseQ : K) (mapping : PyDict (List Char) (ExprEntry K)) (cs : List (Constraint K)) (We : Mat m n K)
    (s : Mat m 1 K × Mat 1 n K) (hs : ∀ j, s.2 0 j ≠ 0) :
    (∀ s', pullIteration lsq E soft baseQ [] mapping cs (lsUpdate E.V We false) s = some s' →
      pullIteration lsq E soft baseQ [] mapping (cs.filter fun c => decide (c.target ≠ .feature)) (lsUpdate E.V We false) s = some s') ∧
    ∀ D j, calcPull lsq E soft baseQ [] mapping cs s.1 s.2 = some D → D.2 0 j = - s.2 0 j → pullIteration lsq E soft baseQ [] mapping cs (lsUpdate E.V We false) s = none := by
  have he : applyExpressions lsq E soft baseQ [] mapping s.1 s.2 = some (fun _ _ => 0, fun _ _ => 0) := by simp [applyExpressions]
  obtain ⟨A, hA⟩ : ∃ A : Mat 1 n K, A = fun a j => |(0 : K) + s.2 a j| := ⟨_, rfl⟩
  have habs : ∀ j, A 0 j ≠ 0 := fun j => by
    simp only [hA, zero_add]
    exact abs_ne_zero.2 (hs j)
  refine ⟨fun s' h => ?_, fun D j hD h0 => ?_⟩
  · unfold pullIteration calcPull at h ⊢
    rw [he, Option.bind_some] at h ⊢
    obtain ⟨D, hD, h⟩ := Option.bind_eq_some_iff.1 h
    have := applyConstraints_samples E s.1 s.2 cs _ D (fun _ _ => 0) hD
    rw [this, Option.bind_some]
    by_cases hz : ∃ j, (pulled s.1 s.2 D).2 0 j = 0
    · rw [(C247_one_factor_update E.V We (pulled s.1 s.2 D).1 A (pulled s.1 s.2 D).2 habs).2 hz] at h
      cases h
    · push Not at hz
      rw [(C247_one_factor_update E.V We (pulled s.1 s.2 D).1 A (pulled s.1 s.2 D).2 habs).1 hz, hA] at h
      exact h
  · unfold pullIteration
    rw [hD, Option.bind_some]
    exact (C247_one_factor_update E.V We (pulled s.1 s.2 D).1 A (pulled s.1 s.2 D).2 habs).2 ⟨j, by simp [pulled, h0]⟩

end one

/-! ## Concrete cases -/

/-- The contributions `1, 2` of an exact ws-nmf model with the constraint to set the first one to zero: it stays 1. -/
example :
    let E : CEnv 2 2 1 ℝ := ⟨![![1, 2], ![2, 4]], ![![1, 1], ![1, 1]], ![![1], ![2]], ![![1, 2]], 1, 1⟩
    pullIteration (fun _ _ _ _ => none) E 1 1 [] [] [⟨.zero, (0, 0), .sample⟩] (wsPlain (fun A => fun a b => 1 / A a b) E.V ![![1, 1], ![1, 1]]) (E.W0, E.H0) = some (E.W0, E.H0) := by
  intro E
  rw [C247_ws_iteration _ _ _ _ _ _ _ (by intro c hc; simp only [List.mem_singleton] at hc; subst hc; rfl)]
  have h : (fun (a : Fin 1) (j : Fin 2) => |(0 : ℝ) + E.H0 a j|) = ![![1, 2]] := by
    funext a j
    fin_cases a; fin_cases j <;> simp [E]
  have f : (List.filter (fun c : Constraint ℝ => decide (c.target = .feature)) [⟨.zero, (0, 0), .sample⟩]) = [] := rfl
  rw [f]
  simp only [pullIteration, calcPull, applyExpressions, if_true, Option.bind_some, applyConstraints, pulled, h, wsPlain]
  rw [exWs_fixed]
  rfl

/-- A one factor model of ls-nmf with the constraint to pull an entry of the profile up: it is moved, and the iteration has the outcome of the iteration without constraints. With the constraint to set the entry to zero there
is no outcome. -/
example :
    let E : CEnv 2 2 1 ℚ := ⟨![![1, 2], ![3, 1]], ![![1, 1], ![1, 1]], ![![1], ![2]], ![![1, 1]], 1 / 100000000, 1 / 10⟩
    let it := fun cs => pullIteration (fun _ _ _ _ => none) E 1 1 [] [] cs (lsUpdate E.V (weights E.U) false) (E.W0, E.H0)
    (applyConstraints E E.W0 E.H0 [⟨.pullUp 2, (0, 0), .feature⟩] (fun _ _ => 0, fun _ _ => 0)).map (fun D => decide (1 / 10 < D.2 0 0)) = some true ∧
      (it []).isSome ∧ it [⟨.pullUp 2, (0, 0), .feature⟩] = it [] ∧ it [⟨.zero, (0, 0), .feature⟩] = none := by
  decide +kernel

end Esat
