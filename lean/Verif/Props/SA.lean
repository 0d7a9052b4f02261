import Verif.Model.SA
import Verif.Props.Metrics

/-!
# Properties C16, C18-C22: the `SA` class
-/

namespace Esat

section
variable {K : Type*} [Field K] [LinearOrder K] [IsStrictOrderedRing K] {m n k : ℕ} {R : Type*}

/-! ## Helper facts -/

private theorem eps_pos : (0 : K) < 1 / 10 ^ 12 := by positivity

private theorem anyNaN_false {α : Type*} {r c : ℕ} {A : Mat r c (Option α)} :
    anyNaN A = false ↔ ∀ i j, ∃ x, A i j = some x := by
  simp only [anyNaN, decide_eq_false_iff_not, not_exists, Option.isNone_iff_eq_none, ← ne_eq,
    Option.ne_none_iff_exists']

private theorem minNeg_false {α : Type*} [Zero α] [LinearOrder α] {r c : ℕ} {A : Mat r c (Option α)} (h : anyNaN A = false) :
    minNeg A = false ↔ ∀ i j, ∀ x, A i j = some x → 0 ≤ x := by
  simp [minNeg, h, Option.mem_def]

private theorem floorN_pos {r c : ℕ} {A : Mat r c (Option K)} {i : Fin r} {j : Fin c} {x : K}
    (h : floorN A i j = some x) : 0 < x := by
  unfold floorN at h
  cases hA : A i j with
  | none => simp [hA] at h
  | some y =>
    simp only [hA, Option.some.injEq] at h
    subst h
    split
    · exact eps_pos
    · exact not_le.1 ‹_›

private theorem floorN_id {r c : ℕ} {A : Mat r c (Option K)} (h : ∀ i j, ∃ x, A i j = some x ∧ 0 < x) :
    floorN A = A := by
  funext i j
  obtain ⟨x, hx, hp⟩ := h i j
  simp [floorN, hx, not_le.2 hp]

private theorem floorI_id {r c : ℕ} {A : Mat r c (Option K)} (h : ∀ i j, ∃ x, A i j = some x ∧ 0 < x) :
    floorI A = A := by
  funext i j
  obtain ⟨x, hx, hp⟩ := h i j
  simp [floorI, hx, not_le.2 hp]

private theorem floorI_nonneg {r c : ℕ} {A : Mat r c (Option K)} {i : Fin r} {j : Fin c} {x : K}
    (h : floorI A i j = some x) : 0 ≤ x := by
  unfold floorI at h
  cases hA : A i j with
  | none => simp [hA] at h
  | some y =>
    simp only [hA, Option.map_some, Option.some.injEq] at h
    subst h
    split
    · exact le_rfl
    · exact (not_le.1 ‹_›).le

private theorem entries_some {r c : ℕ} {A : Mat r c (Option K)} {i : Fin r} {j : Fin c} {x : WithTop K} :
    entries A i j = some x ↔ ∃ y, A i j = some y ∧ (y : WithTop K) = x := by
  unfold entries
  cases A i j <;> simp

private theorem entries_coe {r c : ℕ} {A : Mat r c (Option K)} {i : Fin r} {j : Fin c} {x : K} :
    entries A i j = some (x : WithTop K) ↔ A i j = some x := by
  unfold entries
  cases A i j <;> simp

private theorem entries_none {r c : ℕ} {A : Mat r c (Option K)} {i : Fin r} {j : Fin c} :
    entries A i j = none ↔ A i j = none := by
  unfold entries
  cases A i j <;> simp

private theorem entries_floorN_pos {r c : ℕ} {A : Mat r c (Option K)} {i : Fin r} {j : Fin c} {x : WithTop K}
    (h : entries (floorN A) i j = some x) : 0 < x := by
  obtain ⟨y, hy, rfl⟩ := entries_some.1 h
  exact WithTop.coe_pos.2 (floorN_pos hy)

private theorem normaliseCols_pos {A : Mat k n (Option K)} {i : Fin k} {j : Fin n} {x : WithTop K}
    (h : normaliseCols A i j = some x) : 0 < x := by
  simp only [normaliseCols] at h
  split at h
  · simp at h
  · split at h
    · split at h
      · simp only [Option.some.injEq] at h
        rw [← h]
        exact WithTop.coe_pos.2 eps_pos
      · split at h
        · simp at h
        · simp only [Option.some.injEq] at h
          rw [← h]
          exact WithTop.top_pos
    · simp only [Option.some.injEq] at h
      rw [← h]
      refine WithTop.coe_pos.2 ?_
      split
      · exact eps_pos
      · exact not_le.1 ‹_›

private theorem insertPrior_pos {A : Mat k n (Option K)} {P : DMat (Option K)} {h} (e : insertPrior A P = .ok h) :
    ∃ B, h = normaliseCols B := by
  unfold insertPrior at e
  split at e
  · exact ⟨_, (Except.ok.inj e).symm⟩
  · split at e
    · simp at e
    · split at e
      · simp at e
      · exact ⟨_, (Except.ok.inj e).symm⟩

/-! ## C18 -/

/-- C18: whatever uncertainties (zeros, negatives, NaN) are passed, the object works with uncertainties of at least
`1e-12`, leaves entries of at least `1e-12` alone, keeps NaN, and its weights are positive, bounded by `1e24` and the
inverse squares of the stored uncertainties. -/
theorem C18_usable (V : Mat m n (Option K)) (U : DMat (Option K)) (method : String) (i : Fin U.rows) (j : Fin U.cols) :
    let s : SA m n k K R := SA.construct k V U method
    (∀ x, U.val i j = some x → ∃ u w, s.U.val i j = some u ∧ s.weights i j = some w ∧ 1 / 10 ^ 12 ≤ u ∧
      (1 / 10 ^ 12 ≤ x → u = x) ∧ (x < 1 / 10 ^ 12 → u = 1 / 10 ^ 12) ∧ 0 < w ∧ w ≤ 10 ^ 24 ∧ w * u ^ 2 = 1) ∧
    (U.val i j = none → s.U.val i j = none ∧ s.weights i j = none) := by
  intro s
  have hsU : s.U.val i j = (floorU U).val i j := rfl
  have hw : s.weights i j = (s.U.val i j).map fun x => 1 / x ^ 2 := rfl
  constructor
  · intro x hx
    have h1 : s.U.val i j = some (if x < 1 / 10 ^ 12 then 1 / 10 ^ 12 else x) := by
      rw [hsU]; simp [floorU, hx, epsilon]
    set u : K := if x < 1 / 10 ^ 12 then 1 / 10 ^ 12 else x with hu
    have hge : (1 / 10 ^ 12 : K) ≤ u := by rw [hu]; split <;> [exact le_rfl; exact not_lt.1 ‹_›]
    have hpos : 0 < u := lt_of_lt_of_le eps_pos hge
    refine ⟨u, 1 / u ^ 2, h1, by rw [hw, h1]; rfl, hge, fun h => if_neg (not_lt.2 h), fun h => if_pos h, by positivity,
      ?_, by field_simp⟩
    rw [div_le_iff₀ (by positivity)]
    have h2 : (1 / 10 ^ 12 : K) ^ 2 ≤ u ^ 2 := pow_le_pow_left₀ eps_pos.le hge 2
    calc (1 : K) = 10 ^ 24 * (1 / 10 ^ 12) ^ 2 := by norm_num
      _ ≤ 10 ^ 24 * u ^ 2 := mul_le_mul_of_nonneg_left h2 (by positivity)
  · intro hx
    have h1 : s.U.val i j = none := by rw [hsU]; simp [floorU, hx]
    exact ⟨h1, by rw [hw, h1]; rfl⟩

/-! ## C19 -/

/-- Shape and contents of the profile matrix after `initialize`: always `k × n`; every entry that is a number is
positive, unless the caller's own full-shape array of integer dtype was used. -/
private theorem initFactors_pos (sqrt? : K → Option K) (wsU : Mat k n (Option K) → Mat m k (Option K)) (meth : Alg)
    (V : Mat m n (Option K)) (a : InitArgs m n k K) (p) (h : initFactors sqrt? wsU meth V a = .ok p) :
    (∀ f j x, p.1 f j = some x → 0 ≤ x) ∧ (a.hInt = false → ∀ f j x, p.1 f j = some x → 0 < x) := by
  unfold initFactors at h
  simp only at h
  split at h
  · split at h
    · rename_i hins
      obtain ⟨B, rfl⟩ := insertPrior_pos hins
      simp only [Except.ok.injEq] at h
      subst h
      exact ⟨fun _ _ _ hx => (normaliseCols_pos hx).le, fun _ _ _ _ hx => normaliseCols_pos hx⟩
    · simp at h
  · simp only [Except.ok.injEq] at h
    subst h
    constructor
    · intro f j x hx
      split at hx
      · obtain ⟨y, hy, rfl⟩ := entries_some.1 hx
        exact WithTop.coe_nonneg.2 (floorI_nonneg hy)
      · exact (entries_floorN_pos hx).le
    · intro hI f j x hx
      simp only [hI, Bool.false_and, Bool.false_eq_true, if_false] at hx
      exact entries_floorN_pos hx
  · simp only [Except.ok.injEq] at h
    subst h
    exact ⟨fun _ _ _ hx => (entries_floorN_pos hx).le, fun _ _ _ _ hx => entries_floorN_pos hx⟩

/-- What a successful `initialize` did. -/
private theorem initialize_ok {sqrt? : K → Option K} {wsU : Mat k n (Option K) → Mat m k (Option K)}
    {s s' : SA m n k K R} {a : InitArgs m n k K} (h : s.initialize sqrt? wsU a = .ok s') :
    ∃ p, initFactors sqrt? wsU s.method s.V a = .ok p ∧
      s' = { s with H := some ⟨k, n, p.1⟩, W := some p.2, initialized := true,
                    validated := validOf k s.V s.U (some ⟨k, n, p.1⟩) (some p.2), hasNeg := negOf s.V (some p.2) } := by
  unfold SA.initialize at h
  by_cases hw : scipyAccepts s.V a = true
  · rw [if_pos hw] at h
    split at h
    · rename_i p hp
      simp only [Except.ok.injEq] at h
      exact ⟨p, hp, h.symm⟩
    · simp at h
  · rw [if_neg hw] at h
    simp at h

/-- `initialize` when the data have no NaN, or SciPy is not asked to look at them. -/
private theorem initialize_eq (sqrt? : K → Option K) (wsU : Mat k n (Option K) → Mat m k (Option K))
    (s : SA m n k K R) (a : InitArgs m n k K) (hw : scipyAccepts s.V a = true) :
    s.initialize sqrt? wsU a = match initFactors sqrt? wsU s.method s.V a with
      | .ok p => .ok { s with H := some ⟨k, n, p.1⟩, W := some p.2, initialized := true,
                              validated := validOf k s.V s.U (some ⟨k, n, p.1⟩) (some p.2),
                              hasNeg := negOf s.V (some p.2) }
      | .error e => .error e := by
  unfold SA.initialize
  rw [if_pos hw]
  cases initFactors sqrt? wsU s.method s.V a <;> rfl

private theorem scipyAccepts_of {V : Mat m n (Option K)} (h : ∀ i j, V i j ≠ none) (a : InitArgs m n k K) :
    scipyAccepts V a = true := by
  have : anyNaN V = false := by
    unfold anyNaN
    rw [decide_eq_false_iff_not]
    rintro ⟨i, j, hc⟩
    exact h i j (Option.isNone_iff_eq_none.1 hc)
  simp [scipyAccepts, this]

/-- C19, profiles, any arguments: if `initialize` does not raise, the stored profile matrix is `k × n` and every entry
that is not NaN is positive (float arrays) or non-negative (integer arrays). Missing: NaN entries are possible
(negative column means), integer arrays keep zeros, and prior profiles can make an entry infinite. -/
theorem C19_profiles_partial (sqrt? : K → Option K) (wsU : Mat k n (Option K) → Mat m k (Option K))
    (s s' : SA m n k K R) (a : InitArgs m n k K) (h : s.initialize sqrt? wsU a = .ok s') :
    ∃ H : Mat k n (PEntry K), s'.H = some ⟨k, n, H⟩ ∧ (∀ f j x, H f j = some x → 0 ≤ x) ∧
      (a.hInt = false → ∀ f j x, H f j = some x → 0 < x) := by
  obtain ⟨p, hp, rfl⟩ := initialize_ok h
  exact ⟨p.1, rfl, initFactors_pos sqrt? wsU _ _ _ _ hp⟩

private theorem anyNaN_ne {α : Type*} {r c : ℕ} (A : Mat r c (Option α)) : anyNaN A = false ↔ ∀ i j, A i j ≠ none := by
  rw [anyNaN_false]; simp only [Option.ne_none_iff_exists']

private theorem floorU_spec (U : DMat (Option K)) :
    (anyNaN (floorU U).val = false ↔ ∀ i j, U.val i j ≠ none) ∧ minNeg (floorU U).val = false := by
  constructor
  · rw [anyNaN_ne]
    refine forall_congr' fun i => forall_congr' fun j => ?_
    cases hx : U.val i j <;> simp [floorU, hx]
  · by_cases hb : anyNaN (floorU U).val = false
    · rw [minNeg_false hb]
      intro i j x hx
      cases hy : U.val i j with
      | none => simp [floorU, hy] at hx
      | some y =>
        simp only [floorU, hy, Option.some.injEq] at hx
        subst hx
        split
        · exact (eps_pos (K := K)).le
        · rename_i hc
          exact le_trans (eps_pos (K := K)).le (not_lt.1 hc)
    · simp [minNeg, hb]

private theorem validOf_iff (V : Mat m n (Option K)) (U : DMat (Option K)) (H : Mat k n (PEntry K))
    (W : DMat (Option K)) (hpos : ∀ f j x, H f j = some x → 0 ≤ x) :
    validOf k V (floorU U) (some ⟨k, n, H⟩) (some W) = true ↔ (∀ i j, V i j ≠ none) ∧ (U.rows = m ∧ U.cols = n) ∧
      (∀ i j, U.val i j ≠ none) ∧ (W.rows = m ∧ W.cols = k ∧ ∀ i j, W.val i j ≠ none) ∧ (∀ i j, H i j ≠ none) := by
  have hHm : (∀ i j, H i j ≠ none) → minNeg H = false := fun hb => (minNeg_false ((anyNaN_ne H).2 hb)).2 hpos
  simp only [validOf, Bool.and_eq_true, Bool.not_eq_true', decide_eq_true_eq, (floorU_spec U).2, (floorU_spec U).1,
    anyNaN_ne V, anyNaN_ne H, anyNaN_ne W.val]
  have e1 : (floorU U).rows = U.rows := rfl
  have e2 : (floorU U).cols = U.cols := rfl
  rw [e1, e2]
  tauto

private theorem validOf_none (V : Mat m n (Option K)) (U : DMat (Option K)) (H : Option (DMat (PEntry K)))
    (W : Option (DMat (Option K))) (h : validOf k V U H W = true) : (∀ i j, V i j ≠ none) := by
  simp only [validOf, Bool.and_eq_true, Bool.not_eq_true'] at h
  exact (anyNaN_ne V).1 h.1.1.1.1.1

/-! ### Reachable states -/

/-- The states a program can bring an `SA` object into by calling `initialize` and `train` in any order, with any
arguments, random draws and training outcomes. -/
def Reachable (sqrt? : K → Option K) (wsU : Mat k n (Option K) → Mat m k (Option K)) (V : Mat m n (Option K))
    (U : DMat (Option K)) (method : String) (s : SA m n k K R) : Prop :=
  ∃ ops, s = (SA.runOps sqrt? wsU (SA.construct k V U method) ops).1

private structure Inv (V : Mat m n (Option K)) (U : DMat (Option K)) (method : String) (s : SA m n k K R) : Prop where
  v : s.V = V
  u : s.U = floorU U
  meth : s.method = parseMethod method
  alg : ∀ b, s.algorithm b = if parseMethod method = .ls ∧ negOf V none = false then Alg.ls else Alg.ws
  init : s.validated = true → s.initialized = true
  isSome : s.initialized = true → s.W.isSome = true ∧ s.H.isSome = true
  nan : s.validated = true → ∀ i j, V i j ≠ none

private theorem Inv.construct (V : Mat m n (Option K)) (U : DMat (Option K)) (method : String) :
    Inv V U method (SA.construct k V U method : SA m n k K R) :=
  ⟨rfl, rfl, rfl, fun b => by cases b <;> rfl, fun h => by simp [SA.construct] at h,
    fun h => by simp [SA.construct] at h, fun h => by simp [SA.construct] at h⟩

private theorem Inv.initialize {sqrt? : K → Option K} {wsU : Mat k n (Option K) → Mat m k (Option K)}
    {V : Mat m n (Option K)} {U : DMat (Option K)} {method : String} {s s' : SA m n k K R} (hI : Inv V U method s)
    {a : InitArgs m n k K} (h : s.initialize sqrt? wsU a = .ok s') :
    Inv V U method s' ∧ s'.initialized = true ∧ s'.results = s.results := by
  obtain ⟨p, hp, rfl⟩ := initialize_ok h
  refine ⟨⟨hI.v, hI.u, hI.meth, fun b => ?_, fun _ => rfl, fun _ => ⟨rfl, rfl⟩, fun h => ?_⟩, rfl, rfl⟩
  · have := hI.alg b
    cases b <;> exact this
  · simp only at h
    have := validOf_none _ _ _ _ h
    rw [hI.v] at this
    exact this

private theorem Inv.train {sqrt? : K → Option K} {wsU : Mat k n (Option K) → Mat m k (Option K)}
    {V : Mat m n (Option K)} {U : DMat (Option K)} {method : String} {s s' : SA m n k K R} (hI : Inv V U method s)
    {d : InitDraws m n k K} {b : Bool} {run finish} {r : TrainReturn}
    (h : s.train (fun s => s.initialize sqrt? wsU (defaultArgs d)) b run finish = .ok (s', r)) :
    Inv V U method s' := by
  unfold SA.train at h
  split at h
  · simp at h
  · rename_i s1 hs1
    have hI1 : Inv V U method s1 := by
      split at hs1
      · simp only [Except.ok.injEq] at hs1
        exact hs1 ▸ hI
      · exact (hI.initialize hs1).1
    split at h
    · rename_i hv hw hh
      split at h
      · simp only [Except.ok.injEq, Prod.mk.injEq] at h
        exact h.1 ▸ hI1
      · simp only [Except.ok.injEq, Prod.mk.injEq] at h
        obtain ⟨rfl, _⟩ := h
        refine ⟨hI1.v, hI1.u, hI1.meth, fun b => ?_, hI1.init, fun _ => ⟨rfl, rfl⟩, hI1.nan⟩
        have := hI1.alg b
        cases b <;> exact this
    · simp only [Except.ok.injEq, Prod.mk.injEq] at h
      exact h.1 ▸ hI1

private theorem Inv.step {sqrt? : K → Option K} {wsU : Mat k n (Option K) → Mat m k (Option K)}
    {V : Mat m n (Option K)} {U : DMat (Option K)} {method : String} {s : SA m n k K R} (hI : Inv V U method s)
    (op : SAOp m n k K R) : Inv V U method (s.step sqrt? wsU op).1 := by
  cases op with
  | «initialize» a =>
    simp only [SA.step]
    split
    · exact (hI.initialize ‹_›).1
    · exact hI
  | train d b run finish =>
    simp only [SA.step]
    split
    · exact hI.train ‹_›
    · exact hI

private theorem Reachable.inv {sqrt? : K → Option K} {wsU : Mat k n (Option K) → Mat m k (Option K)}
    {V : Mat m n (Option K)} {U : DMat (Option K)} {method : String} {s : SA m n k K R}
    (h : Reachable sqrt? wsU V U method s) : Inv V U method s := by
  obtain ⟨ops, rfl⟩ := h
  have key : ∀ (ops : List (SAOp m n k K R)) (p : SA m n k K R × List TrainReturn), Inv V U method p.1 →
      Inv V U method (ops.foldl (fun p op => let q := p.1.step sqrt? wsU op; (q.1, p.2 ++ q.2.toList)) p).1 := by
    intro ops
    induction ops with
    | nil => exact fun p hp => hp
    | cons op ops ih => exact fun p hp => ih _ (hp.step op)
  exact key ops _ (Inv.construct V U method)

/-- No call changes the data and the uncertainties. -/
theorem Reachable.data {sqrt? : K → Option K} {wsU : Mat k n (Option K) → Mat m k (Option K)}
    {V : Mat m n (Option K)} {U : DMat (Option K)} {method : String} {s : SA m n k K R}
    (h : Reachable sqrt? wsU V U method s) : s.V = V ∧ s.U = floorU U := ⟨h.inv.v, h.inv.u⟩

/-- A successful `initialize` is one more call. -/
theorem Reachable.initialized {sqrt? : K → Option K} {wsU : Mat k n (Option K) → Mat m k (Option K)}
    {V : Mat m n (Option K)} {U : DMat (Option K)} {method : String} {s s' : SA m n k K R}
    (h : Reachable sqrt? wsU V U method s) {a : InitArgs m n k K} (h' : s.initialize sqrt? wsU a = .ok s') :
    Reachable sqrt? wsU V U method s' := by
  obtain ⟨ops, rfl⟩ := h
  refine ⟨ops ++ [.initialize a], ?_⟩
  rw [SA.runOps, List.foldl_append, ← SA.runOps]
  simp [SA.step, h']

/-! ### C19, continued -/

/-- C19, validation: after any history of calls, a successful `initialize` leaves the model validated exactly when the
data has no NaN, the uncertainties have the shape of the data and no NaN, the contributions are an `m × k` array without
NaN and the profiles have no NaN. Infinite profile entries are accepted. -/
theorem C19_validated_iff (sqrt? : K → Option K) (wsU : Mat k n (Option K) → Mat m k (Option K))
    (V : Mat m n (Option K)) (U : DMat (Option K)) (method : String) (s s' : SA m n k K R)
    (hs : Reachable sqrt? wsU V U method s) (a : InitArgs m n k K) (h : s.initialize sqrt? wsU a = .ok s') :
    s'.validated = true ↔ (∀ i j, V i j ≠ none) ∧ (U.rows = m ∧ U.cols = n) ∧ (∀ i j, U.val i j ≠ none) ∧
      (∃ W, s'.W = some W ∧ W.rows = m ∧ W.cols = k ∧ ∀ i j, W.val i j ≠ none) ∧
      (∃ H, s'.H = some H ∧ ∀ i j, H.val i j ≠ none) := by
  have hI := hs.inv
  obtain ⟨p, hp, rfl⟩ := initialize_ok h
  have hpos := (initFactors_pos sqrt? wsU _ _ _ _ hp).1
  have := validOf_iff V U p.1 p.2 hpos
  simp only [hI.v, hI.u]
  rw [this]
  simp

private theorem colMean_some {V : Mat m n (Option K)} (hV : ∀ i j, ∃ x, V i j = some x ∧ 0 ≤ x) (j : Fin n) :
    ∃ μ, colMean V j = some μ ∧ 0 ≤ μ := by
  unfold colMean
  rw [if_neg]
  · refine ⟨_, rfl, div_nonneg (Finset.sum_nonneg fun i _ => ?_) (Nat.cast_nonneg _)⟩
    obtain ⟨x, hx, h0⟩ := hV i j
    simp [hx, h0]
  · rintro ⟨i, hi⟩
    obtain ⟨x, hx, _⟩ := hV i j
    simp [hx] at hi

private theorem rowMean_some {V : Mat m n (Option K)} (hV : ∀ i j, ∃ x, V i j = some x ∧ 0 ≤ x) (i : Fin m) :
    ∃ μ, rowMean V i = some μ ∧ 0 ≤ μ := by
  unfold rowMean
  rw [if_neg]
  · refine ⟨_, rfl, div_nonneg (Finset.sum_nonneg fun j _ => ?_) (Nat.cast_nonneg _)⟩
    obtain ⟨x, hx, h0⟩ := hV i j
    simp [hx, h0]
  · rintro ⟨j, hj⟩
    obtain ⟨x, hx, _⟩ := hV i j
    simp [hx] at hj

private theorem randomH_some {sqrt? : K → Option K} (hsq : ∀ x, 0 ≤ x → ∃ y, sqrt? x = some y)
    {V : Mat m n (Option K)} (hV : ∀ i j, ∃ x, V i j = some x ∧ 0 ≤ x) (d : InitDraws m n k K) (f : Fin k) (j : Fin n) :
    ∃ y, randomH sqrt? V d f j = some y := by
  obtain ⟨μ, h1, h2⟩ := colMean_some hV j
  obtain ⟨y, hy⟩ := hsq (μ / k) (div_nonneg h2 (Nat.cast_nonneg _))
  exact ⟨y * d.hDraw f j, by simp [randomH, h1, hy]⟩

private theorem randomW_some {sqrt? : K → Option K} (hsq : ∀ x, 0 ≤ x → ∃ y, sqrt? x = some y) (meth : Alg)
    {V : Mat m n (Option K)} (hV : ∀ i j, ∃ x, V i j = some x ∧ 0 ≤ x) (d : InitDraws m n k K) (i : Fin m) (f : Fin k) :
    ∃ y, randomW sqrt? meth V d i f = some y ∧ (meth = .ls → 0 < y) := by
  obtain ⟨μ, h1, h2⟩ := rowMean_some hV i
  obtain ⟨y, hy⟩ := hsq (μ / k) (div_nonneg h2 (Nat.cast_nonneg _))
  cases meth with
  | ws => exact ⟨y * d.wDraw i f, by simp [randomW, h1, hy], by simp⟩
  | ls =>
    have : randomW sqrt? .ls V d i f = some (if y * d.wDraw i f ≤ 0 then 1 / 10 ^ 12 else y * d.wDraw i f) := by
      simp [randomW, floorN, h1, hy]
    refine ⟨_, this, fun _ => ?_⟩
    split
    · exact eps_pos
    · exact not_le.1 ‹_›

private theorem floorN_some {r c : ℕ} {A : Mat r c (Option K)} (h : ∀ i j, ∃ x, A i j = some x) (i : Fin r) (j : Fin c) :
    ∃ x, floorN A i j = some x ∧ 0 < x := by
  obtain ⟨x, hx⟩ := h i j
  have : floorN A i j = some (if x ≤ 0 then 1 / 10 ^ 12 else x) := by simp [floorN, hx]
  exact ⟨_, this, floorN_pos this⟩

/-- C19, default initialisation: for non-negative data without NaN and usable uncertainties, `initialize()` succeeds for
every outcome of the random draws and after every history of calls; the profiles are `k × n` and positive, the
contributions are `m × k` and, for ls-nmf, positive, and the model is validated. Missing: data with negative column
means and the other argument combinations (see the theorems below). -/
theorem C19_default_partial (sqrt? : K → Option K) (hsq : ∀ x, 0 ≤ x → ∃ y, sqrt? x = some y)
    (wsU : Mat k n (Option K) → Mat m k (Option K))
    (V : Mat m n (Option K)) (hV : ∀ i j, ∃ x, V i j = some x ∧ 0 ≤ x)
    (U : DMat (Option K)) (hU : U.rows = m ∧ U.cols = n) (hU' : ∀ i j, U.val i j ≠ none) (method : String)
    (s : SA m n k K R) (hs : Reachable sqrt? wsU V U method s) (d : InitDraws m n k K) :
    ∃ s' H W, s.initialize sqrt? wsU (defaultArgs d) = .ok s' ∧ s'.H = some ⟨k, n, H⟩ ∧ s'.W = some ⟨m, k, W⟩ ∧
      (∀ f j, ∃ x : K, H f j = some (x : WithTop K) ∧ 0 < x) ∧
      (∀ i f, ∃ x, W i f = some x ∧ (parseMethod method = .ls → 0 < x)) ∧ s'.validated = true := by
  have hI := hs.inv
  have hH : ∀ f j, ∃ x : K, entries (floorN (randomH (k := k) sqrt? V d)) f j = some (x : WithTop K) ∧ 0 < x :=
    fun f j => (floorN_some (randomH_some (k := k) hsq hV d) f j).imp fun _ hx => ⟨entries_coe.2 hx.1, hx.2⟩
  have hW := randomW_some (k := k) hsq (parseMethod method) hV d
  have hw := scipyAccepts_of (V := s.V) (fun i j => by rw [hI.v]; obtain ⟨x, hx, _⟩ := hV i j; simp [hx]) (defaultArgs d)
  refine ⟨_, entries (floorN (randomH sqrt? V d)), randomW sqrt? (parseMethod method) V d, by rw [initialize_eq _ _ _ _ hw]; rfl,
    ?_, ?_, hH, hW, ?_⟩
  · simp only [hI.v]; rfl
  · simp only [hI.v, hI.meth]; rfl
  · simp only [hI.v, hI.u, hI.meth]
    refine (validOf_iff V U (entries (floorN (randomH sqrt? V d))) ⟨m, k, randomW sqrt? (parseMethod method) V d⟩ ?_).2
      ⟨fun i j => ?_, hU, hU', ⟨rfl, rfl, fun i j => ?_⟩, fun i j => ?_⟩
    · exact fun f j x hx => (entries_floorN_pos hx).le
    · obtain ⟨x, hx, _⟩ := hV i j; simp [hx]
    · obtain ⟨x, hx, _⟩ := hW i j; simp [hx]
    · obtain ⟨x, hx, _⟩ := hH i j; simp [hx]

/-- C19, user-supplied factors: a full-shape positive `H` and a full-shape `W` without NaN are used exactly as given and
the model is validated, for float and integer arrays, any data without NaN and any history of calls. -/
theorem C19_user_factors (sqrt? : K → Option K) (wsU : Mat k n (Option K) → Mat m k (Option K))
    (V : Mat m n (Option K)) (hV : ∀ i j, V i j ≠ none)
    (U : DMat (Option K)) (hU : U.rows = m ∧ U.cols = n) (hU' : ∀ i j, U.val i j ≠ none) (method : String)
    (s : SA m n k K R) (hs : Reachable sqrt? wsU V U method s)
    (H : Mat k n (Option K)) (hH : ∀ f j, ∃ x, H f j = some x ∧ 0 < x) (W : Mat m k (Option K))
    (hW : ∀ i f, W i f ≠ none) (hInt norm : Bool) (d : InitDraws m n k K) :
    ∃ s', s.initialize sqrt? wsU ⟨some ⟨k, n, H⟩, hInt, some ⟨m, k, W⟩, false, false, d, norm⟩ = .ok s' ∧
      s'.H = some ⟨k, n, entries H⟩ ∧ s'.W = some ⟨m, k, W⟩ ∧ s'.validated = true := by
  have hI := hs.inv
  have e : asShape k n (⟨k, n, H⟩ : DMat (Option K)) = some H := by simp [asShape]
  have hfl : (if hInt && !false then floorI else floorN) H = H := by
    split
    · exact floorI_id hH
    · exact floorN_id hH
  have hf : initFactors sqrt? wsU s.method s.V ⟨some ⟨k, n, H⟩, hInt, some ⟨m, k, W⟩, false, false, d, norm⟩
      = .ok (entries H, ⟨m, k, W⟩) := by
    simp only [initFactors, baseFactors, Option.bind_some, e, Option.isSome_some, Option.getD_some, Bool.false_eq_true,
      if_false, hfl]
  have hw := scipyAccepts_of (V := s.V) (fun i j => by rw [hI.v]; exact hV i j)
    (⟨some ⟨k, n, H⟩, hInt, some ⟨m, k, W⟩, false, false, d, norm⟩ : InitArgs m n k K)
  refine ⟨_, by rw [initialize_eq _ _ _ _ hw]; simp only [hf]; rfl, rfl, rfl, ?_⟩
  simp only [hI.v, hI.u]
  refine (validOf_iff V U (entries H) ⟨m, k, W⟩ ?_).2 ⟨hV, hU, hU', ⟨rfl, rfl, hW⟩, fun i j => ?_⟩
  · intro f j x hx
    obtain ⟨y, hy, h0⟩ := hH f j
    obtain ⟨z, hz, rfl⟩ := entries_some.1 hx
    rw [hz] at hy
    exact WithTop.coe_nonneg.2 ((Option.some.inj hy) ▸ h0.le)
  · obtain ⟨x, hx, _⟩ := hH i j; simp [entries, hx]

/-- C19 fails for data with a negative column mean (which the class accepts for ws-nmf): the default initialisation
takes the root of a negative number and the model is never validated, whatever the random draws and the method. -/
theorem C19_negative_mean_refuted (sqrt? : K → Option K) (hsq : ∀ x, x < 0 → sqrt? x = none)
    (wsU : Mat k n (Option K) → Mat m k (Option K)) (hk : 0 < k)
    (V : Mat m n (Option K)) (hV : ∀ i j, V i j ≠ none) (j : Fin n) (μ : K) (hμ : colMean V j = some μ) (hneg : μ < 0)
    (s : SA m n k K R) (h : s.V = V) (d : InitDraws m n k K) :
    ∃ s', s.initialize sqrt? wsU (defaultArgs d) = .ok s' ∧ s'.validated = false := by
  have hk' : (0 : K) < k := Nat.cast_pos.2 hk
  have h1 : floorN (randomH (k := k) sqrt? V d) ⟨0, hk⟩ j = none := by
    simp [floorN, randomH, hμ, hsq (μ / k) (div_neg_of_neg_of_pos hneg hk')]
  have hw : scipyAccepts s.V (defaultArgs d) = true := scipyAccepts_of (fun i j => by rw [h]; exact hV i j) _
  refine ⟨_, by rw [initialize_eq _ _ _ _ hw]; rfl, ?_⟩
  simp only [h]
  have : anyNaN (entries (floorN (randomH (k := k) sqrt? V d))) = true := by
    by_contra hc
    rw [Bool.not_eq_true, anyNaN_ne] at hc
    exact hc _ _ (entries_none.2 h1)
  simp [validOf, initFactors, baseFactors, defaultArgs, this]

/-- C19, prior profiles: with non-negative data, priors for at most `k` factors (rows of length `n`, no NaN) are accepted
whenever no column of the combined matrix sums to zero; the profiles are then positive and the model is validated.
Missing: columns summing to zero, see `C19_prior_zero_sum_partial`. -/
theorem C19_prior_partial (sqrt? : K → Option K) (hsq : ∀ x, 0 ≤ x → ∃ y, sqrt? x = some y)
    (wsU : Mat k n (Option K) → Mat m k (Option K))
    (V : Mat m n (Option K)) (hV : ∀ i j, ∃ x, V i j = some x ∧ 0 ≤ x)
    (U : DMat (Option K)) (hU : U.rows = m ∧ U.cols = n) (hU' : ∀ i j, U.val i j ≠ none) (method : String)
    (s : SA m n k K R) (hs : Reachable sqrt? wsU V U method s) (d : InitDraws m n k K)
    (q : ℕ) (hq : q < k) (P : Mat q n K) (hInt norm : Bool)
    (hsum : ∀ j, ∑ f : Fin k, (if hf : f.val < q then P ⟨f.val, hf⟩ j else (randomH sqrt? V d f j).getD 0) ≠ 0) :
    ∃ s' H, s.initialize sqrt? wsU ⟨some ⟨q, n, fun f j => some (P f j)⟩, hInt, none, false, false, d, norm⟩ = .ok s' ∧
      s'.H = some ⟨k, n, H⟩ ∧ (∀ f j, ∃ x : K, H f j = some (x : WithTop K) ∧ 0 < x) ∧ s'.validated = true := by
  have hI := hs.inv
  have hr := randomH_some (k := k) hsq hV d
  have hW := randomW_some (k := k) hsq (parseMethod method) hV d
  set P' : DMat (Option K) := ⟨q, n, fun f j => some (P f j)⟩ with hP'
  have e : asShape k n P' = none := by
    unfold asShape
    rw [dif_neg]
    rintro ⟨h, _⟩
    have : q = k := h
    omega
  set C : Mat k n (Option K) := fun f j => if hf : f.val < q then some (P ⟨f.val, hf⟩ j) else randomH sqrt? V d f j
    with hC
  have hCs : ∀ f j, ∃ x, C f j = some x := by
    intro f j
    simp only [hC]
    split
    · exact ⟨_, rfl⟩
    · exact hr f j
  have hCd : ∀ j, ∑ f, (C f j).getD 0 ≠ 0 := by
    intro j
    convert hsum j using 1
    refine Finset.sum_congr rfl fun f _ => ?_
    simp only [hC]
    split <;> rfl
  have hins : q ≠ 0 → insertPrior (randomH sqrt? V d) P' = .ok (normaliseCols C) := by
    intro hq0
    unfold insertPrior
    rw [if_neg hq0, if_neg (by simp [hP']), if_neg (by simp [hP']; omega)]
    congr 2
    funext f j
    simp only [hC]
    by_cases hf : f.val < q
    · rw [dif_pos hf, dif_pos (show f.val < P'.rows from hf)]
      simp [priorRow, P']
    · rw [dif_neg hf, dif_neg (show ¬ f.val < P'.rows from hf)]
  have hins' : insertPrior (randomH sqrt? V d) P' = .ok (normaliseCols C) := by
    by_cases hq0 : q = 0
    · have : C = randomH sqrt? V d := by
        funext f j
        simp only [hC]
        rw [dif_neg (by omega)]
      unfold insertPrior
      rw [if_pos (show P'.rows = 0 from hq0), this]
    · exact hins hq0
  have hH : ∀ f j, ∃ x : K, normaliseCols C f j = some (x : WithTop K) ∧ 0 < x := by
    intro f j
    have h1 : normaliseCols C f j = some (((if (C f j).getD 0 / (∑ b, (C b j).getD 0) ≤ 0 then 1 / 10 ^ 12
        else (C f j).getD 0 / (∑ b, (C b j).getD 0) : K)) : WithTop K) := by
      simp only [normaliseCols]
      rw [if_neg, if_neg (hCd j)]
      rintro ⟨b, hb⟩
      obtain ⟨y, hy⟩ := hCs b j
      simp [hy] at hb
    exact ⟨_, h1, WithTop.coe_pos.1 (normaliseCols_pos h1)⟩
  have hf : initFactors sqrt? wsU s.method s.V ⟨some P', hInt, none, false, false, d, norm⟩
      = .ok (normaliseCols C, ⟨m, k, randomW sqrt? s.method V d⟩) := by
    simp only [initFactors, baseFactors, Option.bind_some, e, Option.isSome_none, Option.getD_none, Bool.false_eq_true,
      if_false, hI.v, hins']
  have hw := scipyAccepts_of (V := s.V) (fun i j => by rw [hI.v]; obtain ⟨x, hx, _⟩ := hV i j; simp [hx])
    (⟨some P', hInt, none, false, false, d, norm⟩ : InitArgs m n k K)
  refine ⟨_, normaliseCols C, by rw [initialize_eq _ _ _ _ hw]; simp only [hf]; rfl, rfl, hH, ?_⟩
  simp only [hI.v, hI.u]
  refine (validOf_iff V U _ _ (fun f j x hx => (normaliseCols_pos hx).le)).2
    ⟨fun i j => ?_, hU, hU', ⟨rfl, rfl, fun i j => ?_⟩, fun i j => ?_⟩
  · obtain ⟨x, hx, _⟩ := hV i j; simp [hx]
  · obtain ⟨x, hx, _⟩ := hW i j; simp [hI.meth, hx]
  · obtain ⟨x, hx, _⟩ := hH i j; simp [hx]

/-- C19, priors with one value per factor: an array of `q < k` rows and a single column acts as the array in which that
value is repeated in each of the `n` columns. -/
theorem C19_prior_broadcast_partial (sqrt? : K → Option K) (wsU : Mat k n (Option K) → Mat m k (Option K))
    (s : SA m n k K R) (q : ℕ) (hq : q < k) (p : Fin q → Option K) (hInt kmeans update norm : Bool)
    (W : Option (DMat (Option K))) (d : InitDraws m n k K) :
    s.initialize sqrt? wsU ⟨some ⟨q, 1, fun f _ => p f⟩, hInt, W, kmeans, update, d, norm⟩
      = s.initialize sqrt? wsU ⟨some ⟨q, n, fun f _ => p f⟩, hInt, W, kmeans, update, d, norm⟩ := by
  have e : ∀ c, asShape k n (⟨q, c, fun f _ => p f⟩ : DMat (Option K)) = none := by
    intro c
    unfold asShape
    rw [dif_neg]
    rintro ⟨h, _⟩
    have : q = k := h
    omega
  have hins : ∀ A : Mat k n (Option K), insertPrior A ⟨q, 1, fun f _ => p f⟩
      = insertPrior A ⟨q, n, fun f _ => p f⟩ := by
    intro A
    have hr : ∀ (f : Fin q) (j : Fin n), priorRow n (⟨q, 1, fun f _ => p f⟩ : DMat (Option K)) f j
        = priorRow n ⟨q, n, fun f _ => p f⟩ f j := by
      intro f j
      simp only [priorRow]
      split <;> simp
    unfold insertPrior
    simp only [ne_eq, not_true_eq_false, and_false, false_and, if_false]
    by_cases h0 : q = 0
    · rw [if_pos h0, if_pos h0]
    · rw [if_neg h0, if_neg h0]
      simp only [hr]
  have hf : initFactors sqrt? wsU s.method s.V ⟨some ⟨q, 1, fun f _ => p f⟩, hInt, W, kmeans, update, d, norm⟩
      = initFactors sqrt? wsU s.method s.V ⟨some ⟨q, n, fun f _ => p f⟩, hInt, W, kmeans, update, d, norm⟩ := by
    simp only [initFactors, baseFactors, Option.bind_some, e, Option.isSome_none, hins]
  have hs : scipyAccepts s.V (⟨some ⟨q, 1, fun f _ => p f⟩, hInt, W, kmeans, update, d, norm⟩ : InitArgs m n k K)
      = scipyAccepts s.V ⟨some ⟨q, n, fun f _ => p f⟩, hInt, W, kmeans, update, d, norm⟩ := rfl
  unfold SA.initialize
  rw [hf, hs]

/-- A prior of one row and one column among two factors: both columns get it, next to the other factor's value. -/
example : (match insertPrior (fun _ _ => some 1 : Mat 2 2 (Option ℚ)) ⟨1, 1, fun _ _ => some 3⟩ with
    | .ok h => h 0 0 = some ((3 / 4 : ℚ) : WithTop ℚ) ∧ h 0 1 = some ((3 / 4 : ℚ) : WithTop ℚ) ∧
        h 1 1 = some ((1 / 4 : ℚ) : WithTop ℚ)
    | .error _ => False) := by
  simp [insertPrior, priorRow, normaliseCols]
  norm_num

/-- More prior profiles than factors: `initialize` raises, whatever the other arguments. -/
theorem C19_too_many_priors (sqrt? : K → Option K) (wsU : Mat k n (Option K) → Mat m k (Option K))
    (s : SA m n k K R) (P : DMat (Option K)) (hP : k < P.rows) (hInt kmeans update norm : Bool)
    (W : Option (DMat (Option K))) (d : InitDraws m n k K) :
    ∃ e, s.initialize sqrt? wsU ⟨some P, hInt, W, kmeans, update, d, norm⟩ = .error e := by
  have e : asShape k n P = none := by
    unfold asShape
    rw [dif_neg]
    rintro ⟨h, _⟩
    omega
  have h : ∀ A : Mat k n (Option K), ∃ er, insertPrior A P = .error er := by
    intro A
    unfold insertPrior
    rw [if_neg (by omega)]
    split
    · exact ⟨_, rfl⟩
    · exact ⟨_, rfl⟩
  obtain ⟨er, her⟩ := h (baseFactors sqrt? wsU s.method s.V ⟨some P, hInt, W, kmeans, update, d, norm⟩).1
  by_cases hw : scipyAccepts s.V (⟨some P, hInt, W, kmeans, update, d, norm⟩ : InitArgs m n k K) = true
  · exact ⟨er, by rw [initialize_eq _ _ _ _ hw]; simp [initFactors, e, her]⟩
  · exact ⟨.notFinite, by simp [SA.initialize, hw]⟩

/-- C19 fails for contributions supplied by the user: an `m × k` array `W` with any finite entries is accepted for
ls-nmf, kept as it is (negative entries included), the model is validated and LS-NMF is used. -/
theorem C19_negative_contributions_refuted (sqrt? : K → Option K) (hsq : ∀ x, 0 ≤ x → ∃ y, sqrt? x = some y)
    (wsU : Mat k n (Option K) → Mat m k (Option K))
    (V : Mat m n (Option K)) (hV : ∀ i j, ∃ x, V i j = some x ∧ 0 ≤ x)
    (U : DMat (Option K)) (hU : U.rows = m ∧ U.cols = n) (hU' : ∀ i j, U.val i j ≠ none) (d : InitDraws m n k K)
    (norm : Bool) (W : Mat m k K) (hW : ∃ i f, W i f < 0) :
    ∃ s', (SA.construct k V U "ls-nmf" : SA m n k K R).initialize sqrt? wsU
        ⟨none, false, some ⟨m, k, fun i f => some (W i f)⟩, false, false, d, norm⟩ = .ok s' ∧
      s'.validated = true ∧ s'.algorithm true = .ls ∧ s'.W = some ⟨m, k, fun i f => some (W i f)⟩ ∧
      ∃ i f, W i f < 0 := by
  have hn : anyNaN V = false := anyNaN_false.2 fun i j => (hV i j).imp fun x hx => hx.1
  have hneg : negOf V none = false := by
    unfold negOf
    rw [(minNeg_false hn).2]
    · rfl
    · intro i j x hx
      obtain ⟨y, hy, h0⟩ := hV i j
      rw [hx] at hy
      exact (Option.some.inj hy) ▸ h0
  have hp : parseMethod "ls-nmf" = .ls := by decide +kernel
  have hH : ∀ f j, ∃ x : K, entries (floorN (randomH (k := k) sqrt? V d)) f j = some (x : WithTop K) ∧ 0 < x :=
    fun f j => (floorN_some (randomH_some (k := k) hsq hV d) f j).imp fun _ hx => ⟨entries_coe.2 hx.1, hx.2⟩
  have hw : scipyAccepts (SA.construct k V U "ls-nmf" : SA m n k K R).V
      (⟨none, false, some ⟨m, k, fun i f => some (W i f)⟩, false, false, d, norm⟩ : InitArgs m n k K) = true :=
    scipyAccepts_of (fun i j => by obtain ⟨x, hx, _⟩ := hV i j; simp [SA.construct, hx]) _
  refine ⟨_, by rw [initialize_eq _ _ _ _ hw]; rfl, ?_, ?_, rfl, hW⟩
  · refine (validOf_iff V U (entries (floorN (randomH sqrt? V d))) ⟨m, k, fun i f => some (W i f)⟩
      (fun f j x hx => (entries_floorN_pos hx).le)).2
      ⟨fun i j => ?_, hU, hU', ⟨rfl, rfl, fun i j => by simp⟩, fun i j => ?_⟩
    · obtain ⟨x, hx, _⟩ := hV i j; simp [hx]
    · obtain ⟨x, hx, _⟩ := hH i j; simp [hx]
  · simp [SA.algorithm, SA.construct, hneg, hp]

end

/-- The real square root as NumPy computes it: NaN for negative numbers. -/
noncomputable def npSqrt (x : ℝ) : Option ℝ := if x < 0 then none else some (Real.sqrt x)

/-- Draws whose normal deviates for the profiles are all -1. -/
def negDraws (m n k : ℕ) : InitDraws m n k ℝ := ⟨fun _ _ => -1, fun _ _ => 1, fun _ _ => none, fun _ _ => 1⟩

/-- A 1 × 1 data set and uncertainty, used in the witnesses below. -/
def oneU : DMat (Option ℝ) := ⟨1, 1, fun _ _ => some 1⟩

/-- C19 fails for `init_method="column_mean_update"` with ls-nmf: a negative normal draw gives a negative contribution
although the data are positive; the model is validated and LS-NMF is used on it. -/
theorem C19_update_refuted : ∃ (d : InitDraws 1 1 1 ℝ) (s' : SA 1 1 1 ℝ Unit),
    (SA.construct 1 (fun _ _ => some 1) oneU "ls-nmf").initialize npSqrt (fun _ _ _ => none)
      ⟨none, false, none, false, true, d, true⟩ = .ok s' ∧ s'.validated = true ∧ s'.algorithm true = .ls ∧
    s'.W = some ⟨1, 1, fun _ _ => some (-1)⟩ := by
  have hr : randomH npSqrt (fun _ _ => some (1 : ℝ)) (negDraws 1 1 1)
      = (fun _ _ => some (-1) : Mat 1 1 (Option ℝ)) := by
    funext f j
    simp [randomH, colMean, npSqrt, negDraws, not_lt.2 (zero_le_one (α := ℝ))]
  have hm : matmulVHt (fun _ _ => some (1 : ℝ)) (fun _ _ => some (-1) : Mat 1 1 (Option ℝ))
      = (fun _ _ => some (-1) : Mat 1 1 (Option ℝ)) := by
    funext f j
    simp [matmulVHt]
  have hp : parseMethod "ls-nmf" = .ls := by decide +kernel
  have hng : negOf (fun _ _ => some 1 : Mat 1 1 (Option ℝ)) none = false := by
    simp [negOf, minNeg]
  have hf : initFactors npSqrt (fun _ _ _ => none) .ls (fun _ _ => some 1 : Mat 1 1 (Option ℝ))
      ⟨none, false, none, false, true, negDraws 1 1 1, true⟩
      = .ok (entries (floorN (fun _ _ => some (-1))), ⟨1, 1, fun _ _ => some (-1)⟩) := by
    simp [initFactors, baseFactors, hr, hm]
  refine ⟨negDraws 1 1 1, _,
    by rw [initialize_eq _ _ _ _ (scipyAccepts_of (fun i j => by simp [SA.construct]) _)]
       simp only [SA.construct, hp, hf]; rfl, ?_, ?_, rfl⟩
  · refine (validOf_iff _ oneU _ _ (fun f j x hx => (entries_floorN_pos hx).le)).2
      ⟨fun i j => by simp, ⟨rfl, rfl⟩, fun i j => by simp [oneU], ⟨rfl, rfl, fun i j => by simp⟩, fun i j => ?_⟩
    simp [floorN, entries]
  · simp [SA.algorithm, hng]

/-- C19 fails for an integer profile array: its zeros stay zero, since the floor `1e-12` is truncated to the dtype. -/
theorem C19_integer_refuted {k n m : ℕ} {R : Type*} (sqrt? : ℝ → Option ℝ)
    (wsU : Mat k n (Option ℝ) → Mat m k (Option ℝ)) (s : SA m n k ℝ R) (hV : ∀ i j, s.V i j ≠ none) (H : Mat k n ℕ)
    (f : Fin k) (j : Fin n) (h0 : H f j = 0) (norm : Bool) (d : InitDraws m n k ℝ) :
    ∃ s' H', s.initialize sqrt? wsU ⟨some ⟨k, n, fun f j => some (H f j : ℝ)⟩, true, none, false, false, d, norm⟩ = .ok s' ∧
      s'.H = some ⟨k, n, H'⟩ ∧ H' f j = some 0 := by
  have e : asShape k n (⟨k, n, fun f j => some (H f j : ℝ)⟩ : DMat (Option ℝ)) = some fun f j => some (H f j : ℝ) := by
    simp [asShape]
  have hf : initFactors sqrt? wsU s.method s.V
      ⟨some ⟨k, n, fun f j => some (H f j : ℝ)⟩, true, none, false, false, d, norm⟩
      = .ok (entries (floorI fun f j => some (H f j : ℝ)), ⟨m, k, randomW sqrt? s.method s.V d⟩) := by
    simp only [initFactors, baseFactors, Option.bind_some, e, Option.isSome_some, Option.getD_some, Bool.false_eq_true,
      if_false, Bool.not_false, Bool.and_true, if_true, Option.getD_none]
  exact ⟨_, entries (floorI fun f j => some (H f j : ℝ)),
    by rw [initialize_eq _ _ _ _ (scipyAccepts_of hV _)]; simp only [hf]; rfl, rfl, by simp [entries, floorI, h0]⟩

/-- C19, prior profiles whose column sums to zero: every other property of the call being as in `C19_prior_partial`, the
entries of such a column are `inf` where the combined matrix is positive, `1e-12` where it is negative and NaN where it is
zero; so if no entry of the combined matrix is zero the model is validated with infinite profile entries. -/
theorem C19_prior_zero_sum_partial {K : Type*} [Field K] [LinearOrder K] [IsStrictOrderedRing K] {m n k : ℕ} {R : Type*}
    (sqrt? : K → Option K) (hsq : ∀ x, 0 ≤ x → ∃ y, sqrt? x = some y)
    (wsU : Mat k n (Option K) → Mat m k (Option K))
    (V : Mat m n (Option K)) (hV : ∀ i j, ∃ x, V i j = some x ∧ 0 ≤ x)
    (U : DMat (Option K)) (hU : U.rows = m ∧ U.cols = n) (hU' : ∀ i j, U.val i j ≠ none) (method : String)
    (s : SA m n k K R) (hs : Reachable sqrt? wsU V U method s) (d : InitDraws m n k K)
    (q : ℕ) (hq : q < k) (P : Mat q n K) (hInt norm : Bool) (C : Mat k n K)
    (hC : ∀ f j, C f j = if hf : f.val < q then P ⟨f.val, hf⟩ j else (randomH sqrt? V d f j).getD 0) :
    ∃ s' H, s.initialize sqrt? wsU ⟨some ⟨q, n, fun f j => some (P f j)⟩, hInt, none, false, false, d, norm⟩ = .ok s' ∧
      s'.H = some ⟨k, n, H⟩ ∧
      (∀ j, ∑ f, C f j = 0 → ∀ f, (0 < C f j → H f j = some ⊤) ∧
        (C f j < 0 → H f j = some ((1 / 10 ^ 12 : K) : WithTop K)) ∧ (C f j = 0 → H f j = none)) ∧
      (∀ j, ∑ f, C f j ≠ 0 → ∀ f, ∃ x : K, H f j = some (x : WithTop K) ∧ 0 < x) ∧
      (s'.validated = true ↔ ∀ j, ∑ f, C f j = 0 → ∀ f, C f j ≠ 0) := by
  have hI := hs.inv
  have hr := randomH_some (k := k) hsq hV d
  have hW := randomW_some (k := k) hsq (parseMethod method) hV d
  set P' : DMat (Option K) := ⟨q, n, fun f j => some (P f j)⟩ with hP'
  have e : asShape k n P' = none := by
    unfold asShape
    rw [dif_neg]
    rintro ⟨h, _⟩
    have : q = k := h
    omega
  set D : Mat k n (Option K) := fun f j => some (C f j) with hD
  have hins' : insertPrior (randomH sqrt? V d) P' = .ok (normaliseCols D) := by
    have hDe : ∀ f j, D f j = if hf : f.val < q then some (P ⟨f.val, hf⟩ j) else randomH sqrt? V d f j := by
      intro f j
      simp only [hD, hC]
      split
      · rfl
      · obtain ⟨y, hy⟩ := hr f j
        simp [hy]
    unfold insertPrior
    by_cases hq0 : q = 0
    · rw [if_pos (show P'.rows = 0 from hq0)]
      congr 2
      funext f j
      rw [hDe, dif_neg (by omega)]
    · rw [if_neg hq0, if_neg (by simp [hP']), if_neg (by simp [hP']; omega)]
      congr 2
      funext f j
      rw [hDe]
      by_cases hf : f.val < q
      · rw [dif_pos hf, dif_pos (show f.val < P'.rows from hf)]
        simp [priorRow, P']
      · rw [dif_neg hf, dif_neg (show ¬ f.val < P'.rows from hf)]
  have hf : initFactors sqrt? wsU s.method s.V ⟨some P', hInt, none, false, false, d, norm⟩
      = .ok (normaliseCols D, ⟨m, k, randomW sqrt? s.method V d⟩) := by
    simp only [initFactors, baseFactors, Option.bind_some, e, Option.isSome_none, Option.getD_none, Bool.false_eq_true,
      if_false, hI.v, hins']
  have hw := scipyAccepts_of (V := s.V) (fun i j => by rw [hI.v]; obtain ⟨x, hx, _⟩ := hV i j; simp [hx])
    (⟨some P', hInt, none, false, false, d, norm⟩ : InitArgs m n k K)
  have hN : ∀ f j, normaliseCols D f j = if ∑ b, C b j = 0 then
      (if C f j < 0 then some ((1 / 10 ^ 12 : K) : WithTop K) else if C f j = 0 then none else some ⊤)
      else some ((if C f j / (∑ b, C b j) ≤ 0 then 1 / 10 ^ 12 else C f j / (∑ b, C b j) : K) : WithTop K) := by
    intro f j
    simp only [normaliseCols, hD, Option.getD_some, Option.isNone_some, Bool.false_eq_true, exists_false, if_false]
  refine ⟨_, normaliseCols D, by rw [initialize_eq _ _ _ _ hw]; simp only [hf]; rfl, rfl, ?_, ?_, ?_⟩
  · intro j hj f
    rw [hN, if_pos hj]
    refine ⟨fun h => ?_, fun h => ?_, fun h => ?_⟩
    · rw [if_neg (not_lt.2 h.le), if_neg h.ne']
    · rw [if_pos h]
    · rw [if_neg (not_lt.2 h.ge), if_pos h]
  · intro j hj f
    have h1 := hN f j
    rw [if_neg hj] at h1
    exact ⟨_, h1, WithTop.coe_pos.1 (normaliseCols_pos h1)⟩
  · simp only [hI.v, hI.u]
    rw [validOf_iff V U _ _ (fun f j x hx => (normaliseCols_pos hx).le)]
    constructor
    · rintro ⟨-, -, -, -, h⟩ j hj f h0
      refine h f j ?_
      rw [hN, if_pos hj, if_neg (not_lt.2 h0.ge), if_pos h0]
    · intro h
      refine ⟨fun i j => ?_, hU, hU', ⟨rfl, rfl, fun i j => ?_⟩, fun f j => ?_⟩
      · obtain ⟨x, hx, _⟩ := hV i j; simp [hx]
      · obtain ⟨x, hx, _⟩ := hW i j; simp [hI.meth, hx]
      · rw [hN]
        by_cases hj : ∑ b, C b j = 0
        · rw [if_pos hj, if_neg (h j hj f)]
          split <;> simp
        · simp [hj]

/-- C19 fails for prior profiles whose column cancels the sampled rows: the normalisation divides by zero, the first
profile entry is infinite, and the model is nevertheless validated (here: prior 1, sampled entry -1). -/
theorem C19_prior_zero_sum_refuted : ∃ (d : InitDraws 1 1 2 ℝ) (s' : SA 1 1 2 ℝ Unit) (H : Mat 2 1 (PEntry ℝ)),
    (SA.construct 2 (fun _ _ => some 2) oneU "ls-nmf").initialize npSqrt (fun _ _ _ => none)
      ⟨some ⟨1, 1, fun _ _ => some 1⟩, false, none, false, false, d, true⟩ = .ok s' ∧ s'.validated = true ∧
    s'.H = some ⟨2, 1, H⟩ ∧ H 0 0 = some ⊤ ∧ H 1 0 = some ((1 / 10 ^ 12 : ℝ) : WithTop ℝ) := by
  have hr : ∀ f j, (randomH npSqrt (fun _ _ => some (2 : ℝ)) (negDraws 1 1 2) : Mat 2 1 (Option ℝ)) f j = some (-1) := by
    intro f j
    simp [randomH, colMean, npSqrt, negDraws, not_lt.2 (zero_le_one (α := ℝ))]
  obtain ⟨s', H, h1, h2, h3, -, h4⟩ := C19_prior_zero_sum_partial (m := 1) (n := 1) (k := 2) (R := Unit) npSqrt
    (fun x hx => ⟨_, by simp only [npSqrt, not_lt.2 hx, if_false]; rfl⟩) (fun _ _ _ => none) (fun _ _ => some 2)
    (fun _ _ => ⟨2, rfl, by norm_num⟩) oneU ⟨rfl, rfl⟩ (fun _ _ => by simp [oneU]) "ls-nmf"
    (SA.construct 2 (fun _ _ => some 2) oneU "ls-nmf") ⟨[], rfl⟩ (negDraws 1 1 2) 1 (by norm_num)
    (fun _ _ => 1) false true (fun f _ => if f.val < 1 then 1 else -1)
    (fun f j => by rw [hr]; simp)
  have hz : ∀ j : Fin 1, ∑ f : Fin 2, (if f.val < 1 then (1 : ℝ) else -1) = 0 := by
    intro j
    simp [Fin.sum_univ_two]
  refine ⟨negDraws 1 1 2, s', H, h1, h4.2 (fun j hj f => ?_), h2, (h3 0 (hz 0) 0).1 (by norm_num), (h3 0 (hz 0) 1).2.1 ?_⟩
  · fin_cases f <;> norm_num
  · norm_num

/-! ## C20 -/

section
variable {K : Type*} [Field K] [LinearOrder K] [IsStrictOrderedRing K] {m n k : ℕ} {R : Type*}

/-- C20 holds for contributions in every case and for profile arrays that are of another shape, are replaced by k-means
or have positive entries only. Missing: full-shape arrays with a zero or negative entry (`C20_refuted`). -/
theorem C20_partial (hInt kmeans : Bool) (H W : DMat (Option K))
    (h : kmeans = true ∨ ¬ (H.rows = k ∧ H.cols = n) ∨ ∀ f j, ∃ x, H.val f j = some x ∧ 0 < x) :
    callerHAfter k n hInt kmeans H = H ∧ callerWAfter W = W := by
  refine ⟨?_, rfl⟩
  unfold callerHAfter
  split
  · rename_i hc
    rcases h with h | h | h
    · simp [h] at hc
    · exact absurd hc.2 h
    · have : (if hInt then floorI else floorN) H.val = H.val := by
        split
        · exact floorI_id h
        · exact floorN_id h
      rw [this]
  · rfl

/-- C20 fails for every full-shape profile array with a zero or negative entry (float dtype, no k-means): that entry of
the caller's array is overwritten. -/
theorem C20_refuted (H : DMat (Option K)) (hs : H.rows = k ∧ H.cols = n) (f : Fin H.rows) (j : Fin H.cols) (x : K)
    (hx : H.val f j = some x) (h0 : x ≤ 0) : callerHAfter k n false false H ≠ H := by
  intro h
  have h1 : (callerHAfter k n false false H) = { H with val := floorN H.val } := by
    simp [callerHAfter, hs]
  rw [h1] at h
  have h2 : floorN H.val = H.val := by
    cases H
    simpa using h
  have h3 := congrFun (congrFun h2 f) j
  have h4 : floorN H.val f j = some (1 / 10 ^ 12) := by simp [floorN, hx, h0]
  rw [h4, hx, Option.some.injEq] at h3
  exact absurd (h3 ▸ h0) (not_le.2 eps_pos)

/-- Exactly when the caller's profile array is left as it was: it is replaced by k-means, has another shape, or has no entry that
the lower bound changes (for an integer array the bound is truncated to zero, so its zeros stay). -/
theorem C20_iff_partial (hInt kmeans : Bool) (H : DMat (Option K)) :
    callerHAfter k n hInt kmeans H = H ↔ kmeans = true ∨ ¬ (H.rows = k ∧ H.cols = n) ∨
      ∀ f j x, H.val f j = some x → if hInt then 0 ≤ x else 0 < x := by
  unfold callerHAfter
  by_cases hk : kmeans = true
  · simp [hk]
  by_cases hs : H.rows = k ∧ H.cols = n
  · rw [if_pos ⟨by simpa using hk, hs⟩]
    have e : ({ H with val := (if hInt then floorI else floorN) H.val } = H) ↔ (if hInt then floorI else floorN) H.val = H.val := by
      cases H
      simp
    rw [e]
    simp only [hk, hs, and_self, not_true_eq_false, false_or, Bool.false_eq_true]
    constructor
    · intro h f j x hx
      have h1 := congrFun (congrFun h f) j
      cases hInt with
      | true =>
        simp only [if_true, floorI, hx, Option.map_some, Option.some.injEq] at h1 ⊢
        split at h1
        · exact h1.le
        · rename_i hc
          exact (not_le.1 hc).le
      | false =>
        simp only [Bool.false_eq_true, if_false, floorN, hx, Option.some.injEq] at h1 ⊢
        split at h1
        · exact h1 ▸ eps_pos
        · rename_i hc
          exact not_le.1 hc
    · intro h
      funext f j
      cases hx : H.val f j with
      | none => cases hInt <;> simp [floorI, floorN, hx]
      | some x =>
        have := h f j x hx
        cases hInt with
        | true =>
          simp only [if_true, floorI, hx, Option.map_some, Option.some.injEq] at this ⊢
          split
          · exact le_antisymm this (by assumption)
          · rfl
        | false =>
          simp only [Bool.false_eq_true, if_false, floorN, hx, Option.some.injEq] at this ⊢
          rw [if_neg (not_le.2 this)]
  · rw [if_neg (fun h => hs h.2)]
    simp [hs]

/-- Both sides occur: a zero is kept in an integer array and overwritten in a float array. -/
example : callerHAfter (K := ℚ) 1 1 true false ⟨1, 1, fun _ _ => some 0⟩ = ⟨1, 1, fun _ _ => some 0⟩ ∧
    callerHAfter (K := ℚ) 1 1 false false ⟨1, 1, fun _ _ => some 0⟩ ≠ ⟨1, 1, fun _ _ => some 0⟩ := by
  rw [C20_iff_partial, ne_eq, C20_iff_partial]
  simp

/-- The stored array is the caller's array (the model keeps a reference): what `initialize` stores is what the caller
sees afterwards. -/
theorem C20_same_array (sqrt? : K → Option K) (wsU : Mat k n (Option K) → Mat m k (Option K))
    (s s' : SA m n k K R) (H : Mat k n (Option K)) (hInt update norm : Bool) (W : Option (DMat (Option K)))
    (d : InitDraws m n k K) (h : s.initialize sqrt? wsU ⟨some ⟨k, n, H⟩, hInt, W, false, update, d, norm⟩ = .ok s') :
    s'.H = some ⟨_, _, entries (callerHAfter k n hInt false ⟨k, n, H⟩).val⟩ := by
  have e : asShape k n (⟨k, n, H⟩ : DMat (Option K)) = some H := by simp [asShape]
  obtain ⟨p, hp, rfl⟩ := initialize_ok h
  simp only [initFactors, baseFactors, Option.bind_some, e, Option.isSome_some, Option.getD_some,
    Bool.false_eq_true, if_false, Bool.not_false, Bool.and_true, Except.ok.injEq] at hp
  subst hp
  have hc : callerHAfter k n hInt false ⟨k, n, H⟩ = ⟨k, n, (if hInt then floorI else floorN) H⟩ := by
    simp [callerHAfter]
  rw [hc]

/-! ## C21 -/

/-- C21: in every reachable state and for every training loop, `train` either raises (only if the automatic
initialisation raises), or it acts on the state `s1` (the current state, or the automatically initialised one if
`initialize` was never called) as follows: it returns -1 exactly when `s1` is not validated, and then leaves `s1`
unchanged; it returns `False` exactly when `s1` is validated and the compiled loop fails, again leaving `s1` unchanged;
otherwise it returns `None` and the factors of the loop and the results computed from them are stored. -/
theorem C21_return_value (sqrt? : K → Option K) (wsU : Mat k n (Option K) → Mat m k (Option K))
    (V : Mat m n (Option K)) (U : DMat (Option K)) (method : String) (s : SA m n k K R)
    (hs : Reachable sqrt? wsU V U method s) (d : InitDraws m n k K) (b : Bool)
    (run : Alg → DMat (Option K) → DMat (PEntry K) → Option (DMat (Option K) × DMat (PEntry K)))
    (finish : DMat (Option K) → DMat (PEntry K) → R) (s1 : SA m n k K R)
    (h1 : (s.initialized = true ∧ s1 = s) ∨
      (s.initialized = false ∧ s.initialize sqrt? wsU (defaultArgs d) = .ok s1)) :
    ∃ s' r, s.train (fun s => s.initialize sqrt? wsU (defaultArgs d)) b run finish = .ok (s', r) ∧
      (r = .minusOne ↔ s1.validated = false) ∧ (r = .minusOne → s' = s1) ∧
      (r = .false → s' = s1) ∧
      (s1.validated = true → ∃ W H, s1.W = some W ∧ s1.H = some H ∧
        (run (s1.algorithm b) W H = none ↔ r = .false) ∧
        (∀ W' H', run (s1.algorithm b) W H = some (W', H') →
          r = .none ∧ s'.W = some W' ∧ s'.H = some H' ∧ s'.results = some (finish W' H'))) := by
  have hI := hs.inv
  have e1 : (if s.initialized then Except.ok s else s.initialize sqrt? wsU (defaultArgs d)) = .ok s1 := by
    rcases h1 with ⟨h, rfl⟩ | ⟨h, h'⟩
    · rw [if_pos h]
    · rw [if_neg (by simp [h]), h']
  have hI1 : Inv V U method s1 := by
    rcases h1 with ⟨_, rfl⟩ | ⟨_, h'⟩
    · exact hI
    · exact (hI.initialize h').1
  cases hv : s1.validated with
  | false =>
    refine ⟨s1, .minusOne, ?_, by simp, by simp, by simp, by simp⟩
    simp [SA.train, e1, hv]
  | true =>
    obtain ⟨hw, hh⟩ := hI1.isSome (hI1.init hv)
    obtain ⟨W, hW⟩ := Option.isSome_iff_exists.1 hw
    obtain ⟨H, hH⟩ := Option.isSome_iff_exists.1 hh
    cases hr : run (s1.algorithm b) W H with
    | none =>
      refine ⟨s1, .false, by simp [SA.train, e1, hv, hW, hH, hr], by simp, by simp, by simp, fun _ => ?_⟩
      exact ⟨W, H, hW, hH, by simp [hr], by simp [hr]⟩
    | some p =>
      obtain ⟨W', H'⟩ := p
      refine ⟨{ s1 with W := some W', H := some H', results := some (finish W' H') }, .none,
        by simp [SA.train, e1, hv, hW, hH, hr], by simp, by simp, by simp, fun _ => ?_⟩
      refine ⟨W, H, hW, hH, by simp [hr], ?_⟩
      intro W'' H'' h
      rw [hr] at h
      cases h
      exact ⟨rfl, rfl, rfl, rfl⟩

/-- C21: the stored results change only in a `train` call that returns `None`; in particular results are present in a
reachable state exactly if some `train` call returned `None`. -/
theorem C21_results_iff (sqrt? : K → Option K) (wsU : Mat k n (Option K) → Mat m k (Option K))
    (V : Mat m n (Option K)) (U : DMat (Option K)) (method : String) (ops : List (SAOp m n k K R)) :
    let p := SA.runOps sqrt? wsU (SA.construct k V U method) ops
    p.1.results.isSome = true ↔ TrainReturn.none ∈ p.2 := by
  have hstep : ∀ (s : SA m n k K R) (op : SAOp m n k K R), Inv V U method s →
      ((s.step sqrt? wsU op).1.results.isSome = true ↔
        s.results.isSome = true ∨ (s.step sqrt? wsU op).2 = some .none) := by
    intro s op hI
    cases op with
    | «initialize» a =>
      simp only [SA.step]
      split
      · rename_i s' h
        simp [(hI.initialize h).2.2]
      · simp
    | train d b run finish =>
      simp only [SA.step]
      split
      · rename_i s' r h
        unfold SA.train at h
        split at h
        · simp at h
        · rename_i s1 hs1
          have hI1 : s1.results = s.results := by
            split at hs1
            · simp only [Except.ok.injEq] at hs1
              rw [hs1]
            · exact (hI.initialize hs1).2.2
          split at h
          · split at h
            · simp only [Except.ok.injEq, Prod.mk.injEq] at h
              obtain ⟨rfl, rfl⟩ := h
              simp [hI1]
            · simp only [Except.ok.injEq, Prod.mk.injEq] at h
              obtain ⟨rfl, rfl⟩ := h
              simp
          · simp only [Except.ok.injEq, Prod.mk.injEq] at h
            obtain ⟨rfl, rfl⟩ := h
            simp [hI1]
      · simp
  have key : ∀ (ops : List (SAOp m n k K R)) (p : SA m n k K R × List TrainReturn), Inv V U method p.1 →
      (p.1.results.isSome = true ↔ TrainReturn.none ∈ p.2) →
      let q := ops.foldl (fun p op => let q := p.1.step sqrt? wsU op; (q.1, p.2 ++ q.2.toList)) p
      (q.1.results.isSome = true ↔ TrainReturn.none ∈ q.2) := by
    intro ops
    induction ops with
    | nil => exact fun p _ hp => hp
    | cons op ops ih =>
      intro p hI hp
      refine ih _ (hI.step op) ?_
      simp only
      rw [hstep p.1 op hI, hp, List.mem_append]
      cases hq : (p.1.step sqrt? wsU op).2 <;> simp [eq_comm]
  exact key ops _ (Inv.construct V U method) (by simp [SA.construct])

end

/-- C21 fails in one respect: on an object that was never initialised, a `train` call that returns -1 has changed the
object (the automatic initialisation stored factors), here for data with a negative mean. -/
theorem C21_changes_nothing_refuted : ∃ (s s' : SA 1 1 1 ℝ Unit) (d : InitDraws 1 1 1 ℝ),
    s = SA.construct 1 (fun _ _ => some (-1)) oneU "ls-nmf" ∧
    s.step npSqrt (fun _ _ _ => none) (.train d true (fun _ _ _ => none) (fun _ _ => ())) = (s', some .minusOne) ∧
    s.H = none ∧ s'.H ≠ none := by
  have hm : colMean (fun _ _ => some (-1) : Mat 1 1 (Option ℝ)) 0 = some (-1) := by simp [colMean]
  obtain ⟨s', h1, h2⟩ := C19_negative_mean_refuted npSqrt (fun x hx => by simp [npSqrt, hx]) (fun _ _ _ => none)
    (k := 1) one_pos (fun _ _ => some (-1) : Mat 1 1 (Option ℝ)) (fun _ _ => by simp) 0 (-1) hm (by norm_num)
    (SA.construct 1 (fun _ _ => some (-1)) oneU "ls-nmf" : SA 1 1 1 ℝ Unit) rfl (negDraws 1 1 1)
  have h3 : s'.H ≠ none := by
    obtain ⟨p, _, rfl⟩ := initialize_ok h1
    simp
  have hi : (SA.construct 1 (fun _ _ => some (-1)) oneU "ls-nmf" : SA 1 1 1 ℝ Unit).initialized = false := rfl
  refine ⟨_, s', negDraws 1 1 1, rfl, ?_, rfl, h3⟩
  simp [SA.step, SA.train, hi, h1, h2]

/-- C21 fails in another respect: on an object that was never initialised, `train` raises (a `ValueError` of SciPy's
`whiten`) instead of returning -1 whenever the data contain a NaN, for every algorithm and every training loop; the object
is not changed. -/
theorem C21_nan_raises_refuted {K : Type*} [Field K] [LinearOrder K] {m n k : ℕ} {R : Type*} (sqrt? : K → Option K)
    (wsU : Mat k n (Option K) → Mat m k (Option K)) (V : Mat m n (Option K)) (U : DMat (Option K)) (method : String)
    (hV : ∃ i j, V i j = none) (d : InitDraws m n k K) (b : Bool)
    (run : Alg → DMat (Option K) → DMat (PEntry K) → Option (DMat (Option K) × DMat (PEntry K)))
    (finish : DMat (Option K) → DMat (PEntry K) → R) :
    (SA.construct k V U method : SA m n k K R).train (fun s => s.initialize sqrt? wsU (defaultArgs d)) b run finish
      = .error .notFinite := by
  obtain ⟨i, j, hij⟩ := hV
  have hn : anyNaN V = true := by
    simp only [anyNaN, decide_eq_true_eq]
    exact ⟨i, j, by simp [hij]⟩
  simp [SA.train, SA.construct, SA.initialize, scipyAccepts, defaultArgs, hn]

section
variable {K : Type*} [Field K] [LinearOrder K] [IsStrictOrderedRing K] {m n k : ℕ} {R : Type*}

/-! ## C22 -/

/-- C22: in every reachable state in which `train` gets past validation, both the compiled and the Python path use
LS-NMF exactly when the method string is not `ws-nmf` (in any capitalisation) and every data value is a non-negative
number; otherwise they use WS-NMF. -/
theorem C22_algorithm (sqrt? : K → Option K) (wsU : Mat k n (Option K) → Mat m k (Option K))
    (V : Mat m n (Option K)) (U : DMat (Option K)) (method : String) (s : SA m n k K R)
    (hs : Reachable sqrt? wsU V U method s) (hv : s.validated = true) (b : Bool) :
    (s.algorithm b = .ls ↔ method.toLower ≠ "ws-nmf" ∧ ∀ i j, ∃ x, V i j = some x ∧ 0 ≤ x) ∧
    (s.algorithm b = .ws ↔ method.toLower = "ws-nmf" ∨ ∃ i j x, V i j = some x ∧ x < 0) := by
  have hI := hs.inv
  have hV := hI.nan hv
  have hn : anyNaN V = false := (anyNaN_ne V).2 hV
  have hp : parseMethod method = .ls ↔ method.toLower ≠ "ws-nmf" := by
    unfold parseMethod
    split <;> simp_all
  have hneg : negOf V none = false ↔ ∀ i j, ∃ x, V i j = some x ∧ 0 ≤ x := by
    unfold negOf
    rw [Bool.or_false, minNeg_false hn]
    refine forall_congr' fun i => forall_congr' fun j => ?_
    obtain ⟨x, hx⟩ := Option.ne_none_iff_exists'.1 (hV i j)
    simp [hx]
  have hneg' : ¬ (∀ i j, ∃ x, V i j = some x ∧ 0 ≤ x) ↔ ∃ i j x, V i j = some x ∧ x < 0 := by
    push Not
    refine exists_congr fun i => exists_congr fun j => ?_
    obtain ⟨x, hx⟩ := Option.ne_none_iff_exists'.1 (hV i j)
    simp [hx]
  have hls : s.algorithm b = .ls ↔ method.toLower ≠ "ws-nmf" ∧ ∀ i j, ∃ x, V i j = some x ∧ 0 ≤ x := by
    rw [hI.alg b, ← hp, ← hneg]
    split <;> simp_all
  refine ⟨hls, ?_⟩
  have : s.algorithm b = .ws ↔ ¬ s.algorithm b = .ls := by cases s.algorithm b <;> simp
  rw [this, hls, not_and_or, not_not, hneg']

end

/-! ## C16 -/

section
variable {m n k : ℕ}

/-- C16: after any history of calls, a `train` call that returns `None` leaves an object whose results belong to the
stored factors: WH is their product, Q(true) is the sum of squared scaled residuals, Q(robust) the Huber-type loss with
the given threshold, and Q(robust) is at most Q(true). `V` and `U` are the arrays passed to the constructor; the scaled
residuals use the floored uncertainty. -/
theorem C16_consistent (sqrt? : ℝ → Option ℝ) (wsU : Mat k n (Option ℝ) → Mat m k (Option ℝ))
    (V U : Mat m n ℝ) (method : String) (α : ℝ) (hα : 0 < α)
    (s s' : SA m n k ℝ (Option (FinalResults m n)))
    (d : InitDraws m n k ℝ) (b : Bool)
    (run : Alg → DMat (Option ℝ) → DMat (PEntry ℝ) → Option (DMat (Option ℝ) × DMat (PEntry ℝ)))
    (h : s.step sqrt? wsU (.train d b run
      (finishOf k V (fun i j => if U i j < 1 / 10 ^ 12 then 1 / 10 ^ 12 else U i j) α)) = (s', some .none))
    (W : Mat m k ℝ) (H : Mat k n ℝ) (hW : s'.W = some ⟨m, k, fun i a => some (W i a)⟩)
    (hH : s'.H = some ⟨k, n, fun a j => some (H a j : WithTop ℝ)⟩) :
    let u : Mat m n ℝ := fun i j => max (U i j) (1 / 10 ^ 12)
    let z : Mat m n ℝ := fun i j => |(V i j - ∑ a, W i a * H a j) / u i j|
    ∃ r, s'.results = some (some r) ∧ (∀ i j, r.WH i j = ∑ a, W i a * H a j) ∧ r.Qtrue = ∑ i, ∑ j, z i j ^ 2 ∧
      r.Qrobust = (∑ i, ∑ j, if z i j ≤ α then z i j ^ 2 else α * z i j) ∧ r.Qrobust ≤ r.Qtrue := by
  intro u z
  have hu : (fun i j => if U i j < 1 / 10 ^ 12 then 1 / 10 ^ 12 else U i j) = u := by
    funext i j
    simp only [u]
    split
    · rw [max_eq_right (le_of_lt ‹_›)]
    · rw [max_eq_left (not_lt.1 ‹_›)]
  rw [hu] at h
  have hup : ∀ i j, 0 < u i j := fun i j => lt_of_lt_of_le eps_pos (le_max_right _ _)
  have hr : s'.results = some (finishOf k V u α ⟨m, k, fun i a => some (W i a)⟩
      ⟨k, n, fun a j => some (H a j : WithTop ℝ)⟩) := by
    simp only [SA.step] at h
    split at h
    · rename_i s2 r2 h2
      simp only [Prod.mk.injEq, Option.some.injEq] at h
      obtain ⟨rfl, rfl⟩ := h
      unfold SA.train at h2
      split at h2
      · simp at h2
      · split at h2
        · split at h2
          · simp at h2
          · simp only [Except.ok.injEq, Prod.mk.injEq] at h2
            obtain ⟨rfl, _⟩ := h2
            simp only [Option.some.injEq] at hW hH
            simp only [hW, hH]
        · simp at h2
    · simp at h
  have hf : finishOf k V u α ⟨m, k, fun i a => some (W i a)⟩ ⟨k, n, fun a j => some (H a j : WithTop ℝ)⟩
      = some (saFinish V u α W H) := by
    have hp : ∀ x : ℝ, PEntry.num? (some (x : WithTop ℝ)) = some x := fun _ => rfl
    simp [finishOf, asShape, anyNaN, hp]
  refine ⟨saFinish V u α W H, by rw [hr, hf], fun i j => rfl, ?_, ?_, C10_le_true V u W H α hα hup⟩
  · simp only [saFinish, C09_formula, z, sq_abs, residual]
  · simp only [saFinish, C10_is_huber V u W H α hα hup, huber, residual, z]
    rfl

/-- C16, the other case: no (finite) results are computed from the factors of the wrong shape or with a missing or infinite
value, and only then. -/
theorem C16_missing (V U : Mat m n ℝ) (α : ℝ) (W : DMat (Option ℝ)) (H : DMat (PEntry ℝ)) :
    finishOf k V U α W H = none ↔
      (W.rows, W.cols) ≠ (m, k) ∨ (H.rows, H.cols) ≠ (k, n) ∨ (∃ i a, W.val i a = none) ∨
        ∃ a j, H.val a j = none ∨ H.val a j = some ⊤ := by
  have hnum : ∀ x : PEntry ℝ, x.num? = none ↔ x = none ∨ x = some ⊤ := by
    rintro (_ | _ | x)
    · simp [PEntry.num?]
    · exact ⟨fun _ => .inr rfl, fun _ => rfl⟩
    · exact ⟨fun h => (by cases h), fun h => (by rcases h with h | h <;> cases h)⟩
  obtain ⟨r, c, w⟩ := W
  obtain ⟨r', c', h⟩ := H
  simp only [finishOf, asShape, Prod.mk.injEq, ne_eq]
  by_cases h1 : r = m ∧ c = k
  · by_cases h2 : r' = k ∧ c' = n
    · obtain ⟨rfl, rfl⟩ := h1
      obtain ⟨h2, rfl⟩ := h2
      subst h2
      simp only [anyNaN, and_self, dif_pos, Fin.cast_refl, id, Bool.or_eq_true, decide_eq_true_eq, not_true_eq_false,
        false_or]
      split
      · rename_i hc
        simpa [hnum] using hc
      · rename_i hc
        simpa [hnum] using hc
    · obtain ⟨rfl, rfl⟩ := h1
      rw [dif_neg h2]
      simp [h2]
  · rw [dif_neg h1]
    simp [h1]

/-- Both sides of C16_missing occur. -/
example : finishOf 1 (fun _ _ => 1 : Mat 1 1 ℝ) (fun _ _ => 1) 4 ⟨1, 1, fun _ _ => some 1⟩ ⟨1, 1, fun _ _ => none⟩ = none ∧
    finishOf 1 (fun _ _ => 1 : Mat 1 1 ℝ) (fun _ _ => 1) 4 ⟨1, 1, fun _ _ => some 1⟩ ⟨1, 1, fun _ _ => some 1⟩ ≠ none :=
  ⟨(C16_missing _ _ _ _ _).2 (.inr (.inr (.inr ⟨0, 0, .inl rfl⟩))), fun h => by
    simpa using (C16_missing _ _ _ _ _).1 h⟩

/-- Non-vacuity of C16 and C21: a 1 × 1 model that trains successfully. -/
example : ((SA.construct 1 (fun _ _ => some 1) oneU "ls-nmf" : SA 1 1 1 ℝ (Option (FinalResults 1 1))).step npSqrt
      (fun _ _ _ => none)
      (.train (negDraws 1 1 1) true (fun _ W H => some (W, H)) (finishOf 1 (fun _ _ => 1) (fun _ _ => 1) 4))).2
      = some .none := by
  have hr : randomH npSqrt (fun _ _ => some (1 : ℝ)) (negDraws 1 1 1)
      = (fun _ _ => some (-1) : Mat 1 1 (Option ℝ)) := by
    funext f j
    simp [randomH, colMean, npSqrt, negDraws, not_lt.2 (zero_le_one (α := ℝ))]
  have hw : randomW npSqrt .ls (fun _ _ => some (1 : ℝ)) (negDraws 1 1 1)
      = (fun _ _ => some 1 : Mat 1 1 (Option ℝ)) := by
    funext f j
    have : ¬ (1 : ℝ) ≤ 0 := by norm_num
    simp [randomW, floorN, rowMean, npSqrt, negDraws, this, not_lt.2 (zero_le_one (α := ℝ))]
  have hp : parseMethod "ls-nmf" = .ls := by decide +kernel
  have hv : validOf (m := 1) (n := 1) 1 (fun _ _ => some (1 : ℝ)) (floorU oneU) (some ⟨1, 1, entries (floorN fun _ _ => some (-1))⟩)
      (some ⟨1, 1, (fun _ _ => some 1 : Mat 1 1 (Option ℝ))⟩) = true := by
    refine (validOf_iff _ oneU _ _ (fun f j x hx => (entries_floorN_pos hx).le)).2
      ⟨fun i j => by simp, ⟨rfl, rfl⟩, fun i j => by simp [oneU], ⟨rfl, rfl, fun i j => by simp⟩, fun i j => ?_⟩
    simp [floorN, entries]
  have ha : scipyAccepts (fun _ _ => some 1 : Mat 1 1 (Option ℝ))
      (⟨none, false, none, false, false, negDraws 1 1 1, true⟩ : InitArgs 1 1 1 ℝ) = true :=
    scipyAccepts_of (fun i j => by simp) _
  simp only [SA.step, SA.train, SA.construct, Bool.false_eq_true, if_false, SA.initialize, initFactors, baseFactors,
    defaultArgs, Option.bind_none, Option.getD_none, hr, hw, hp, hv, ha, if_true]

/-- Non-vacuity of C19 and C22: a 1 × 2 data set of rational numbers with a zero uncertainty (the square root is not needed to be exact here).
After the default initialisation the model is validated, and each of the two methods is used as requested. -/
example : ∃ s s' : SA 1 2 1 ℚ Unit,
    Reachable (fun x => some x) (fun _ _ _ => none) (fun _ j => some (j.1 : ℚ)) ⟨1, 2, fun _ j => some (j.1 : ℚ)⟩ "LS-NMF" s ∧ s.validated = true ∧
      s.algorithm true = .ls ∧
    Reachable (fun x => some x) (fun _ _ _ => none) (fun _ j => some (j.1 : ℚ)) ⟨1, 2, fun _ j => some (j.1 : ℚ)⟩ "WS-NMF" s' ∧ s'.validated = true ∧
      s'.algorithm true = .ws := by
  have key : ∀ method, ∃ s : SA 1 2 1 ℚ Unit,
      Reachable (fun x => some x) (fun _ _ _ => none) (fun _ j => some (j.1 : ℚ)) ⟨1, 2, fun _ j => some (j.1 : ℚ)⟩ method s ∧ s.validated = true := by
    intro method
    have h0 : Reachable (fun x => some x) (fun _ _ _ => none) (fun _ j => some (j.1 : ℚ)) ⟨1, 2, fun _ j => some (j.1 : ℚ)⟩ method
        (SA.construct 1 (fun _ j => some (j.1 : ℚ)) ⟨1, 2, fun _ j => some (j.1 : ℚ)⟩ method : SA 1 2 1 ℚ Unit) := ⟨[], rfl⟩
    obtain ⟨s', H, W, h, -, -, -, -, hv⟩ := C19_default_partial (K := ℚ) (m := 1) (n := 2) (k := 1) (fun x => some x) (fun x _ => ⟨x, rfl⟩) (fun _ _ _ => none)
      (fun _ j => some (j.1 : ℚ)) (fun i j => ⟨(j.1 : ℚ), rfl, by positivity⟩) ⟨1, 2, fun _ j => some (j.1 : ℚ)⟩ ⟨rfl, rfl⟩ (by simp) method _ h0 ⟨fun _ _ => 1, fun _ _ => 1, fun _ _ => none, fun _ _ => 1⟩
    refine ⟨s', ⟨[.initialize (defaultArgs ⟨fun _ _ => 1, fun _ _ => 1, fun _ _ => none, fun _ _ => 1⟩)], ?_⟩, hv⟩
    simp only [SA.runOps, List.foldl_cons, List.foldl_nil, SA.step, h]
  obtain ⟨s, hs, hv⟩ := key "LS-NMF"
  obtain ⟨s', hs', hv'⟩ := key "WS-NMF"
  exact ⟨s, s', hs, hv, ((C22_algorithm _ _ _ _ _ s hs hv true).1).2 ⟨by decide +kernel, fun i j => ⟨(j.1 : ℚ), rfl, by positivity⟩⟩, hs', hv',
    ((C22_algorithm _ _ _ _ _ s' hs' hv' true).2).2 (.inl (by decide +kernel))⟩

/-- Non-vacuity of C18: a zero, a usable and a missing uncertainty. -/
example : let s : SA 1 3 1 ℚ Unit := SA.construct 1 (fun _ _ => some 1) ⟨1, 3, ![![some 0, some (1 / 2), none]]⟩ "ls-nmf"
    (s.U.val ⟨0, by decide⟩ ⟨0, by decide⟩, s.U.val ⟨0, by decide⟩ ⟨1, by decide⟩, s.U.val ⟨0, by decide⟩ ⟨2, by decide⟩) =
      (some (1 / 10 ^ 12), some (1 / 2), none) := by decide +kernel

/-- Non-vacuity of C20: an array with a zero entry is changed, one with positive entries or of another shape is not. -/
example : ((callerHAfter (K := ℚ) 1 2 false false ⟨1, 2, fun _ j => some (j.1 : ℚ)⟩).val ⟨0, by decide +kernel⟩ ⟨0, by decide +kernel⟩) = some (1 / 10 ^ 12) ∧
    ((callerHAfter (K := ℚ) 2 2 false false ⟨1, 2, fun _ j => some (j.1 : ℚ)⟩).val ⟨0, by decide +kernel⟩ ⟨0, by decide +kernel⟩) = some 0 := by
  decide +kernel

end
/-! ### The theorems applied to a concrete model -/

section
/-- Example data: one sample, two features, values 1 and 4. -/
private abbrev cV : Mat 1 2 (Option ℚ) := ![![some 1, some 4]]
/-- Example uncertainties. -/
private abbrev cU : DMat (Option ℚ) := ⟨1, 2, ![![some 1, some 2]]⟩
/-- Example draws: all ones. -/
private abbrev cD : InitDraws 1 2 2 ℚ := ⟨fun _ _ => 1, fun _ _ => 1, fun _ _ => some 1, fun _ _ => 1⟩

/-- Case for `C19_user_factors` and `C19_validated_iff`. -/
example : ∃ s' : SA 1 2 2 ℚ Unit,
    (SA.construct 2 cV cU "ls-nmf" : SA 1 2 2 ℚ Unit).initialize (fun x => some x) (fun _ _ _ => none)
      ⟨some ⟨2, 2, fun f j => some ((f.1 : ℚ) + j.1 + 1)⟩, false, some ⟨1, 2, fun _ _ => some 1⟩, false, false, cD, true⟩ = .ok s' ∧
    s'.W = some ⟨1, 2, fun _ _ => some 1⟩ ∧ s'.validated = true ∧ (∀ i j, cV i j ≠ none) := by
  have hr : Reachable (fun x => some x) (fun _ _ _ => none) cV cU "ls-nmf" (SA.construct 2 cV cU "ls-nmf" : SA 1 2 2 ℚ Unit) := ⟨[], rfl⟩
  have hV : ∀ i j, cV i j ≠ none := by intro i j; fin_cases i; fin_cases j <;> simp [cV]
  obtain ⟨s', h1, h2, h3, h4⟩ := C19_user_factors (K := ℚ) (fun x => some x) (fun _ _ _ => none) cV hV cU ⟨rfl, rfl⟩
    (by intro i j; fin_cases i; fin_cases j <;> simp [cU]) "ls-nmf" _ hr
    (fun f j => some ((f.1 : ℚ) + j.1 + 1)) (fun f j => ⟨_, rfl, by positivity⟩) (fun _ _ => some 1) (by simp) false true cD
  exact ⟨s', h1, h3, h4, ((C19_validated_iff _ _ _ _ _ _ _ hr _ h1).1 h4).1⟩

/-- Case for `C19_prior_partial`: one prior profile for a model with two factors. -/
example : ∃ (s' : SA 1 2 2 ℚ Unit) (H : Mat 2 2 (PEntry ℚ)),
    (SA.construct 2 cV cU "ls-nmf" : SA 1 2 2 ℚ Unit).initialize (fun x => some x) (fun _ _ _ => none)
      ⟨some ⟨1, 2, fun _ _ => some 3⟩, false, none, false, false, cD, true⟩ = .ok s' ∧
    s'.H = some ⟨2, 2, H⟩ ∧ (∀ f j, ∃ x : ℚ, H f j = some (x : WithTop ℚ) ∧ 0 < x) ∧ s'.validated = true :=
  C19_prior_partial (K := ℚ) (fun x => some x) (fun x _ => ⟨x, rfl⟩) (fun _ _ _ => none) cV
    (by intro i j; fin_cases i; fin_cases j <;> simp [cV]) cU ⟨rfl, rfl⟩
    (by intro i j; fin_cases i; fin_cases j <;> simp [cU]) "ls-nmf" _ ⟨[], rfl⟩ cD 1 (by decide) (fun _ _ => 3) false true
    (by intro j; fin_cases j <;> decide +kernel)

/-- Case for `C19_too_many_priors`: three prior profiles for two factors. -/
example : ∃ e, (SA.construct 2 cV cU "ls-nmf" : SA 1 2 2 ℚ Unit).initialize (fun x => some x) (fun _ _ _ => none)
    ⟨some ⟨3, 2, fun _ _ => some 3⟩, false, none, false, false, cD, true⟩ = .error e :=
  C19_too_many_priors _ _ _ _ (by decide) _ _ _ _ _ _

/-- Case for `C20_partial`: positive entries. -/
example : callerHAfter (K := ℚ) 1 2 false false ⟨1, 2, fun _ j => some ((j.1 : ℚ) + 1)⟩ = ⟨1, 2, fun _ j => some ((j.1 : ℚ) + 1)⟩ :=
  (C20_partial false false _ ⟨0, 0, fun _ _ => none⟩ (.inr (.inr fun f j => ⟨_, rfl, by positivity⟩))).1
end

end Esat
