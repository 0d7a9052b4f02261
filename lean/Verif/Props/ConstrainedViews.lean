import Verif.Model.ConstrainedViews
import Verif.Lemmas.MapM
import Verif.Props.Constrained
import Verif.Props.Expressions
import Verif.Props.Analysis

/-!
# C160-C162: tables and figures of the constrained model
-/

namespace Esat

theorem mapM_option_all {α β : Type*} (f : α → Option β) (g : α → β) :
    ∀ l : List α, (∀ a ∈ l, f a = some (g a)) → l.mapM f = some (l.map g)
  | [], _ => rfl
  | a :: l, h => by
    rw [List.mapM_cons, h a List.mem_cons_self, mapM_option_all f g l fun b hb => h b (List.mem_cons_of_mem _ hb)]
    rfl

theorem mapM_option_none_iff {α β : Type*} (f : α → Option β) : ∀ l : List α, l.mapM f = none ↔ ∃ a ∈ l, f a = none
  | [] => by simp
  | a :: l => by
    rw [List.mapM_cons]
    cases h : f a with
    | none => simp [h]
    | some b =>
      have ih := mapM_option_none_iff f l
      cases h2 : l.mapM f with
      | none =>
        obtain ⟨x, hx, hx2⟩ := ih.1 h2
        simp only [Option.bind_eq_bind, Option.bind_some, Option.bind_none, true_iff]
        exact ⟨x, List.mem_cons_of_mem _ hx, hx2⟩
      | some r =>
        simp only [Option.bind_eq_bind, Option.bind_some, Option.pure_def, reduceCtorEq, List.mem_cons, exists_eq_or_imp, h, false_or,
          false_iff]
        rw [← ih, h2]
        simp

/-! ## C160: the table of constraints -/

section table
variable {K : Type*} [Field K] [LinearOrder K] {m n k : ℕ}

/-- The entry of a pair of matrices a constraint of the documented kind names: `feature`: profiles at (factor, feature);
`sample`: contributions at (sample, factor). Numbers as numpy reads them. -/
def Names (c : Constraint K) (W : Mat m k K) (H : Mat k n K) (v : K) : Prop :=
  match c.target with
  | .feature => ∃ (a : Fin k) (j : Fin n), PyAddr k c.index.1 a ∧ PyAddr n c.index.2 j ∧ v = H a j
  | _ => ∃ (i : Fin m) (a : Fin k), PyAddr m c.index.1 i ∧ PyAddr k c.index.2 a ∧ v = W i a

theorem names_of_entry (c : Constraint K) (e : Fin k × Fin n ⊕ Fin m × Fin k) (he : cEntry m n k c = some e) (A : Mat m k K) (B : Mat k n K) :
    Names c A B (Sum.elim (fun p => B p.1 p.2) (fun p => A p.1 p.2) e) := by
  unfold cEntry at he
  unfold Names
  cases ht : c.target <;> rw [ht] at he <;>
    simp only [Option.bind_eq_some_iff, Option.map_eq_some_iff, axisIndex_eq_some] at he <;>
    obtain ⟨a, ha, j, hj, rfl⟩ := he <;> exact ⟨a, j, ha, hj, rfl⟩

/-- **C160.** The table has one row per constraint in the order in which they were added. Each row shows index, target, type and
limits of its constraint, and the rounded values that the base solution and the constrained solution have at the constrained
entry. -/
theorem C160_rows (rnd3 rnd4 : K → K) (W0 W : Mat m k K) (H0 H : Mat k n K) (d : PyDict CLabel (Constraint K)) (rows : List (CRow K))
    (h : evaluateConstraints rnd3 rnd4 W0 H0 (some (W, H)) d = some rows) :
    rows.length = d.length ∧ ∀ (i : ℕ) (hi : i < d.length) (hr : i < rows.length),
      rows[i].index = d[i].2.index ∧ rows[i].target = d[i].2.target ∧ rows[i].kind = d[i].2.kind ∧
      ∃ b v, Names d[i].2 W0 H0 b ∧ Names d[i].2 W H v ∧ rows[i].base = rnd4 b ∧ rows[i].value = rnd4 v ∧
        (match d[i].2.kind with
         | .pullDown q => rows[i].shown = none ∧ rows[i].dQ = some q
         | .pullUp q => rows[i].shown = none ∧ rows[i].dQ = some q
         | .pullTo t q => rows[i].shown = some (.inl t) ∧ rows[i].dQ = some q
         | .zero => rows[i].shown = some (.inl 0) ∧ rows[i].dQ = none
         | .base => rows[i].shown = some (.inl rows[i].base) ∧ rows[i].dQ = none
         | .limits lo hi => rows[i].shown = some (.inr (rnd3 lo, rnd3 hi)) ∧ rows[i].dQ = none
         | .other => rows[i].shown = none ∧ rows[i].dQ = none) := by
  refine ⟨mapM_option_length _ _ _ h, fun i hi hr => ?_⟩
  have hrow := mapM_option_get _ _ _ h i hi
  simp only [cRowOf, Option.bind_some, Option.map_eq_some_iff] at hrow
  obtain ⟨e, he, hrow⟩ := hrow
  generalize hc : d[i].2 = c at *
  have hn := names_of_entry c e he
  rw [← hrow]
  clear hrow
  refine ⟨rfl, rfl, rfl, _, _, hn W0 H0, hn W H, by cases e <;> rfl, by cases e <;> rfl, ?_⟩
  cases e <;> cases c.kind <;> exact ⟨rfl, rfl⟩

/-- **C160.** When it raises: after any history of additions and removals, exactly if there is a constraint and the model has not been
trained, or if some constraint on a contribution has a second index that is not a factor number (`add_constraint` compares it with
the number of samples), or if an index of the constraint with a misspelt target, which is not checked at all, is out of range even when
negative numbers count from the end. -/
theorem C160_raises_iff (rnd3 rnd4 : K → K) (W0 : Mat m k K) (H0 : Mat k n K) (sol : Option (Mat m k K × Mat k n K)) (ops : List (COp K)) :
    evaluateConstraints rnd3 rnd4 W0 H0 sol (cRunOps m n k ops) = none ↔
      (∃ p ∈ cRunOps m n k ops, sol = none ∨ (p.2.target = .sample ∧ (k : ℤ) ≤ p.2.index.2) ∨
        (p.2.target = .other ∧ ¬((-(m : ℤ) ≤ p.2.index.1 ∧ p.2.index.1 < m) ∧ -(k : ℤ) ≤ p.2.index.2 ∧ p.2.index.2 < k))) := by
  have hok := (cRunOps_inv (m := m) (n := n) (k := k) ops).ok
  unfold evaluateConstraints
  rw [mapM_option_none_iff]
  refine exists_congr fun p => and_congr_right fun hp => ?_
  have h1 := hok p hp
  cases sol with
  | none => simp [cRowOf]
  | some s =>
    simp only [cRowOf, Option.bind_some, Option.map_eq_none_iff, reduceCtorEq, false_or]
    unfold cIndexOk at h1
    unfold cEntry
    cases htt : p.2.target with
    | other =>
      simp only [reduceCtorEq, false_and, false_or, true_and]
      rw [← axisIndex_isSome, ← axisIndex_isSome]
      cases h1 : axisIndex m p.2.index.1 <;> cases h2 : axisIndex k p.2.index.2 <;> simp
    | feature =>
      rw [htt] at h1
      simp only [decide_eq_true_eq] at h1
      have e1 : (axisIndex k p.2.index.1).isSome := axisIndex_isSome.2 (by omega)
      have e2 : (axisIndex n p.2.index.2).isSome := axisIndex_isSome.2 (by omega)
      obtain ⟨a, ha⟩ := Option.isSome_iff_exists.1 e1
      obtain ⟨b, hb⟩ := Option.isSome_iff_exists.1 e2
      simp [ha, hb]
    | sample =>
      rw [htt] at h1
      simp only [decide_eq_true_eq] at h1
      have e1 : (axisIndex m p.2.index.1).isSome := axisIndex_isSome.2 (by omega)
      obtain ⟨a, ha⟩ := Option.isSome_iff_exists.1 e1
      simp only [ha, Option.bind_some, Option.map_eq_none_iff, true_and, reduceCtorEq, false_and, or_false]
      rw [← Option.not_isSome_iff_eq_none, axisIndex_isSome]
      omega

/-- Two factors, two samples, a constraint of each target. -/
example : (evaluateConstraints (K := ℚ) (m := 3) (n := 2) (k := 2) id id (fun i a => i.1 + a.1) (fun a j => a.1 + 10 * j.1)
    (some (fun i a => 5 * i.1 + a.1, fun a j => 7 * a.1 + j.1))
    (cRunOps 3 2 2 [.add ⟨.zero, (1, 0), .feature⟩, .add ⟨.pullTo 3 50, (2, 1), .sample⟩])).map
      (fun l => l.map fun r => (r.base, r.value, r.dQ)) = some [(1, 7, none), (3, 11, some 50)] := by decide +kernel

end table

/-! ## C161: the table of expressions -/

section expressions
variable {K : Type*} [Field K] [LinearOrder K] {m n k : ℕ} (pint : List Char → Option ℤ) (pfloat : List Char → Option K)

theorem mem_occurrences (ix : ETerm → ℤ × ℤ) (cf : ETerm → K) (es : List Expr) : ∀ (s : ℕ) (o : Occ K),
    o ∈ occurrences ix cf es s ↔ ∃ (i : ℕ) (e : Expr), es[i]? = some e ∧ ∃ p ∈ e.terms, o = occOf ix cf (s + i) p := by
  induction es with
  | nil => intro s o; simp [occurrences]
  | cons e es ih =>
    intro s o
    rw [occurrences, List.mem_append, ih, List.mem_map]
    constructor
    · rintro (⟨p, hp, rfl⟩ | ⟨i, e', he, p, hp, rfl⟩)
      · exact ⟨0, e, rfl, p, hp, rfl⟩
      · exact ⟨i + 1, e', by simpa using he, p, hp, by rw [show s + (i + 1) = s + 1 + i by omega]⟩
    · rintro ⟨i, e', he, p, hp, rfl⟩
      cases i with
      | zero =>
        simp only [List.getElem?_cons_zero, Option.some.injEq] at he
        subst he
        exact .inl ⟨p, hp, rfl⟩
      | succ i => exact .inr ⟨i, e', by simpa using he, p, hp, by rw [show s + (i + 1) = s + 1 + i by omega]⟩

/-- **C161.** For expressions in the documented form on profile elements, each element at most once per expression, the table shows for
every expression, in order, its limit and the value of its left hand side: the signed, weighted sum of the profile entries it
names, once for the base solution and once for the constrained solution. -/
theorem C161_values (rnd4 : K → K) (W0 W : Mat m k K) (H0 H : Mat k n K) (fa : ETerm → Fin k) (fj : ETerm → Fin n) (cf : ETerm → K)
    (dq : Expr → K) (es : List Expr) (hne : es ≠ []) (h : ∀ e ∈ es, e.Ok) (hd : ∀ e ∈ es, pfloat e.dQ = some (dq e))
    (hread : ∀ e ∈ es, ∀ p ∈ e.terms, p.2.Reads pint pfloat ((fa p.2).1, (fj p.2).1) (cf p.2))
    (hkind : ∀ e ∈ es, ∀ p ∈ e.terms, p.2.kind = "feature".toList)
    (hnd : ∀ e ∈ es, (e.terms.map (·.2.label)).Nodup) :
    evaluateExpressions rnd4 W0 H0 W H (mapExpressions pint pfloat (es.map Expr.text) 0 ⟨[], 0⟩ []) =
      some (es.map fun e => (dq e,
        rnd4 ((e.terms.map fun p => H0 (fa p.2) (fj p.2) * if p.1 then -cf p.2 else cf p.2).sum),
        rnd4 ((e.terms.map fun p => H (fa p.2) (fj p.2) * if p.1 then -cf p.2 else cf p.2).sum))) := by
  let ix : ETerm → ℤ × ℤ := fun t => ((fa t).1, (fj t).1)
  rw [mapExpressions_render pint pfloat ix cf dq es h hd hread, List.nil_append]
  set occ := occurrences ix cf es 0 with hocc
  set mapping := (occ.foldl enterOcc ⟨[], 0⟩).mapping with hmap
  -- the value of one term
  have term : ∀ (A : Mat m k K) (B : Mat k n K) (i : ℕ) (e : Expr), es[i]? = some e → ∀ p ∈ e.terms,
      evalTerm A B mapping i p.2.label = some (B (fa p.2) (fj p.2) * if p.1 then -cf p.2 else cf p.2) := by
    intro A B i e he p hp
    have hmem : e ∈ es := List.mem_of_getElem? he
    have hpo : occOf ix cf i p ∈ occ := (mem_occurrences ix cf es 0 _).2 ⟨i, e, he, p, hp, by rw [Nat.zero_add]⟩
    obtain ⟨o, ho⟩ : ∃ o, occ.find? (fun o => o.label = p.2.label) = some o := by
      rw [← Option.isSome_iff_exists, List.find?_isSome]
      exact ⟨_, hpo, by simp [occOf]⟩
    have ho1 : o.label = p.2.label := by simpa using List.find?_some ho
    obtain ⟨i', e', he', p', hp', rfl⟩ := (mem_occurrences ix cf es 0 _).1 (List.mem_of_find?_eq_some ho)
    have hmem' : e' ∈ es := List.mem_of_getElem? he'
    have hlab : p'.2.label = p.2.label := ho1
    obtain ⟨l1, l2, l3⟩ := C45_label_injective p'.2 p.2 ((h e' hmem').1 p' hp') ((h e hmem).1 p hp) hlab
    have hix : ix p'.2 = ix p.2 := by
      obtain ⟨r1, r2, -⟩ := hread e' hmem' p' hp'
      obtain ⟨q1, q2, -⟩ := hread e hmem p hp
      rw [l1, q1] at r1
      rw [l3, q2] at r2
      exact Prod.ext (Option.some.inj r1).symm (Option.some.inj r2).symm
    have hget := (foldl_enterOcc occ).2 p.2.label
    rw [ho, Option.map_some] at hget
    have hcoef := C84_coefficient_partial occ p.2.label i _ hget
    have hfind : occ.find? (fun o => o.label = p.2.label ∧ o.expr = i) = some (occOf ix cf i p) := by
      obtain ⟨o2, ho2⟩ : ∃ o2, occ.find? (fun o => o.label = p.2.label ∧ o.expr = i) = some o2 := by
        rw [← Option.isSome_iff_exists, List.find?_isSome]
        exact ⟨_, hpo, by simp [occOf]⟩
      have ho3 := List.find?_some ho2
      obtain ⟨i2, e2, he2, p2, hp2, rfl⟩ := (mem_occurrences ix cf es 0 _).1 (List.mem_of_find?_eq_some ho2)
      simp only [occOf, Nat.zero_add, Bool.decide_and, Bool.and_eq_true, decide_eq_true_eq] at ho3
      obtain ⟨hl2, rfl⟩ := ho3
      rw [he] at he2
      obtain rfl := Option.some.inj he2
      have : p2 = p := List.inj_on_of_nodup_map (hnd e hmem) hp2 hp hl2
      rw [ho2, this, Nat.zero_add]
    rw [hfind, Option.map_some] at hcoef
    unfold evalTerm
    rw [hget, Option.bind_some, hcoef, Option.bind_some]
    have hk' : p'.2.kind = "feature".toList := hkind e' hmem' p' hp'
    unfold evaluatedValue
    simp only [occOf]
    rw [hix]
    have hk2 : p'.2.kind = ['f', 'e', 'a', 't', 'u', 'r', 'e'] := hk'
    simp [ix, axisIndex_val, hk2]
  have row : ∀ (i : ℕ) (e : Expr), es[i]? = some e →
      evalRow rnd4 W0 H0 W H mapping i (e.terms.map (·.2.label), dq e) = some (dq e,
        rnd4 ((e.terms.map fun p => H0 (fa p.2) (fj p.2) * if p.1 then -cf p.2 else cf p.2).sum),
        rnd4 ((e.terms.map fun p => H (fa p.2) (fj p.2) * if p.1 then -cf p.2 else cf p.2).sum)) := by
    intro i e he
    have hm : ∀ (A : Mat m k K) (B : Mat k n K), (e.terms.map (·.2.label)).mapM (evalTerm A B mapping i) =
        some (e.terms.map fun p => B (fa p.2) (fj p.2) * if p.1 then -cf p.2 else cf p.2) := fun A B => by
      rw [List.mapM_map]
      exact mapM_option_all _ _ _ fun p hp => term A B i e he p hp
    unfold evalRow
    rw [hm, hm]
    rfl
  cases es with
  | nil => exact absurd rfl hne
  | cons e0 es0 =>
    show (((e0 :: es0).map fun e => (e.terms.map (·.2.label), dq e)).zipIdx).mapM
      (fun p => evalRow rnd4 W0 H0 W H mapping p.2 p.1) = _
    rw [List.zipIdx_map, List.mapM_map,
      mapM_option_all _ (fun x : Expr × ℕ => (dq x.1,
        rnd4 ((x.1.terms.map fun p => H0 (fa p.2) (fj p.2) * if p.1 then -cf p.2 else cf p.2).sum),
        rnd4 ((x.1.terms.map fun p => H (fa p.2) (fj p.2) * if p.1 then -cf p.2 else cf p.2).sum)))]
    · congr 1
      conv_rhs => rw [← List.zipIdx_map_fst 0 (e0 :: es0), List.map_map]
      rfl
    · intro x hx
      have := List.mem_zipIdx_iff_getElem?.1 hx
      exact row x.2 x.1 this

/-- **C161.** It raises on a model that has not been trained. After training with documented expressions on profile elements it raises exactly if there are none, that is after training with constraints only. -/
theorem C161_raises (rnd4 : K → K) (W0 W : Mat m k K) (H0 H : Mat k n K) (fa : ETerm → Fin k) (fj : ETerm → Fin n) (cf : ETerm → K)
    (dq : Expr → K) (es : List Expr) (h : ∀ e ∈ es, e.Ok) (hd : ∀ e ∈ es, pfloat e.dQ = some (dq e))
    (hread : ∀ e ∈ es, ∀ p ∈ e.terms, p.2.Reads pint pfloat ((fa p.2).1, (fj p.2).1) (cf p.2))
    (hkind : ∀ e ∈ es, ∀ p ∈ e.terms, p.2.kind = "feature".toList)
    (hnd : ∀ e ∈ es, (e.terms.map (·.2.label)).Nodup) :
    evaluateExpressions rnd4 W0 H0 W H none = none ∧
    (evaluateExpressions rnd4 W0 H0 W H (mapExpressions pint pfloat (es.map Expr.text) 0 ⟨[], 0⟩ []) = none ↔ es = []) := by
  refine ⟨rfl, fun e => ?_, fun e => by rw [e]; rfl⟩
  by_contra hne
  rw [C161_values pint pfloat rnd4 W0 W H0 H fa fj cf dq es hne h hd hread hkind hnd] at e
  cases e

/-- Two expressions which share an element. -/
example : evaluateExpressions (K := ℚ) (m := 1) (n := 5) (k := 3) id (fun _ _ => 0) (fun a j => a.1 + j.1) (fun _ _ => 0)
    (fun a j => 10 * a.1 + j.1)
    (mapExpressions digit (fun s => (digit s).map fun (z : ℤ) => (z : ℚ))
      ["(6*[factor:1|feature:2])-(4*[factor:2|feature:4])=0,9".toList, "(3*[factor:2|feature:4])-(2*[factor:0|feature:1])=0,8".toList]
      0 ⟨[], 0⟩ []) = some [(9, 6 * 3 - 4 * 6, 6 * 12 - 4 * 24), (8, 3 * 6 - 2 * 1, 3 * 24 - 2 * 1)] := by decide +kernel

end expressions

/-! ## C162: the figures -/

section figures
variable {K : Type*} [Field K] [LinearOrder K] [IsStrictOrderedRing K] {m n k : ℕ}

theorem wrapAxis_pos (r : ℕ) (i : ℤ) (a : Fin r) (h : (a.1 : ℤ) = i) : wrapAxis r i = some a := by
  subst h
  unfold wrapAxis
  rw [dif_pos ⟨by omega, by have := a.2; omega⟩]
  simp

theorem wrapAxis_neg (r : ℕ) (i : ℤ) (a : Fin r) (h : (a.1 : ℤ) = i + r) (hi : i < 0) : wrapAxis r i = some a := by
  unfold wrapAxis
  rw [dif_neg (by omega), dif_pos ⟨hi, by omega⟩]
  congr 1
  apply Fin.ext
  show (i + r).toNat = a.1
  omega

theorem wrapAxis_none (r : ℕ) (i : ℤ) (h : r ≤ i ∨ i + r < 0) : wrapAxis r i = none := by
  unfold wrapAxis
  rw [dif_neg (by omega), dif_neg (by omega)]

/-- **C162.** The figures of one factor: for the number of a factor, counted from one, the bars are the total concentrations of each
feature which the two models give to that factor, the markers its percentages of the features, the lines its contributions
divided by their mean. Numbers outside of the range show nothing; `None` raises. -/
theorem C162_factor_figures (tiny : K) (W0 W : Mat m k K) (H0 H : Mat k n K) :
    plotBoth tiny W0 H0 W H none = .raised ∧
    (∀ f : ℤ, (f < 1 ∨ (k : ℤ) < f) → plotBoth tiny W0 H0 W H (some f) = .ret none) ∧
    (∀ a : Fin k, ∃ fig w0 w, plotBoth tiny W0 H0 W H (some (a.1 + 1)) = .ret (some (fig, w0, w)) ∧
      (∀ j, (∑ i, W0 i a) * H0 a j ≠ 0 → fig.baseConc j = (∑ i, W0 i a) * H0 a j) ∧
      (∀ j, (∑ i, W i a) * H a j ≠ 0 → fig.conc j = (∑ i, W i a) * H a j) ∧
      (∀ j, ∑ g, H0 g j ≠ 0 → fig.basePct j = some (100 * (H0 a j / ∑ g, H0 g j))) ∧
      (∀ j, ∑ g, H g j ≠ 0 → fig.pct j = some (100 * (H a j / ∑ g, H g j))) ∧
      (∑ i, W0 i a ≠ 0 → ∀ i, w0 i = some (W0 i a * m / ∑ l, W0 l a)) ∧
      (∑ i, W i a ≠ 0 → ∀ i, w i = some (W i a * m / ∑ l, W l a))) := by
  refine ⟨rfl, fun f hf => ?_, fun a => ?_⟩
  · unfold plotBoth
    simp only
    rw [if_pos hf.symm]
  · have hw : wrapAxis k ((a.1 : ℤ) + 1 - 1) = some a := wrapAxis_pos k _ a (by ring)
    have hne : ¬ ((k : ℤ) < (a.1 : ℤ) + 1 ∨ (a.1 : ℤ) + 1 < 1) := by have := a.2; omega
    have conc : ∀ (A : Mat m k K) (B : Mat k n K) (j : Fin n), (∑ i, A i a) * B a j ≠ 0 →
        concSums tiny (fun i => A i a) (B a) j = (∑ i, A i a) * B a j := fun A B j h => by
      unfold concSums
      simp only [← Finset.sum_mul]
      rw [if_neg h]
    have contr : ∀ A : Mat m k K, ∑ i, A i a ≠ 0 → ∀ i, profileContr (fun i => A i a) i = some (A i a * m / ∑ l, A l a) := by
      intro A h i
      have hm : (m : K) ≠ 0 := by
        have : m ≠ 0 := by rintro rfl; exact i.elim0
        exact_mod_cast this
      unfold profileContr vmean
      rw [if_neg (div_ne_zero h hm), div_div_eq_mul_div]
    refine ⟨⟨concSums tiny (fun i => W0 i a) (H0 a), concSums tiny (fun i => W i a) (H a), fingerprint H0 a, fingerprint H a⟩,
      profileContr fun i => W0 i a, profileContr fun i => W i a,
      by simp only [plotBoth, plotProfile, plotContributions, hw, if_neg hne], ?_, ?_, ?_, ?_, ?_, ?_⟩
    · exact fun j h => conc W0 H0 j h
    · exact fun j h => conc W H j h
    · exact fun j h => by simp [fingerprint, h]
    · exact fun j h => by simp [fingerprint, h]
    · exact contr W0
    · exact contr W

/-- **C162.** Called directly, the figure of a profile raises for numbers above the number of factors and far below one, and shows
another factor for zero and the negative numbers next to it: number `f ≤ 0` shows factor `k + f`. -/
theorem C162_profile_index (tiny : K) (W0 W : Mat m k K) (H0 H : Mat k n K) :
    (∀ f : ℤ, plotProfile tiny W0 H0 W H f = .raised ↔ (k : ℤ) < f ∨ f ≤ -(k : ℤ)) ∧
    (∀ f : ℤ, -(k : ℤ) < f → f ≤ 0 → plotProfile tiny W0 H0 W H f = plotProfile tiny W0 H0 W H (k + f)) := by
  refine ⟨fun f => ⟨fun h => ?_, fun h => ?_⟩, fun f h1 h2 => ?_⟩
  · by_contra hc
    push Not at hc
    by_cases hf : 0 < f
    · have hw := wrapAxis_pos k (f - 1) ⟨(f - 1).toNat, by omega⟩ (by simp; omega)
      simp only [plotProfile, hw] at h
      cases h
    · have hw := wrapAxis_neg k (f - 1) ⟨(f - 1 + k).toNat, by omega⟩ (by simp; omega) (by omega)
      simp only [plotProfile, hw] at h
      cases h
  · simp only [plotProfile, wrapAxis_none k (f - 1) (by omega)]
  · have e1 := wrapAxis_neg k (f - 1) ⟨(f - 1 + k).toNat, by omega⟩ (by simp; omega) (by omega)
    have e2 := wrapAxis_pos k (k + f - 1) ⟨(f - 1 + k).toNat, by omega⟩ (by simp; omega)
    simp only [plotProfile, e1, e2]

/-- **C162.** The scatter plot of two factors: the horizontal positions are the normalised contributions of the first factor, the
vertical ones those of the second. **Disagreement**: the constrained model exchanges the titles, so that they fit only if both
numbers are the same; the figure of the base model has them right. `None` raises instead of being accepted. -/
theorem C162_g_space (W : Mat m k K) (a b : Fin k) :
    (∃ fig, plotGSpace W (some (a.1 + 1)) (some (b.1 + 1)) = .ret (some fig) ∧
      (∑ l, W l a ≠ 0 → ∀ i, fig.x i = some (W i a / ∑ l, W l a)) ∧ (∑ l, W l b ≠ 0 → ∀ i, fig.y i = some (W i b / ∑ l, W l b)) ∧
      ((fig.xTitle = a.1 + 1 ∧ fig.yTitle = b.1 + 1) ↔ a = b)) ∧
    (∃ fig, plotGSpaceBase W (a.1 + 1) (b.1 + 1) = .ret (some fig) ∧
      (∑ l, W l a ≠ 0 → ∀ i, fig.x i = some (W i a / ∑ l, W l a)) ∧ (∑ l, W l b ≠ 0 → ∀ i, fig.y i = some (W i b / ∑ l, W l b)) ∧
      fig.xTitle = a.1 + 1 ∧ fig.yTitle = b.1 + 1) ∧
    plotGSpace W none none = .raised ∧ plotGSpace W (some (a.1 + 1)) none = .raised ∧
    plotGSpace W none (some (b.1 + 1)) = .raised ∧
    (∀ f g : ℤ, (f < 1 ∨ (k : ℤ) < f ∨ g < 1 ∨ (k : ℤ) < g) →
      plotGSpace W (some f) (some g) = .ret none ∧ plotGSpaceBase W f g = .ret none) := by
  have hw : ∀ a : Fin k, wrapAxis k ((a.1 : ℤ) + 1 - 1) = some a := fun a => wrapAxis_pos k _ a (by ring)
  have hne : ∀ a : Fin k, ¬ ((k : ℤ) < (a.1 : ℤ) + 1 ∨ (a.1 : ℤ) + 1 < 1) := fun a => by have := a.2; omega
  have hs : ∀ c : Fin k, ∑ l, W l c ≠ 0 → ∀ i, gSpaceContr (fun i => W i c) i = some (W i c / ∑ l, W l c) := fun c h i => by
    simp [gSpaceContr, h]
  refine ⟨⟨⟨gSpaceContr fun i => W i a, gSpaceContr fun i => W i b, b.1 + 1, a.1 + 1⟩, by
      simp only [plotGSpace, hw, hne, decide_false, Bool.false_eq_true, if_false], hs a, hs b, ?_⟩,
    ⟨⟨gSpaceContr fun i => W i a, gSpaceContr fun i => W i b, a.1 + 1, b.1 + 1⟩, by
      simp only [plotGSpaceBase, hw, hne, if_false], hs a, hs b, rfl, rfl⟩, ?_, ?_, ?_, fun f g h => ?_⟩
  · constructor
    · rintro ⟨h, -⟩
      apply Fin.ext
      dsimp only at h
      omega
    · rintro rfl
      exact ⟨rfl, rfl⟩
  · rfl
  · simp only [plotGSpace, hne, decide_false, Bool.false_eq_true, if_false]
  · simp only [plotGSpace, hne, decide_false, Bool.false_eq_true, if_false]
  · by_cases hf : (k : ℤ) < f ∨ f < 1
    · simp only [plotGSpace, plotGSpaceBase, hf, decide_true, if_true, and_self]
    · have hg : (k : ℤ) < g ∨ g < 1 := by omega
      simp only [plotGSpace, plotGSpaceBase, hf, hg, decide_true, decide_false, Bool.false_eq_true, if_true, if_false, and_self]

/-- **C162.** The fingerprints are the percentages of both models, drawn from the last factor to the first; the figure raises exactly
if there are more factors than colours. -/
theorem C162_fingerprints (colors : ℕ) (H0 H : Mat k n K) :
    (plotFingerprints colors H0 H = none ↔ colors < k) ∧
    (k ≤ colors → ∃ bars, plotFingerprints colors H0 H = some bars ∧ bars.length = k ∧
      ∀ (a : Fin k) (h : k - 1 - a.1 < bars.length), ∀ j,
        (∑ g, H0 g j ≠ 0 → bars[k - 1 - a.1].1 j = some (100 * (H0 a j / ∑ g, H0 g j))) ∧
        (∑ g, H g j ≠ 0 → bars[k - 1 - a.1].2 j = some (100 * (H a j / ∑ g, H g j)))) := by
  constructor
  · unfold plotFingerprints
    rw [mapM_option_none_iff]
    constructor
    · rintro ⟨a, -, h⟩
      rw [Option.map_eq_none_iff, List.getElem?_eq_none_iff, List.length_range] at h
      exact lt_of_le_of_lt h a.2
    · intro h
      refine ⟨⟨colors, h⟩, by simp, ?_⟩
      simp
  · intro h
    refine ⟨(List.finRange k).reverse.map fun a => (fingerprint H0 a, fingerprint H a), ?_, by simp, ?_⟩
    · unfold plotFingerprints
      apply mapM_option_all
      intro a _
      have : a.1 < colors := lt_of_lt_of_le a.2 h
      simp [this]
    · intro a hl j
      have e : (List.finRange k).reverse[k - 1 - a.1]'(by simpa using hl) = a := by
        apply Fin.ext
        simp
        have := a.2
        omega
      simp only [List.getElem_map, e]
      exact ⟨fun h => by simp [fingerprint, h], fun h => by simp [fingerprint, h]⟩

/-- **C162.** The number of a feature in the pie chart: the constrained model counts from one and takes `None` for the first, the
analysis of the base model counts from zero; the same number never shows the same feature. -/
theorem C162_feature_number (n : ℕ) :
    (∀ f : ℤ, pieFeature n (some f) = none ↔ (f < 1 ∨ (n : ℤ) < f)) ∧ (∀ f : ℤ, pieFeatureBase n f = none ↔ (f < 0 ∨ (n : ℤ) ≤ f)) ∧
    pieFeature n none = some 0 ∧
    (∀ f g : ℤ, pieFeature n (some (f + 1)) = some g ↔ pieFeatureBase n f = some g) ∧
    (∀ f g : ℤ, pieFeature n (some f) = some g → pieFeatureBase n f ≠ some g) := by
  refine ⟨fun f => ?_, fun f => ?_, rfl, fun f g => ?_, fun f g => ?_⟩ <;>
    simp only [pieFeature, pieFeatureBase] <;> split_ifs <;> simp <;> omega

/-- Two samples, two factors, two features. -/
example : plotGSpace (K := ℚ) (![![1, 6], ![3, 2]] : Mat 2 2 ℚ) (some 1) (some 2) =
    .ret (some ⟨![some (1 / 4), some (3 / 4)], ![some (3 / 4), some (1 / 4)], 2, 1⟩) := by
  have : ∀ (a b : Fin 2 → Option ℚ), a 0 = b 0 → a 1 = b 1 → a = b := fun a b h0 h1 => by
    funext i
    fin_cases i <;> assumption
  show Outcome.ret (some (GSpaceFig.mk _ _ 2 1)) = _
  congr 3
  · exact this _ _ (by decide +kernel) (by decide +kernel)
  · exact this _ _ (by decide +kernel) (by decide +kernel)

end figures

end Esat
