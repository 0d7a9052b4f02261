import Verif.Props.PullMatrices

/-!
# C208: the equations given to the solver

The rows of `exp_A` and `exp_B` (`esat/rotational/constrained.py:371-390`) for expressions in the documented form.
-/

namespace Esat

section system
variable {K : Type*} [Field K] [LinearOrder K] [IsStrictOrderedRing K] {m n k : ℕ}

theorem exprRow_coefs (W : Mat m k K) (H : Mat k n K) (mapping : PyDict (List Char) (ExprEntry K))
    (hinj : ∀ e e' en en', dictGet mapping e = some en → dictGet mapping e' = some en' → en.col = en'.col → e = e') (i : ℕ) (es : List (List Char)) :
    ∀ (row row' : ℕ → K) (b b' : K), exprRow W H mapping i es row b = some (row', b') →
    (∀ e ∈ es, ∃ en, dictGet mapping e = some en ∧ coefUsed en i = some (row' en.col)) ∧
    ∀ x, (∀ e ∈ es, ∀ en, dictGet mapping e = some en → en.col ≠ x) → row' x = row x := by
  induction es with
  | nil =>
    intro row row' b b' h
    simp only [exprRow, Option.some.injEq, Prod.mk.injEq] at h
    exact ⟨by simp, fun x _ => by rw [h.1]⟩
  | cons e es ih =>
    intro row row' b b' h
    simp only [exprRow, Option.bind_eq_some_iff] at h
    obtain ⟨en, h1, v, h2, c, h3, h⟩ := h
    obtain ⟨i1, i2⟩ := ih _ _ _ _ h
    refine ⟨?_, ?_⟩
    · intro e' he'
      rcases List.mem_cons.1 he' with rfl | he'
      · by_cases hm : e' ∈ es
        · exact i1 e' hm
        · refine ⟨en, h1, ?_⟩
          rw [i2 en.col, if_pos rfl, h3]
          intro e'' he'' en'' hg hcol
          exact hm (hinj _ _ _ _ hg h1 hcol ▸ he'')
      · exact i1 e' he'
    · intro x hx
      rw [i2 x fun e' he' => hx e' (List.mem_cons_of_mem _ he'), if_neg (Ne.symm (hx e List.mem_cons_self en h1))]

theorem exprSystem_rows (W : Mat m k K) (H : Mat k n K) (mapping : PyDict (List Char) (ExprEntry K)) (labeled : List (List (List Char) × K)) :
    ∀ (i : ℕ) (rows : List ((ℕ → K) × K)), exprSystem W H mapping i labeled = some rows →
    rows.length = labeled.length ∧ ∀ t e, labeled[t]? = some e → ∃ r, rows[t]? = some r ∧ exprRow W H mapping (i + t) e.1 (fun _ => 0) 0 = some r := by
  induction labeled with
  | nil =>
    intro i rows h
    simp only [exprSystem, Option.some.injEq] at h
    subst h
    simp
  | cons e es ih =>
    intro i rows h
    rw [exprSystem] at h
    obtain ⟨r, hr, h⟩ := Option.bind_eq_some_iff.1 h
    obtain ⟨rs, hrs, rfl⟩ := Option.map_eq_some_iff.1 h
    obtain ⟨i1, i2⟩ := ih _ _ hrs
    refine ⟨by simp [i1], ?_⟩
    intro t e' he'
    cases t with
    | zero =>
      simp only [List.getElem?_cons_zero, Option.some.injEq] at he'
      subst he'
      exact ⟨r, rfl, hr⟩
    | succ t =>
      obtain ⟨r', h1, h2⟩ := i2 t e' (by simpa using he')
      exact ⟨r', by simpa using h1, by rw [← h2]; congr 1; omega⟩

/-- The coefficient of a term with its sign. -/
def signedCoef (cf : ETerm → K) (p : Bool × ETerm) : K := if p.1 then -cf p.2 else cf p.2

theorem occurrences_find (ix : ETerm → ℤ × ℤ) (cf : ETerm → K) (l : List Char) (es : List Expr) :
    ∀ ei t e, es[t]? = some e →
    ((occurrences ix cf es ei).find? fun o => o.label = l ∧ o.expr = ei + t) =
      (e.terms.find? fun p => p.2.label = l).map (occOf ix cf (ei + t)) := by
  have hskip : ∀ (es : List Expr) ei i, i < ei → ((occurrences ix cf es ei).find? fun o => o.label = l ∧ o.expr = i) = none := by
    intro es
    induction es with
    | nil => intro ei i _; rfl
    | cons e es ih =>
      intro ei i hi
      rw [occurrences, List.find?_append, ih (ei + 1) i (by omega), Option.or_none, List.find?_eq_none]
      intro o ho
      obtain ⟨p, -, rfl⟩ := List.mem_map.1 ho
      simp only [decide_eq_true_eq, not_and]
      intro _
      show ei ≠ i
      omega
  induction es with
  | nil => intro ei t e h; simp at h
  | cons e0 es ih =>
    intro ei t e h
    rw [occurrences, List.find?_append]
    cases t with
    | zero =>
      simp only [List.getElem?_cons_zero, Option.some.injEq] at h
      subst h
      rw [Nat.add_zero, hskip es (ei + 1) ei (by omega), Option.or_none, List.find?_map]
      congr 1
      refine List.find?_congr ?_
      intro p _
      show decide (p.2.label = l ∧ ei = ei) = _
      simp
    | succ t =>
      rw [show ei + (t + 1) = ei + 1 + t by omega, ← ih (ei + 1) t e (by simpa using h)]
      have : ((e0.terms.map (occOf ix cf ei)).find? fun o => o.label = l ∧ o.expr = ei + 1 + t) = none := by
        rw [List.find?_eq_none]
        intro o ho
        obtain ⟨p, -, rfl⟩ := List.mem_map.1 ho
        simp only [decide_eq_true_eq, not_and]
        intro _
        show ei ≠ ei + 1 + t
        omega
      rw [this, Option.none_or]

theorem occurrences_term (ix : ETerm → ℤ × ℤ) (cf : ETerm → K) (es : List Expr) : ∀ ei o, o ∈ occurrences ix cf es ei →
    ∃ e ∈ es, ∃ p ∈ e.terms, o.label = p.2.label ∧ o.index = ix p.2 ∧ o.kind = p.2.kind := by
  induction es with
  | nil => intro ei o h; simp [occurrences] at h
  | cons e es ih =>
    intro ei o h
    rw [occurrences, List.mem_append] at h
    rcases h with h | h
    · obtain ⟨p, hp, rfl⟩ := List.mem_map.1 h
      exact ⟨e, List.mem_cons_self, p, hp, rfl, rfl, rfl⟩
    · obtain ⟨e', he', q⟩ := ih _ _ h
      exact ⟨e', List.mem_cons_of_mem _ he', q⟩

theorem label_mem_occurrences (ix : ETerm → ℤ × ℤ) (cf : ETerm → K) (es : List Expr) : ∀ ei, ∀ e ∈ es, ∀ p ∈ e.terms,
    p.2.label ∈ (occurrences ix cf es ei).map (·.label) := by
  induction es with
  | nil => intro ei e h; simp at h
  | cons e0 es ih =>
    intro ei e h p hp
    rw [occurrences, List.map_append, List.mem_append]
    rcases List.mem_cons.1 h with rfl | h
    · exact .inl (List.mem_map.2 ⟨_, List.mem_map.2 ⟨p, hp, rfl⟩, rfl⟩)
    · exact .inr (ih _ e h p hp)

/-- The element a term names has the value `v`. -/
def TermValue (W : Mat m k K) (H : Mat k n K) (ix : ETerm → ℤ × ℤ) (t : ETerm) (v : K) : Prop :=
  (t.kind = "feature".toList → ∃ a j, PyAddr k (ix t).1 a ∧ PyAddr n (ix t).2 j ∧ v = H a j) ∧
  (t.kind ≠ "feature".toList → ∃ i a, PyAddr m (ix t).2 i ∧ PyAddr k (ix t).1 a ∧ v = W i a)

/-- **C208.** For expressions in the documented form the system has one row for each expression, in order. Every label has its own column. In the row of an
expression a label has the signed coefficient of its first term in that expression, all other columns are zero, and the right hand side is the sum of the
current values of the elements of its terms, without the coefficients. -/
theorem C208_system (pint : List Char → Option ℤ) (pfloat : List Char → Option K) (ix : ETerm → ℤ × ℤ) (cf : ETerm → K) (dq : Expr → K) (es : List Expr)
    (h : ∀ e ∈ es, e.Ok) (hd : ∀ e ∈ es, pfloat e.dQ = some (dq e)) (hread : ∀ e ∈ es, ∀ p ∈ e.terms, p.2.Reads pint pfloat (ix p.2) (cf p.2))
    (labeled : List (List (List Char) × K)) (mapping : PyDict (List Char) (ExprEntry K))
    (hm : mapExpressions pint pfloat (es.map Expr.text) 0 ⟨[], 0⟩ [] = some (labeled, mapping)) (W : Mat m k K) (H : Mat k n K)
    (rows : List ((ℕ → K) × K)) (hrows : exprSystem W H mapping 0 labeled = some rows) :
    ∃ col : List Char → ℕ,
      (∀ e ∈ es, ∀ p ∈ e.terms, col p.2.label < mapping.length ∧ ∀ e' ∈ es, ∀ p' ∈ e'.terms, col p.2.label = col p'.2.label → p.2.label = p'.2.label) ∧
      rows.length = es.length ∧ ∀ (t : ℕ) (e : Expr), es[t]? = some e → ∃ r : (ℕ → K) × K, rows[t]? = some r ∧
        (∀ p ∈ e.terms, ∃ q, e.terms.find? (fun q => q.2.label = p.2.label) = some q ∧ r.1 (col p.2.label) = signedCoef cf q) ∧
        (∀ x, (∀ p ∈ e.terms, col p.2.label ≠ x) → r.1 x = 0) ∧
        ∃ vs : List K, List.Forall₂ (fun p v => TermValue W H ix p.2 v) e.terms vs ∧ r.2 = vs.sum := by
  obtain ⟨mapping', hm', hget⟩ := C45_parse pint pfloat ix cf dq es h hd hread
  rw [hm, Option.some.injEq, Prod.mk.injEq] at hm'
  obtain ⟨rfl, rfl⟩ := hm'
  have hcols := mapExpressions_cols pint pfloat (es.map Expr.text) 0 ⟨[], 0⟩ [] _ mapping hm rfl (by simp)
  have hcoef : ∀ l en, dictGet mapping l = some en → ∀ i, coefUsed en i = ((occurrences ix cf es 0).find? fun o => o.label = l ∧ o.expr = i).map (·.coef) := by
    intro l en hl i
    refine C84_coefficient_partial _ l i en ?_
    rw [(foldl_enterOcc _).2, ← hget, hl]
  have hcol : ∀ l en, dictGet mapping l = some en → en.col = (appear ((occurrences ix cf es 0).map (·.label))).idxOf l := by
    intro l en hl
    rw [hget] at hl
    obtain ⟨o, -, rfl⟩ := Option.map_eq_some_iff.1 hl
    rfl
  have hmemap : ∀ l en, dictGet mapping l = some en → l ∈ appear ((occurrences ix cf es 0).map (·.label)) := by
    intro l en hl
    rw [hget] at hl
    obtain ⟨o, ho, -⟩ := Option.map_eq_some_iff.1 hl
    rw [mem_appear]
    exact List.mem_map.2 ⟨o, List.mem_of_find?_eq_some ho, by simpa using List.find?_some ho⟩
  have hinj : ∀ e e' en en', dictGet mapping e = some en → dictGet mapping e' = some en' → en.col = en'.col → e = e' := by
    intro e e' en en' h1 h2 h3
    rw [hcol _ _ h1, hcol _ _ h2] at h3
    exact (List.idxOf_inj (hmemap _ _ h1)).1 h3
  have hex : ∀ e ∈ es, ∀ p ∈ e.terms, ∃ en, dictGet mapping p.2.label = some en ∧ en.index = ix p.2 ∧ en.kind = p.2.kind := by
    intro e he p hp
    have hmem := label_mem_occurrences ix cf es 0 e he p hp
    obtain ⟨o, ho, hol⟩ := List.mem_map.1 hmem
    cases hf : (occurrences ix cf es 0).find? fun o => o.label = p.2.label with
    | none =>
      have := List.find?_eq_none.1 hf o ho
      simp [hol] at this
    | some o' =>
      have hg := hget p.2.label
      rw [hf, Option.map_some] at hg
      refine ⟨_, hg, ?_, ?_⟩
      all_goals
        obtain ⟨e', he', p', hp', e1, e2, e3⟩ := occurrences_term ix cf es 0 o' (List.mem_of_find?_eq_some hf)
        have hl : o'.label = p.2.label := by simpa using List.find?_some hf
        obtain ⟨q1, q2, q3⟩ := C45_label_injective p'.2 p.2 ((h e' he').1 p' hp') ((h e he).1 p hp) (e1.symm.trans hl)
      · show o'.index = _
        rw [e2]
        have r1 := hread e' he' p' hp'
        have r2 := hread e he p hp
        unfold ETerm.Reads at r1 r2
        rw [q1, q3] at r1
        exact Prod.ext (Option.some.inj (r1.1.symm.trans r2.1)) (Option.some.inj (r1.2.1.symm.trans r2.2.1))
      · show o'.kind = _
        rw [e3, q2]
  obtain ⟨s1, s2⟩ := exprSystem_rows W H mapping _ 0 rows hrows
  refine ⟨fun l => (appear ((occurrences ix cf es 0).map (·.label))).idxOf l, ?_, by simpa using s1, ?_⟩
  · intro e he p hp
    obtain ⟨en, h1, -, -⟩ := hex e he p hp
    refine ⟨?_, ?_⟩
    · show (appear ((occurrences ix cf es 0).map (·.label))).idxOf p.2.label < _
      rw [← hcol _ _ h1]
      exact hcols (p.2.label, en) (mem_of_dictGet _ _ _ h1)
    · intro e' he' p' hp' hc
      obtain ⟨en', h1', -, -⟩ := hex e' he' p' hp'
      exact (List.idxOf_inj (hmemap _ _ h1)).1 hc
  · intro t e ht
    have he : e ∈ es := List.mem_of_getElem? ht
    obtain ⟨r, hr, hrow⟩ := s2 t (e.terms.map (·.2.label), dq e) (by rw [List.getElem?_map, ht]; rfl)
    rw [Nat.zero_add] at hrow
    obtain ⟨c1, c2⟩ := exprRow_coefs W H mapping hinj t _ _ r.1 _ r.2 hrow
    refine ⟨r, hr, ?_, ?_, ?_⟩
    · intro p hp
      obtain ⟨en, g1, g2⟩ := c1 p.2.label (List.mem_map.2 ⟨p, hp, rfl⟩)
      rw [hcoef _ _ g1, show t = 0 + t by omega, occurrences_find ix cf p.2.label es 0 t e ht] at g2
      obtain ⟨o, ho, hoc⟩ := Option.map_eq_some_iff.1 g2
      obtain ⟨q, hq, rfl⟩ := Option.map_eq_some_iff.1 ho
      refine ⟨q, hq, ?_⟩
      show r.1 ((appear ((occurrences ix cf es 0).map (·.label))).idxOf p.2.label) = _
      rw [← hcol _ _ g1, ← hoc]
      rfl
    · intro x hx
      refine c2 x ?_
      intro l hl en hg
      obtain ⟨p, hp, rfl⟩ := List.mem_map.1 hl
      rw [hcol _ _ hg]
      exact hx p hp
    · obtain ⟨vs, v1, v2, v3⟩ := exprRow_b W H mapping t _ _ r.1 _ r.2 hrow
      refine ⟨vs, ?_, by rw [v2, zero_add]⟩
      rw [List.forall₂_iff_get]
      refine ⟨by simpa using v1.symm, ?_⟩
      intro i h1 h2
      obtain ⟨en, g1, g2⟩ := v3 i (e.terms[i]).2.label vs[i] (by simp [h1]) (by simp [h2])
      obtain ⟨en', g1', gi, gk⟩ := hex e he e.terms[i] (List.getElem_mem _)
      rw [g1] at g1'
      obtain rfl := Option.some.inj g1'
      unfold elementValue at g2
      rw [gi, gk] at g2
      show TermValue W H ix e.terms[i].2 vs[i]
      constructor
      · intro hk
        rw [if_pos hk] at g2
        obtain ⟨a, ha, g2⟩ := Option.bind_eq_some_iff.1 g2
        obtain ⟨j, hj, g2⟩ := Option.map_eq_some_iff.1 g2
        exact ⟨a, j, axisIndex_eq_some.1 ha, axisIndex_eq_some.1 hj, g2.symm⟩
      · intro hk
        rw [if_neg hk] at g2
        obtain ⟨i', hi, g2⟩ := Option.bind_eq_some_iff.1 g2
        obtain ⟨a, ha, g2⟩ := Option.map_eq_some_iff.1 g2
        exact ⟨i', a, axisIndex_eq_some.1 hi, axisIndex_eq_some.1 ha, g2.symm⟩

/-- If every label occurs once in an expression, its row applied to `x` is the expression at the values `x` of its labels. -/
theorem C208_equation (cf : ETerm → K) (col : List Char → ℕ) (N : ℕ) (ts : List (Bool × ETerm)) (r x : ℕ → K)
    (hlt : ∀ p ∈ ts, col p.2.label < N) (hnd : (ts.map fun p => col p.2.label).Nodup)
    (hr : ∀ p ∈ ts, ∃ q, ts.find? (fun q => q.2.label = p.2.label) = some q ∧ r (col p.2.label) = signedCoef cf q)
    (hz : ∀ y, (∀ p ∈ ts, col p.2.label ≠ y) → r y = 0) :
    ∑ j ∈ Finset.range N, r j * x j = (ts.map fun p => signedCoef cf p * x (col p.2.label)).sum := by
  have hr' : ∀ p ∈ ts, r (col p.2.label) = signedCoef cf p := by
    intro p hp
    obtain ⟨q, hq, e⟩ := hr p hp
    rw [e]
    have hl : q.2.label = p.2.label := by simpa using List.find?_some hq
    rw [List.inj_on_of_nodup_map hnd (List.mem_of_find?_eq_some hq) hp (by rw [hl])]
  rw [show (ts.map fun p => signedCoef cf p * x (col p.2.label)) = (ts.map fun p => col p.2.label).map fun j => r j * x j by
    rw [List.map_map]
    exact List.map_congr_left fun p hp => by simp [hr' p hp], ← List.sum_toFinset _ hnd]
  symm
  refine Finset.sum_subset ?_ ?_
  · intro j hj
    obtain ⟨p, hp, rfl⟩ := List.mem_map.1 (List.mem_toFinset.1 hj)
    exact Finset.mem_range.2 (hlt p hp)
  · intro j _ hj
    rw [hz j, zero_mul]
    intro p hp e
    exact hj (List.mem_toFinset.2 (List.mem_map.2 ⟨p, hp, e⟩))

end system

/-- Non-trivial case: two expressions with a common element `H[0, 1]` that has the coefficient `-3` in the first and `5` in the second one. Two rows on three
columns; the right hand sides are `1 + 7` and `7 + 9`. -/
example :
    ((mapExpressions (K := ℚ) digit (fun s => (digit s).map fun (z : ℤ) => (z : ℚ))
      ["(2*[factor:0|feature:0])-(3*[factor:0|feature:1])=0,9".toList, "(5*[factor:0|feature:1])+(4*[factor:0|sample:0])=0,9".toList] 0 ⟨[], 0⟩ []).bind fun p =>
      (exprSystem (K := ℚ) (m := 1) (n := 2) (k := 1) (fun _ _ => 9) (fun _ j => 1 + 6 * j.1) p.2 0 p.1).map fun rows =>
        rows.map fun r => ([r.1 0, r.1 1, r.1 2], r.2)) = some [([2, -3, 0], 8), ([0, 5, 4], 16)] := by
  decide +kernel

end Esat
