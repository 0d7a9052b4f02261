import Verif.Model.Highlights
import Verif.Props.ConstrainedViews

/-!
# Property C236: highlighted elements of the profile figure
-/

namespace Esat

/-- The index `i` of an axis of length `r` means position `j`; negative indices count from the end. -/
def Addresses (r : ℕ) (i : ℤ) (j : ℕ) : Prop := j < r ∧ ((j : ℤ) = i ∨ i < 0 ∧ (j : ℤ) = i + r)

theorem wrapAxis_iff (r : ℕ) (i : ℤ) (j : Fin r) : wrapAxis r i = some j ↔ Addresses r i j.1 := by
  have hj := j.2
  unfold wrapAxis Addresses
  split_ifs with h1 h2
  · rw [Option.some.injEq, Fin.ext_iff]
    show i.toNat = j.1 ↔ _
    omega
  · rw [Option.some.injEq, Fin.ext_iff]
    show (i + r).toNat = j.1 ↔ _
    omega
  · simp only [reduceCtorEq, false_iff]
    omega

theorem wrapAxis_none_iff (r : ℕ) (i : ℤ) : wrapAxis r i = none ↔ ¬ ∃ j, Addresses r i j := by
  constructor
  · rintro h ⟨j, hj⟩
    rw [(wrapAxis_iff r i ⟨j, hj.1⟩).2 hj] at h
    cases h
  · intro h
    cases e : wrapAxis r i with
    | none => rfl
    | some j => exact absurd ⟨j.1, (wrapAxis_iff r i j).1 e⟩ h

theorem pySet_iff {α : Type*} (l l' : List α) (i : ℤ) (v : α) :
    pySet l i v = some l' ↔ ∃ j, Addresses l.length i j ∧ l' = l.set j v := by
  unfold pySet
  rw [Option.map_eq_some_iff]
  constructor
  · rintro ⟨j, h1, h2⟩
    exact ⟨j.1, (wrapAxis_iff _ _ _).1 h1, h2.symm⟩
  · rintro ⟨j, h1, h2⟩
    exact ⟨⟨j, h1.1⟩, (wrapAxis_iff _ _ _).2 h1, h2.symm⟩

theorem Addresses.unique {r : ℕ} {i : ℤ} {j j' : ℕ} (h : Addresses r i j) (h' : Addresses r i j') : j = j' := by
  unfold Addresses at *
  omega

section highlights
variable {K : Type*}

/-- The element of an expression that the loop marks for factor `f`. -/
def MarksE (f : ℤ) (p : List Char × ExprEntry K) : Prop := featureText <:+: p.1 ∧ p.2.index.1 = f

theorem markExpressions_iff (f : ℤ) (d : PyDict (List Char) (ExprEntry K)) (l l' : List EdgeColour) :
    markAll (markExpression f) d l = some l' ↔ (∀ p ∈ d, MarksE f p → ∃ j, Addresses l.length p.2.index.2 j) ∧ l'.length = l.length ∧
      ∀ j < l.length, ((∃ p ∈ d, MarksE f p ∧ Addresses l.length p.2.index.2 j) → l'[j]? = some .expression) ∧
        ((¬ ∃ p ∈ d, MarksE f p ∧ Addresses l.length p.2.index.2 j) → l'[j]? = l[j]?) := by
  induction d generalizing l with
  | nil =>
    simp only [markAll, Option.some.injEq, List.not_mem_nil, false_and, exists_false, not_false_eq_true, true_implies,
      false_implies, implies_true, true_and]
    constructor
    · rintro rfl
      simp
    · rintro ⟨h1, h2⟩
      apply List.ext_getElem? 
      intro j
      by_cases hj : j < l.length
      · exact (h2 j hj).symm
      · rw [List.getElem?_eq_none (by omega), List.getElem?_eq_none (by omega)]
  | cons p d ih =>
    obtain ⟨key, e⟩ := p
    rw [markAll, markExpression]
    split_ifs with hm
    · have hm' : MarksE f (key, e) := hm
      rw [Option.bind_eq_some_iff]
      constructor
      · rintro ⟨l1, h1, h2⟩
        obtain ⟨j0, hj0, rfl⟩ := (pySet_iff _ _ _ _).1 h1
        obtain ⟨a, b, c⟩ := (ih _).1 h2
        simp only [List.length_set] at a b c
        refine ⟨?_, b, ?_⟩
        · intro p hp hmp
          rcases List.mem_cons.1 hp with rfl | hp
          · exact ⟨j0, hj0⟩
          · exact a p hp hmp
        · intro j hj
          obtain ⟨c1, c2⟩ := c j hj
          by_cases hd : ∃ p ∈ d, MarksE f p ∧ Addresses l.length p.2.index.2 j
          · refine ⟨fun _ => c1 hd, fun hn => absurd ?_ hn⟩
            obtain ⟨p, hp, h⟩ := hd
            exact ⟨p, List.mem_cons_of_mem _ hp, h⟩
          · have hc := c2 hd
            by_cases hjj : j = j0
            · subst hjj
              refine ⟨fun _ => ?_, fun hn => absurd ⟨_, List.mem_cons_self, hm', hj0⟩ hn⟩
              rw [hc, List.getElem?_set_self hj]
            · refine ⟨?_, fun _ => ?_⟩
              · rintro ⟨p, hp, h3, h4⟩
                rcases List.mem_cons.1 hp with rfl | hp
                · exact absurd (h4.unique hj0) hjj
                · exact absurd ⟨p, hp, h3, h4⟩ hd
              · rw [hc, List.getElem?_set_ne (Ne.symm hjj)]
      · rintro ⟨a, b, c⟩
        obtain ⟨j0, hj0⟩ := a _ List.mem_cons_self hm'
        refine ⟨l.set j0 .expression, (pySet_iff _ _ _ _).2 ⟨j0, hj0, rfl⟩, (ih _).2 ⟨?_, ?_, ?_⟩⟩
        · intro p hp hmp
          simpa using a p (List.mem_cons_of_mem _ hp) hmp
        · simpa using b
        · intro j hj
          simp only [List.length_set] at hj ⊢
          obtain ⟨c1, c2⟩ := c j hj
          refine ⟨?_, ?_⟩
          · rintro ⟨p, hp, h⟩
            exact c1 ⟨p, List.mem_cons_of_mem _ hp, h⟩
          · intro hn
            by_cases hjj : j = j0
            · subst hjj
              rw [c1 ⟨_, List.mem_cons_self, hm', hj0⟩, List.getElem?_set_self hj]
            · rw [List.getElem?_set_ne (Ne.symm hjj)]
              apply c2
              rintro ⟨p, hp, h3, h4⟩
              rcases List.mem_cons.1 hp with rfl | hp
              · exact hjj (h4.unique hj0)
              · exact hn ⟨p, hp, h3, h4⟩
    · have hm' : ¬ MarksE f (key, e) := hm
      have e1 : ∀ j, (∃ p ∈ (key, e) :: d, MarksE f p ∧ Addresses l.length p.2.index.2 j) ↔
          ∃ p ∈ d, MarksE f p ∧ Addresses l.length p.2.index.2 j := by
        intro j
        constructor
        · rintro ⟨p, hp, h⟩
          rcases List.mem_cons.1 hp with rfl | hp
          · exact absurd h.1 hm'
          · exact ⟨p, hp, h⟩
        · rintro ⟨p, hp, h⟩
          exact ⟨p, List.mem_cons_of_mem _ hp, h⟩
      rw [Option.bind_some, ih]
      simp only [e1]
      refine and_congr_left fun _ => ?_
      constructor
      · intro h p hp hmp
        rcases List.mem_cons.1 hp with rfl | hp
        · exact absurd hmp hm'
        · exact h p hp hmp
      · exact fun h p hp => h p (List.mem_cons_of_mem _ hp)

theorem markExpressions_total (f : ℤ) (d : PyDict (List Char) (ExprEntry K)) (l : List EdgeColour)
    (h : ∀ p ∈ d, MarksE f p → ∃ j, Addresses l.length p.2.index.2 j) : (markAll (markExpression f) d l).isSome = true := by
  induction d generalizing l with
  | nil => rfl
  | cons p d ih =>
    obtain ⟨key, e⟩ := p
    rw [markAll, markExpression]
    split_ifs with hm
    · obtain ⟨j, hj⟩ := h _ List.mem_cons_self hm
      rw [(pySet_iff _ _ _ _).2 ⟨j, hj, rfl⟩, Option.bind_some]
      exact ih _ fun p hp hmp => by simpa using h p (List.mem_cons_of_mem _ hp) hmp
    · rw [Option.bind_some]
      exact ih _ fun p hp => h p (List.mem_cons_of_mem _ hp)

/-- The loop over the constraints does nothing unless a type is the text `feature`. -/
theorem markConstraints_id (f : ℤ) (cs : List (String × (ℤ × ℤ))) (h : ∀ c ∈ cs, c.1 ≠ "feature") (l : List EdgeColour) :
    markAll (markConstraint f) cs l = some l := by
  induction cs with
  | nil => rfl
  | cons c cs ih =>
    rw [markAll, markConstraint, if_neg (fun hc => h c List.mem_cons_self hc.1), Option.bind_some]
    exact ih fun c hc => h c (List.mem_cons_of_mem _ hc)

theorem markConstraints_isSome (f : ℤ) (cs : List (String × (ℤ × ℤ))) (l : List EdgeColour) :
    (markAll (markConstraint f) cs l).isSome = true ↔ ∀ c ∈ cs, c.1 = "feature" → c.2.1 = f → ∃ j, Addresses l.length c.2.2 j := by
  induction cs generalizing l with
  | nil => simp [markAll]
  | cons c cs ih =>
    rw [markAll, markConstraint]
    split_ifs with hc
    · cases e : pySet l c.2.2 .constraint with
      | none =>
        simp only [Option.bind_none, Option.isSome_none, Bool.false_eq_true, false_iff]
        intro h
        obtain ⟨j, hj⟩ := h c List.mem_cons_self hc.1 hc.2
        rw [(pySet_iff _ _ _ _).2 ⟨j, hj, rfl⟩] at e
        cases e
      | some l1 =>
        obtain ⟨j, hj, rfl⟩ := (pySet_iff _ _ _ _).1 e
        rw [Option.bind_some, ih, List.length_set]
        constructor
        · intro h c' hc' h1 h2
          rcases List.mem_cons.1 hc' with rfl | hc'
          · exact ⟨j, hj⟩
          · exact h c' hc' h1 h2
        · exact fun h c' hc' => h c' (List.mem_cons_of_mem _ hc')
    · rw [Option.bind_some, ih]
      constructor
      · intro h c' hc' h1 h2
        rcases List.mem_cons.1 hc' with rfl | hc'
        · exact absurd ⟨h1, h2⟩ hc
        · exact h c' hc' h1 h2
      · exact fun h c' hc' => h c' (List.mem_cons_of_mem _ hc')

/-- The list of colours: with types other than the text `feature` (all types in the documentation) no element is marked for its
constraint; an element is marked for an expression exactly if an expression names it. -/
theorem C236_colours (features : ℕ) (f : ℤ) (mapped : PyDict (List Char) (ExprEntry K)) (cs : List (String × (ℤ × ℤ)))
    (hc : ∀ c ∈ cs, c.1 ≠ "feature") (l : List EdgeColour) (h : markerLineColours features f mapped cs = some l) (j : ℕ) (hj : j < features) :
    (l[j]? = some .expression ↔ ∃ p ∈ mapped, MarksE f p ∧ Addresses features p.2.index.2 j) ∧ l[j]? ≠ some .constraint := by
  unfold markerLineColours at h
  rw [Option.bind_eq_some_iff] at h
  obtain ⟨l1, h1, h2⟩ := h
  rw [markConstraints_id f cs hc, Option.some.injEq] at h2
  subst h2
  obtain ⟨-, -, h3⟩ := (markExpressions_iff _ _ _ _).1 h1
  simp only [List.length_replicate] at h3
  obtain ⟨h4, h5⟩ := h3 j hj
  by_cases hd : ∃ p ∈ mapped, MarksE f p ∧ Addresses features p.2.index.2 j
  · rw [h4 hd]
    exact ⟨⟨fun _ => hd, fun _ => rfl⟩, by decide⟩
  · rw [h5 hd, List.getElem?_replicate, if_pos hj]
    exact ⟨⟨fun h => (by cases h), fun h => absurd h hd⟩, by decide⟩

variable [Field K] [LinearOrder K] {m n k : ℕ}

/-- **Disagreement.** Whatever has been constrained and whichever expressions have been added: a figure that is shown has the numbers of a
figure without any of them and no marked edge. -/
theorem C236_no_highlight (tiny : K) (W0 : Mat m k K) (H0 : Mat k n K) (W : Mat m k K) (H : Mat k n K) (features : ℕ)
    (mapped : PyDict (List Char) (ExprEntry K)) (cs : List (String × (ℤ × ℤ))) (f : ℤ) (fig : ProfileFig n K) (edge : ℕ → EdgeColour)
    (h : profileFigure tiny W0 H0 W H features mapped cs f = .ret (fig, edge)) :
    profileFigure tiny W0 H0 W H features [] [] f = .ret (fig, edge) ∧ ∀ j, edge j = .plain := by
  unfold profileFigure at h ⊢
  cases e : plotProfile tiny W0 H0 W H f with
  | raised => rw [e] at h; cases h
  | ret fig' =>
    rw [e] at h
    dsimp only at h ⊢
    cases e2 : markerLineColours features (f - 1) mapped cs with
    | none => rw [e2] at h; cases h
    | some l =>
      rw [e2] at h
      dsimp only at h
      rw [Outcome.ret.injEq, Prod.mk.injEq] at h
      obtain ⟨rfl, rfl⟩ := h
      exact ⟨rfl, fun _ => rfl⟩

/-- The figure raises exactly for a factor that does not exist, an expression that names a missing feature of this factor, or a constraint
whose type is the text `feature` at such an index. -/
theorem C236_raises (tiny : K) (W0 : Mat m k K) (H0 : Mat k n K) (W : Mat m k K) (H : Mat k n K) (features : ℕ)
    (mapped : PyDict (List Char) (ExprEntry K)) (cs : List (String × (ℤ × ℤ))) (f : ℤ) :
    profileFigure tiny W0 H0 W H features mapped cs f = .raised ↔ (¬ ∃ a, Addresses k (f - 1) a) ∨
      (∃ p ∈ mapped, MarksE (f - 1) p ∧ ¬ ∃ j, Addresses features p.2.index.2 j) ∨
      ∃ c ∈ cs, c.1 = "feature" ∧ c.2.1 = f - 1 ∧ ¬ ∃ j, Addresses features c.2.2 j := by
  unfold profileFigure
  cases e : plotProfile tiny W0 H0 W H f with
  | raised =>
    refine ⟨fun _ => .inl ?_, fun _ => rfl⟩
    unfold plotProfile at e
    cases e1 : wrapAxis k (f - 1) with
    | none => exact (wrapAxis_none_iff _ _).1 e1
    | some a => rw [e1] at e; cases e
  | ret fig =>
    have hk : ∃ a, Addresses k (f - 1) a := by
      by_contra hn
      unfold plotProfile at e
      rw [(wrapAxis_none_iff _ _).2 hn] at e
      cases e
    dsimp only
    have key : (∃ l, markerLineColours features (f - 1) mapped cs = some l) ↔
        (∀ p ∈ mapped, MarksE (f - 1) p → ∃ j, Addresses features p.2.index.2 j) ∧
        ∀ c ∈ cs, c.1 = "feature" → c.2.1 = f - 1 → ∃ j, Addresses features c.2.2 j := by
      unfold markerLineColours
      constructor
      · rintro ⟨l, hl⟩
        rw [Option.bind_eq_some_iff] at hl
        obtain ⟨l1, h1, h2⟩ := hl
        obtain ⟨a, b, -⟩ := (markExpressions_iff _ _ _ _).1 h1
        have h3 := (markConstraints_isSome (f - 1) cs l1).1 (by rw [h2]; rfl)
        rw [List.length_replicate] at a b
        rw [b] at h3
        exact ⟨a, h3⟩
      · rintro ⟨h1, h2⟩
        cases e1 : markAll (markExpression (f - 1)) mapped (List.replicate features .plain) with
        | none =>
          exfalso
          have := markExpressions_total (f - 1) mapped (List.replicate features .plain) (by simpa using h1)
          rw [e1] at this
          cases this
        | some l1 =>
          have hb : l1.length = features := by
            have := ((markExpressions_iff _ _ _ _).1 e1).2.1
            simpa using this
          rw [Option.bind_some]
          exact Option.isSome_iff_exists.1 ((markConstraints_isSome (f - 1) cs l1).2 (by rw [hb]; exact h2))
    cases e2 : markerLineColours features (f - 1) mapped cs with
    | none =>
      refine ⟨fun _ => ?_, fun _ => rfl⟩
      by_contra hn
      push Not at hn
      obtain ⟨l, hl⟩ := key.2 ⟨fun p hp hm => hn.2.1 p hp hm, fun c hc h1 h2 => hn.2.2 c hc h1 h2⟩
      rw [e2] at hl
      cases hl
    | some l =>
      obtain ⟨k1, k2⟩ := key.1 ⟨l, e2⟩
      refine ⟨fun h => (by cases h), ?_⟩
      rintro (h | ⟨p, hp, hm, h⟩ | ⟨c, hc, h1, h2, h⟩)
      · exact absurd hk h
      · exact absurd (k1 p hp hm) h
      · exact absurd (k2 c hc h1 h2) h

/-- After a training that could read every element named in an expression, with one name per feature and the documented types, the figure of
every factor is shown. -/
theorem C236_trained (tiny : K) (W0 : Mat m k K) (H0 : Mat k n K) (W : Mat m k K) (H : Mat k n K)
    (mapped : PyDict (List Char) (ExprEntry K)) (cs : List (String × (ℤ × ℤ))) (hc : ∀ c ∈ cs, c.1 ≠ "feature")
    (hm : ∀ p ∈ mapped, (featureText <:+: p.1 → p.2.kind = "feature".toList) ∧ (elementValue W0 H0 p.2).isSome = true) (a : Fin k) :
    ∃ fig, profileFigure tiny W0 H0 W H n mapped cs (a.1 + 1) = .ret (fig, fun _ => .plain) := by
  cases e : profileFigure tiny W0 H0 W H n mapped cs (a.1 + 1) with
  | ret r =>
    have := C236_no_highlight tiny W0 H0 W H n mapped cs (a.1 + 1) r.1 r.2 e
    exact ⟨r.1, by rw [← funext this.2]⟩
  | raised =>
    exfalso
    rw [C236_raises] at e
    rcases e with h | ⟨p, hp, h1, h2⟩ | ⟨c, hc', h1, -⟩
    · exact h ⟨a.1, a.2, .inl (by omega)⟩
    · obtain ⟨hk, hv⟩ := hm p hp
      rw [elementValue, if_pos (hk h1.1)] at hv
      apply h2
      cases ea : axisIndex k p.2.index.1 with
      | none => rw [ea] at hv; cases hv
      | some x =>
        cases ej : axisIndex n p.2.index.2 with
        | none => rw [ea, ej] at hv; cases hv
        | some j => exact ⟨j.1, (wrapAxis_iff n _ j).1 ej⟩
    · exact hc c hc' h1

end highlights

/-- An element of an expression is in the list of colours, but not in the figure. -/
def highlightExample : PyDict (List Char) (ExprEntry ℚ) := [("factor:0|feature:1".toList, ⟨[1], [0], (0, 1), "feature".toList, 0⟩)]

example : markerLineColours 2 0 highlightExample [("set to zero", (0, 0))] = some [.plain, .expression] := by decide +kernel

example : ∃ fig, profileFigure (1 / 10 ^ 12 : ℚ) (fun _ _ => 1 : Mat 2 1 ℚ) (fun _ _ => 1 : Mat 1 2 ℚ) (fun _ _ => 1) (fun _ _ => 1) 2 highlightExample
    [("set to zero", (0, 0))] 1 = .ret (fig, fun _ => .plain) :=
  C236_trained _ _ _ _ _ _ _ (by decide) (by decide +kernel) (0 : Fin 1)

/-- A type called `feature` with an index outside raises. -/
example : profileFigure (1 / 10 ^ 12 : ℚ) (fun _ _ => 1 : Mat 2 1 ℚ) (fun _ _ => 1 : Mat 1 2 ℚ) (fun _ _ => 1) (fun _ _ => 1) 2 []
    [("feature", (0, 7))] 1 = .raised := rfl

end Esat
