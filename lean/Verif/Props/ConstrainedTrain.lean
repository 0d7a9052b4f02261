import Verif.Model.ConstrainedTrain
import Verif.Props.Constrained

/-!
# `ConstrainedModel.train` as a whole (C223)
-/

namespace Esat

section path
variable {K : Type*} {σ : Type*}

/-- `f` leads from one state to another, recording these losses. -/
def ConsPath (f : σ → Option (σ × ConsQ K)) : σ → List (ConsQ K) → σ → Prop
  | s, [], s' => s = s'
  | s, q :: qs, s' => ∃ t, f s = some (t, q) ∧ ConsPath f t qs s'

theorem ConsPath.last {f : σ → Option (σ × ConsQ K)} : ∀ {qs : List (ConsQ K)} {s s' : σ}, ConsPath f s qs s' → ∀ q, qs.getLast? = some q →
    ∃ t, f t = some (s', q)
  | [], _, _, _, _, hq => by cases hq
  | [q0], s, s', h, q, hq => by
    obtain ⟨t, h1, rfl⟩ := h
    obtain rfl : q0 = q := Option.some.inj hq
    exact ⟨s, h1⟩
  | q0 :: q1 :: qs, s, s', h, q, hq => by
    obtain ⟨t, -, h2⟩ := h
    rw [List.getLast?_cons_cons] at hq
    exact h2.last q hq

end path

section C223
variable {K : Type*} [Field K] [LinearOrder K] {m n k : ℕ} {σ : Type*}

theorem cLoopQ_path (f : σ → Option (σ × ConsQ K)) (convN : ℕ) (delta : K) : ∀ (r : ℕ) (win : List K) (s s' : σ) (b : Bool) (qs : List (ConsQ K)),
    cLoopQ f convN delta r win s = some (s', b, qs) → ConsPath f s qs s' := by
  intro r
  induction r with
  | zero =>
    intro win s s' b qs h
    simp only [cLoopQ, Option.some.injEq, Prod.mk.injEq] at h
    obtain ⟨rfl, rfl, rfl⟩ := h
    rfl
  | succ r ih =>
    intro win s s' b qs h
    unfold cLoopQ at h
    obtain ⟨p, hp, h⟩ := Option.bind_eq_some_iff.1 h
    have hrec : ∀ w, ((cLoopQ f convN delta r w p.1).map fun x => (x.1, x.2.1, p.2 :: x.2.2)) = some (s', b, qs) → ConsPath f s qs s' := by
      intro w hw
      simp only [Option.map_eq_some_iff, Prod.exists, Prod.mk.injEq] at hw
      obtain ⟨x1, x2, x3, hx, rfl, rfl, rfl⟩ := hw
      exact ⟨p.1, hp, ih _ _ _ _ _ hx⟩
    split_ifs at h
    · split at h
      · cases h
      · simp only [Option.some.injEq, Prod.mk.injEq] at h
        obtain ⟨rfl, rfl, rfl⟩ := h
        exact ⟨p.1, hp, rfl⟩
      · exact hrec _ h
    · exact hrec _ h

/-- The loop with the lists is the loop without them. -/
theorem cLoopQ_cLoop (f : σ → Option (σ × ConsQ K)) (convN : ℕ) (delta : K) : ∀ (r : ℕ) (win : List K) (s : σ),
    ((cLoopQ f convN delta r win s).map fun x => (x.1, x.2.1, x.2.2.length)) =
      cLoop (fun s => (f s).map Prod.fst) (fun s _ => match f s with | some p => p.2.qt + p.2.qa | none => 0) convN delta r win s := by
  intro r
  induction r with
  | zero => intro win s; rfl
  | succ r ih =>
    intro win s
    unfold cLoopQ cLoop
    cases hf : f s with
    | none => rfl
    | some p =>
      simp only [Option.bind_some, Option.map_some]
      split_ifs
      · cases hw : windowMet delta (win ++ [p.2.qt + p.2.qa]).tail with
        | none => rfl
        | some b =>
          cases b with
          | true => rfl
          | false =>
            dsimp only
            rw [← ih, Option.map_map, Option.map_map]
            rfl
      · rw [← ih, Option.map_map, Option.map_map]
        rfl

theorem qTrace_path (f : σ → Option (σ × ConsQ K)) : ∀ (qs : List (ConsQ K)) (s s' : σ), ConsPath f s qs s' → ∀ t ≤ qs.length,
    qTrace (fun s => (f s).map Prod.fst) (fun s _ => match f s with | some p => p.2.qt + p.2.qa | none => 0) t s =
      (qs.take t).map fun q => q.qt + q.qa
  | _, _, _, _, 0, _ => by simp [qTrace]
  | [], _, _, _, t + 1, ht => by simp at ht
  | q :: qs, s, s', h, t + 1, ht => by
    obtain ⟨t1, h1, h2⟩ := h
    simp only [qTrace, h1, Option.map_some, List.take_succ_cons, List.map_cons]
    rw [qTrace_path f qs t1 s' h2 t (by simpa using ht)]

/-- C223: without constraints and expressions nothing happens. Otherwise either an exception leaves the object as it was, or the losses of the
iterations are recorded in three lists, from the solution of the base model on; the contributions of the last iteration are stored as they are, its
profiles with entries that are not positive replaced, `WH` is the product of what is stored, the losses are those of the last iteration, and the number of
steps is one less than the number of iterations. The call returns exactly if there was an iteration and the base model has a robust loss. -/
theorem C223_stored (f : Mat m k K × Mat k n K → Option ((Mat m k K × Mat k n K) × ConsQ K)) (maxIter convN : ℕ) (delta : K) (base : Option K)
    (W0 : Mat m k K) (H0 : Mat k n K) (o : ConsObj m n k K) :
    (o.constraints = 0 ∧ o.expressions = 0 → consTrain (some f) maxIter convN delta base W0 H0 o = (o, true)) ∧
    (0 < o.constraints + o.expressions → consTrain (some f) maxIter convN delta base W0 H0 o = (o, false) ∨
      ∃ (W : Mat m k K) (H : Mat k n K) (qs : List (ConsQ K)) (M : ConsModel m n k K), ConsPath f (W0, H0) qs (W, H) ∧
        (consTrain (some f) maxIter convN delta base W0 H0 o).1.model = some M ∧ M.W = W ∧
        (∀ a j, M.H a j = if 0 < H a j then H a j else 1 / 10 ^ 12) ∧ M.WH = M.W ⬝ M.H ∧ M.q = qs.getLast? ∧ M.steps = qs.length - 1 ∧
        (consTrain (some f) maxIter convN delta base W0 H0 o).1.qList = some (qs.map (·.qt), qs.map (·.qr), qs.map (·.qa)) ∧
        (consTrain (some f) maxIter convN delta base W0 H0 o).1.qaux = qs.getLast?.map (·.qa) ∧
        ((consTrain (some f) maxIter convN delta base W0 H0 o).2 = true ↔ qs ≠ [] ∧ base.isSome)) := by
  unfold consTrain
  refine ⟨fun h => if_pos h, fun h => ?_⟩
  rw [if_neg (by omega), Option.bind_some]
  cases hl : cLoopQ f convN delta maxIter [] (W0, H0) with
  | none => exact .inl rfl
  | some x =>
    obtain ⟨⟨W, H⟩, b, qs⟩ := x
    refine .inr ⟨W, H, qs, _, cLoopQ_path f convN delta maxIter [] _ _ _ _ hl, rfl, rfl, fun a j => ?_, rfl, rfl, rfl, rfl, rfl, ?_⟩
    · simp only [floorPos]
      by_cases h0 : H a j ≤ 0
      · rw [if_pos h0, if_neg (not_lt.2 h0)]
      · rw [if_neg h0, if_pos (not_le.1 h0)]
    · rw [Bool.and_eq_true]
      refine and_congr_left fun _ => ?_
      cases qs <;> simp [List.getLast?_cons]

theorem cLoopQ_isSome (f : σ → Option (σ × ConsQ K)) (hf : ∀ s, (f s).isSome) (convN : ℕ) (hN : 0 < convN) (delta : K) : ∀ (r : ℕ) (win : List K) (s : σ),
    (cLoopQ f convN delta r win s).isSome := by
  intro r
  induction r with
  | zero => intro win s; rfl
  | succ r ih =>
    intro win s
    obtain ⟨p, hp⟩ := Option.isSome_iff_exists.1 (hf s)
    unfold cLoopQ
    rw [hp, Option.bind_some]
    split_ifs with hc
    · rw [List.length_append, List.length_singleton] at hc
      cases win with
      | nil => simp at hc; omega
      | cons w ws =>
        rw [List.cons_append, List.tail_cons]
        split
        · rename_i hw
          cases ws <;> simp [windowMet] at hw
        · rfl
        · rw [Option.isSome_map]; exact ih _ _
    · rw [Option.isSome_map]; exact ih _ _

/-- C223: when the call raises. If the expressions cannot be mapped, or the first iteration fails, the object stays as it was; if no iteration
fails, a model is stored. -/
theorem C223_raises (f : Mat m k K × Mat k n K → Option ((Mat m k K × Mat k n K) × ConsQ K)) (maxIter convN : ℕ) (delta : K) (base : Option K)
    (W0 : Mat m k K) (H0 : Mat k n K) (o : ConsObj m n k K) (ho : 0 < o.constraints + o.expressions) :
    consTrain none maxIter convN delta base W0 H0 o = (o, false) ∧
    (0 < maxIter → f (W0, H0) = none → consTrain (some f) maxIter convN delta base W0 H0 o = (o, false)) ∧
    ((∀ s, (f s).isSome) → 0 < convN → (consTrain (some f) maxIter convN delta base W0 H0 o).1.model.isSome ∧
      ((consTrain (some f) maxIter convN delta base W0 H0 o).2 = true ↔ 0 < maxIter ∧ base.isSome)) := by
  unfold consTrain
  rw [if_neg (by omega), if_neg (by omega), Option.bind_none, Option.bind_some]
  refine ⟨rfl, fun hm h0 => ?_, fun hf hN => ?_⟩
  · obtain ⟨r, rfl⟩ : ∃ r, maxIter = r + 1 := ⟨maxIter - 1, by omega⟩
    unfold cLoopQ
    rw [h0]
    rfl
  · obtain ⟨⟨s, b, qs⟩, hl⟩ := Option.isSome_iff_exists.1 (cLoopQ_isSome f hf convN hN delta maxIter [] (W0, H0))
    rw [hl]
    refine ⟨rfl, ?_⟩
    dsimp only
    rw [Bool.and_eq_true]
    refine and_congr_left fun _ => ?_
    cases maxIter with
    | zero =>
      simp only [cLoopQ, Option.some.injEq, Prod.mk.injEq] at hl
      rw [← hl.2.2]
      simp
    | succ r =>
      cases qs with
      | nil =>
        exfalso
        obtain ⟨p, hp⟩ := Option.isSome_iff_exists.1 (hf (W0, H0))
        unfold cLoopQ at hl
        rw [hp, Option.bind_some] at hl
        split_ifs at hl
        · split at hl <;> simp at hl
        · simp at hl
      | cons q qs => simp [List.getLast?_cons]

/-- C223: when training stops. `converged` is set exactly if the last `converge_n` sums of true and auxiliary loss lie within `converge_delta` of each
other after more than `converge_n` iterations; training ends at the first such iteration, otherwise after all of them. -/
theorem C223_stop [IsStrictOrderedRing K] (f : Mat m k K × Mat k n K → Option ((Mat m k K × Mat k n K) × ConsQ K)) (maxIter convN : ℕ) (hN : 0 < convN) (delta : K)
    (base : Option K) (W0 : Mat m k K) (H0 : Mat k n K) (o : ConsObj m n k K) (ho : 0 < o.constraints + o.expressions) (hno : o.model = none)
    (M : ConsModel m n k K) (h : (consTrain (some f) maxIter convN delta base W0 H0 o).1.model = some M) (qt qr qa : List K)
    (hq : (consTrain (some f) maxIter convN delta base W0 H0 o).1.qList = some (qt, qr, qa)) :
    qt.length = qa.length ∧ qt.length = qr.length ∧ qt.length ≤ maxIter ∧ (M.converged = false → qt.length = maxIter) ∧
    (M.converged = true ↔ convN < qt.length ∧ Within delta ((List.zipWith (· + ·) qt qa).drop (qt.length - convN))) ∧
    ∀ t < qt.length, convN < t → ¬ Within delta (((List.zipWith (· + ·) qt qa).take t).drop (t - convN)) := by
  unfold consTrain at h hq
  rw [if_neg (by omega), Option.bind_some] at h hq
  cases hl : cLoopQ f convN delta maxIter [] (W0, H0) with
  | none => rw [hl] at h; simp [hno] at h
  | some x =>
    obtain ⟨⟨W, H⟩, b, qs⟩ := x
    rw [hl] at h hq
    simp only [Option.some.injEq, Prod.mk.injEq] at h hq
    obtain ⟨rfl, rfl, rfl⟩ := hq
    subst h
    have hpath := cLoopQ_path f convN delta maxIter [] _ _ _ _ hl
    have hc := cLoopQ_cLoop f convN delta maxIter [] (W0, H0)
    rw [hl, Option.map_some] at hc
    obtain ⟨i1, -, i3, i4, i5⟩ := C82_stop _ _ convN hN delta maxIter _ _ _ _ hc.symm
    have hz : List.zipWith (· + ·) (qs.map (·.qt)) (qs.map (·.qa)) = qs.map fun q => q.qt + q.qa := by
      rw [List.zipWith_map, List.zipWith_self]
    rw [hz]
    simp only [List.length_map, true_and]
    refine ⟨i1, i3, ?_, fun t ht hct => ?_⟩
    · rw [i4]
      unfold lastValues
      rw [qTrace_path f qs _ _ hpath _ le_rfl, List.take_length]
    · have := i5 t ht hct
      unfold lastValues at this
      rw [qTrace_path f qs _ _ hpath t ht.le] at this
      rwa [← List.map_take]

/-- C223: the losses. The recorded true loss is that of the profiles before the replacement; it is the loss of the stored solution if all of them are
positive. The auxiliary loss compares the last iteration with the base model plus the last pull. -/
theorem C223_losses (lsq : Lsq K) (E : CEnv m n k K) (soft baseQ : K) (labeled : List (List (List Char) × K))
    (mapping : PyDict (List Char) (ExprEntry K)) (cs : List (Constraint K)) (rob : Mat m k K → Mat k n K → K)
    (update : Mat m k K → Mat k n K → Option (Mat m k K × Mat k n K)) (maxIter convN : ℕ) (delta : K) (base : Option K)
    (o : ConsObj m n k K) (ho : 0 < o.constraints + o.expressions)
    (h : (consTrain (some (consStep lsq E soft baseQ labeled mapping cs rob update)) maxIter convN delta base E.W0 E.H0 o).2 = true) :
    ∃ (M : ConsModel m n k K) (H : Mat k n K) (q : ConsQ K) (D : Mat m k K × Mat k n K) (s : Mat m k K × Mat k n K),
      (consTrain (some (consStep lsq E soft baseQ labeled mapping cs rob update)) maxIter convN delta base E.W0 E.H0 o).1.model = some M ∧
      M.q = some q ∧ calcPull lsq E soft baseQ labeled mapping cs s.1 s.2 = some D ∧
      update (fun i a => D.1 i a + s.1 i a) (fun a j => |D.2 a j + s.2 a j|) = some (M.W, H) ∧
      q.qt = qLoss E.V E.U M.W H ∧ q.qr = rob M.W H ∧ q.qa = qAux soft E.W0 M.W D.1 E.H0 H D.2 ∧
      ((∀ a j, 0 < H a j) → M.H = H ∧ q.qt = qLoss E.V E.U M.W M.H ∧ q.qr = rob M.W M.H) := by
  rcases (C223_stored (consStep lsq E soft baseQ labeled mapping cs rob update) maxIter convN delta base E.W0 E.H0 o).2 ho with h1 | h1
  · rw [h1] at h; cases h
  · obtain ⟨W, H, qs, M, hp, hM, hW, hH, -, hq, -, -, -, hret⟩ := h1
    obtain ⟨hne, -⟩ := hret.1 h
    obtain ⟨q, hlast⟩ : ∃ q, qs.getLast? = some q := ⟨_, List.getLast?_eq_some_getLast hne⟩
    obtain ⟨s, hs⟩ := hp.last q hlast
    unfold consStep at hs
    obtain ⟨D, hD, hs⟩ := Option.bind_eq_some_iff.1 hs
    obtain ⟨t, ht, he⟩ := Option.map_eq_some_iff.1 hs
    obtain ⟨rfl, rfl⟩ := Prod.mk.inj he
    refine ⟨M, H, _, D, s, hM, hq.trans hlast, hD, ?_, ?_, ?_, ?_, fun hpos => ?_⟩
    · rw [hW]; exact ht
    · rw [hW]
    · rw [hW]
    · rw [hW]
    · have : M.H = H := by
        funext a j
        rw [hH, if_pos (hpos a j)]
      exact ⟨this, by rw [this, hW], by rw [this, hW]⟩

/-- C223, **Disagreement**: with `max_iterations = 0` the call raises, after a model with the profiles of the base model and without losses was stored. -/
theorem C223_no_iterations (f : Mat m k K × Mat k n K → Option ((Mat m k K × Mat k n K) × ConsQ K)) (convN : ℕ) (delta : K) (base : Option K)
    (W0 : Mat m k K) (H0 : Mat k n K) (o : ConsObj m n k K) (ho : 0 < o.constraints + o.expressions) :
    (consTrain (some f) 0 convN delta base W0 H0 o).2 = false ∧ (consTrain (some f) 0 convN delta base W0 H0 o).1.qList = some ([], [], []) ∧
    ∃ M, (consTrain (some f) 0 convN delta base W0 H0 o).1.model = some M ∧ M.W = W0 ∧ M.q.isNone ∧ ((∀ a j, 0 < H0 a j) → M.H = H0) := by
  have e : consTrain (some f) 0 convN delta base W0 H0 o =
      ({ o with model := some ⟨W0, floorPos H0, W0 ⬝ floorPos H0, none, false, 0⟩, qList := some ([], [], []), qaux := none }, false) := by
    unfold consTrain
    rw [if_neg (by omega)]
    rfl
  rw [e]
  refine ⟨rfl, rfl, _, rfl, rfl, rfl, fun h => ?_⟩
  funext a j
  exact if_neg (not_le.2 (h a j))

/-- One iteration that sets the only profile entry to zero: the recorded loss is 4, the loss of the stored solution is not. -/
example : let E : CEnv 1 1 1 ℚ := ⟨fun _ _ => 2, fun _ _ => 1, fun _ _ => 1, fun _ _ => 1, 1, 1⟩
    let r := consTrain (some (consStep (fun _ _ _ _ => none) E 1 1 [] [] [] (fun _ _ => 7) fun W _ => some (W, fun _ _ => 0))) 1 2 0 (some 1) E.W0 E.H0
      ⟨1, 0, none, none, none⟩
    r.2 = true ∧ (r.1.model.bind fun M => M.q.map fun q => (q.qt, q.qr, q.qa)) = some (4, 7, 1) ∧
      (r.1.model.map fun M => decide (qLoss E.V E.U M.W M.H = 4)) = some false := by
  decide +kernel

end C223

end Esat
