import Verif.Model.BatchViews
import Verif.Props.TrainLoop
import Verif.Props.Training

/-!
# C194: the views of a batch
-/

namespace Esat

section
variable {K : Type*}

theorem zipIdx_views_lt {α β : Type*} (l : List (Option α)) (f : α → ℕ → β) (g : β → ℕ) (hg : ∀ a i j, g (f a i) < g (f a j) ↔ i < j)
    (hg' : ∀ a b i, g (f a i) = g (f b i)) : ((l.zipIdx.filterMap fun p => p.1.map fun r => f r p.2).map g).Pairwise (· < ·) := by
  rw [List.pairwise_map, List.pairwise_filterMap]
  have h : l.zipIdx.Pairwise fun a b => a.2 < b.2 := by
    rw [← List.pairwise_map (f := Prod.snd) (R := (· < ·)), List.zipIdx_map_snd]
    exact List.pairwise_lt_range'
  refine h.imp fun {a b} hab => ?_
  intro x hx y hy
  obtain ⟨r, -, rfl⟩ := Option.map_eq_some_iff.1 hx
  obtain ⟨s, -, rfl⟩ := Option.map_eq_some_iff.1 hy
  rw [hg' s r]
  exact (hg r _ _).2 hab

theorem mem_views {α β : Type*} (l : List (Option α)) (f : α → ℕ → β) (b : β) :
    b ∈ (l.zipIdx.filterMap fun p => p.1.map fun r => f r p.2) ↔ ∃ i r, l[i]? = some (some r) ∧ b = f r i := by
  rw [List.mem_filterMap]
  constructor
  · rintro ⟨⟨o, i⟩, h1, h2⟩
    obtain ⟨r, rfl, rfl⟩ := Option.map_eq_some_iff.1 h2
    exact ⟨i, r, List.mem_zipIdx_iff_getElem?.1 h1, rfl⟩
  · rintro ⟨i, r, h1, rfl⟩
    exact ⟨(some r, i), List.mem_zipIdx_iff_getElem?.2 h1, rfl⟩

/-- **C194.** The curves of `plot_loss` are those of the models that exist, in the order of their numbers: the curve called `i + 1` belongs to entry `i`
of the batch and goes through the points `(0, q_list[0])`, `(1, q_list[1])` and so on. -/
theorem C194_curves (results : List (Option (BatchResult K))) :
    ((lossCurves results).map LossCurve.name).Pairwise (· < ·) ∧
    (∀ c ∈ lossCurves results, ∃ (i : ℕ) (r : BatchResult K), results[i]? = some (some r) ∧ c.name = i + 1 ∧ c.x.length = r.qList.length ∧
      c.y.length = r.qList.length ∧ ∀ x (hx : x < r.qList.length), c.x[x]? = some x ∧ c.y[x]? = some r.qList[x]) ∧
    ∀ (i : ℕ) (r : BatchResult K), results[i]? = some (some r) → ∃ c ∈ lossCurves results, c.name = i + 1 := by
  refine ⟨zipIdx_views_lt results (fun r i => (⟨i + 1, List.range r.qList.length, r.qList⟩ : LossCurve K)) LossCurve.name
    (fun _ _ _ => Nat.add_lt_add_iff_right) (fun _ _ _ => rfl), ?_, ?_⟩
  · intro c hc
    obtain ⟨i, r, h1, rfl⟩ := (mem_views results (fun r i => (⟨i + 1, List.range r.qList.length, r.qList⟩ : LossCurve K)) c).1 hc
    exact ⟨i, r, h1, rfl, by simp, rfl, fun x hx => ⟨by simp [hx], by simp [hx]⟩⟩
  · intro i r h
    exact ⟨_, (mem_views results (fun r i => (⟨i + 1, List.range r.qList.length, r.qList⟩ : LossCurve K)) _).2 ⟨i, r, h, rfl⟩, rfl⟩

/-- **C194.** `plot_loss_distribution` shows one point per model that exists in each of the two boxes, with the losses of this model, and the texts at the points are
the positions of the models counted from zero. **Disagreement:** `plot_loss` and `details` count the models from one, so the same model has another
number in this figure. -/
theorem C194_boxes (results : List (Option (BatchResult K))) :
    let b := lossBoxes results
    b.1.length = b.2.2.length ∧ b.2.1.length = b.2.2.length ∧
    (∀ (p : ℕ) (i : ℕ), b.2.2[p]? = some i → ∃ r, results[i]? = some (some r) ∧ b.1[p]? = some r.qTrue ∧ b.2.1[p]? = some r.qRobust) ∧
    (∀ (i : ℕ) (r : BatchResult K), results[i]? = some (some r) → i ∈ b.2.2) ∧
    (lossCurves results).map LossCurve.name = b.2.2.map (· + 1) := by
  have hmem := mem_views results (fun r i => (r, i))
  refine ⟨by simp [lossBoxes], by simp [lossBoxes], ?_, ?_, ?_⟩
  · intro p i h
    simp only [lossBoxes, List.getElem?_map, Option.map_eq_some_iff] at h ⊢
    obtain ⟨⟨r, i'⟩, h1, rfl⟩ := h
    obtain ⟨i'', r', h2, h3⟩ := (hmem _).1 (List.mem_of_getElem? h1)
    obtain ⟨rfl, rfl⟩ := Prod.mk.inj h3
    exact ⟨r, h2, ⟨_, h1, rfl⟩, ⟨_, h1, rfl⟩⟩
  · intro i r h
    simp only [lossBoxes, List.mem_map]
    exact ⟨(r, i), (hmem _).2 ⟨i, r, h, rfl⟩, rfl⟩
  · simp only [lossCurves, lossBoxes, List.map_filterMap, List.map_map]
    apply List.filterMap_congr
    rintro ⟨o, i⟩ -
    cases o <;> rfl

/-- The line of `details` for a model. -/
def detailSpec [Field K] (size : ℕ) (maxIter : ℤ) (r : BatchResult K) (i : ℕ) : DetailLine K :=
  .model (i + 1) r.qTrue (r.qTrue.map fun q => q / size) r.qRobust (r.qRobust.map fun q => q / size) r.seed r.converged r.steps maxIter

/-- **C194.** `details` gives one line for each model that exists, in their order, and ends without exception exactly if there are no results, or a best
model is set and there is a model at its position (counted from the end if negative). The last line then repeats the losses of this model. -/
theorem C194_details [Field K] (size : ℕ) (maxIter : ℤ) (results : List (Option (BatchResult K))) (best : Option ℤ) :
    let d := batchDetails size maxIter results best
    (d.2 = true ↔ results = [] ∨ ∃ b r, best = some b ∧ pyIndex results b = some (some r)) ∧
    (∀ i r, results[i]? = some (some r) → detailSpec size maxIter r i ∈ d.1) ∧
    (∀ line ∈ d.1, (∃ i r, results[i]? = some (some r) ∧ line = detailSpec size maxIter r i) ∨
      ∃ b r, best = some b ∧ pyIndex results b = some (some r) ∧
        line = .best (b + 1) r.qTrue (r.qTrue.map fun q => q / size) r.qRobust (r.qRobust.map fun q => q / size) r.converged) ∧
    d.1.length = (results.filter Option.isSome).length + (if d.2 = true ∧ results ≠ [] then 1 else 0) := by
  have hmem := mem_views results (detailSpec size maxIter)
  have hlen : ∀ (l : List (Option (BatchResult K))) (k : ℕ) (f : BatchResult K → ℕ → DetailLine K),
      ((l.zipIdx k).filterMap fun p => p.1.map fun r => f r p.2).length = (l.filter Option.isSome).length := by
    intro l
    induction l with
    | nil => intros; rfl
    | cons o l ih =>
      intro k f
      cases o <;> simp [List.zipIdx_cons, ih]
  unfold batchDetails
  by_cases he : results = []
  · subst he
    simp
  · have hp : results.length > 0 := List.length_pos_iff.2 he
    simp only [hp, if_true, he, false_or, ne_eq, not_false_eq_true, and_true]
    have hL := hlen results 0 (detailSpec size maxIter)
    have hno : (∀ i r, results[i]? = some (some r) → detailSpec size maxIter r i ∈
        results.zipIdx.filterMap fun p => p.1.map fun r => detailSpec size maxIter r p.2) ∧
        ∀ line ∈ results.zipIdx.filterMap fun p => p.1.map fun r => detailSpec size maxIter r p.2,
          ∃ i r, results[i]? = some (some r) ∧ line = detailSpec size maxIter r i :=
      ⟨fun i r h => (hmem _).2 ⟨i, r, h, rfl⟩, fun line hl => (hmem _).1 hl⟩
    have hc : best = none ∨ (∃ b, best = some b ∧ (pyIndex results b = none ∨ pyIndex results b = some none)) ∨
        ∃ b r, best = some b ∧ pyIndex results b = some (some r) := by
      cases best with
      | none => exact .inl rfl
      | some b =>
        rcases h : pyIndex results b with _ | _ | r
        · exact .inr (.inl ⟨b, rfl, .inl h⟩)
        · exact .inr (.inl ⟨b, rfl, .inr h⟩)
        · exact .inr (.inr ⟨b, r, rfl, h⟩)
    rcases hc with rfl | ⟨b, rfl, hi | hi⟩ | ⟨b, r, rfl, hi⟩
    · exact ⟨by simp, hno.1, fun line hl => .inl (hno.2 line hl), hL⟩
    · simp only [hi]
      exact ⟨by simp [hi], hno.1, fun line hl => .inl (hno.2 line hl), hL⟩
    · simp only [hi]
      exact ⟨by simp [hi], hno.1, fun line hl => .inl (hno.2 line hl), hL⟩
    · simp only [hi]
      refine ⟨by simp [hi], fun i r h => List.mem_append_left _ (hno.1 i r h), fun line hl => ?_, ?_⟩
      · rcases List.mem_append.1 hl with h | h
        · exact .inl (hno.2 line h)
        · rw [List.mem_singleton] at h
          exact .inr ⟨b, r, rfl, hi, h⟩
      · rw [List.length_append]
        exact congrArg (· + 1) hL

/-- **C194, Disagreement.** After a training that failed, or before the first one, there is no best model: `details` raises as soon as there is a result. If
every loss is NaN, the best model is set to -2: `details` then calls the last but one model the best model, with the number -1, and raises for a
batch of one model. -/
theorem C194_no_best [Field K] (size : ℕ) (maxIter : ℤ) (results : List (Option (BatchResult K))) (hr : results ≠ []) :
    (batchDetails size maxIter results none).2 = false ∧
    (results.length = 1 → (batchDetails size maxIter results (some (-2))).2 = false) ∧
    ∀ r, 2 ≤ results.length → results[results.length - 2]? = some (some r) →
      (batchDetails size maxIter results (some (-2))).2 = true ∧
      .best (-1) r.qTrue (r.qTrue.map fun q => q / size) r.qRobust (r.qRobust.map fun q => q / size) r.converged ∈
        (batchDetails size maxIter results (some (-2))).1 := by
  have hp : results.length > 0 := List.length_pos_iff.2 hr
  refine ⟨?_, ?_, ?_⟩
  · simp [batchDetails, hp]
  · intro h1
    have : pyIndex results (-2) = none := by simp [pyIndex, h1]
    simp [batchDetails, hp, this]
  · intro r h2 h3
    have : pyIndex results (-2) = some (some r) := by
      unfold pyIndex
      rw [if_neg (by omega), if_pos (by omega)]
      have : (-2 + (results.length : ℤ)).toNat = results.length - 2 := by omega
      rw [this]
      exact h3
    simp [batchDetails, hp, this]

/-- **C194.** A model trained with the compiled loop: its curve has one point more than the number called Steps in `details` (which therefore never reaches the
maximum number of iterations, **Disagreement**), and it ends at the point of the model in the box of Q(true). -/
theorem C194_trained {σ : Type*} [Field K] [LinearOrder K] (step : Bool → σ → σ) (q qr : σ → Option K) (cfg : LoopCfg K) (clock : ℕ → Bool) (s : σ) (seed : ℤ)
    (hmax : 0 < cfg.maxIter) :
    let r := trainedResult q qr seed (rustLoop step q cfg clock s)
    r.qList.length = r.steps + 1 ∧ r.qList.getLast? = some r.qTrue ∧ (r.steps : ℤ) < cfg.maxIter ∧
      (r.converged = false → (r.steps : ℤ) + 1 = cfg.maxIter) := by
  obtain ⟨t, h1, h2, h3, h4, h5, h6, h7, -, -, h8⟩ := C12_stops_at_first step q cfg clock s hmax
  refine ⟨?_, h5, ?_, ?_⟩
  · simp only [trainedResult, h4, h7, List.length_map, List.length_range]
    omega
  · simp only [trainedResult, h7]
    omega
  · intro hc
    have := h8 hc
    simp only [trainedResult, h7]
    omega

/-- **C194.** For an LS-NMF training from a positive start on usable data the curve consists of numbers and never rises. -/
theorem C194_falling [Field K] [LinearOrder K] [IsStrictOrderedRing K] {m n k : ℕ} (V U : Mat m n K) (W : Mat m k K) (H : Mat k n K)
    (g : GoodStart V U W H) (qr : Option (Mat m k K) × Option (Mat k n K) → Option K) (cfg : LoopCfg K) (hmax : 0 < cfg.maxIter) (clock : ℕ → Bool) (seed : ℤ) (rm : Bool) (rn : ℤ) :
    let r := trainedResult (lsQ V U) qr seed (lsTrain V U cfg clock rm rn W H)
    ∃ ys : List K, r.qList = ys.map some ∧ ys.Pairwise (fun a b => b ≤ a) ∧ ys ≠ [] ∧ ∀ y ∈ ys, 0 ≤ y ∧ y ≤ qLoss V U W H := by
  obtain ⟨q, hq, ha, h0, hle⟩ := lossAt_good g (fun i : ℕ => !cfg.holdH || (decide (0 < cfg.delayH) && decide (cfg.delayH < i)))
  obtain ⟨t, h1, -, -, h4, -⟩ := C12_stops_at_first (lsLoopStep V (weights U)) (lsQ V U) cfg clock (some W, some H) hmax
  refine ⟨(List.range t).map q, ?_, ?_, ?_, ?_⟩
  · simp only [trainedResult, lsTrain, h4, List.map_map]
    refine List.map_congr_left fun i _ => hq i
  · rw [List.pairwise_map]
    exact List.pairwise_lt_range.imp fun {a b} h => ha h.le
  · simp only [ne_eq, List.map_eq_nil_iff, List.range_eq_nil]
    omega
  · intro y hy
    obtain ⟨i, -, rfl⟩ := List.mem_map.1 hy
    exact ⟨h0 i, hle i⟩

/-- **C194.** The commands show the figure exactly for an existing directory with a batch; for a path that does not exist they print a message if the
directory above is missing, and otherwise end with an exception, leaving a new empty directory behind (**Disagreement**). -/
theorem C194_commands {β : Type*} (isThere : Bool) (made : Option Bool) (batch : Option (List (Option (BatchResult K))))
    (view : List (Option (BatchResult K)) → β) :
    (∀ fig, batchCmd isThere made batch view = .shown fig ↔ isThere = true ∧ ∃ rs, batch = some rs ∧ fig = view rs) ∧
    (batchCmd isThere made batch view = .message ↔ isThere = false ∧ made = some false) ∧
    (batchCmd isThere made batch view = .raised ↔ (isThere = true ∧ batch = none) ∨ (isThere = false ∧ made ≠ some false)) := by
  unfold batchCmd
  cases isThere with
  | true => cases batch <;> simp [eq_comm]
  | false =>
    cases made with
    | none => simp
    | some b => cases b <;> simp

end

/-! ## Examples -/

/-- Two models with a failed one between them. -/
def exBatch : List (Option (BatchResult ℚ)) :=
  [some ⟨some 4, some 3, [some 9, some 4], 11, false, 1⟩, none, some ⟨some 2, some 2, [some 2], 12, true, 0⟩]

example : (lossCurves exBatch).map (fun c => (c.name, c.x, c.y)) = [(1, [0, 1], [some 9, some 4]), (3, [0], [some 2])] ∧
    lossBoxes exBatch = ([some 4, some 2], [some 3, some 2], [0, 2]) := by decide +kernel

example : (batchDetails 2 5 exBatch (some 2)).2 = true ∧ (batchDetails 2 5 exBatch (some 1)).2 = false ∧ (batchDetails 2 5 exBatch (some (-2))).2 = false ∧
    (batchDetails 2 5 exBatch (some (-3))).2 = true ∧ (batchDetails 2 5 exBatch (some 3)).2 = false ∧ (batchDetails 2 5 exBatch (some 2)).1.length = 3 := by
  decide +kernel

example : (trainedResult exLoss exLoss 1 (rustLoop exStep exLoss exCfg (fun _ => false) 0)).qList.length = 8 ∧
    (trainedResult exLoss exLoss 1 (rustLoop exStep exLoss exCfg (fun _ => false) 0)).steps = 7 := by decide +kernel

end Esat
