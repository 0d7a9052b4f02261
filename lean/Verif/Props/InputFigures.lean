import Verif.Model.InputFigures
import Verif.Lemmas.AxisIndex
import Verif.Lemmas.MapM
import Verif.Lemmas.Correlation
import Verif.Props.Analysis
import Mathlib.Tactic.Linarith
import Mathlib.Tactic.FinCases

/-!
# Figures of the input data (C212–C215)
-/

namespace Esat

open Finset

/-! ### C212: concentration against uncertainty -/

section C212
variable {m n m' n' : ℕ} {K : Type*}

theorem colOf_eq_some {cols : Fin n → String} (hinj : Function.Injective cols) {s : String} {j : Fin n} :
    colOf cols s = some j ↔ cols j = s := by
  unfold colOf
  constructor
  · intro h
    simpa using List.find?_some h
  · intro h
    have hs : ((List.finRange n).find? fun j => decide (cols j = s)).isSome := by
      rw [List.find?_isSome]
      exact ⟨j, List.mem_finRange j, by simpa using h⟩
    obtain ⟨j', hj'⟩ := Option.isSome_iff_exists.1 hs
    have h' : cols j' = s := by simpa using List.find?_some hj'
    rw [hj', hinj (h'.trans h.symm)]

theorem colOf_isSome {cols : Fin n → String} {s : String} : (colOf cols s).isSome ↔ ∃ j, cols j = s := by
  unfold colOf
  rw [List.find?_isSome]
  simp

/-- What choosing the entry `b` of the menu makes of a figure (`method="update"`): the visibilities are set one by one, the
title is replaced. -/
def pressButton (f : DuFig m m' K) (b : DuButton) : DuFig m m' K :=
  { f with traces := List.zipWith (fun t v => { t with visible := v }) f.traces b.visible, title := b.title }

/-- The names of the traces one sees. -/
def shownNames (f : DuFig m m' K) : List String := (f.traces.filter fun t => t.visible).map fun t => t.name

/-- Trace `t` belongs to column `j`: its name, its values and the values of the uncertainty column with the same label. -/
def TraceOf (cols : Fin n → String) (cell : Fin m → Fin n → Option K) (ucols : Fin n' → String)
    (ucell : Fin m' → Fin n' → Option K) (j : Fin n) (t : DuTrace m m' K) : Prop :=
  t.name = cols j ∧ (∀ i, t.x i = cell i j) ∧ ∃ u, ucols u = cols j ∧ ∀ i, t.y i = ucell i u

theorem duTrace_spec {cols : Fin n → String} {cell : Fin m → Fin n → Option K} {ucols : Fin n' → String}
    {ucell : Fin m' → Fin n' → Option K} {menu : Bool} {p : ℕ} {j : Fin n} {t : DuTrace m m' K}
    (h : duTrace cols cell ucols ucell menu p j = some t) :
    TraceOf cols cell ucols ucell j t ∧ t.visible = (p == 0 || !menu) := by
  unfold duTrace at h
  obtain ⟨u, hu, rfl⟩ := Option.map_eq_some_iff.1 h
  refine ⟨⟨rfl, fun _ => rfl, u, ?_, fun _ => rfl⟩, rfl⟩
  unfold colOf at hu
  simpa using List.find?_some hu

theorem duFigure_raise_iff (cols : Fin n → String) (cell : Fin m → Fin n → Option K) (ucols : Fin n' → String)
    (ucell : Fin m' → Fin n' → Option K) (menu : Bool) (idx : Option ℤ) (fs : List (Fin n))
    (hf : duFeatures n menu idx = some fs) :
    (duFigure cols cell ucols ucell menu idx).isSome ↔ fs ≠ [] ∧ ∀ j ∈ fs, ∃ u, ucols u = cols j := by
  unfold duFigure
  rw [hf, Option.bind_some]
  have key : (fs.zipIdx.mapM fun q => duTrace cols cell ucols ucell menu q.2 q.1).isSome ↔ ∀ j ∈ fs, ∃ u, ucols u = cols j := by
    rw [mapM_isSome_iff]
    constructor
    · intro h j hj
      obtain ⟨p, hp, rfl⟩ := List.getElem_of_mem hj
      have := h (fs[p], p) (by rw [List.mem_zipIdx_iff_getElem?]; simp [hp])
      unfold duTrace at this
      rw [Option.isSome_map] at this
      exact colOf_isSome.1 this
    · rintro h ⟨j, p⟩ hq
      have hj : j ∈ fs := by
        rw [List.mem_zipIdx_iff_getElem?] at hq
        exact List.mem_of_getElem? hq
      unfold duTrace
      rw [Option.isSome_map]
      exact colOf_isSome.2 (h j hj)
  cases hm : (fs.zipIdx.mapM fun q => duTrace cols cell ucols ucell menu q.2 q.1) with
  | none =>
    rw [hm] at key
    simp only [Option.isSome_none, Bool.false_eq_true, false_iff] at key
    simp only [Option.bind_none, Option.isSome_none, Bool.false_eq_true, false_iff]
    exact fun h => key h.2
  | some ts =>
    rw [hm] at key
    simp only [Option.isSome_some, true_iff] at key
    rw [Option.bind_some, Option.isSome_map]
    cases fs with
    | nil => simp
    | cons a l => simpa using key

/-- C212: the figure exists exactly if there is a feature to show, the number given without menu addresses a column, and the
uncertainty has a column with the label of each feature shown; in all other cases the call raises. -/
theorem C212_exists (cols : Fin n → String) (cell : Fin m → Fin n → Option K) (ucols : Fin n' → String)
    (ucell : Fin m' → Fin n' → Option K) (menu : Bool) (idx : Option ℤ) :
    (duFigure cols cell ucols ucell menu idx).isSome ↔
      if menu = false ∧ idx.isSome then ∃ j, (∃ i, idx = some i ∧ PyAddr n i j) ∧ ∃ u, ucols u = cols j
      else 0 < n ∧ ∀ j, ∃ u, ucols u = cols j := by
  have hall (h : duFeatures n menu idx = some (List.finRange n)) :
      (duFigure cols cell ucols ucell menu idx).isSome ↔ 0 < n ∧ ∀ j, ∃ u, ucols u = cols j := by
    rw [duFigure_raise_iff _ _ _ _ _ _ _ h]
    refine and_congr ?_ (by simp)
    rw [Ne, List.finRange_eq_nil_iff]
    omega
  cases menu with
  | true => simpa using hall rfl
  | false =>
    cases idx with
    | none => simpa using hall rfl
    | some i =>
      simp only [Option.isSome_some, and_self, if_true]
      cases hj : axisIndex n i with
      | none =>
        have h1 : duFigure cols cell ucols ucell false (some i) = none := by
          unfold duFigure duFeatures
          simp only [hj, Option.map_none, Option.bind_none]
        rw [h1]
        simp only [Option.isSome_none, Bool.false_eq_true, false_iff]
        rintro ⟨j, ⟨i', h2, h3⟩, -⟩
        obtain rfl := Option.some.inj h2
        rw [axisIndex_eq_some.2 h3] at hj
        cases hj
      | some j =>
        rw [duFigure_raise_iff _ _ _ _ _ _ [j] (by unfold duFeatures; simp only [hj, Option.map_some])]
        constructor
        · rintro ⟨-, h⟩
          exact ⟨j, ⟨i, rfl, axisIndex_eq_some.1 hj⟩, h j (by simp)⟩
        · rintro ⟨j', ⟨i', h2, h3⟩, h4⟩
          obtain rfl := Option.some.inj h2
          rw [axisIndex_eq_some.2 h3] at hj
          obtain rfl := Option.some.inj hj
          refine ⟨by simp, ?_⟩
          intro j2 hj2
          rw [List.mem_singleton] at hj2
          exact hj2 ▸ h4

/-- The parts of a figure that was made. -/
theorem duFigure_parts {cols : Fin n → String} {cell : Fin m → Fin n → Option K} {ucols : Fin n' → String}
    {ucell : Fin m' → Fin n' → Option K} {menu : Bool} {idx : Option ℤ} {f : DuFig m m' K} {fs : List (Fin n)}
    (hf : duFeatures n menu idx = some fs) (h : duFigure cols cell ucols ucell menu idx = some f) :
    (fs.zipIdx.mapM fun q => duTrace cols cell ucols ucell menu q.2 q.1) = some f.traces ∧
      (∃ j, fs.head? = some j ∧ f.title = "Concentration/Uncertainty Scatter Plot - " ++ cols j) ∧
      f.menu = if menu then some (fs.zipIdx.map fun q => duButton fs.length q.2 (cols q.1)) else none := by
  unfold duFigure at h
  rw [hf, Option.bind_some] at h
  obtain ⟨ts, h1, h2⟩ := Option.bind_eq_some_iff.1 h
  obtain ⟨j, h3, rfl⟩ := Option.map_eq_some_iff.1 h2
  exact ⟨h1, ⟨j, h3, rfl⟩, rfl⟩

/-- C212: without menu a number selects one column: the figure has one trace, that of the column addressed (from the front or
from the end), it is visible, and the title names it. -/
theorem C212_single (cols : Fin n → String) (cell : Fin m → Fin n → Option K) (ucols : Fin n' → String)
    (ucell : Fin m' → Fin n' → Option K) (i : ℤ) (f : DuFig m m' K)
    (h : duFigure cols cell ucols ucell false (some i) = some f) :
    ∃ j t, PyAddr n i j ∧ f.traces = [t] ∧ TraceOf cols cell ucols ucell j t ∧ t.visible = true ∧ f.menu = none ∧
      f.title = "Concentration/Uncertainty Scatter Plot - " ++ cols j := by
  cases hj : axisIndex n i with
  | none =>
    unfold duFigure duFeatures at h
    simp only [hj, Option.map_none, Option.bind_none] at h
    cases h
  | some j =>
    obtain ⟨h1, ⟨j', h2, h3⟩, h4⟩ :=
      duFigure_parts (fs := [j]) (by unfold duFeatures; simp only [hj, Option.map_some]) h
    simp only [List.head?_cons, Option.some.injEq] at h2
    subst h2
    have hl : f.traces.length = 1 := by simpa using mapM_option_length _ _ _ h1
    obtain ⟨t, ht⟩ := List.length_eq_one_iff.1 hl
    have h5 := mapM_option_get _ _ _ h1 0 (by simp)
    simp only [List.zipIdx_cons, List.getElem_cons_zero, ht] at h5
    obtain ⟨h6, h7⟩ := duTrace_spec h5
    exact ⟨j, t, axisIndex_eq_some.1 hj, ht, h6, by simpa using h7, by simpa using h4, h3⟩

/-- C212: with the menu (or without a number) there is one trace for each column, in the order of the columns. With the menu
only the first one is visible, without it all are. The title names the first column. -/
theorem C212_all (cols : Fin n → String) (cell : Fin m → Fin n → Option K) (ucols : Fin n' → String)
    (ucell : Fin m' → Fin n' → Option K) (menu : Bool) (idx : Option ℤ) (hm : menu = true ∨ idx = none) (f : DuFig m m' K)
    (h : duFigure cols cell ucols ucell menu idx = some f) :
    ∃ hl : f.traces.length = n, (∀ j : Fin n, TraceOf cols cell ucols ucell j (f.traces[j.1]'(by omega)) ∧
      ((f.traces[j.1]'(by omega)).visible = true ↔ j.1 = 0 ∨ menu = false)) ∧
      ∃ h0 : 0 < n, f.title = "Concentration/Uncertainty Scatter Plot - " ++ cols ⟨0, h0⟩ := by
  have hf : duFeatures n menu idx = some (List.finRange n) := by
    unfold duFeatures
    rcases hm with rfl | rfl
    · rfl
    · cases menu <;> rfl
  obtain ⟨h1, ⟨j0, h2, h3⟩, -⟩ := duFigure_parts hf h
  have hl : f.traces.length = n := by simpa using mapM_option_length _ _ _ h1
  refine ⟨hl, fun j => ?_, ?_⟩
  · have h5 := mapM_option_get _ _ _ h1 j.1 (by simp)
    simp only [List.getElem_zipIdx, List.getElem_finRange, Nat.zero_add] at h5
    obtain ⟨h6, h7⟩ := duTrace_spec h5
    refine ⟨h6, ?_⟩
    rw [h7]
    cases menu <;> simp
  · have h0 : 0 < n := lt_of_le_of_lt (Nat.zero_le _) j0.2
    refine ⟨h0, ?_⟩
    have : (List.finRange n).head? = some ⟨0, h0⟩ := by
      cases n with
      | zero => omega
      | succ n => simp [List.finRange_succ]
    rw [this] at h2
    rw [h3, ← Option.some.inj h2]

/-- C212: choosing the `j`-th entry of the menu shows exactly the trace of column `j` and puts its label into the title. -/
theorem C212_menu (cols : Fin n → String) (cell : Fin m → Fin n → Option K) (ucols : Fin n' → String)
    (ucell : Fin m' → Fin n' → Option K) (idx : Option ℤ) (f : DuFig m m' K)
    (h : duFigure cols cell ucols ucell true idx = some f) :
    ∃ bs, f.menu = some bs ∧ ∃ hl : bs.length = n, ∀ j : Fin n,
      (bs[j.1]'(by omega)).label = cols j ∧ shownNames (pressButton f (bs[j.1]'(by omega))) = [cols j] ∧
        (pressButton f (bs[j.1]'(by omega))).title = "Concentration/Uncertainty Scatter Plot - " ++ cols j := by
  have hf : duFeatures n true idx = some (List.finRange n) := by cases idx <;> rfl
  obtain ⟨-, -, h4⟩ := duFigure_parts hf h
  obtain ⟨hl, h5, -⟩ := C212_all cols cell ucols ucell true idx (.inl rfl) f h
  refine ⟨_, h4, by simp, fun j => ?_⟩
  simp only [List.getElem_map, List.getElem_zipIdx, List.getElem_finRange, List.length_finRange, Nat.zero_add]
  refine ⟨rfl, ?_, rfl⟩
  have hnames : f.traces.map (fun t => t.name) = (List.finRange n).map cols := by
    apply List.ext_getElem (by simp [hl])
    intro i h1 h2
    simp only [List.length_map, List.length_finRange] at h1 h2
    simpa using (h5 ⟨i, by omega⟩).1.1
  unfold shownNames pressButton duButton
  dsimp only
  have gen : ∀ (ts : List (DuTrace m m' K)) (a : ℕ), a < ts.length + 0 →
      ((List.zipWith (fun (t : DuTrace m m' K) v => { t with visible := v }) ts
        ((List.range ts.length).map fun i => i == a)).filter fun t => t.visible).map (fun t => t.name) =
        (ts[a]?.map fun t => t.name).toList := by
    intro ts
    induction ts with
    | nil => intro a ha; simp at ha
    | cons t ts ih =>
      intro a ha
      rw [List.length_cons, List.range_succ_eq_map, List.map_cons, List.zipWith_cons_cons, List.filter_cons]
      cases a with
      | zero =>
        have hz : ∀ (l : List (DuTrace m m' K)), (List.zipWith (fun (t : DuTrace m m' K) v => { t with visible := v }) l
            (((List.range l.length).map Nat.succ).map fun i => i == 0)).filter (fun t => t.visible) = [] := by
          intro l
          rw [List.filter_eq_nil_iff]
          intro t ht
          obtain ⟨i, hi, rfl⟩ := List.getElem_of_mem ht
          simp
        rw [hz]
        simp
      | succ a =>
        have he : ((List.range ts.length).map Nat.succ).map (fun i => i == a + 1) =
            (List.range ts.length).map fun i => i == a := by
          rw [List.map_map]
          apply List.map_congr_left
          intro i _
          simp
        rw [he]
        have := ih a (by simpa using ha)
        simpa using this
  have := gen f.traces j.1 (by rw [hl]; exact j.2)
  rw [hl] at this
  rw [this]
  have h6 : (f.traces.map fun t => t.name)[j.1]? = some (cols j) := by rw [hnames]; simp
  rw [List.getElem?_map] at h6
  rw [h6]
  rfl

/-- C212, **Disagreement**: the number given to the command `plot-feature` has no effect. For every number, also one that is no
column, the figure is the one of every other number and shows the first column ("the index of the data feature" to show
according to the help text, `esat_cli.py:368-369`). -/
theorem C212_command (cols : Fin n → String) (cell : Fin m → Fin n → Option K) (ucols : Fin n' → String)
    (ucell : Fin m' → Fin n' → Option K) (i i' : ℤ) :
    cliPlotFeature cols cell ucols ucell i = cliPlotFeature cols cell ucols ucell i' ∧
      ∀ f, cliPlotFeature cols cell ucols ucell i = some f → ∃ h0 : 0 < n, shownNames f = [cols ⟨0, h0⟩] := by
  refine ⟨rfl, fun f h => ?_⟩
  obtain ⟨hl, h1, h0, -⟩ := C212_all cols cell ucols ucell true (some i) (.inl rfl) f h
  refine ⟨h0, ?_⟩
  unfold shownNames
  cases hts : f.traces with
  | nil => rw [hts] at hl; simp at hl; omega
  | cons t ts =>
    have e0 := h1 ⟨0, h0⟩
    simp only [hts, List.getElem_cons_zero, true_or, iff_true] at e0
    have hr : ts.filter (fun t => t.visible) = [] := by
      rw [List.filter_eq_nil_iff]
      intro t' ht'
      obtain ⟨p, hp, rfl⟩ := List.getElem_of_mem ht'
      have hlen : (t :: ts).length = n := by rw [← hts]; exact hl
      have e1 := (h1 ⟨p + 1, by rw [← hlen]; simpa using hp⟩).2
      simp only [hts, List.getElem_cons_succ] at e1
      simpa using e1
    rw [List.filter_cons, if_pos (by simpa using e0.2), hr]
    simp [e0.1.1]

/-- Two columns whose uncertainties are stored in the other order, and no value in one place: number 1 without the menu
shows the second column with its uncertainty, the command shows the first one. -/
example : (duFigure (m := 2) (m' := 2) ![("Al" : String), "Ba"] (fun i j => if i.1 = 0 ∧ j.1 = 0 then none else some (i.1 + 10 * j.1 : ℚ))
      ![("Ba" : String), "Al"] (fun i j => some (i.1 + 100 * j.1 : ℚ)) false (some 1)).map (fun f => f.traces.map fun t =>
        (t.name, [t.x 0, t.x 1], [t.y 0, t.y 1])) = some [("Ba", [some 10, some 11], [some 0, some 1])] ∧
    (cliPlotFeature (m := 2) (m' := 2) ![("Al" : String), "Ba"] (fun i j => some (i.1 + 10 * j.1 : ℚ))
      ![("Ba" : String), "Al"] (fun i j => some (i.1 + 100 * j.1 : ℚ)) 1).map shownNames = some ["Al"] := by
  constructor <;> decide +kernel

end C212

/-! ### C213: feature against feature -/

section C213
variable {m n : ℕ}

/-- C213: the call answers with the message about `x` exactly if the first number is not the number of a column (counted from
zero, no counting from the end), with the message about `y` if only the second one is not, else with a figure.
**Disagreement**: the messages say "must be between 0 and `n`" for `n` columns, but `n` itself is rejected. -/
theorem C213_index (ls : (l : ℕ) → (Fin l → ℝ) → (Fin l → ℝ) → ℝ × ℝ) (cols : Fin n → String)
    (cell : Fin m → Fin n → Option ℝ) (x y : ℤ) :
    (plotFeatureData ls cols cell x y = .badX n ↔ ¬ ∃ j : Fin n, x = j.1) ∧
      (plotFeatureData ls cols cell x y = .badY n ↔ (∃ j : Fin n, x = j.1) ∧ ¬ ∃ j : Fin n, y = j.1) ∧
      ((∃ f, plotFeatureData ls cols cell x y = .fig f) ↔ (∃ j : Fin n, x = j.1) ∧ ∃ j : Fin n, y = j.1) ∧
      plotFeatureData ls cols cell n y = .badX n := by
  have hin (t : ℤ) : (∃ j : Fin n, t = j.1) ↔ ¬ (t > (n : ℤ) - 1 ∨ t < 0) := by
    constructor
    · rintro ⟨j, rfl⟩
      have := j.2
      omega
    · intro h
      exact ⟨⟨t.toNat, by omega⟩, by simp only; omega⟩
  have hlast : plotFeatureData ls cols cell n y = .badX n := by
    unfold plotFeatureData
    rw [dif_pos (by left; omega)]
  rw [hin, hin]
  by_cases hx : x > (n : ℤ) - 1 ∨ x < 0
  · have e : plotFeatureData ls cols cell x y = .badX n := by unfold plotFeatureData; rw [dif_pos hx]
    rw [e]
    exact ⟨⟨fun _ => not_not.2 hx, fun _ => rfl⟩, ⟨fun h => (by cases h), fun h => absurd hx h.1⟩,
      ⟨fun ⟨f, h⟩ => (by cases h), fun h => absurd hx h.1⟩, hlast⟩
  · by_cases hy : y > (n : ℤ) - 1 ∨ y < 0
    · have e : plotFeatureData ls cols cell x y = .badY n := by unfold plotFeatureData; rw [dif_neg hx, dif_pos hy]
      rw [e]
      exact ⟨⟨fun h => (by cases h), fun h => absurd hx h⟩, ⟨fun _ => ⟨hx, not_not.2 hy⟩, fun _ => rfl⟩,
        ⟨fun ⟨f, h⟩ => (by cases h), fun h => absurd hy h.2⟩, hlast⟩
    · obtain ⟨f, e⟩ : ∃ f, plotFeatureData ls cols cell x y = .fig f :=
        ⟨_, by unfold plotFeatureData; rw [dif_neg hx, dif_neg hy]⟩
      rw [e]
      exact ⟨⟨fun h => (by cases h), fun h => absurd hx h⟩, ⟨fun h => (by cases h), fun h => absurd hy h.2⟩,
        ⟨fun _ => ⟨hx, hy⟩, fun _ => ⟨f, rfl⟩⟩, hlast⟩

theorem plotFeatureData_fig (ls : (l : ℕ) → (Fin l → ℝ) → (Fin l → ℝ) → ℝ × ℝ) (cols : Fin n → String)
    (cell : Fin m → Fin n → Option ℝ) (jx jy : Fin n) :
    plotFeatureData ls cols cell jx.1 jy.1 =
      .fig (xyFig ls (cols jx) (cols jy) (fun i => cell i jx) (fun i => cell i jy)) := by
  have h1 := jx.2
  have h2 := jy.2
  unfold plotFeatureData
  rw [dif_neg (by omega), dif_neg (by omega)]
  rfl

/-- The list of points lists the rows with both values, in order and each once. -/
theorem xyPoints_rows (x y : Fin m → Option ℝ) :
    ∃ r : List (Fin m), r.Pairwise (· < ·) ∧ (∀ i, i ∈ r ↔ (x i).isSome ∧ (y i).isSome) ∧
      List.Forall₂ (fun i q => x i = some q.1 ∧ y i = some q.2) r (xyPoints x y) := by
  refine ⟨(List.finRange m).filter fun i => (x i).isSome && (y i).isSome, ?_, ?_, ?_⟩
  · exact (List.pairwise_lt_finRange m).filter _
  · intro i; simp
  · unfold xyPoints
    generalize List.finRange m = l
    induction l with
    | nil => simp
    | cons i l ih =>
      rw [List.filter_cons, List.filterMap_cons]
      cases hx : x i with
      | none => simpa [hx] using ih
      | some a =>
        cases hy : y i with
        | none => simpa [hx, hy] using ih
        | some b => simpa [hx, hy] using ih

/-- C213: the figure for the columns `jx`, `jy` shows one point for each row in which both have a value, in the order of the
rows, and the axes carry the labels of the two columns. -/
theorem C213_points (ls : (l : ℕ) → (Fin l → ℝ) → (Fin l → ℝ) → ℝ × ℝ) (cols : Fin n → String)
    (cell : Fin m → Fin n → Option ℝ) (jx jy : Fin n) :
    ∃ f, plotFeatureData ls cols cell jx.1 jy.1 = .fig f ∧ f.xTitle = cols jx ∧ f.yTitle = cols jy ∧
      ∃ r : List (Fin m), r.Pairwise (· < ·) ∧ (∀ i, i ∈ r ↔ (cell i jx).isSome ∧ (cell i jy).isSome) ∧
        List.Forall₂ (fun i q => cell i jx = some q.1 ∧ cell i jy = some q.2) r f.pts :=
  ⟨_, plotFeatureData_fig ls cols cell jx jy, rfl, rfl, xyPoints_rows _ _⟩

/-- Mean of the first, of the second coordinates of the points; sums of products of deviations. -/
noncomputable def ptsMean (g : ℝ × ℝ → ℝ) (pts : List (ℝ × ℝ)) : ℝ := (pts.map g).sum / pts.length

/-- Sum of the products of the deviations from the means. -/
noncomputable def ptsCov (g h : ℝ × ℝ → ℝ) (pts : List (ℝ × ℝ)) : ℝ :=
  (pts.map fun q => (g q - ptsMean g pts) * (h q - ptsMean h pts)).sum

theorem vmean_pts (g : ℝ × ℝ → ℝ) (pts : List (ℝ × ℝ)) : vmean (fun i : Fin pts.length => g (pts.get i)) = ptsMean g pts := by
  unfold vmean ptsMean
  congr 1
  rw [← List.sum_ofFn]
  congr 1
  apply List.ext_getElem (by simp)
  intro i h1 h2
  simp

theorem scov_pts (g h : ℝ × ℝ → ℝ) (pts : List (ℝ × ℝ)) :
    scov (fun i : Fin pts.length => g (pts.get i)) (fun i => h (pts.get i)) = ptsCov g h pts := by
  unfold scov ptsCov
  rw [vmean_pts, vmean_pts, ← List.sum_ofFn]
  congr 1
  apply List.ext_getElem (by simp)
  intro i h1 h2
  simp

/-- A least squares line through points with a single abscissa passes through the mean. -/
theorem lstsq_const {l : ℕ} (x y : Fin l → ℝ) (hl : 0 < l) (hx : scov x x = 0) (s c : ℝ) (h : IsLstsq x y s c) (i : Fin l) :
    s * x i + c = vmean y := by
  have hxi : ∀ i, x i = vmean x := by
    intro i
    have h1 : (x i - vmean x) * (x i - vmean x) ≤ scov x x :=
      single_le_sum (f := fun i => (x i - vmean x) * (x i - vmean x)) (fun i _ => mul_self_nonneg _) (mem_univ i)
    rw [hx] at h1
    have := mul_self_eq_zero.1 (le_antisymm h1 (mul_self_nonneg _))
    linarith
  have hl' : (l : ℝ) ≠ 0 := by exact_mod_cast hl.ne'
  have hsum : ∑ i, (y i - vmean y) = 0 := by
    rw [sum_sub_distrib, sum_const, card_univ, Fintype.card_fin, nsmul_eq_mul]
    unfold vmean
    field_simp
    simp
  have h1 := h 0 (vmean y)
  set v := s * vmean x + c with hv
  have e1 : lineError x y s c = ∑ i, (y i - vmean y) ^ 2 + l * (vmean y - v) ^ 2 := by
    unfold lineError
    have : ∀ i, (y i - (s * x i + c)) ^ 2 =
        (y i - vmean y) ^ 2 + 2 * (vmean y - v) * (y i - vmean y) + (vmean y - v) ^ 2 := by
      intro i; rw [hxi i]; rw [hv]; ring
    rw [sum_congr rfl fun i _ => this i, sum_add_distrib, sum_add_distrib, ← mul_sum, hsum, sum_const, card_univ,
      Fintype.card_fin, nsmul_eq_mul]
    ring
  have e2 : lineError x y 0 (vmean y) = ∑ i, (y i - vmean y) ^ 2 := by
    unfold lineError
    exact sum_congr rfl fun i _ => by ring
  rw [e1, e2] at h1
  have h2 : (l : ℝ) * (vmean y - v) ^ 2 ≤ 0 := by linarith
  have h3 : (vmean y - v) ^ 2 = 0 := by
    have hlp : (0 : ℝ) < l := by exact_mod_cast hl
    have := sq_nonneg (vmean y - v)
    nlinarith
  have h4 : vmean y - v = 0 := by simpa using h3
  rw [hxi i, ← hv]
  linarith

/-- C213: whichever minimiser the solver returns, the curve "Regression" has at each point the value
`mean y + S_xy / S_xx * (x - mean x)` (the mean of `y` if all `x` agree), and the curve "One-to-One" the value `x`. -/
theorem C213_lines (ls : (l : ℕ) → (Fin l → ℝ) → (Fin l → ℝ) → ℝ × ℝ)
    (hls : ∀ l (x y : Fin l → ℝ), IsLstsq x y (ls l x y).1 (ls l x y).2) (cols : Fin n → String)
    (cell : Fin m → Fin n → Option ℝ) (jx jy : Fin n) (f : XyFig) (h : plotFeatureData ls cols cell jx.1 jy.1 = .fig f) :
    f.oneToOne = f.pts.map (fun q => q.1) ∧
      f.regression = f.pts.map fun q =>
        if ptsCov Prod.fst Prod.fst f.pts = 0 then ptsMean Prod.snd f.pts
        else ptsMean Prod.snd f.pts +
          ptsCov Prod.fst Prod.snd f.pts / ptsCov Prod.fst Prod.fst f.pts * (q.1 - ptsMean Prod.fst f.pts) := by
  rw [plotFeatureData_fig] at h
  obtain rfl := XyOut.fig.inj h
  unfold xyFig
  dsimp only
  set pts := xyPoints (fun i => cell i jx) (fun i => cell i jy) with hpts
  have hval (g : ℝ × ℝ → ℝ) (P : ℝ × ℝ → ℝ) (hp : ∀ i : Fin pts.length, g (pts.get i) = P (pts.get i)) :
      pts.map g = pts.map P := by
    apply List.map_congr_left
    intro q hq
    obtain ⟨i, rfl⟩ := List.get_of_mem hq
    exact hp i
  constructor
  · apply hval
    intro i
    exact C120_one_to_one _ _ _ (hls _ _ _) i
  · apply hval
    intro i
    have hpos : 0 < pts.length := lt_of_le_of_lt (Nat.zero_le _) i.2
    have e1 := scov_pts Prod.fst Prod.fst pts
    have e2 := scov_pts Prod.fst Prod.snd pts
    have e3 := vmean_pts Prod.fst pts
    have e4 := vmean_pts Prod.snd pts
    have hl := hls pts.length (fun i => (pts.get i).1) (fun i => (pts.get i).2)
    by_cases hx : ptsCov Prod.fst Prod.fst pts = 0
    · rw [if_pos hx, ← e4]
      exact lstsq_const _ _ hpos (e1.trans hx) _ _ hl i
    · rw [if_neg hx]
      obtain ⟨h1, h2⟩ := (C120_regression _ _ hpos (by rw [e1]; exact hx) _ _).1 hl
      rw [h1, h2]
      unfold lrIntercept lrSlope
      rw [e1, e2, e3, e4]
      ring

theorem max?_isSome_of_ne_nil (l : List ℝ) (h : l ≠ []) : ∃ t, l.max? = some t ∧ t ∈ l ∧ ∀ b ∈ l, b ≤ t := by
  cases hm : l.max? with
  | none => rw [List.max?_eq_none_iff] at hm; exact absurd hm h
  | some t =>
    obtain ⟨h1, h2⟩ := (List.max?_eq_some_iff (xs := l) (a := t)).1 hm
    exact ⟨t, rfl, h1, h2⟩

/-- C213: the axes begin at 0 and end half a unit behind the largest value, so a point lies inside the window exactly if none
of its coordinates is negative. **Disagreement**: points with a negative value are in the data but not on the picture. -/
theorem C213_window (ls : (l : ℕ) → (Fin l → ℝ) → (Fin l → ℝ) → ℝ × ℝ) (cols : Fin n → String)
    (cell : Fin m → Fin n → Option ℝ) (jx jy : Fin n) (f : XyFig) (h : plotFeatureData ls cols cell jx.1 jy.1 = .fig f)
    (q : ℝ × ℝ) (hq : q ∈ f.pts) :
    ∃ a b, f.xEnd = some a ∧ f.yEnd = some b ∧
      ((0 ≤ q.1 ∧ q.1 ≤ a) ∧ (0 ≤ q.2 ∧ q.2 ≤ b) ↔ 0 ≤ q.1 ∧ 0 ≤ q.2) := by
  rw [plotFeatureData_fig] at h
  obtain rfl := XyOut.fig.inj h
  unfold xyFig at hq ⊢
  dsimp only at hq ⊢
  set pts := xyPoints (fun i => cell i jx) (fun i => cell i jy)
  obtain ⟨a, ha, -, ha2⟩ := max?_isSome_of_ne_nil (pts.map fun q => q.1) (by
    rw [Ne, List.map_eq_nil_iff]; exact List.ne_nil_of_mem hq)
  obtain ⟨b, hb, -, hb2⟩ := max?_isSome_of_ne_nil (pts.map fun q => q.2) (by
    rw [Ne, List.map_eq_nil_iff]; exact List.ne_nil_of_mem hq)
  have h1 := ha2 q.1 (List.mem_map_of_mem (f := fun q => q.1) hq)
  have h2 := hb2 q.2 (List.mem_map_of_mem (f := fun q => q.2) hq)
  refine ⟨a + 1 / 2, b + 1 / 2, by rw [ha]; rfl, by rw [hb]; rfl, ?_⟩
  constructor
  · rintro ⟨⟨h3, -⟩, h4, -⟩; exact ⟨h3, h4⟩
  · rintro ⟨h3, h4⟩
    exact ⟨⟨h3, by linarith⟩, h4, by linarith⟩

/-- Three rows, one of them without a second value: two points, the row in the middle is left out. -/
example (ls : (l : ℕ) → (Fin l → ℝ) → (Fin l → ℝ) → ℝ × ℝ) :
    ∃ f, plotFeatureData (m := 3) ls ![("Al" : String), "Ba"]
      ![![some 1, some 5], ![some 2, none], ![some 4, some 11]] 0 1 = .fig f ∧ f.pts = [(1, 5), (4, 11)] := by
  refine ⟨_, plotFeatureData_fig ls _ _ (0 : Fin 2) (1 : Fin 2), ?_⟩
  unfold xyFig xyPoints
  simp [List.finRange_succ]

end C213

/-! ### C214: time series -/

section C214
variable {m n : ℕ} {K : Type*} [Field K]

/-- C214: the frequency is a day whatever the time stamps are: `min_timestep` returns `None` or `"D"`.
**Disagreement**: the documentation of `min_timestep` promises the smallest time step; hourly data are averaged over days. -/
theorem C214_frequency (ts : List ℤ) : tsFreq ts = "D" := by
  have h : minTimestep ts = none ∨ minTimestep ts = some "D" := by
    unfold minTimestep
    split
    · exact .inr rfl
    · split_ifs <;> simp
  unfold tsFreq
  rcases h with h | h
  · rw [h]
  · rw [h]; rfl

/-- A row without a missing value. -/
def RowComplete (cell : Fin m → Fin n → Option K) (i : Fin m) : Prop := ∀ j, (cell i j).isSome

omit [Field K] in
theorem mem_tsKept {cell : Fin m → Fin n → Option K} {i : Fin m} : i ∈ tsKept cell ↔ RowComplete cell i := by
  unfold tsKept RowComplete
  simp

theorem mem_tsDays {days : List ℤ} {d : ℤ} : d ∈ tsDays days ↔ (∃ a ∈ days, a ≤ d) ∧ ∃ b ∈ days, d ≤ b := by
  unfold tsDays
  cases hmin : days.min? with
  | none =>
    rw [List.min?_eq_none_iff] at hmin
    subst hmin
    simp
  | some a =>
    cases hmax : days.max? with
    | none =>
      rw [List.max?_eq_none_iff] at hmax
      subst hmax
      simp
    | some b =>
      obtain ⟨ha, ha'⟩ := (List.min?_eq_some_iff (xs := days) (a := a)).1 hmin
      obtain ⟨hb, hb'⟩ := (List.max?_eq_some_iff (xs := days) (a := b)).1 hmax
      simp only [List.mem_map, List.mem_range]
      constructor
      · rintro ⟨e, he, rfl⟩
        exact ⟨⟨a, ha, by omega⟩, ⟨b, hb, by omega⟩⟩
      · rintro ⟨⟨a', h1, h2⟩, ⟨b', h3, h4⟩⟩
        have := ha' a' h1
        have := hb' b' h3
        exact ⟨(d - a).toNat, by omega, by omega⟩

theorem tsDays_sorted (days : List ℤ) : (tsDays days).Pairwise (· < ·) := by
  unfold tsDays
  split
  · rw [List.pairwise_map]
    exact List.pairwise_lt_range.imp (by intro a b h; omega)
  · exact List.Pairwise.nil

/-- C214: the curve of a column has one point for each day from the first to the last day that has a complete row, in order.
Its value is the mean of the column over the complete rows of the day, a gap if there is none. -/
theorem C214_daily (time : Fin m → ℤ) (cell : Fin m → Fin n → Option K) (j : Fin n) (x : Fin m → K)
    (hx : ∀ i, RowComplete cell i → cell i j = some (x i)) :
    ((tsTrace time cell j).map fun q => q.1).Pairwise (· < ·) ∧
    (∀ d, d ∈ (tsTrace time cell j).map (fun q => q.1) ↔
      (∃ i, RowComplete cell i ∧ time i / 86400 ≤ d) ∧ ∃ i, RowComplete cell i ∧ d ≤ time i / 86400) ∧
    ∀ d v, (d, v) ∈ tsTrace time cell j → ∀ R : Finset (Fin m), (∀ i, i ∈ R ↔ RowComplete cell i ∧ time i / 86400 = d) →
      v = if R = ∅ then none else some ((∑ i ∈ R, x i) / (R.card : K)) := by
  have hfst : (tsTrace time cell j).map (fun q => q.1) = tsDays ((tsKept cell).map fun i => tsDay (time i)) := by
    unfold tsTrace
    rw [List.map_map]
    exact List.map_id _
  refine ⟨by rw [hfst]; exact tsDays_sorted _, ?_, ?_⟩
  · intro d
    rw [hfst, mem_tsDays]
    simp only [List.mem_map, mem_tsKept, exists_exists_and_eq_and, tsDay]
  · intro d v h R hR
    unfold tsTrace at h
    obtain ⟨d', -, he⟩ := List.mem_map.1 h
    obtain ⟨rfl, rfl⟩ := Prod.mk.inj he
    unfold tsMean
    dsimp only
    set rows := (tsKept cell).filter fun i => tsDay (time i) = d' with hrows
    have hmem : ∀ i, i ∈ rows ↔ i ∈ R := by
      intro i
      rw [hrows, List.mem_filter, mem_tsKept, hR, decide_eq_true_iff]
      rfl
    have hnd : rows.Nodup := ((List.nodup_finRange m).filter _).filter _
    have hR' : rows.toFinset = R := by
      ext i
      rw [List.mem_toFinset, hmem]
    have hlen : rows.length = R.card := by rw [← hR', List.toFinset_card_of_nodup hnd]
    have hsum : (rows.map fun i => (cell i j).getD 0).sum = ∑ i ∈ R, x i := by
      rw [← hR', List.sum_toFinset _ hnd]
      congr 1
      apply List.map_congr_left
      intro i hi
      rw [hx i ((hR i).1 ((hmem i).1 hi)).1]
      rfl
    by_cases h0 : R = ∅
    · have : rows = [] := by
        rw [← hR', List.toFinset_eq_empty_iff] at h0
        exact h0
      rw [if_pos this, if_pos h0]
    · have : rows ≠ [] := by
        intro h1
        apply h0
        rw [← hR', h1]
        rfl
      rw [if_neg this, if_neg h0, hsum, hlen]

/-- C214: a row that lacks a value in any column, also one that is not shown, takes no part: its other values and its time
stamp can be anything. -/
theorem C214_incomplete (time time' : Fin m → ℤ) (cell cell' : Fin m → Fin n → Option K) (r : Fin m)
    (hc : ∀ i, i ≠ r → cell i = cell' i ∧ time i = time' i) (hr : ¬ RowComplete cell r) (hr' : ¬ RowComplete cell' r) (j : Fin n) :
    tsTrace time cell j = tsTrace time' cell' j := by
  have hk : tsKept cell = tsKept cell' := by
    unfold tsKept
    apply List.filter_congr
    intro i _
    by_cases h : i = r
    · subst h
      have h1 : ¬ i ∈ tsKept cell := fun h => hr (mem_tsKept.1 h)
      have h2 : ¬ i ∈ tsKept cell' := fun h => hr' (mem_tsKept.1 h)
      unfold tsKept at h1 h2
      rw [List.mem_filter] at h1 h2
      simp only [List.mem_finRange, true_and, Bool.not_eq_true] at h1 h2
      rw [h1, h2]
    · rw [(hc i h).1]
  have hne : ∀ i ∈ tsKept cell, i ≠ r := fun i hi he => hr (he ▸ mem_tsKept.1 hi)
  unfold tsTrace
  have e1 : (tsKept cell).map (fun i => tsDay (time i)) = (tsKept cell').map fun i => tsDay (time' i) := by
    rw [← hk]
    exact List.map_congr_left fun i hi => by rw [(hc i (hne i hi)).2]
  rw [e1]
  apply List.map_congr_left
  intro d _
  have e2 : (tsKept cell).filter (fun i => tsDay (time i) = d) = (tsKept cell').filter fun i => tsDay (time' i) = d := by
    rw [← hk]
    exact List.filter_congr fun i hi => by rw [(hc i (hne i hi)).2]
  unfold tsMean
  dsimp only
  have e3 : ((tsKept cell).filter (fun i => tsDay (time i) = d)).map (fun i => (cell i j).getD 0) =
      ((tsKept cell).filter (fun i => tsDay (time i) = d)).map fun i => (cell' i j).getD 0 :=
    List.map_congr_left fun i hi => by rw [(hc i (hne i (List.mem_filter.1 hi).1)).1]
  rw [e3, e2]

/-- C214: a single number is reduced modulo the number of rows, and what results is the number of the column. The call raises
exactly if there are no rows or the remainder is no column. -/
theorem C214_index (cols : Fin n → String) (time : Fin m → ℤ) (cell : Fin m → Fin n → Option K) (i : ℤ)
    (fig : List (String × List (ℤ × Option K))) :
    plotTimeseries cols time cell (.int i) = some fig ↔
      0 < m ∧ ∃ j : Fin n, (∃ t : ℤ, i = m * t + j.1) ∧ j.1 < m ∧ fig = [(cols j, tsTrace time cell j)] := by
  unfold plotTimeseries tsColumns
  by_cases hm : m = 0
  · subst hm
    simp
  · have hm' : (0 : ℤ) < m := by omega
    dsimp only
    rw [if_neg hm]
    simp only [Option.map_map, Option.map_eq_some_iff, Function.comp, List.map_cons, List.map_nil]
    constructor
    · rintro ⟨j, hj, rfl⟩
      rw [axisIndex_of_nonneg (Int.emod_nonneg _ hm'.ne')] at hj
      have h1 := Int.emod_lt_of_pos i hm'
      have h2 := Int.mul_ediv_add_emod i m
      exact ⟨by omega, j, ⟨i / m, by rw [← hj]; exact h2.symm⟩, by omega, rfl⟩
    · rintro ⟨-, j, ⟨t, rfl⟩, hj, rfl⟩
      refine ⟨j, ?_, rfl⟩
      rw [axisIndex_of_nonneg (Int.emod_nonneg _ hm'.ne'), Int.mul_add_emod_self_left]
      exact Int.emod_eq_of_lt (by omega) (by omega)

/-- C214, **Disagreement**: the remainder should be taken by the number of columns. The number `j` of a column shows that column
exactly if there are more than `j` rows, else (with at least one row) another one; and with more rows than columns the
number `-1` does not show the last column but raises. -/
theorem C214_wrong_column (cols : Fin n → String) (hcols : Function.Injective cols) (time : Fin m → ℤ)
    (cell : Fin m → Fin n → Option K) (hm : 0 < m) (j : Fin n) :
    (j.1 < m → plotTimeseries cols time cell (.int j.1) = some [(cols j, tsTrace time cell j)]) ∧
    (m ≤ j.1 → ∃ j' : Fin n, cols j' ≠ cols j ∧ plotTimeseries cols time cell (.int j.1) = some [(cols j', tsTrace time cell j')]) ∧
    (n < m → plotTimeseries cols time cell (.int (-1)) = none) := by
  refine ⟨fun h => ?_, fun h => ?_, fun h => ?_⟩
  · exact (C214_index cols time cell _ _).2 ⟨hm, j, ⟨0, by simp⟩, h, rfl⟩
  · have hlt : j.1 % m < m := Nat.mod_lt _ hm
    have hj := j.2
    refine ⟨⟨j.1 % m, by omega⟩, ?_, ?_⟩
    · intro he
      have := congrArg Fin.val (hcols he)
      simp only at this
      omega
    · refine (C214_index cols time cell _ _).2 ⟨hm, ⟨j.1 % m, by omega⟩, ⟨((j.1 / m : ℕ) : ℤ), ?_⟩, hlt, rfl⟩
      have := Nat.div_add_mod j.1 m
      simp only
      exact_mod_cast this.symm
  · cases hp : plotTimeseries cols time cell (.int (-1)) with
    | none => rfl
    | some fig =>
      obtain ⟨-, j', ⟨t, ht⟩, h2, -⟩ := (C214_index cols time cell _ _).1 hp
      exfalso
      have hj' := j'.2
      rcases lt_trichotomy t (-1) with h3 | h3 | h3
      · nlinarith
      · subst h3; omega
      · have : 0 ≤ t := by omega
        nlinarith

omit [Field K] in
theorem forall₂_of_mapM {α β : Type*} (f : α → Option β) : ∀ (l : List α) (r : List β),
    l.mapM f = some r ↔ List.Forall₂ (fun a b => f a = some b) l r
  | [], r => by cases r <;> simp
  | a :: l, r => by
    rw [List.mapM_cons]
    simp only [Option.bind_eq_bind, Option.bind_eq_some_iff, Option.pure_def, Option.some.injEq]
    constructor
    · rintro ⟨b, hb, w, hw, rfl⟩
      exact List.Forall₂.cons hb ((forall₂_of_mapM f l w).1 hw)
    · intro h
      cases h with
      | cons hb hw => exact ⟨_, hb, _, (forall₂_of_mapM f l _).2 hw, rfl⟩

/-- C214: a list of numbers shows the columns addressed (from the front or from the end), one curve for each number in the
order of the list; the call raises exactly if one of them addresses no column. A text shows the column with that label. -/
theorem C214_list (cols : Fin n → String) (hcols : Function.Injective cols) (time : Fin m → ℤ)
    (cell : Fin m → Fin n → Option K) (l : List ℤ) (s : String) (fig : List (String × List (ℤ × Option K))) :
    (plotTimeseries cols time cell (.list l) = some fig ↔
      List.Forall₂ (fun i q => ∃ j, PyAddr n i j ∧ q = (cols j, tsTrace time cell j)) l fig) ∧
    (plotTimeseries cols time cell (.label s) = some fig ↔ ∃ j, cols j = s ∧ fig = [(s, tsTrace time cell j)]) := by
  constructor
  · unfold plotTimeseries tsColumns
    dsimp only
    rw [Option.map_eq_some_iff]
    constructor
    · rintro ⟨js, h, rfl⟩
      rw [forall₂_of_mapM] at h
      rw [List.forall₂_map_right_iff]
      exact h.imp fun i j hij => ⟨j, axisIndex_eq_some.1 hij, rfl⟩
    · intro h
      induction h with
      | nil => exact ⟨[], by simp, rfl⟩
      | cons h1 _ ih =>
        obtain ⟨j, h2, rfl⟩ := h1
        obtain ⟨js, h3, rfl⟩ := ih
        refine ⟨j :: js, ?_, rfl⟩
        rw [forall₂_of_mapM] at h3 ⊢
        exact List.Forall₂.cons (axisIndex_eq_some.2 h2) h3
  · unfold plotTimeseries tsColumns
    dsimp only
    simp only [Option.map_map, Option.map_eq_some_iff, Function.comp, List.map_cons, List.map_nil]
    constructor
    · rintro ⟨j, h, rfl⟩
      rw [colOf_eq_some hcols] at h
      exact ⟨j, h, by rw [h]⟩
    · rintro ⟨j, h, rfl⟩
      exact ⟨j, (colOf_eq_some hcols).2 h, by rw [h]⟩

/-- C214, **Disagreement**: the command `plot-timeseries` never shows anything: it passes `list(feature_idx)` of a number, which
raises for every data set and every number, although the method itself would show that number. -/
theorem C214_command (cols : Fin n → String) (time : Fin m → ℤ) (cell : Fin m → Fin n → Option K) (j : Fin n) (hj : j.1 < m) :
    cliPlotTimeseries cols time cell j.1 = none ∧
      plotTimeseries cols time cell (.int j.1) = some [(cols j, tsTrace time cell j)] :=
  ⟨rfl, (C214_index cols time cell _ _).2 ⟨by omega, j, ⟨0, by simp⟩, hj, rfl⟩⟩

/-- Hours of two days and an incomplete row on a third one between them: the first day gets the mean, the second day is a
gap. -/
example : plotTimeseries (m := 4) ![("Al" : String), "Ba"] ![0, 3600, 90000, 180000]
      ![![some (1 : ℚ), some 5], ![some 3, some 7], ![some 9, none], ![some 4, some 8]] (.int 4) =
    some [("Al", [(0, some 2), (1, none), (2, some 4)])] := by decide +kernel

end C214

end Esat
