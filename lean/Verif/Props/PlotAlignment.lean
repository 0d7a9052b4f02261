import Verif.Model.PlotAlignment
import Verif.Lemmas.AxisIndex
import Verif.Props.InputFigures
import Mathlib.Tactic.Ring
import Mathlib.Tactic.FieldSimp
import Mathlib.Algebra.Order.Field.Rat

/-!
# C232: rows and columns of the figures that compare data and estimates
-/

namespace Esat

variable {m : ℕ} {K : Type*} [Field K]

/-- If nothing is filtered out of the first `t + 1` entries, entry `t` of the filtered list is entry `t` of the list; with distinct entries only then. -/
private theorem filter_at {α : Type*} (f : α → Bool) (l : List α) (hnd : l.Nodup) (t : ℕ) (a b : α) (ha : l[t]? = some a) (hb : (l.filter f)[t]? = some b) :
    b = a ↔ ∀ j ≤ t, ∀ s, l[j]? = some s → f s = true := by
  induction l generalizing t with
  | nil => simp at ha
  | cons x l ih =>
    rw [List.nodup_cons] at hnd
    cases hx : f x with
    | true =>
      rw [List.filter_cons_of_pos hx] at hb
      cases t with
      | zero =>
        simp only [List.getElem?_cons_zero, Option.some.injEq] at ha hb
        subst ha; subst hb
        simp only [Nat.le_zero, forall_eq, List.getElem?_cons_zero, Option.some.injEq, true_iff]
        rintro s rfl
        exact hx
      | succ t =>
        simp only [List.getElem?_cons_succ] at ha hb
        rw [ih hnd.2 t ha hb]
        constructor
        · intro h j hj s hs
          cases j with
          | zero =>
            simp only [List.getElem?_cons_zero, Option.some.injEq] at hs
            exact hs ▸ hx
          | succ j => exact h j (by omega) s (by simpa using hs)
        · intro h j hj s hs
          exact h (j + 1) (by omega) s (by simpa using hs)
    | false =>
      rw [List.filter_cons_of_neg (by simp [hx])] at hb
      constructor
      · rintro rfl
        exfalso
        cases t with
        | zero =>
          simp only [List.getElem?_cons_zero, Option.some.injEq] at ha
          subst ha
          have := List.mem_of_getElem? hb
          exact hnd.1 (List.mem_filter.1 this).1
        | succ t =>
          simp only [List.getElem?_cons_succ] at ha
          -- the entry `b` has position `t` in `l` and position `t + 1` in a sublist of `l`
          have key : ∀ (l : List α) (_ : l.Nodup) (t u : ℕ) (b : α), l[t]? = some b → (l.filter f)[u]? = some b → u ≤ t := by
            intro l
            induction l with
            | nil => intro _ t u b h; simp at h
            | cons y l ih' =>
              intro hnd t u b h1 h2
              rw [List.nodup_cons] at hnd
              cases t with
              | zero =>
                simp only [List.getElem?_cons_zero, Option.some.injEq] at h1
                subst h1
                cases hy : f y with
                | false =>
                  rw [List.filter_cons_of_neg (by simp [hy])] at h2
                  exact absurd (List.mem_filter.1 (List.mem_of_getElem? h2)).1 hnd.1
                | true =>
                  rw [List.filter_cons_of_pos hy] at h2
                  cases u with
                  | zero => exact le_rfl
                  | succ u =>
                    simp only [List.getElem?_cons_succ] at h2
                    exact absurd (List.mem_filter.1 (List.mem_of_getElem? h2)).1 hnd.1
              | succ t =>
                simp only [List.getElem?_cons_succ] at h1
                cases hy : f y with
                | false =>
                  rw [List.filter_cons_of_neg (by simp [hy])] at h2
                  exact (ih' hnd.2 t u b h1 h2).trans (Nat.le_succ t)
                | true =>
                  rw [List.filter_cons_of_pos hy] at h2
                  cases u with
                  | zero => exact Nat.zero_le _
                  | succ u =>
                    simp only [List.getElem?_cons_succ] at h2
                    exact Nat.succ_le_succ (ih' hnd.2 t u b h1 h2)
          have := key l hnd.2 t (t + 1) b ha hb
          omega
      · intro h
        have := h 0 (Nat.zero_le _) x rfl
        rw [hx] at this
        exact absurd this (by decide)

private theorem feats_get_injective (d : FigData m K) (hnd : d.cols.Nodup) : Function.Injective fun q : Fin d.feats.length => d.feats.get q := by
  have h : d.feats.Nodup := hnd.filter _
  exact List.nodup_iff_injective_get.1 h

private theorem byLabel_get (d : FigData m K) (hnd : d.cols.Nodup) (q : Fin d.feats.length) : d.byLabel (d.feats.get q) = some q :=
  (colOf_eq_some (feats_get_injective d hnd)).2 rfl

/-- The lengths for which a difference of two arrays exists. -/
private theorem arraySub_isSome (a : List (Option K)) (b : List K) : (arraySub a b).isSome ↔ a.length = b.length ∨ b.length = 1 ∨ a.length = 1 := by
  unfold arraySub
  split_ifs with h
  · simp [h]
  · match a, b with
    | [], [] => exact absurd rfl h
    | [], [y] => simp
    | [], _ :: _ :: _ => simp
    | [x], [] => simp
    | [x], [y] => exact absurd rfl h
    | [x], _ :: _ :: _ => simp
    | _ :: _ :: _, [] => simp
    | _ :: _ :: _, [y] => simp
    | _ :: _ :: _, _ :: _ :: _ =>
      simp only [Option.isSome_none, List.length_cons, Bool.false_eq_true, false_iff]
      simp only [List.length_cons] at h
      omega

private theorem kept_length_le (d : FigData m K) : d.kept.length ≤ m := by
  have h := List.length_filter_le d.ok (List.finRange m)
  simpa [FigData.kept] using h

private theorem kept_all (d : FigData m K) : m = d.kept.length ↔ ∀ i, d.ok i = true := by
  have h : d.kept.length = (List.finRange m).length ↔ ∀ i ∈ List.finRange m, d.ok i = true := by
    rw [FigData.kept, List.length_filter_eq_length_iff]
  simp only [List.length_finRange, List.mem_finRange, true_imp_iff] at h
  rw [← h, eq_comm]

/-- **C232.** The residual curves exist exactly for a number of a processed feature (counted from the front or from the end), if no row was dropped or one
of the two curves has a single entry. -/
theorem C232_temporal_exists (d : FigData m K) (hnd : d.cols.Nodup) (est : d.Est) (idx : ℤ) :
    (∃ r, temporalCurve d est idx = .ret r) ↔
      (-(d.feats.length : ℤ) ≤ idx ∧ idx < d.feats.length) ∧ ((∀ i, d.ok i = true) ∨ d.kept.length = 1 ∨ m = 1) := by
  have hle : d.feats.length ≤ d.cols.length := List.length_filter_le _ _
  rw [← axisIndex_isSome]
  unfold temporalCurve
  cases hq : axisIndex d.feats.length idx with
  | none => simp
  | some q =>
    have hr : -(d.feats.length : ℤ) ≤ idx ∧ idx < d.feats.length := axisIndex_isSome.1 (by rw [hq]; rfl)
    have hc : (axisIndex d.cols.length idx).isSome := axisIndex_isSome.2 (by omega)
    obtain ⟨c, hc⟩ := Option.isSome_iff_exists.1 hc
    rw [hc]
    dsimp only
    rw [byLabel_get d hnd q, Option.bind_some]
    have hs := arraySub_isSome ((List.finRange m).map fun i => d.raw i (d.cols.get c)) ((List.finRange d.kept.length).map fun p => est p q)
    simp only [List.length_map, List.length_finRange, kept_all] at hs
    simp only [Option.isSome_some, true_and]
    rw [← hs]
    cases arraySub ((List.finRange m).map fun i => d.raw i (d.cols.get c)) ((List.finRange d.kept.length).map fun p => est p q) with
    | none => simp
    | some r => simp

/-- **C232.** The figure for feature number `t` has the name of that processed feature, but its input curve is column `t` of all columns: it is the column of
that name exactly if none of the columns up to it was removed. -/
theorem C232_temporal_column (d : FigData m K) (hnd : d.cols.Nodup) (est : d.Est) (t : ℕ) (label : String) (input res : List (Option K))
    (h : temporalCurve d est t = .ret (label, input, res)) :
    d.feats[t]? = some label ∧ ∃ c, d.cols[t]? = some c ∧ (∀ i : Fin m, input[i.1]? = some (d.raw i c)) ∧ input.length = m ∧
      (label = c ↔ ∀ j ≤ t, ∀ s, d.cols[j]? = some s → d.used s = true) := by
  unfold temporalCurve at h
  cases hq : axisIndex d.feats.length (t : ℤ) with
  | none => rw [hq] at h; exact absurd h (by simp)
  | some q =>
    cases hc : axisIndex d.cols.length (t : ℤ) with
    | none => rw [hq, hc] at h; exact absurd h (by simp)
    | some c =>
      rw [hq, hc] at h
      dsimp only at h
      rw [byLabel_get d hnd q, Option.bind_some] at h
      cases hs : arraySub ((List.finRange m).map fun i => d.raw i (d.cols.get c)) ((List.finRange d.kept.length).map fun p => est p q) with
      | none => rw [hs] at h; exact absurd h (by simp)
      | some r =>
        rw [hs] at h
        simp only [Outcome.ret.injEq, Prod.mk.injEq] at h
        obtain ⟨h1, h2, _⟩ := h
        have hq' : t = q.1 := by
          have := (axisIndex_of_nonneg (Int.natCast_nonneg t) q).1 hq
          exact_mod_cast this
        have hc' : t = c.1 := by
          have := (axisIndex_of_nonneg (Int.natCast_nonneg t) c).1 hc
          exact_mod_cast this
        have e1 : d.feats[t]? = some label := by
          rw [hq', ← h1]; simp
        have e2 : d.cols[t]? = some (d.cols.get c) := by
          rw [hc']; simp
        refine ⟨e1, d.cols.get c, e2, ?_, ?_, filter_at d.used d.cols hnd t _ _ e2 e1⟩
        · intro i
          rw [← h2]
          simp
        · rw [← h2]; simp

/-- **C232.** If no row was dropped the residuals are, row by row, the input curve minus the estimate of the labelled feature. -/
theorem C232_temporal_residual (d : FigData m K) (hnd : d.cols.Nodup) (est : d.Est) (t : ℕ) (label : String) (input res : List (Option K))
    (h : temporalCurve d est t = .ret (label, input, res)) (hall : ∀ i, d.ok i = true) :
    ∃ q : Fin d.feats.length, d.feats.get q = label ∧ res.length = m ∧
      ∀ (p : Fin d.kept.length), ∃ x, input[p.1]? = some x ∧ res[p.1]? = some (x.map fun v => v - est p q) := by
  have hm : m = d.kept.length := (kept_all d).2 hall
  unfold temporalCurve at h
  cases hq : axisIndex d.feats.length (t : ℤ) with
  | none => rw [hq] at h; exact absurd h (by simp)
  | some q =>
    cases hc : axisIndex d.cols.length (t : ℤ) with
    | none => rw [hq, hc] at h; exact absurd h (by simp)
    | some c =>
      rw [hq, hc] at h
      dsimp only at h
      have hsub : arraySub ((List.finRange m).map fun i => d.raw i (d.cols.get c)) ((List.finRange d.kept.length).map fun p => est p q) =
          some (List.zipWith (fun x y => x.map fun v => v - y) ((List.finRange m).map fun i => d.raw i (d.cols.get c))
            ((List.finRange d.kept.length).map fun p => est p q)) := by
        unfold arraySub
        exact if_pos (by simpa using hm)
      rw [byLabel_get d hnd q, Option.bind_some, hsub] at h
      simp only [Outcome.ret.injEq, Prod.mk.injEq] at h
      obtain ⟨h1, h2, h3⟩ := h
      refine ⟨q, h1, ?_, ?_⟩
      · rw [← h3]; simp [← hm]
      · intro p
        have hp : p.1 < m := by have := p.2; omega
        refine ⟨d.raw ⟨p.1, hp⟩ (d.cols.get c), ?_, ?_⟩
        · rw [← h2]
          simp [hp]
        · rw [← h3]
          simp [List.getElem?_zipWith, hp]

/-- **C232.** The scatter plot: a message for a number outside the processed features, an exception exactly if a row was dropped, otherwise row by row the
observation and the estimate of the same feature. -/
theorem C232_scatter (d : FigData m K) (est : d.Est) (idx : ℤ) :
    (scatterPoints d est idx = .message ↔ ¬ (0 ≤ idx ∧ idx < d.feats.length)) ∧
    (scatterPoints d est idx = .raised ↔ (0 ≤ idx ∧ idx < d.feats.length) ∧ ∃ i, d.ok i = false) ∧
    ∀ pts, scatterPoints d est idx = .drawn pts → pts.length = m ∧ ∃ q : Fin d.feats.length, idx = q.1 ∧
      ∀ p : Fin d.kept.length, ∃ i : Fin m, i.1 = p.1 ∧ pts[p.1]? = some (d.raw i (d.feats.get q), est p q) := by
  unfold scatterPoints
  by_cases h : 0 ≤ idx ∧ idx < d.feats.length
  · simp only [h, and_self, dite_true, not_true, List.length_map, List.length_finRange, true_and]
    by_cases hm : m = d.kept.length
    · rw [if_pos hm]
      have hall := (kept_all d).1 hm
      refine ⟨by simp, by simp [hall], ?_⟩
      intro pts hp
      simp only [FigOut.drawn.injEq] at hp
      refine ⟨by rw [← hp]; simp [← hm], ⟨idx.toNat, by omega⟩, by simp [h.1], ?_⟩
      intro p
      have hp' : p.1 < m := by have := p.2; omega
      refine ⟨⟨p.1, hp'⟩, rfl, ?_⟩
      rw [← hp]
      simp [List.getElem?_zip_eq_some, hp']
    · rw [if_neg hm]
      have hall : ∃ i, d.ok i = false := by
        by_contra hn
        push Not at hn
        exact hm ((kept_all d).2 fun i => by simpa using hn i)
      exact ⟨by simp, by simp [hall], fun pts hp => by cases hp⟩
  · rw [dif_neg h]
    refine ⟨by simp [h], by simp [h], fun pts hp => by cases hp⟩

private theorem kept_nodup (d : FigData m K) : d.kept.Nodup := (List.nodup_finRange m).filter _

private theorem rowAt_eq_some (d : FigData m K) (i : Fin m) (p : Fin d.kept.length) : d.rowAt i = some p ↔ d.kept.get p = i := by
  have hinj : Function.Injective d.kept.get := List.nodup_iff_injective_get.1 (kept_nodup d)
  unfold FigData.rowAt
  constructor
  · intro h
    simpa using List.find?_some h
  · intro h
    have hex : ((List.finRange d.kept.length).find? fun p => decide (d.kept.get p = i)).isSome := by
      rw [List.find?_isSome]
      exact ⟨p, List.mem_finRange p, by simpa using h⟩
    obtain ⟨p', hp'⟩ := Option.isSome_iff_exists.1 hex
    have h' : d.kept.get p' = i := by simpa using List.find?_some hp'
    rw [hp', hinj (h'.trans h.symm)]

private theorem rowAt_eq_none (d : FigData m K) (i : Fin m) : d.rowAt i = none ↔ d.ok i = false := by
  constructor
  · intro h
    by_contra hn
    have hmem : i ∈ d.kept := List.mem_filter.2 ⟨List.mem_finRange i, by simpa using hn⟩
    obtain ⟨p, hp⟩ := List.get_of_mem hmem
    rw [(rowAt_eq_some d i p).2 hp] at h
    cases h
  · intro h
    cases hr : d.rowAt i with
    | none => rfl
    | some p =>
      have := (rowAt_eq_some d i p).1 hr
      have hm : d.kept.get p ∈ d.kept := List.get_mem _ _
      rw [this] at hm
      have := (List.mem_filter.1 hm).2
      rw [h] at this
      cases this

/-- **C232.** The time series: a message for a number outside the processed features, never an exception here; every row has the observation of the feature,
and the estimate of that row and feature, missing exactly for dropped rows. -/
theorem C232_series (d : FigData m K) (est : d.Est) (idx : ℤ) :
    (seriesRows d est idx = .message ↔ ¬ (0 ≤ idx ∧ idx < d.feats.length)) ∧ seriesRows d est idx ≠ .raised ∧
    ∀ rows, seriesRows d est idx = .drawn rows → rows.length = m ∧ ∃ q : Fin d.feats.length, idx = q.1 ∧ ∀ i : Fin m,
      ∃ e, rows[i.1]? = some (d.raw i (d.feats.get q), e) ∧ (e = none ↔ d.ok i = false) ∧ ∀ p, d.kept.get p = i → e = some (est p q) := by
  unfold seriesRows
  by_cases h : 0 ≤ idx ∧ idx < d.feats.length
  · simp only [h, and_self, dite_true, not_true]
    refine ⟨by simp, by simp, ?_⟩
    intro rows hr
    simp only [FigOut.drawn.injEq] at hr
    refine ⟨by rw [← hr]; simp, ⟨idx.toNat, by omega⟩, by simp [h.1], ?_⟩
    intro i
    refine ⟨(d.rowAt i).map fun p => est p ⟨idx.toNat, by omega⟩, by rw [← hr]; simp, ?_, ?_⟩
    · rw [Option.map_eq_none_iff, rowAt_eq_none]
    · intro p hp
      rw [(rowAt_eq_some d i p).2 hp]
      rfl
  · rw [dif_neg h]
    refine ⟨by simp [h], by simp, fun pts hp => by cases hp⟩

/-- **C232.** Scaled residuals: of a kept row with an uncertainty other than zero the statistics have the value of the histogram, for weak features three
times that value; for a dropped row they have NaN. -/
theorem C232_scaled [DecidableEq K] [CharZero K] (d : FigData m K) (est : d.Est) (q : Fin d.feats.length) :
    (∀ i, d.ok i = false → statScaled d est q i = none) ∧
    ∀ p : Fin d.kept.length, (∀ u, d.unc (d.kept.get p) (d.feats.get q) = some u → u ≠ 0) →
      statScaled d est q (d.kept.get p) = (histScaled d est q p).map fun r => if d.weak (d.feats.get q) then 3 * r else r := by
  constructor
  · intro i hi
    rw [statScaled, (rowAt_eq_none d i).2 hi]
    rfl
  · intro p hu
    rw [statScaled, (rowAt_eq_some d _ p).2 rfl, histScaled, FigData.modelUnc, Option.bind_some]
    cases d.raw (d.kept.get p) (d.feats.get q) with
    | none => rfl
    | some v =>
      cases h : d.unc (d.kept.get p) (d.feats.get q) with
      | none => rfl
      | some u =>
        have hu' := hu u h
        simp only [Option.bind_some, Option.map_some, hu', if_false]
        have h3 : (3 : K) ≠ 0 := by norm_num
        cases d.weak (d.feats.get q) with
        | false => simp [hu']
        | true =>
          simp only [if_true, mul_eq_zero, hu', h3, or_self, if_false, Option.map_some, Option.some.injEq]
          field_simp

/-- Two columns of which the first is a location, two rows of which the second was dropped or not. -/
private def figEx (ok1 : Bool) : FigData 2 ℚ where
  cols := ["Lat", "Al", "Fe"]
  used s := decide (s ≠ "Lat")
  ok i := i = 0 || ok1
  raw i s := if s = "Lat" then some 40 else if s = "Al" then some 5 else if i = 0 then some 7 else none
  unc _ _ := some 2
  weak s := decide (s = "Al")

-- the figure of "Al" shows the location and a residual against it
example : temporalCurve (figEx true) (fun _ _ => 1) 0 = .ret ("Al", [some 40, some 40], [some 39, some 39]) := by decide +kernel
example : temporalCurve (figEx true) (fun _ _ => 1) (-1) = .ret ("Fe", [some 7, none], [some 6, none]) := by decide +kernel
example : scatterPoints (figEx false) (fun _ _ => 1) 0 = .raised := by decide +kernel
example : statScaled (figEx true) (fun _ _ => 1) ⟨0, by decide⟩ 0 = some 2 := by decide +kernel
example : histScaled (figEx true) (fun _ _ => 1) ⟨0, by decide⟩ ⟨0, by decide⟩ = some (2 / 3) := by decide +kernel

end Esat
