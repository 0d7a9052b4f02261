import Verif.Model.Fingerprints
import Verif.Props.ConstraintLists
import Verif.Lemmas.MapM
import Mathlib.Algebra.Order.Field.Basic
import Mathlib.Data.List.TakeWhile
import Mathlib.Tactic.FieldSimp
import Mathlib.Tactic.Linarith

/-!
# Fingerprints of `CompareAnalyzer` (C199)
-/

namespace Esat

/-- **C199.** The number in the name of a bar: the label `Factor i` is read back as `i`, so labels of different numbers are different. -/
theorem C199_names (i : ℕ) : secondNumber (factorName i) = some i ∧ ∀ i', factorName i = factorName i' → i = i' := by
  constructor
  · obtain ⟨⟨h1, h2, h3, -⟩, -⟩ := C197_text i
    have hi : intText i = natText i := rfl
    rw [hi] at h1 h2 h3
    have hsp : ∀ c ∈ natText i, decide (c ≠ ' ') = true := by
      intro c hc
      have := h2 c hc
      rw [decide_eq_true_eq]
      rintro rfl
      exact absurd this (by decide)
    have hw : (((factorName i).dropWhile (· ≠ ' ')).drop 1).takeWhile (· ≠ ' ') = natText i := by
      show (natText i).takeWhile (· ≠ ' ') = natText i
      exact List.takeWhile_eq_self_iff.2 hsp
    unfold secondNumber
    rw [if_pos (show ' ' ∈ factorName i from List.mem_append_left _ (by decide)), hw]
    simp only
    rw [if_pos ⟨h1, List.all_eq_true.2 h2⟩, h3]
  · intro i' h
    exact natText_inj (List.append_cancel_left h)

section
variable {n : ℕ} {K : Type*} [Field K] [LinearOrder K] [IsStrictOrderedRing K]

/-- The share of a column in a row of the frame, in percent: `none` if the row sums to zero. -/
def PercentShare (columns : List (List Char)) (f : ProfFrame n K) (c : List Char) (j : Fin n) (y : Option K) : Prop :=
  ((columns.map fun c => f.val c j).sum = 0 → y = none) ∧
  ((columns.map fun c => f.val c j).sum ≠ 0 → ∃ x, y = some x ∧ x * (columns.map fun c => f.val c j).sum = 100 * f.val c j)

theorem compareColumns_nodup (p : ProfFrame n K) : (compareColumns p).Nodup ∧ (compareColumns p).length = p.cols.length - 1 ∧
    ∀ i, i < p.cols.length - 1 → (compareColumns p)[i]? = some (factorName (i + 1)) := by
  refine ⟨?_, by simp [compareColumns], ?_⟩
  · unfold compareColumns
    exact (List.nodup_range').map fun a b h => (C199_names a).2 b h
  · intro i hi
    unfold compareColumns
    rw [List.getElem?_map, List.getElem?_range' hi]
    simp [Nat.add_comm]

theorem fingerprintBar_spec (columns : List (List Char)) (hc : ∀ c ∈ columns, ∃ q, c = factorName q) (f : ProfFrame n K) (c : List Char) :
    ((fingerprintBar columns f c).isSome ↔ "species".toList ∈ f.cols ∧ c ∈ columns) ∧
    ∀ b, fingerprintBar columns f c = some b → c ∈ columns ∧ c = factorName b.1 ∧ ∀ j, PercentShare columns f c j (b.2 j) := by
  unfold fingerprintBar
  by_cases h : "species".toList ∈ f.cols ∧ c ∈ columns
  · rw [if_pos h]
    obtain ⟨q, rfl⟩ := hc c h.2
    rw [(C199_names q).1]
    refine ⟨by simpa using h, ?_⟩
    intro b hb
    obtain rfl := Option.some.inj hb
    refine ⟨h.2, rfl, fun j => ⟨fun h0 => ?_, fun h0 => ?_⟩⟩
    · simp [stdColumn, h0]
    · refine ⟨100 * (f.val (factorName q) j / (columns.map fun c => f.val c j).sum), by simp [stdColumn, h0], ?_⟩
      rw [mul_assoc, div_mul_cancel₀ _ h0]
  · rw [if_neg h]
    exact ⟨by simpa using h, fun b hb => by cases hb⟩

/-- The conditions for the figures: all three frames have the columns `Factor 1` to `Factor N`, where `N + 1` is the number of columns of the PMF frame; and unless `N` is zero, all have a species column and the first `N` entries of both mappings exist and
are such columns. -/
def FingerprintsOk (o : CompareObj n K) : Prop :=
  let N := o.pmf.cols.length - 1
  (∀ q, 1 ≤ q → q ≤ N → factorName q ∈ o.pmf.cols ∧ factorName q ∈ o.ls.cols ∧ factorName q ∈ o.ws.cols) ∧
  (0 < N → "species".toList ∈ o.pmf.cols ∧ "species".toList ∈ o.ls.cols ∧ "species".toList ∈ o.ws.cols) ∧
  ∀ f, f < N → (∃ q, 1 ≤ q ∧ q ≤ N ∧ o.lsMap[f]? = some (factorName q)) ∧ ∃ q, 1 ≤ q ∧ q ≤ N ∧ o.wsMap[f]? = some (factorName q)

theorem mem_compareColumns (p : ProfFrame n K) (c : List Char) : c ∈ compareColumns p ↔ ∃ q, 1 ≤ q ∧ q ≤ p.cols.length - 1 ∧ c = factorName q := by
  unfold compareColumns
  rw [List.mem_map]
  constructor
  · rintro ⟨q, hq, rfl⟩
    rw [List.mem_range'_1] at hq
    exact ⟨q, hq.1, by omega, rfl⟩
  · rintro ⟨q, h1, h2, rfl⟩
    exact ⟨q, List.mem_range'_1.2 ⟨h1, by omega⟩, rfl⟩

/-- **C199.** When the figures are shown; otherwise the call raises before the first one. -/
theorem C199_shown_iff (o : CompareObj n K) (lsR2 wsR2 : K) : (cmpFingerprints o lsR2 wsR2).isSome ↔ FingerprintsOk o := by
  obtain ⟨-, hlen, hget⟩ := compareColumns_nodup o.pmf
  have hc : ∀ c ∈ compareColumns o.pmf, ∃ q, c = factorName q := fun c h => by
    obtain ⟨q, -, -, rfl⟩ := (mem_compareColumns o.pmf c).1 h
    exact ⟨q, rfl⟩
  have hall : ∀ f : ProfFrame n K, (∀ c ∈ compareColumns o.pmf, c ∈ f.cols) ↔ ∀ q, 1 ≤ q → q ≤ o.pmf.cols.length - 1 → factorName q ∈ f.cols := fun f => by
    constructor
    · intro h q h1 h2
      exact h _ ((mem_compareColumns o.pmf _).2 ⟨q, h1, h2, rfl⟩)
    · intro h c hcm
      obtain ⟨q, h1, h2, rfl⟩ := (mem_compareColumns o.pmf c).1 hcm
      exact h q h1 h2
  have hmap : ∀ (f : ProfFrame n K) (x : Option (List Char)), (x.bind (fingerprintBar (compareColumns o.pmf) f)).isSome ↔
      "species".toList ∈ f.cols ∧ ∃ q, 1 ≤ q ∧ q ≤ o.pmf.cols.length - 1 ∧ x = some (factorName q) := fun f x => by
    cases x with
    | none => simp
    | some c =>
      rw [Option.bind_some, (fingerprintBar_spec _ hc f c).1, mem_compareColumns]
      simp only [Option.some.injEq]
  have hb3 : ∀ {α β γ : Type _} (a : Option α) (b : Option β) (c : Option γ), (a.bind fun p => b.bind fun w => c.map fun l => (p, l, w)).isSome ↔
      a.isSome ∧ b.isSome ∧ c.isSome := fun a b c => by cases a <;> cases b <;> cases c <;> simp
  unfold cmpFingerprints FingerprintsOk
  simp only
  by_cases h : (∀ c ∈ compareColumns o.pmf, c ∈ o.pmf.cols) ∧ (∀ c ∈ compareColumns o.pmf, c ∈ o.ls.cols) ∧ (∀ c ∈ compareColumns o.pmf, c ∈ o.ws.cols)
  · rw [if_pos h, Option.isSome_map, mapM_isSome_iff]
    rw [hall, hall, hall] at h
    simp only [List.mem_reverse, List.mem_range, hlen]
    constructor
    · intro hh'
      have hh := fun f hf => (hb3 _ _ _).1 (hh' f hf)
      simp only [hmap] at hh
      refine ⟨fun q h1 h2 => ⟨h.1 q h1 h2, h.2.1 q h1 h2, h.2.2 q h1 h2⟩, fun h0 => ?_, fun f hf => ?_⟩
      · obtain ⟨⟨a, -⟩, ⟨b, -⟩, ⟨c, -⟩⟩ := hh 0 h0
        exact ⟨a, c, b⟩
      · obtain ⟨-, ⟨-, b⟩, ⟨-, c⟩⟩ := hh f hf
        exact ⟨c, b⟩
    · rintro ⟨-, h2, h3⟩ f hf
      obtain ⟨a, b, c⟩ := h2 (by omega)
      refine (hb3 _ _ _).2 ?_
      simp only [hmap]
      exact ⟨⟨a, f + 1, by omega, by omega, hget f hf⟩, ⟨c, (h3 f hf).2⟩, ⟨b, (h3 f hf).1⟩⟩
  · rw [if_neg h]
    rw [hall, hall, hall] at h
    constructor
    · intro hh; cases hh
    · rintro ⟨h1, -⟩
      exact absurd ⟨fun q a b => (h1 q a b).1, fun q a b => (h1 q a b).2.1, fun q a b => (h1 q a b).2.2⟩ h

/-- The bars of one figure: `N` bars, stacked from the last factor of the order to the first one; the bar of position `f` carries the number of its column and the share of the column in the row of the feature. -/
def BarsOf (columns : List (List Char)) (f : ProfFrame n K) (order : List (List Char)) (bars : List (ℕ × (Fin n → Option K))) : Prop :=
  bars.length = columns.length ∧ ∀ p, p < columns.length → ∃ b, bars[p]? = some b ∧ order[columns.length - 1 - p]? = some (factorName b.1) ∧
    factorName b.1 ∈ columns ∧ ∀ j, PercentShare columns f (factorName b.1) j (b.2 j)

/-- **C199.** What is shown: PMF with the factors in their own order, LS-NMF and WS-NMF in the order of their mappings; the title has a number exactly if it is positive. -/
theorem C199_bars (o : CompareObj n K) (lsR2 wsR2 : K) (figs : List (FpFigure n K)) (h : cmpFingerprints o lsR2 wsR2 = some figs) :
    ∃ p l w, figs = [⟨"PMF", none, p⟩, ⟨"LS-NMF", if 0 < lsR2 then some lsR2 else none, l⟩, ⟨"WS-NMF", if 0 < wsR2 then some wsR2 else none, w⟩] ∧
      BarsOf (compareColumns o.pmf) o.pmf (compareColumns o.pmf) p ∧ BarsOf (compareColumns o.pmf) o.ls o.lsMap l ∧
      BarsOf (compareColumns o.pmf) o.ws o.wsMap w := by
  have hc : ∀ c ∈ compareColumns o.pmf, ∃ q, c = factorName q := fun c h => by
    obtain ⟨q, -, -, rfl⟩ := (mem_compareColumns o.pmf c).1 h
    exact ⟨q, rfl⟩
  unfold cmpFingerprints at h
  simp only at h
  split at h
  · rw [Option.map_eq_some_iff] at h
    obtain ⟨b, hb, rfl⟩ := h
    refine ⟨_, _, _, rfl, ?_⟩
    have hlen : b.length = (compareColumns o.pmf).length := by
      have := mapM_option_length _ _ _ hb
      simpa using this
    have hget : ∀ p, p < (compareColumns o.pmf).length → ∃ x, b[p]? = some x ∧
        (compareColumns o.pmf)[(compareColumns o.pmf).length - 1 - p]?.bind (fingerprintBar (compareColumns o.pmf) o.pmf) = some x.1 ∧
        o.lsMap[(compareColumns o.pmf).length - 1 - p]?.bind (fingerprintBar (compareColumns o.pmf) o.ls) = some x.2.1 ∧
        o.wsMap[(compareColumns o.pmf).length - 1 - p]?.bind (fingerprintBar (compareColumns o.pmf) o.ws) = some x.2.2 := by
      intro p hp
      have hp' : p < b.length := by omega
      have e := mapM_option_get _ _ _ hb p (by simpa using hp)
      have hx := List.getElem?_eq_getElem hp'
      generalize b[p] = x at e hx
      rw [List.getElem_reverse] at e
      simp only [List.getElem_range, List.length_range] at e
      simp only [Option.bind_eq_some_iff, Option.map_eq_some_iff] at e
      obtain ⟨p1, ⟨c1, h1, h1'⟩, w1, ⟨c2, h2, h2'⟩, l1, ⟨c3, h3, h3'⟩, rfl⟩ := e
      refine ⟨_, hx, ?_, ?_, ?_⟩
      · rw [h1, Option.bind_some, h1']
      · rw [h3, Option.bind_some, h3']
      · rw [h2, Option.bind_some, h2']
    have key : ∀ (f : ProfFrame n K) (order : List (List Char)) (g : (ℕ × (Fin n → Option K)) × (ℕ × (Fin n → Option K)) × (ℕ × (Fin n → Option K)) → ℕ × (Fin n → Option K)),
        (∀ p, p < (compareColumns o.pmf).length → ∃ x, b[p]? = some x ∧
          order[(compareColumns o.pmf).length - 1 - p]?.bind (fingerprintBar (compareColumns o.pmf) f) = some (g x)) →
        BarsOf (compareColumns o.pmf) f order (b.map g) := by
      intro f order g hg
      refine ⟨by rw [List.length_map, hlen], fun p hp => ?_⟩
      obtain ⟨x, hx, e⟩ := hg p hp
      rw [Option.bind_eq_some_iff] at e
      obtain ⟨c, hc1, hc2⟩ := e
      obtain ⟨m1, m2, m3⟩ := (fingerprintBar_spec _ hc f c).2 _ hc2
      refine ⟨g x, by rw [List.getElem?_map, hx]; rfl, by rw [hc1, m2], by rw [← m2]; exact m1, fun j => ?_⟩
      rw [← m2]
      exact m3 j
    exact ⟨key _ _ _ fun p hp => by obtain ⟨x, a, b, -, -⟩ := hget p hp; exact ⟨x, a, b⟩,
      key _ _ _ fun p hp => by obtain ⟨x, a, -, c, -⟩ := hget p hp; exact ⟨x, a, c⟩,
      key _ _ _ fun p hp => by obtain ⟨x, a, -, -, d⟩ := hget p hp; exact ⟨x, a, d⟩⟩
  · cases h

/-- **C199.** The bars of a figure stack up to 100 for every feature whose row does not sum to zero, if the first `N` entries of the order are different from each other; in general the height of the stack is the sum of the shares of the columns named, counted as
often as they are named. -/
theorem C199_stack (p : ProfFrame n K) (f : ProfFrame n K) (order : List (List Char)) (bars : List (ℕ × (Fin n → Option K)))
    (h : BarsOf (compareColumns p) f order bars) (j : Fin n) (hs : ((compareColumns p).map fun c => f.val c j).sum ≠ 0) :
    ∃ ys : List K, bars.map (fun b => b.2 j) = ys.map some ∧
      ys.sum * ((compareColumns p).map fun c => f.val c j).sum = 100 * ((order.take (compareColumns p).length).map fun c => f.val c j).sum ∧
      ((order.take (compareColumns p).length).Nodup → ys.sum = 100) := by
  obtain ⟨hlen, hb⟩ := h
  set N := (compareColumns p).length
  set S := ((compareColumns p).map fun c => f.val c j).sum
  have hord : N ≤ order.length := by
    rcases Nat.eq_zero_or_pos N with h0 | h0
    · omega
    · obtain ⟨b, -, h2, -⟩ := hb 0 h0
      have := (List.getElem?_eq_some_iff.1 h2).1
      omega
  have hbars : bars.map (fun b => b.2 j) = ((order.take N).reverse.map fun c => 100 * f.val c j / S).map some := by
    refine List.ext_getElem? fun q => ?_
    by_cases hq : q < N
    · obtain ⟨b, h1, h2, -, h4⟩ := hb q hq
      obtain ⟨x, hx, hx2⟩ := (h4 j).2 hs
      rw [List.getElem?_map, h1, Option.map_some, hx, List.getElem?_map, List.getElem?_map, List.getElem?_reverse (by rw [List.length_take]; omega), List.length_take, Nat.min_eq_left hord,
        List.getElem?_take_of_lt (by omega), h2, Option.map_some, Option.map_some, eq_div_of_mul_eq hs hx2]
    · rw [List.getElem?_eq_none (by rw [List.length_map]; omega), List.getElem?_eq_none (by simp; omega)]
  refine ⟨_, hbars, ?_⟩
  have hsum : ((order.take N).reverse.map fun c => 100 * f.val c j / S).sum * S = 100 * ((order.take N).map fun c => f.val c j).sum := by
    rw [List.map_reverse, List.sum_reverse]
    have : ∀ l : List (List Char), (l.map fun c => 100 * f.val c j / S).sum * S = 100 * (l.map fun c => f.val c j).sum := by
      intro l
      induction l with
      | nil => simp
      | cons c l ih =>
        rw [List.map_cons, List.map_cons, List.sum_cons, List.sum_cons, add_mul, ih, div_mul_cancel₀ _ hs, mul_add]
    exact this _
  refine ⟨hsum, fun hnd => ?_⟩
  have hsub : ∀ c ∈ order.take N, c ∈ compareColumns p := by
    intro c hc
    obtain ⟨i, hi, rfl⟩ := List.mem_iff_getElem.1 hc
    rw [List.length_take, Nat.min_eq_left hord] at hi
    obtain ⟨b, -, h2, h3, -⟩ := hb (N - 1 - i) (by omega)
    rw [show N - 1 - (N - 1 - i) = i by omega] at h2
    have e : (order.take N)[i] = factorName b.1 := by
      rw [List.getElem_take]
      exact (List.getElem?_eq_some_iff.1 h2).2
    rw [e]
    exact h3
  have hperm : (order.take N).Perm (compareColumns p) := by
    refine (List.subperm_of_subset hnd hsub).perm_of_length_le ?_
    rw [List.length_take, Nat.min_eq_left hord]
  have e : ((order.take N).map fun c => f.val c j).sum = S := (hperm.map _).sum_eq
  rw [e] at hsum
  exact mul_right_cancel₀ hs hsum

end

/-- Two factors, one feature; LS-NMF with exchanged factors. -/
def fpDemo : CompareObj 1 ℚ :=
  let f : ProfFrame 1 ℚ := ⟨["species".toList, factorName 1, factorName 2], fun c _ => if c = factorName 1 then 1 else 3⟩
  ⟨f, f, f, [factorName 2, factorName 1], [factorName 1, factorName 2]⟩

/-- The figures of the example. -/
example : (cmpFingerprints fpDemo (1 / 2) (-1)).map (fun figs => figs.map fun g => g.bars.map fun b => (b.1, b.2 0)) =
      some [[(2, some (75 : ℚ)), (1, some 25)], [(1, some 25), (2, some 75)], [(2, some 75), (1, some 25)]] ∧
    (cmpFingerprints fpDemo (1 / 2) (-1)).map (fun figs => figs.map FpFigure.r2) = some [none, some (1 / 2), none] := by
  decide +kernel

end Esat
