import Verif.Model.BestMatch
import Verif.Props.FactorCompare

/-!
# The best match of each base factor (C222)
-/

namespace Esat

section C222
variable {K : Type*} [LinearOrder K]

/-- C222: correlation and mass correlation. The column is -1 exactly if no value is positive, the value then being 0; otherwise the value is the
largest one, it is positive, and the column is the first one that has it. Values that are NaN are passed over. -/
theorem C222_up [Zero K] (vals : List (Option K)) :
    ((bestUp vals).2 = -1 ↔ ∀ x, some x ∈ vals → x ≤ 0) ∧ ((bestUp vals).2 = -1 → (bestUp vals).1 = 0) ∧
    ((bestUp vals).2 ≠ -1 → ∃ q : ℕ, (bestUp vals).2 = q ∧ vals[q]? = some (some (bestUp vals).1) ∧ 0 < (bestUp vals).1 ∧
      (∀ x, some x ∈ vals → x ≤ (bestUp vals).1) ∧ ∀ q' < q, ∀ x, vals[q']? = some (some x) → x < (bestUp vals).1) := by
  have key : ((bestUp vals).2 = -1 ∧ (bestUp vals).1 = 0 ∧ ∀ x, some x ∈ vals → x ≤ 0) ∨
      ∃ q : ℕ, (bestUp vals).2 = q ∧ vals[q]? = some (some (bestUp vals).1) ∧ 0 < (bestUp vals).1 ∧
        (∀ x, some x ∈ vals → x ≤ (bestUp vals).1) ∧ ∀ q' < q, ∀ x, vals[q']? = some (some x) → x < (bestUp vals).1 := by
    induction vals using List.reverseRecOn with
    | nil => left; simp [bestUp]
    | append_singleton l v ih =>
      have hstep : bestUp (l ++ [v]) = match v with
          | some x => if (bestUp l).1 < x then (x, (l.length : ℤ)) else bestUp l
          | none => bestUp l := by
        unfold bestUp
        rw [List.zipIdx_append, List.foldl_append]
        simp only [List.zipIdx_singleton, List.foldl_cons, List.foldl_nil, Nat.zero_add]
        cases v <;> rfl
      have keep : (∀ x, v = some x → x ≤ (bestUp l).1) → bestUp (l ++ [v]) = bestUp l := by
        intro h
        rw [hstep]
        cases v with
        | none => rfl
        | some x => exact if_neg (not_lt.2 (h x rfl))
      by_cases hv : ∀ x, v = some x → x ≤ (bestUp l).1
      · rw [keep hv]
        rcases ih with ⟨h1, h2, h3⟩ | ⟨q, h1, h2, h3, h4, h5⟩
        · left
          refine ⟨h1, h2, fun x hx => ?_⟩
          rcases List.mem_append.1 hx with hx | hx
          · exact h3 x hx
          · rw [← h2]; exact hv x (List.mem_singleton.1 hx).symm
        · right
          obtain ⟨hq, -⟩ := List.getElem?_eq_some_iff.1 h2
          refine ⟨q, h1, by rw [List.getElem?_append_left hq]; exact h2, h3, fun x hx => ?_, fun q' hq' x hx => ?_⟩
          · rcases List.mem_append.1 hx with hx | hx
            · exact h4 x hx
            · exact hv x (List.mem_singleton.1 hx).symm
          · rw [List.getElem?_append_left (by omega)] at hx
            exact h5 q' hq' x hx
      · push Not at hv
        obtain ⟨x, rfl, hx⟩ := hv
        have e : bestUp (l ++ [some x]) = (x, (l.length : ℤ)) := by rw [hstep]; exact if_pos hx
        rw [e]
        have hb : 0 ≤ (bestUp l).1 ∧ ∀ y, some y ∈ l → y ≤ (bestUp l).1 := by
          rcases ih with ⟨h1, h2, h3⟩ | ⟨q, h1, h2, h3, h4, h5⟩
          · rw [h2]; exact ⟨le_rfl, h3⟩
          · exact ⟨h3.le, h4⟩
        right
        refine ⟨l.length, rfl, by simp, lt_of_le_of_lt hb.1 hx, fun y hy => ?_, fun q' hq' y hy => ?_⟩
        · rcases List.mem_append.1 hy with hy | hy
          · exact (hb.2 y hy).trans hx.le
          · exact (Option.some.inj (List.mem_singleton.1 hy)).le
        · rw [List.getElem?_append_left hq'] at hy
          exact lt_of_le_of_lt (hb.2 y (List.mem_of_getElem? hy)) hx
  rcases key with ⟨h1, h2, h3⟩ | ⟨q, h1, h2, h3, h4, h5⟩
  · exact ⟨⟨fun _ => h3, fun _ => h1⟩, fun _ => h2, fun h => absurd h1 h⟩
  · have hne : (bestUp vals).2 ≠ -1 := by rw [h1]; omega
    refine ⟨⟨fun h => absurd h hne, fun h => ?_⟩, fun h => absurd h hne, fun _ => ⟨q, h1, h2, h3, h4, h5⟩⟩
    exact absurd (h _ (List.mem_of_getElem? h2)) (not_le.2 h3)

/-- C222: relative error. The column is -1 exactly if no value is a number; otherwise the value is the smallest one and the column the first that
has it. -/
theorem C222_down (vals : List (Option K)) :
    ((bestDown vals).2 = -1 ↔ ∀ x, some x ∉ vals) ∧
    ((bestDown vals).2 ≠ -1 → ∃ (q : ℕ) (b : K), bestDown vals = (some b, (q : ℤ)) ∧ vals[q]? = some (some b) ∧
      (∀ x, some x ∈ vals → b ≤ x) ∧ ∀ q' < q, ∀ x, vals[q']? = some (some x) → b < x) := by
  have key : (bestDown vals = (none, -1) ∧ ∀ x, some x ∉ vals) ∨
      ∃ (q : ℕ) (b : K), bestDown vals = (some b, (q : ℤ)) ∧ vals[q]? = some (some b) ∧
        (∀ x, some x ∈ vals → b ≤ x) ∧ ∀ q' < q, ∀ x, vals[q']? = some (some x) → b < x := by
    induction vals using List.reverseRecOn with
    | nil => left; simp [bestDown]
    | append_singleton l v ih =>
      have hstep : bestDown (l ++ [v]) = match v, (bestDown l).1 with
          | some x, some b => if x < b then (some x, (l.length : ℤ)) else bestDown l
          | some x, none => (some x, (l.length : ℤ))
          | none, _ => bestDown l := by
        unfold bestDown
        rw [List.zipIdx_append, List.foldl_append]
        simp only [List.zipIdx_singleton, List.foldl_cons, List.foldl_nil, Nat.zero_add]
        rfl
      cases v with
      | none =>
        rw [hstep]
        dsimp only
        rcases ih with ⟨h1, h2⟩ | ⟨q, b, h1, h2, h3, h4⟩
        · left
          exact ⟨h1, fun x hx => by simp at hx; exact h2 x hx⟩
        · right
          obtain ⟨hq, -⟩ := List.getElem?_eq_some_iff.1 h2
          refine ⟨q, b, h1, by rw [List.getElem?_append_left hq]; exact h2, fun x hx => h3 x (by simpa using hx), fun q' hq' x hx => ?_⟩
          rw [List.getElem?_append_left (by omega)] at hx
          exact h4 q' hq' x hx
      | some x =>
        right
        rcases ih with ⟨h1, h2⟩ | ⟨q, b, h1, h2, h3, h4⟩
        · refine ⟨l.length, x, by rw [hstep, h1], by simp, fun y hy => ?_, fun q' hq' y hy => ?_⟩
          · rcases List.mem_append.1 hy with hy | hy
            · exact absurd hy (h2 y)
            · exact (Option.some.inj (List.mem_singleton.1 hy)).ge
          · rw [List.getElem?_append_left hq'] at hy
            exact absurd (List.mem_of_getElem? hy) (h2 y)
        · obtain ⟨hq, -⟩ := List.getElem?_eq_some_iff.1 h2
          by_cases hx : x < b
          · refine ⟨l.length, x, by rw [hstep, h1]; exact if_pos hx, by simp, fun y hy => ?_, fun q' hq' y hy => ?_⟩
            · rcases List.mem_append.1 hy with hy | hy
              · exact hx.le.trans (h3 y hy)
              · exact (Option.some.inj (List.mem_singleton.1 hy)).ge
            · rw [List.getElem?_append_left hq'] at hy
              exact lt_of_lt_of_le hx (h3 y (List.mem_of_getElem? hy))
          · refine ⟨q, b, by rw [hstep, h1]; exact if_neg hx, by rw [List.getElem?_append_left hq]; exact h2, fun y hy => ?_, fun q' hq' y hy => ?_⟩
            · rcases List.mem_append.1 hy with hy | hy
              · exact h3 y hy
              · rw [Option.some.inj (List.mem_singleton.1 hy)]; exact not_lt.1 hx
            · rw [List.getElem?_append_left (by omega)] at hy
              exact h4 q' hq' y hy
  rcases key with ⟨h1, h2⟩ | ⟨q, b, h1, h2, h3, h4⟩
  · exact ⟨⟨fun _ => h2, fun _ => by rw [h1]⟩, fun h => absurd (by rw [h1]) h⟩
  · have hne : (bestDown vals).2 ≠ -1 := by rw [h1]; show (q : ℤ) ≠ -1; omega
    exact ⟨⟨fun h => absurd h hne, fun h => absurd (List.mem_of_getElem? h2) (h b)⟩, fun _ => ⟨q, b, h1, h2, h3, h4⟩⟩

/-- C222, **Disagreement** between the two maps of the class: if base factor `j` and model factor `c j` are each other's unique best match, then the
column kept here is `c j`, while `determine_map` returns `c.symm j`. -/
theorem C222_direction {K : Type*} [Field K] [LinearOrder K] [IsStrictOrderedRing K] {N : ℕ} (A : Mat (N + 1) (N + 1) K) (c : Fin (N + 1) ≃ Fin (N + 1)) (hrow : ∀ j b, b ≠ c j → A j (c j) < A j b)
    (hcol : ∀ j j', j' ≠ j → A j (c j) < A j' (c j)) (rnd : K → K)
    (matching : Mat (N + 1) (N + 1) K → Option (Fin (N + 1) → Fin (N + 1))) :
    (∀ j, (bestDown (List.ofFn fun b => some (A j b))).2 = (c j).1) ∧
    ∃ vals, determineMap ltB rnd matching A = some (⇑c.symm, vals) := by
  constructor
  · intro j
    obtain ⟨h1, h2⟩ := C222_down (List.ofFn fun b => some (A j b))
    have hne : (bestDown (List.ofFn fun b => some (A j b))).2 ≠ -1 := fun h =>
      h1.1 h (A j (c j)) (List.mem_ofFn.2 ⟨c j, rfl⟩)
    obtain ⟨q, b, h3, h4, h5, -⟩ := h2 hne
    rw [h3]
    obtain ⟨hq, h6⟩ := List.getElem?_eq_some_iff.1 h4
    rw [List.getElem_ofFn] at h6
    rw [List.length_ofFn] at hq
    have h7 := h5 (A j (c j)) (List.mem_ofFn.2 ⟨c j, rfl⟩)
    by_contra hqc
    have h8 := hrow j ⟨q, hq⟩ (fun h => hqc (by rw [← h]))
    rw [Option.some.inj h6] at h8
    exact absurd h7 (not_le.2 h8)
  · obtain ⟨vals, h, -⟩ := C67_returns_inverse rnd matching A c hcol
    exact ⟨vals, h⟩

/-- Three factors, the model a rotated copy: the rows say 1, 2, 0, and the hypotheses hold; of a row with NaN and no positive value nothing is kept. -/
example : (∀ j b, b ≠ rot3 j → rotMetric j (rot3 j) < rotMetric j b) ∧ (∀ j j', j' ≠ j → rotMetric j (rot3 j) < rotMetric j' (rot3 j)) ∧
    bestUp [none, some (-1 : ℚ), some 0] = (0, -1) ∧ bestUp [none, some (1 / 2 : ℚ), some (1 / 2)] = (1 / 2, 1) ∧
    bestDown [none, some (1 / 2 : ℚ), some (1 / 4), some (1 / 4)] = (some (1 / 4), 2) := by decide +kernel

end C222

end Esat
