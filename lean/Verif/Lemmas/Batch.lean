import Verif.Model.Batch
import Mathlib.Data.List.Perm.Basic
import Mathlib.Data.List.Range
import Mathlib.Tactic.Tauto
import Mathlib.Tactic.SplitIfs
import Mathlib.Order.Basic

/-!
# Lemmas about the batch model
-/

namespace Esat

section
variable {σ α K G : Type*} [LinearOrder K]

/-- Reference: train models `i, i+1, …` one after the other; `none` if anything raises. -/
def trainAll (E : BatchEnv σ α K G) (H W : ℕ → Option (Option (FArg α))) (hold : Bool) (delay : ℤ) :
    ℕ → ℕ → G → Option (List σ)
  | 0, _, _ => some []
  | n + 1, i, g =>
    (H i).bind fun h => (W i).bind fun w => (E.init (E.draw g).1 h w).bind fun s =>
      (E.train i hold delay s).bind fun s' =>
        (trainAll E H W hold delay n (i + 1) (E.draw g).2).map fun l => s' :: l

/-- Best-model bookkeeping over a list of losses. -/
def bestAll : List (QV K) → ℕ → Option K × ℤ → Option (Option K × ℤ)
  | [], _, b => some b
  | q :: qs, i, b => (bestStep q i b).bind fun b' => bestAll qs (i + 1) b'

/-- Pairs with consecutive numbers. -/
def number {β : Type*} : ℕ → List β → List (ℕ × β)
  | _, [] => []
  | i, x :: l => (i, x) :: number (i + 1) l

theorem number_length {β : Type*} (l : List β) : ∀ i, (number i l).length = l.length := by
  induction l with
  | nil => intro i; rfl
  | cons x l ih => intro i; simp [number, ih]

theorem trainAll_length (E : BatchEnv σ α K G) (H W : ℕ → Option (Option (FArg α))) (hold : Bool) (delay : ℤ) :
    ∀ n i g l, trainAll E H W hold delay n i g = some l → l.length = n := by
  intro n
  induction n with
  | zero => intro i g l h; simp [trainAll] at h; simp [← h]
  | succ n ih =>
    intro i g l h
    simp only [trainAll, Option.bind_eq_some_iff, Option.map_eq_some_iff] at h
    obtain ⟨_, _, _, _, _, _, s', _, l', hl', rfl⟩ := h
    simp [ih _ _ _ hl']

/-! ## The pool -/

theorem slots_foldl {γ : Type*} (v : ℕ → Option γ) (order : List ℕ) :
    ∀ (sl : List (Option γ)) (t : ℕ), (order.foldl (fun sl t => sl.set t (v t)) sl)[t]? =
      if t < sl.length then (if t ∈ order then some (v t) else sl[t]?) else none := by
  induction order with
  | nil =>
    intro sl t
    simp only [List.foldl_nil, List.not_mem_nil, if_false]
    split
    · rfl
    · exact List.getElem?_eq_none (by omega)
  | cons a order ih =>
    intro sl t
    rw [List.foldl_cons, ih, List.length_set]
    by_cases ht : t < sl.length
    · simp only [if_pos ht, List.mem_cons]
      by_cases h1 : t ∈ order
      · simp [h1]
      · simp only [h1, if_false, or_false]
        by_cases h2 : t = a
        · subst h2
          simp [ht]
        · rw [if_neg h2, List.getElem?_set_ne (Ne.symm h2)]
    · simp [ht]

theorem mapM_id_map {β γ : Type*} (f : β → Option γ) (l : List β) : (l.map f).mapM id = l.mapM f := by
  induction l with
  | nil => rfl
  | cons x l ih => simp [List.mapM_cons, ih]

/-- The pool returns the task results in task order, whatever the completion order. -/
theorem starmap_eq {β γ : Type*} (f : β → Option γ) (tasks : List β) (order : List ℕ)
    (h : ∀ t < tasks.length, t ∈ order) : starmap f tasks order = tasks.mapM f := by
  have : order.foldl (fun (sl : List (Option γ)) t => sl.set t ((tasks[t]?).bind f)) (tasks.map fun _ => none)
      = tasks.map f := by
    apply List.ext_getElem?
    intro t
    rw [slots_foldl (fun t => (tasks[t]?).bind f), List.length_map]
    by_cases ht : t < tasks.length
    · simp [ht, h t ht]
    · simp [ht]
  unfold starmap
  simp only [this]
  exact mapM_id_map f tasks

theorem prepare_mapM (E : BatchEnv σ α K G) (cfg : BatchCfg α) : ∀ n i g,
    (prepare E cfg n i g).1.bind (fun tasks => tasks.mapM (trainTask E cfg)) =
      (trainAll E (sliceArg cfg.H) (sliceArg cfg.W) cfg.holdH cfg.delayH n i g).map (number i) := by
  intro n
  induction n with
  | zero => intro i g; rfl
  | succ n ih =>
    intro i g
    have := ih (i + 1) (E.draw g).2
    simp only [prepare, trainAll]
    cases hH : sliceArg cfg.H i with
    | none => rfl
    | some h =>
      cases hW : sliceArg cfg.W i with
      | none => rfl
      | some w =>
        simp only [Option.bind_some]
        cases hI : E.init (E.draw g).1 h w with
        | none => rfl
        | some s =>
          simp only [Option.bind_some]
          cases hp : prepare E cfg n (i + 1) (E.draw g).2 with
          | mk o g' =>
            rw [hp] at this
            cases o with
            | none =>
              simp only [Option.bind_none] at this
              simp only [Option.bind_none]
              cases hT : E.train i cfg.holdH cfg.delayH s with
              | none => rfl
              | some s' =>
                cases ha : trainAll E (sliceArg cfg.H) (sliceArg cfg.W) cfg.holdH cfg.delayH n (i + 1) (E.draw g).2 with
                | none => simp
                | some l => rw [ha] at this; simp at this
            | some l =>
              simp only [Option.bind_some, List.mapM_cons, trainTask] at this ⊢
              cases hT : E.train i cfg.holdH cfg.delayH s with
              | none => simp
              | some s' =>
                simp only [Option.map_some, Option.bind_some]
                have this' : l.mapM (trainTask E cfg) = _ := this
                simp only [Option.bind_eq_bind, Option.bind_some, Option.pure_def]
                rw [this']
                cases trainAll E (sliceArg cfg.H) (sliceArg cfg.W) cfg.holdH cfg.delayH n (i + 1) (E.draw g).2 <;> rfl

/-- `collectResults` over numbered models. -/
theorem collect_number (E : BatchEnv σ α K G) (cfg : BatchCfg α) (l : List σ) : ∀ (pre : List (Option σ)) (i : ℕ)
    (b : Option K × ℤ), i = pre.length + 1 →
    collectResults E cfg (number i l) (pre ++ List.replicate (l.length + 1) none) b =
      (bestAll (l.map (batchQ E cfg)) i b).map fun b' => (pre ++ l.map some ++ [none], b'.2) := by
  induction l with
  | nil => intro pre i b _; simp [number, collectResults, bestAll]
  | cons s l ih =>
    intro pre i b hi
    simp only [number, collectResults, List.map_cons, bestAll]
    cases hb : bestStep (batchQ E cfg s) i b with
    | none => rfl
    | some b' =>
      simp only [Option.bind_some]
      have e : (pre ++ List.replicate ((s :: l).length + 1) none).set (i - 1) (some s)
          = (pre ++ [some s]) ++ List.replicate (l.length + 1) none := by
        rw [hi, Nat.add_sub_cancel, List.set_append_right _ _ (le_refl _), Nat.sub_self]
        simp [List.replicate_succ]
      rw [e, ih (pre ++ [some s]) (i + 1) b' (by simp [hi])]
      simp

theorem seqLoop_some (E : BatchEnv σ α K G) (cfg : BatchCfg α) (tooLong : ℕ → Bool) : ∀ n i rs b g bf rs',
    (seqLoop E cfg tooLong n i rs b g).1 = (some bf, rs') →
    ∃ l b', trainAll E (fun _ => some cfg.H) (fun _ => some cfg.W) cfg.holdH (-1) n i g = some l ∧
      bestAll (l.map (batchQ E cfg)) i b = some b' ∧ b'.2 = bf ∧ rs' = rs ++ l.map some := by
  intro n
  induction n with
  | zero =>
    intro i rs b g bf rs' h
    simp only [seqLoop, Prod.mk.injEq, Option.some.injEq] at h
    exact ⟨[], b, rfl, rfl, h.1, by simp [h.2]⟩
  | succ n ih =>
    intro i rs b g bf rs' h
    simp only [seqLoop] at h
    split at h
    · simp at h
    · rename_i s hs
      split at h
      · simp at h
      · rename_i s' hs'
        split at h
        · simp at h
        · split at h
          · simp at h
          · rename_i b1 hb1
            obtain ⟨l, b', h1, h2, h3, h4⟩ := ih _ _ _ _ _ _ h
            refine ⟨s' :: l, b', ?_, ?_, h3, by simp [h4]⟩
            · simp [trainAll, hs, hs', h1]
            · simp [bestAll, hb1, h2]

theorem seqLoop_of (E : BatchEnv σ α K G) (cfg : BatchCfg α) (tooLong : ℕ → Bool) (ht : ∀ i, tooLong i = false) :
    ∀ n i rs b g l b', trainAll E (fun _ => some cfg.H) (fun _ => some cfg.W) cfg.holdH (-1) n i g = some l →
      bestAll (l.map (batchQ E cfg)) i b = some b' →
      (seqLoop E cfg tooLong n i rs b g).1 = (some b'.2, rs ++ l.map some) := by
  intro n
  induction n with
  | zero =>
    intro i rs b g l b' h1 h2
    simp only [trainAll, Option.some.injEq] at h1
    subst h1
    simp only [List.map_nil, bestAll, Option.some.injEq] at h2
    simp [seqLoop, h2]
  | succ n ih =>
    intro i rs b g l b' h1 h2
    simp only [trainAll, Option.bind_some, Option.bind_eq_some_iff, Option.map_eq_some_iff] at h1
    obtain ⟨s, hs, s', hs', l', hl', rfl⟩ := h1
    simp only [List.map_cons, bestAll, Option.bind_eq_some_iff] at h2
    obtain ⟨b1, hb1, h2⟩ := h2
    simp [seqLoop, hs, hs', ht, hb1, ih _ _ _ _ _ _ hl' h2]

/-! ## The best model -/

/-- `b` records the first minimum of the numbers among `pre`. -/
def BestInv (pre : List (QV K)) (b : Option K × ℤ) : Prop :=
  (b = (none, -1) ∧ ∀ q ∈ pre, q = .nan) ∨
  ∃ (t : ℕ) (x : K), b = (some x, (t : ℤ) + 1) ∧ pre[t]? = some (.val x) ∧
    ∀ u y, pre[u]? = some (.val y) → x ≤ y ∧ (u < t → x < y)

theorem bestAll_spec (qs : List (QV K)) : ∀ (pre : List (QV K)) (b : Option K × ℤ) (i : ℕ), i = pre.length + 1 →
    BestInv pre b →
    ((∃ b', bestAll qs i b = some b') ↔ ∀ q ∈ qs, q ≠ .unset) ∧
    ∀ b', bestAll qs i b = some b' → BestInv (pre ++ qs) b' := by
  induction qs with
  | nil =>
    intro pre b i _ hb
    refine ⟨by simp [bestAll], fun b' h => ?_⟩
    simp only [bestAll, Option.some.injEq] at h
    simpa [← h] using hb
  | cons q qs ih =>
    intro pre b i hi hb
    have key : (q = .unset ∧ bestStep q i b = none) ∨ q ≠ .unset ∧ ∃ b1, bestStep q i b = some b1 ∧ BestInv (pre ++ [q]) b1 := by
      cases q with
      | unset => left; simp [bestStep, qLess]
      | nan =>
        right
        refine ⟨by simp, b, by simp [bestStep, qLess], ?_⟩
        rcases hb with ⟨h1, h2⟩ | ⟨t, x, h1, h2, h3⟩
        · left
          refine ⟨h1, fun q hq => ?_⟩
          rcases List.mem_append.1 hq with h | h
          · exact h2 q h
          · simpa using h
        · right
          have ht : t < pre.length := (List.getElem?_eq_some_iff.1 h2).1
          refine ⟨t, x, h1, by rw [List.getElem?_append_left ht]; exact h2, fun u y hu => ?_⟩
          by_cases hul : u < pre.length
          · rw [List.getElem?_append_left hul] at hu
            exact h3 u y hu
          · rw [List.getElem?_append_right (not_lt.1 hul)] at hu
            rcases hk : u - pre.length with _ | k <;> simp [hk] at hu
      | val v =>
        right
        have hnew : (b.1 = none ∨ ∃ x, b.1 = some x ∧ v < x) → BestInv (pre ++ [.val v]) (some v, (i : ℤ)) := by
          intro hlt
          right
          refine ⟨pre.length, v, by simp [hi], by simp, fun u y hu => ?_⟩
          by_cases hul : u < pre.length
          · rw [List.getElem?_append_left hul] at hu
            rcases hb with ⟨h1, h2⟩ | ⟨t, x, h1, h2, h3⟩
            · have := h2 _ (List.mem_of_getElem? hu)
              simp at this
            · rcases hlt with h | ⟨x', hx', hlt⟩
              · simp [h1] at h
              · simp only [h1, Option.some.injEq] at hx'
                subst hx'
                have := h3 u y hu
                exact ⟨(hlt.trans_le this.1).le, fun _ => hlt.trans_le this.1⟩
          · rw [List.getElem?_append_right (not_lt.1 hul)] at hu
            rcases hk : u - pre.length with _ | k <;> simp [hk] at hu
            exact ⟨hu ▸ le_rfl, fun h => absurd h hul⟩
        refine ⟨by simp, ?_⟩
        rcases hb1 : b.1 with _ | x
        · refine ⟨(some v, (i : ℤ)), by simp [bestStep, qLess, hb1], hnew (.inl hb1)⟩
        · by_cases hlt : v < x
          · exact ⟨(some v, (i : ℤ)), by simp [bestStep, qLess, hb1, hlt], hnew (.inr ⟨x, hb1, hlt⟩)⟩
          · refine ⟨b, by simp [bestStep, qLess, hb1, hlt], ?_⟩
            rcases hb with ⟨h1, h2⟩ | ⟨t, x', h1, h2, h3⟩
            · simp [h1] at hb1
            · right
              have hxx : x' = x := by simpa [h1] using hb1
              subst hxx
              have ht : t < pre.length := (List.getElem?_eq_some_iff.1 h2).1
              refine ⟨t, x', h1, by rw [List.getElem?_append_left ht]; exact h2, fun u y hu => ?_⟩
              by_cases hul : u < pre.length
              · rw [List.getElem?_append_left hul] at hu
                exact h3 u y hu
              · rw [List.getElem?_append_right (not_lt.1 hul)] at hu
                rcases hk : u - pre.length with _ | k <;> simp [hk] at hu
                exact ⟨hu ▸ not_lt.1 hlt, fun h => absurd (h.trans ht) hul⟩
    rcases key with ⟨hq, hk⟩ | ⟨hq, b1, hk, hI⟩
    · constructor
      · subst hq
        simp [bestAll, hk]
      · intro b' h; simp [bestAll, hk] at h
    · have := ih (pre ++ [q]) b1 (i + 1) (by simp [hi]) hI
      rw [List.append_assoc, List.singleton_append] at this
      simp only [bestAll, hk, Option.bind_some]
      refine ⟨?_, this.2⟩
      rw [this.1]
      simp [hq]

end

end Esat
