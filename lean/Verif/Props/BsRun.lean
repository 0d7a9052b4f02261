import Verif.Model.BsRun
import Verif.Lemmas.PyDict
import Verif.Model.Bootstrap
import Verif.Props.Quantile
import Mathlib.Data.List.Perm.Basic
import Mathlib.Tactic.Linarith

/-!
# C181–C182: process pools and the bootstrap runs
-/

namespace Esat

/-! ### C181: process pools -/

theorem poolStarts_iff (p : ℤ) : poolStarts p = true ↔ 1 ≤ p := decide_eq_true_iff

/-- **C181.** Every parallel method with its default number of processes starts exactly on machines with at least two processors, except the
displacement, which always starts. -/
theorem C181_default (cpu : ℕ) (h : 1 ≤ cpu) (c : ℤ) (hc : c ≤ 0) :
    poolStarts (displacementPool cpu c) = true ∧
    (poolStarts (bootstrapPool cpu c) = true ↔ 2 ≤ cpu) ∧ (poolStarts (bsDispPool cpu c) = true ↔ 2 ≤ cpu) ∧
    (poolStarts (bsDispBootstrapPool cpu c) = true ↔ 2 ≤ cpu) ∧ (poolStarts (estimatorPool cpu) = true ↔ 2 ≤ cpu) ∧
    (poolStarts (perturbationPool cpu) = true ↔ 2 ≤ cpu) ∧ (poolStarts (comparePool cpu) = true ↔ 2 ≤ cpu) := by
  simp only [poolStarts_iff, displacementPool, bootstrapPool, bsDispPool, bsDispBootstrapPool, estimatorPool, perturbationPool, comparePool,
    threeQuarters, if_neg (not_lt.2 hc), if_neg (show ¬ (0 : ℤ) < -1 by norm_num)]
  refine ⟨le_max_right _ _, ?_, ?_, ?_, ?_, ?_, ?_⟩ <;> omega

/-- **C181.** A positive number of processes is used as given by bootstrap and displacement, even above the number of processors.

**Disagreement.** `BSDISP(cores=…)` has no effect: the pool of the displacement stage, the pools of the displacements that are run one after
another and the pool of its bootstrap are the same for all values of `cores`, and may be larger than it. -/
theorem C181_given (cpu : ℕ) (c : ℤ) (hc : 0 < c) :
    displacementPool cpu c = c ∧ bootstrapPool cpu c = c ∧
    (∀ c', bsDispPool cpu c = bsDispPool cpu c' ∧ bsDispBootstrapPool cpu c = bsDispBootstrapPool cpu c') ∧
    (bsDispCores cpu c < bsDispPool cpu c ↔ c < threeQuarters cpu) := by
  refine ⟨if_pos hc, if_pos hc, fun _ => ⟨rfl, rfl⟩, ?_⟩
  unfold bsDispCores bsDispPool
  rw [if_pos hc]
  omega

/-- **C181.** No default pool is larger than the number of processors. -/
theorem C181_bound (cpu : ℕ) (h : 1 ≤ cpu) (c : ℤ) (hc : c ≤ 0) :
    displacementPool cpu c ≤ cpu ∧ bootstrapPool cpu c ≤ cpu ∧ bsDispPool cpu c ≤ cpu ∧ estimatorPool cpu ≤ cpu ∧
      perturbationPool cpu ≤ cpu ∧ comparePool cpu ≤ cpu ∧ bsDispCores cpu c ≤ cpu := by
  simp only [displacementPool, bootstrapPool, bsDispPool, estimatorPool, perturbationPool, comparePool, threeQuarters, bsDispCores,
    if_neg (not_lt.2 hc)]
  refine ⟨?_, ?_, ?_, ?_, ?_, ?_, ?_⟩ <;> omega

/-- One processor and four. -/
example : bootstrapPool 1 (-1) = 0 ∧ perturbationPool 1 = 0 ∧ displacementPool 1 (-1) = 1 ∧ bsDispCores 8 2 = 2 ∧ bsDispPool 8 2 = 6 := by
  decide

/-! ### Dictionaries -/

section dict
variable {κ β : Type*} [DecidableEq κ]

theorem dictGet_cons (p : κ × β) (d : PyDict κ β) (k : κ) : dictGet (p :: d) k = if p.1 = k then some p.2 else dictGet d k := by
  unfold dictGet
  by_cases h : p.1 = k
  · rw [List.find?_cons_of_pos (by simpa using h), if_pos h]; rfl
  · rw [List.find?_cons_of_neg (by simpa using h), if_neg h]

theorem dictGet_append (d e : PyDict κ β) (k : κ) : dictGet (d ++ e) k = (dictGet d k).or (dictGet e k) := by
  induction d with
  | nil => simp [dictGet]
  | cons p d ih =>
    rw [List.cons_append, dictGet_cons, dictGet_cons, ih]
    split_ifs <;> simp

theorem dictGet_none_iff (d : PyDict κ β) (k : κ) : dictGet d k = none ↔ k ∉ d.map Prod.fst := by
  induction d with
  | nil => simp [dictGet]
  | cons p d ih =>
    rw [dictGet_cons]
    split_ifs with h
    · simp [h]
    · rw [ih, List.map_cons, List.mem_cons, not_or]
      exact ⟨fun h2 => ⟨fun e => h e.symm, h2⟩, fun h2 => h2.2⟩

theorem dictSet_keys (d : PyDict κ β) (k : κ) (v : β) :
    (dictSet d k v).map Prod.fst = if k ∈ d.map Prod.fst then d.map Prod.fst else d.map Prod.fst ++ [k] := by
  unfold dictSet
  have hi : (d.any fun p => decide (p.1 = k)) = true ↔ k ∈ d.map Prod.fst := by
    rw [List.any_eq_true, List.mem_map]
    constructor
    · rintro ⟨p, hp, e⟩; exact ⟨p, hp, by simpa using e⟩
    · rintro ⟨p, hp, e⟩; exact ⟨p, hp, by simpa using e⟩
  by_cases h : k ∈ d.map Prod.fst
  · rw [if_pos h, if_pos (hi.2 h), List.map_map]
    apply List.map_congr_left
    intro p _
    by_cases hp : p.1 = k
    · simp [hp]
    · simp [hp]
  · rw [if_neg h, if_neg (fun e => h (hi.1 e))]
    simp

theorem mem_iff_dictGet (d : PyDict κ β) (hd : (d.map Prod.fst).Nodup) (p : κ × β) : p ∈ d ↔ dictGet d p.1 = some p.2 := by
  induction d with
  | nil => simp [dictGet]
  | cons q d ih =>
    rw [List.map_cons, List.nodup_cons] at hd
    rw [dictGet_cons, List.mem_cons, ih hd.2]
    by_cases h : q.1 = p.1
    · rw [if_pos h]
      constructor
      · rintro (rfl | h2)
        · rfl
        · exact absurd ((dictGet_none_iff d p.1).2 (h ▸ hd.1)) (by rw [h2]; simp)
      · intro e
        left
        exact Prod.ext h.symm (Option.some.inj e).symm
    · rw [if_neg h]
      constructor
      · rintro (rfl | h2)
        · exact absurd rfl h
        · exact h2
      · exact .inr

/-- Two dictionaries with the same entries differ only in the order. -/
theorem dict_perm (d e : PyDict κ β) (hd : (d.map Prod.fst).Nodup) (he : (e.map Prod.fst).Nodup) (h : ∀ k, dictGet d k = dictGet e k) :
    d.Perm e := by
  rw [List.perm_ext_iff_of_nodup (List.Nodup.of_map _ hd) (List.Nodup.of_map _ he)]
  intro p
  rw [mem_iff_dictGet d hd, mem_iff_dictGet e he, h]

theorem foldl_dictSet_nodup (l : List (κ × β)) (d : PyDict κ β) (hd : (d.map Prod.fst).Nodup) :
    ((l.foldl (fun d r => dictSet d r.1 r.2) d).map Prod.fst).Nodup := by
  induction l generalizing d with
  | nil => exact hd
  | cons p l ih => exact ih _ (dictSet_nodup _ hd _ _)

theorem foldl_dictSet_get (l : List (κ × β)) (hl : (l.map Prod.fst).Nodup) (d : PyDict κ β) (k : κ) :
    dictGet (l.foldl (fun d r => dictSet d r.1 r.2) d) k = (dictGet l k).or (dictGet d k) := by
  induction l generalizing d with
  | nil => simp [dictGet]
  | cons p l ih =>
    rw [List.map_cons, List.nodup_cons] at hl
    rw [List.foldl_cons, ih hl.2, dictGet_dictSet, dictGet_cons]
    by_cases h : p.1 = k
    · rw [if_pos h.symm, if_pos h, (dictGet_none_iff l k).2 (h ▸ hl.1)]; rfl
    · rw [if_neg (Ne.symm h), if_neg h]

theorem foldl_dictSet_new (l : List (κ × β)) (d : PyDict κ β) (hl : (l.map Prod.fst).Nodup)
    (hd : ∀ k ∈ l.map Prod.fst, k ∉ d.map Prod.fst) : l.foldl (fun d r => dictSet d r.1 r.2) d = d ++ l := by
  induction l generalizing d with
  | nil => simp
  | cons p l ih =>
    rw [List.map_cons, List.nodup_cons] at hl
    have hp : dictSet d p.1 p.2 = d ++ [p] := by
      unfold dictSet
      rw [if_neg]
      intro h
      obtain ⟨q, hq, e⟩ := List.any_eq_true.1 h
      exact hd p.1 (by simp) (List.mem_map.2 ⟨q, hq, by simpa using e⟩)
    rw [List.foldl_cons, hp, ih (d ++ [p]) hl.2, List.append_assoc]
    · rfl
    · intro k hk
      rw [List.map_append, List.mem_append, not_or]
      refine ⟨hd k (by simp [hk]), ?_⟩
      simp only [List.map_cons, List.map_nil, List.mem_singleton]
      rintro rfl
      exact hl.1 hk

end dict

/-! ### C182: the bootstrap runs -/

section run
variable {G S D I M P Q : Type*}

/-- Seed of run `i` of a call of `run`, counted from one: the `i`-th draw from the generator. -/
def NthDraw (draw : G → S × G) (g : G) (i : ℕ) : S := (draw ((fun g => (draw g).2)^[i - 1] g)).1

/-- What run `i` should give. -/
def RunOf (E : BsEnv G S D I M P Q) (a : BsArgs) (g : G) (i : ℕ) (r : BsEntry I M Q) : Prop :=
  ∃ d, E.resample a.block a.overlapping (NthDraw E.draw g i) = some (d, r.index) ∧
    E.train (if a.reuseSeed then E.baseSeed else NthDraw E.draw g i) (if a.keepH then some E.baseH else none) d = some r.model ∧
    r.mapping = E.mapping r.model

theorem bsOne_some (E : BsEnv G S D I M P Q) (a : BsArgs) (g : G) (i : ℕ) (r : BsEntry I M Q) :
    bsOne E a (NthDraw E.draw g i) = some r ↔ RunOf E a g i r := by
  unfold bsOne RunOf
  generalize NthDraw E.draw g i = s
  rw [Option.bind_eq_some_iff]
  constructor
  · rintro ⟨d, hd, h⟩
    obtain ⟨m, hm, rfl⟩ := Option.map_eq_some_iff.1 h
    exact ⟨d.1, hd, hm, rfl⟩
  · rintro ⟨d, hd, hm, hq⟩
    refine ⟨(d, r.index), hd, ?_⟩
    rw [hm, Option.map_some, ← hq]

theorem bsTasks_eq (draw : G → S × G) (n i : ℕ) (g : G) :
    bsTasks draw n i g = ((List.range n).map fun t => (i + t, (draw ((fun g => (draw g).2)^[t] g)).1), (fun g => (draw g).2)^[n] g) := by
  induction n generalizing i g with
  | zero => rfl
  | succ n ih =>
    rw [bsTasks, ih, List.range_succ_eq_map, List.map_cons, List.map_map, Function.iterate_succ_apply]
    simp only [Function.iterate_zero, id, Nat.add_zero, Prod.mk.injEq, List.cons.injEq, true_and, and_true]
    apply List.map_congr_left
    intro t _
    simp only [Function.comp, Nat.succ_eq_add_one, Function.iterate_succ_apply, Prod.mk.injEq, and_true]
    omega

theorem bsSequential_ok (E : BsEnv G S D I M P Q) (a : BsArgs) (n i : ℕ) (o : BsObj G (BsEntry I M Q)) (r : ℕ → BsEntry I M Q)
    (h : ∀ t < n, bsOne E a (E.draw ((fun g => (E.draw g).2)^[t] o.rng)).1 = some (r (i + t))) :
    bsSequential E a n i o
      = (⟨(fun g => (E.draw g).2)^[n] o.rng, ((List.range n).map fun t => (i + t, r (i + t))).foldl (fun d r => dictSet d r.1 r.2) o.results⟩,
        true) := by
  induction n generalizing i o with
  | zero => rfl
  | succ n ih =>
    have h0 := h 0 (by omega)
    simp only [Function.iterate_zero, id, Nat.add_zero] at h0
    rw [bsSequential]
    simp only [h0]
    rw [ih (i + 1)]
    · rw [List.range_succ_eq_map, List.map_cons, List.map_map, List.foldl_cons]
      simp only [Function.iterate_succ_apply, Nat.add_zero]
      congr 3
      apply List.map_congr_left
      intro t _
      simp only [Function.comp, Nat.succ_eq_add_one]
      rw [show i + 1 + t = i + (t + 1) by omega]
    · intro t ht
      have := h (t + 1) (by omega)
      rw [Function.iterate_succ_apply] at this
      rw [show i + 1 + t = i + (t + 1) by omega]
      exact this

theorem bsSequential_fail (E : BsEnv G S D I M P Q) (a : BsArgs) (n i : ℕ) (o : BsObj G (BsEntry I M Q)) (r : ℕ → BsEntry I M Q) (f : ℕ)
    (hf : f < n) (h : ∀ t < f, bsOne E a (E.draw ((fun g => (E.draw g).2)^[t] o.rng)).1 = some (r (i + t)))
    (hn : bsOne E a (E.draw ((fun g => (E.draw g).2)^[f] o.rng)).1 = none) :
    bsSequential E a n i o
      = (⟨(fun g => (E.draw g).2)^[f + 1] o.rng, ((List.range f).map fun t => (i + t, r (i + t))).foldl (fun d r => dictSet d r.1 r.2) o.results⟩,
        false) := by
  induction n generalizing i o f with
  | zero => omega
  | succ n ih =>
    cases f with
    | zero =>
      simp only [Function.iterate_zero, id] at hn
      rw [bsSequential]
      simp only [hn]
      rfl
    | succ f =>
      have h0 := h 0 (by omega)
      simp only [Function.iterate_zero, id, Nat.add_zero] at h0
      rw [bsSequential]
      simp only [h0]
      rw [ih (i + 1) _ f (by omega)]
      · rw [List.range_succ_eq_map, List.map_cons, List.map_map, List.foldl_cons]
        simp only [Function.iterate_succ_apply, Nat.add_zero]
        congr 3
        apply List.map_congr_left
        intro t _
        simp only [Function.comp, Nat.succ_eq_add_one]
        rw [show i + 1 + t = i + (t + 1) by omega]
      · intro t ht
        have := h (t + 1) (by omega)
        rw [Function.iterate_succ_apply] at this
        rw [show i + 1 + t = i + (t + 1) by omega]
        exact this
      · rw [Function.iterate_succ_apply] at hn
        exact hn

theorem mapM_ok {α β : Type*} (f : α → Option β) (g : α → β) (l : List α) (h : ∀ x ∈ l, f x = some (g x)) : l.mapM f = some (l.map g) := by
  induction l with
  | nil => rfl
  | cons x l ih =>
    rw [List.mapM_cons, h x (by simp), ih fun y hy => h y (by simp [hy])]
    rfl

theorem mapM_fail {α β : Type*} (f : α → Option β) (l : List α) (x : α) (hx : x ∈ l) (h : f x = none) : l.mapM f = none := by
  induction l with
  | nil => cases hx
  | cons y l ih =>
    rw [List.mapM_cons]
    rcases List.mem_cons.1 hx with rfl | hx
    · rw [h]; rfl
    · rw [ih hx]
      cases f y <;> rfl

theorem draw_eq (draw : G → S × G) (g : G) (t : ℕ) : (draw ((fun g => (draw g).2)^[t] g)).1 = NthDraw draw g (1 + t) := by
  unfold NthDraw
  rw [show 1 + t - 1 = t by omega]

theorem range_get {β : Type*} (n : ℕ) (r : ℕ → β) (k : ℕ) :
    dictGet ((List.range n).map fun t => (1 + t, r (1 + t))) k = if 1 ≤ k ∧ k ≤ n then some (r k) else none := by
  have hnd : (((List.range n).map fun t => (1 + t, r (1 + t))).map Prod.fst).Nodup := by
    rw [List.map_map]
    exact List.Nodup.map (fun x y h => by simpa using h) List.nodup_range
  split_ifs with h
  · have : (k, r k) ∈ ((List.range n).map fun t => (1 + t, r (1 + t))) :=
      List.mem_map.2 ⟨k - 1, List.mem_range.2 (by omega), by rw [show 1 + (k - 1) = k by omega]⟩
    exact (mem_iff_dictGet _ hnd _).1 this
  · rw [dictGet_none_iff, List.map_map]
    intro hm
    obtain ⟨t, ht, e⟩ := List.mem_map.1 hm
    have := List.mem_range.1 ht
    simp only [Function.comp] at e
    omega

theorem bsParallel_eq (E : BsEnv G S D I M P Q) (a : BsArgs) (pool : ℤ) (n : ℕ) (sched : List (ℕ × S) → List (ℕ × S))
    (o : BsObj G (BsEntry I M Q)) (order : List (ℕ × S))
    (h : order = sched ((List.range n).map fun t => (t + 1, NthDraw E.draw o.rng (t + 1)))) :
    bsParallel E a pool n sched o = if poolStarts pool then
      match order.mapM fun t => (bsOne E a t.2).map fun r => (t.1, r) with
      | none => (⟨(fun g => (E.draw g).2)^[n] o.rng, o.results⟩, false)
      | some rs => (⟨(fun g => (E.draw g).2)^[n] o.rng, rs.foldl (fun d r => dictSet d r.1 r.2) o.results⟩, true)
    else (⟨(fun g => (E.draw g).2)^[n] o.rng, o.results⟩, false) := by
  have e : (bsTasks E.draw n 1 o.rng).1 = (List.range n).map fun t => (t + 1, NthDraw E.draw o.rng (t + 1)) := by
    rw [bsTasks_eq]
    apply List.map_congr_left
    intro t _
    simp only [Prod.mk.injEq]
    exact ⟨by omega, by unfold NthDraw; rfl⟩
  unfold bsParallel
  simp only [e, ← h]
  rw [bsTasks_eq]
  rfl

/-- **C182.** If all runs succeed, `parallel=True` gives the same as `parallel=False` in whatever order the workers finish: under the key `i`
the run with the `i`-th seed drawn from the generator, for `i = 1, …, bootstrap_n`; entries with other keys stay as they were; the
generator is left in the same state. Only the order of the entries may differ. -/
theorem C182_schedule (E : BsEnv G S D I M P Q) (a : BsArgs) (pool : ℤ) (hp : 1 ≤ pool) (n : ℕ) (o : BsObj G (BsEntry I M Q))
    (ho : (o.results.map Prod.fst).Nodup) (sched : List (ℕ × S) → List (ℕ × S))
    (hsched : ∀ l, (sched l).Perm l)
    (hok : ∀ i, 1 ≤ i → i ≤ n → ∃ r, RunOf E a o.rng i r) :
    ∃ os op : BsObj G (BsEntry I M Q), bsSequential E a n 1 o = (os, true) ∧ bsParallel E a pool n sched o = (op, true) ∧
      os.rng = op.rng ∧ os.rng = (fun g => (E.draw g).2)^[n] o.rng ∧ (∀ i, dictGet os.results i = dictGet op.results i) ∧
      os.results.Perm op.results ∧ (os.results.map Prod.fst).Nodup ∧
      (∀ i, 1 ≤ i → i ≤ n → ∃ r, dictGet os.results i = some r ∧ RunOf E a o.rng i r) ∧
      ∀ i, ¬ (1 ≤ i ∧ i ≤ n) → dictGet os.results i = dictGet o.results i := by
  obtain ⟨order, hord⟩ : ∃ order, order = sched ((List.range n).map fun t => (t + 1, NthDraw E.draw o.rng (t + 1))) := ⟨_, rfl⟩
  have hor : order.Perm ((List.range n).map fun t => (t + 1, NthDraw E.draw o.rng (t + 1))) := hord ▸ hsched _
  have hpar := bsParallel_eq E a pool n sched o order hord
  rcases Nat.eq_zero_or_pos n with rfl | hn
  · have hnil : order = [] := by simpa using hor
    subst hnil
    refine ⟨o, o, rfl, ?_, rfl, rfl, fun _ => rfl, List.Perm.refl _, ho, fun i h1 h2 => by omega, fun _ _ => rfl⟩
    rw [hpar, if_pos (by simpa [poolStarts] using hp)]
    rfl
  obtain ⟨r, hr⟩ : ∃ r : ℕ → BsEntry I M Q, ∀ i, 1 ≤ i → i ≤ n → RunOf E a o.rng i (r i) := by
    obtain ⟨r1, _⟩ := hok 1 le_rfl hn
    refine ⟨fun i => if h : 1 ≤ i ∧ i ≤ n then (hok i h.1 h.2).choose else r1, fun i h1 h2 => ?_⟩
    dsimp only
    rw [dif_pos ⟨h1, h2⟩]
    exact (hok i h1 h2).choose_spec
  have hs := bsSequential_ok E a n 1 o r (fun t ht => by
    rw [draw_eq]; exact (bsOne_some E a o.rng _ _).2 (hr (1 + t) (by omega) (by omega)))
  have hmem : ∀ t ∈ order, (bsOne E a t.2).map (fun x => (t.1, x)) = some (t.1, r t.1) ∧ 1 ≤ t.1 ∧ t.1 ≤ n := by
    intro t ht
    obtain ⟨u, hu, rfl⟩ := List.mem_map.1 (hor.mem_iff.1 ht)
    have hu := List.mem_range.1 hu
    refine ⟨?_, by simp, Nat.succ_le_of_lt hu⟩
    rw [(bsOne_some E a o.rng _ _).2 (hr (u + 1) (by omega) (by omega))]
    rfl
  have hm := mapM_ok (fun t : ℕ × S => (bsOne E a t.2).map fun x => (t.1, x)) (fun t => (t.1, r t.1)) order (fun t ht => (hmem t ht).1)
  have hkeys : (order.map fun t => (t.1, r t.1)).Perm ((List.range n).map fun t => (1 + t, r (1 + t))) := by
    have := hor.map fun t : ℕ × S => (t.1, r t.1)
    rw [List.map_map] at this
    refine this.trans (List.Perm.of_eq ?_)
    apply List.map_congr_left
    intro t _
    simp only [Function.comp]
    rw [show t + 1 = 1 + t by omega]
  have hnd : (((List.range n).map fun t => (1 + t, r (1 + t))).map Prod.fst).Nodup := by
    rw [List.map_map]
    exact List.Nodup.map (fun x y h => by simpa using h) List.nodup_range
  have hnd' : ((order.map fun t => (t.1, r t.1)).map Prod.fst).Nodup := (hkeys.map Prod.fst).nodup_iff.2 hnd
  have hget : ∀ k, dictGet (order.map fun t => (t.1, r t.1)) k = dictGet ((List.range n).map fun t => (1 + t, r (1 + t))) k := by
    intro k
    apply Option.ext
    intro x
    have e1 := mem_iff_dictGet _ hnd' (k, x)
    have e2 := mem_iff_dictGet _ hnd (k, x)
    rw [← e1, ← e2, hkeys.mem_iff]
  have hG : ∀ k, dictGet (((List.range n).map fun t => (1 + t, r (1 + t))).foldl (fun d r => dictSet d r.1 r.2) o.results) k
      = dictGet ((order.map fun t => (t.1, r t.1)).foldl (fun d r => dictSet d r.1 r.2) o.results) k := by
    intro k
    rw [foldl_dictSet_get _ hnd, foldl_dictSet_get _ hnd', hget]
  refine ⟨_, ⟨(fun g => (E.draw g).2)^[n] o.rng, (order.map fun t => (t.1, r t.1)).foldl (fun d r => dictSet d r.1 r.2) o.results⟩, hs, ?_, rfl, rfl, hG, dict_perm _ _ (foldl_dictSet_nodup _ _ ho)
    (foldl_dictSet_nodup _ _ ho) hG, foldl_dictSet_nodup _ _ ho, ?_, ?_⟩
  · rw [hpar, if_pos (by simpa [poolStarts] using hp), hm]
  · intro i h1 h2
    refine ⟨r i, ?_, hr i h1 h2⟩
    show dictGet (List.foldl _ _ _) i = _
    rw [foldl_dictSet_get _ hnd, range_get, if_pos ⟨h1, h2⟩]
    rfl
  · intro i h
    show dictGet (List.foldl _ _ _) i = _
    rw [foldl_dictSet_get _ hnd, range_get, if_neg h]
    rfl

/-- **C182.** On a new object the entries come in the order 1, 2, …, `bootstrap_n` without workers, and in the order in which the workers
finish with them: so do the rows of all tables that list the runs. -/
theorem C182_order (E : BsEnv G S D I M P Q) (a : BsArgs) (pool : ℤ) (n : ℕ) (g : G) (sched : List (ℕ × S) → List (ℕ × S))
    (hsched : ∀ l, (sched l).Perm l) (os op : BsObj G (BsEntry I M Q))
    (hs : bsSequential E a n 1 ⟨g, []⟩ = (os, true)) (hq : bsParallel E a pool n sched ⟨g, []⟩ = (op, true)) :
    os.results.map Prod.fst = (List.range n).map (· + 1) ∧ op.results.map Prod.fst =
      (sched ((List.range n).map fun t => (t + 1, NthDraw E.draw g (t + 1)))).map Prod.fst := by
  obtain ⟨order, hord⟩ : ∃ order, order = sched ((List.range n).map fun t => (t + 1, NthDraw E.draw g (t + 1))) := ⟨_, rfl⟩
  have hor : order.Perm ((List.range n).map fun t => (t + 1, NthDraw E.draw g (t + 1))) := hord ▸ hsched _
  have hpar := bsParallel_eq E a pool n sched ⟨g, []⟩ order hord
  rw [← hord]
  constructor
  · have key : ∀ (n i : ℕ) (o os : BsObj G (BsEntry I M Q)), (∀ k ∈ o.results.map Prod.fst, k < i) →
        bsSequential E a n i o = (os, true) → os.results.map Prod.fst = o.results.map Prod.fst ++ (List.range n).map (· + i) := by
      intro n
      induction n with
      | zero =>
        intro i o os _ h
        rw [bsSequential, Prod.mk.injEq] at h
        simp [h.1]
      | succ n ih =>
        intro i o os ho h
        rw [bsSequential] at h
        cases hone : bsOne E a (E.draw o.rng).1 with
        | none => simp [hone] at h
        | some r =>
          simp only [hone] at h
          have hk : i ∉ o.results.map Prod.fst := fun hm => lt_irrefl _ (ho i hm)
          have hkeys := dictSet_keys o.results i r
          rw [if_neg hk] at hkeys
          rw [ih (i + 1) _ os _ h, hkeys, List.append_assoc, List.range_succ_eq_map, List.map_cons, List.map_map]
          · simp only [Nat.zero_add, List.singleton_append]
            congr 2
            apply List.map_congr_left
            intro t _
            simp only [Function.comp]
            omega
          · intro k hk'
            rw [hkeys, List.mem_append, List.mem_singleton] at hk'
            rcases hk' with h1 | h1
            · have := ho k h1; omega
            · omega
    have := key n 1 ⟨g, []⟩ os (by simp) hs
    simpa using this
  · rw [hpar] at hq
    clear hpar hord
    split_ifs at hq with hpool
    · cases hm : order.mapM fun t => (bsOne E a t.2).map fun r => (t.1, r) with
      | none => simp [hm] at hq
      | some rs =>
        simp only [hm, Prod.mk.injEq] at hq
        have hfst : rs.map Prod.fst = order.map Prod.fst := by
          clear hq hor
          induction order generalizing rs with
          | nil =>
            rw [List.mapM_nil] at hm
            obtain rfl := Option.some.inj hm
            rfl
          | cons t l ih =>
            rw [List.mapM_cons] at hm
            obtain ⟨x, hx, hm⟩ := Option.bind_eq_some_iff.1 hm
            obtain ⟨y, hy, hm⟩ := Option.bind_eq_some_iff.1 hm
            obtain rfl := Option.some.inj hm
            obtain ⟨z, hz, rfl⟩ := Option.map_eq_some_iff.1 hx
            rw [List.map_cons, List.map_cons, ih y hy]
        have hnd : (rs.map Prod.fst).Nodup := by
          rw [hfst, (hor.map Prod.fst).nodup_iff, List.map_map]
          exact List.Nodup.map (fun x y h => by simpa using h) List.nodup_range
        rw [foldl_dictSet_new rs [] hnd (by simp)] at hq
        rw [← hq.1, List.nil_append]
        exact hfst
    · simp at hq

/-- **C182.** If run `f` is the first to fail, the call raises. Without workers the runs before it have been stored and the generator has moved
by `f` draws; with workers nothing is stored and the generator has moved by `bootstrap_n` draws. -/
theorem C182_failure (E : BsEnv G S D I M P Q) (a : BsArgs) (pool : ℤ) (n : ℕ) (o : BsObj G (BsEntry I M Q)) (sched : List (ℕ × S) → List (ℕ × S))
    (hsched : ∀ l, (sched l).Perm l) (f : ℕ) (hf : 1 ≤ f) (hfn : f ≤ n)
    (hok : ∀ i, 1 ≤ i → i < f → ∃ r, RunOf E a o.rng i r) (hbad : ¬ ∃ r, RunOf E a o.rng f r) :
    (∃ os, bsSequential E a n 1 o = (os, false) ∧ os.rng = (fun g => (E.draw g).2)^[f] o.rng ∧
      (∀ i, 1 ≤ i → i < f → ∃ r, dictGet os.results i = some r ∧ RunOf E a o.rng i r) ∧
      ∀ i, ¬ (1 ≤ i ∧ i < f) → dictGet os.results i = dictGet o.results i) ∧
    bsParallel E a pool n sched o = (⟨(fun g => (E.draw g).2)^[n] o.rng, o.results⟩, false) := by
  obtain ⟨order, hord⟩ : ∃ order, order = sched ((List.range n).map fun t => (t + 1, NthDraw E.draw o.rng (t + 1))) := ⟨_, rfl⟩
  have hor : order.Perm ((List.range n).map fun t => (t + 1, NthDraw E.draw o.rng (t + 1))) := hord ▸ hsched _
  have hpar := bsParallel_eq E a pool n sched o order hord
  have hone : bsOne E a (NthDraw E.draw o.rng f) = none := by
    cases h : bsOne E a (NthDraw E.draw o.rng f) with
    | none => rfl
    | some r => exact absurd ⟨r, (bsOne_some E a o.rng f r).1 h⟩ hbad
  have hone' : bsOne E a (E.draw ((fun g => (E.draw g).2)^[f - 1] o.rng)).1 = none := hone
  constructor
  · rcases Nat.eq_or_lt_of_le hf with h1 | h1
    · subst h1
      refine ⟨⟨(E.draw o.rng).2, o.results⟩, ?_, rfl, fun i h1 h2 => by omega, fun _ _ => rfl⟩
      obtain ⟨n, rfl⟩ : ∃ n', n = n' + 1 := ⟨n - 1, by omega⟩
      rw [bsSequential]
      simp only [Nat.sub_self, Function.iterate_zero, id] at hone'
      simp only [hone']
    · obtain ⟨r, hr⟩ : ∃ r : ℕ → BsEntry I M Q, ∀ i, 1 ≤ i → i < f → RunOf E a o.rng i (r i) := by
        obtain ⟨r1, _⟩ := hok 1 le_rfl h1
        refine ⟨fun i => if h : 1 ≤ i ∧ i < f then (hok i h.1 h.2).choose else r1, fun i h1 h2 => ?_⟩
        dsimp only
        rw [dif_pos ⟨h1, h2⟩]
        exact (hok i h1 h2).choose_spec
      have hs := bsSequential_fail E a n 1 o r (f - 1) (by omega) (fun t ht => by
        rw [draw_eq]; exact (bsOne_some E a o.rng _ _).2 (hr (1 + t) (by omega) (by omega))) hone'
      have hnd : (((List.range (f - 1)).map fun t => (1 + t, r (1 + t))).map Prod.fst).Nodup := by
        rw [List.map_map]
        exact List.Nodup.map (fun x y h => by simpa using h) List.nodup_range
      refine ⟨_, hs, ?_, ?_, ?_⟩
      · rw [show f - 1 + 1 = f by omega]
      · intro i h1 h2
        refine ⟨r i, ?_, hr i h1 h2⟩
        show dictGet (List.foldl _ _ _) i = _
        rw [foldl_dictSet_get _ hnd, range_get, if_pos ⟨h1, by omega⟩]
        rfl
      · intro i h
        show dictGet (List.foldl _ _ _) i = _
        rw [foldl_dictSet_get _ hnd, range_get, if_neg (by omega)]
        rfl
  · have hmem : (f, NthDraw E.draw o.rng f) ∈ order :=
      hor.mem_iff.2 (List.mem_map.2 ⟨f - 1, List.mem_range.2 (by omega), by rw [show f - 1 + 1 = f by omega]⟩)
    rw [hpar, mapM_fail _ order _ hmem (by rw [hone]; rfl)]
    split_ifs <;> rfl

/-- **C182.** A second call of `run` on the same object uses the next draws of the generator, so that it repeats nothing; if `bootstrap_n` was
lowered in between, the runs of the first call with larger numbers remain among the results and in the tables. -/
theorem C182_second (E : BsEnv G S D I M P Q) (a : BsArgs) (n₁ n₂ : ℕ) (hn : n₂ ≤ n₁) (g : G)
    (h₁ : ∀ i, 1 ≤ i → i ≤ n₁ → ∃ r, RunOf E a g i r)
    (h₂ : ∀ i, 1 ≤ i → i ≤ n₂ → ∃ r, RunOf E a ((fun g => (E.draw g).2)^[n₁] g) i r) :
    ∃ o₁ o₂, bsSequential E a n₁ 1 ⟨g, []⟩ = (o₁, true) ∧ bsSequential E a n₂ 1 o₁ = (o₂, true) ∧
      o₂.results.map Prod.fst = (List.range n₁).map (· + 1) ∧
      (∀ i, 1 ≤ i → i ≤ n₂ → ∃ r, dictGet o₂.results i = some r ∧
        ∃ d, E.resample a.block a.overlapping (NthDraw E.draw g (n₁ + i)) = some (d, r.index)) ∧
      ∀ i, n₂ < i → i ≤ n₁ → ∃ r, dictGet o₂.results i = some r ∧ dictGet o₁.results i = some r ∧ RunOf E a g i r := by
  obtain ⟨o₁, p₁, s₁, q₁, -, r₁, -, -, k₁, g₁, -⟩ := C182_schedule E a 1 le_rfl n₁ ⟨g, []⟩ (by simp) id (fun _ => List.Perm.refl _) h₁
  have hkeys := (C182_order E a 1 n₁ g id (fun _ => List.Perm.refl _) o₁ p₁ s₁ q₁).1
  obtain ⟨o₂, p₂, s₂, -, -, r₂, -, -, k₂, g₂, f₂⟩ := C182_schedule E a 1 le_rfl n₂ o₁ k₁ id (fun _ => List.Perm.refl _) (by rw [r₁]; exact h₂)
  refine ⟨o₁, o₂, s₁, s₂, ?_, ?_, ?_⟩
  · rw [← hkeys]
    have key : ∀ (n i : ℕ) (o os : BsObj G (BsEntry I M Q)), (∀ k, i ≤ k → k < i + n → k ∈ o.results.map Prod.fst) →
        bsSequential E a n i o = (os, true) → os.results.map Prod.fst = o.results.map Prod.fst := by
      intro n
      induction n with
      | zero =>
        intro i o os _ h
        rw [bsSequential, Prod.mk.injEq] at h
        rw [h.1]
      | succ n ih =>
        intro i o os ho h
        rw [bsSequential] at h
        cases hone : bsOne E a (E.draw o.rng).1 with
        | none => simp [hone] at h
        | some r =>
          simp only [hone] at h
          have hk := dictSet_keys o.results i r
          rw [if_pos (ho i le_rfl (by omega))] at hk
          rw [ih (i + 1) _ os _ h, hk]
          intro k h1 h2
          rw [hk]
          exact ho k (by omega) (by omega)
    apply key n₂ 1 o₁ o₂ _ s₂
    intro k h1 h2
    rw [hkeys]
    exact List.mem_map.2 ⟨k - 1, List.mem_range.2 (by omega), by omega⟩
  · intro i h1 h2
    obtain ⟨r, hr, d, hd, -⟩ := g₂ i h1 h2
    refine ⟨r, hr, d, ?_⟩
    have : NthDraw E.draw g (n₁ + i) = NthDraw E.draw o₁.rng i := by
      unfold NthDraw
      rw [r₁, show n₁ + i - 1 = (i - 1) + n₁ by omega, Function.iterate_add_apply]
    rw [this]; exact hd
  · intro i h1 h2
    obtain ⟨r, hr, hr'⟩ := g₁ i (by omega) h2
    exact ⟨r, (f₂ i (by omega)).trans hr, hr, hr'⟩

end run

/-! ### The tables do not depend on the order -/

section tables
variable {k : ℕ} {L : Type*}

theorem tableStep_comm (mp mp' : Fin k → MapEntry k L) (t : MapTable k) (j j' : Fin k) :
    tableStep mp' (tableStep mp t j) j' = tableStep mp (tableStep mp' t j') j := by
  unfold tableStep
  by_cases h1 : (mp j).mapped <;> by_cases h2 : (mp' j').mapped <;> simp only [h1, h2, if_true, if_false, MapTable.mk.injEq, Bool.false_eq_true]
    <;> refine ⟨?_, ?_⟩ <;> try rfl
  all_goals first | trivial | (funext a b; split_ifs <;> rfl) | (funext a; split_ifs <;> rfl)

theorem tableFold_comm (mp mp' : Fin k → MapEntry k L) (l : List (Fin k)) (t : MapTable k) (j' : Fin k) :
    l.foldl (tableStep mp) (tableStep mp' t j') = tableStep mp' (l.foldl (tableStep mp) t) j' := by
  induction l generalizing t with
  | nil => rfl
  | cons j l ih => rw [List.foldl_cons, List.foldl_cons, ← tableStep_comm, ih]

theorem tableFold_comm2 (mp mp' : Fin k → MapEntry k L) (l l' : List (Fin k)) (t : MapTable k) :
    l.foldl (tableStep mp) (l'.foldl (tableStep mp') t) = l'.foldl (tableStep mp') (l.foldl (tableStep mp) t) := by
  induction l' generalizing t with
  | nil => rfl
  | cons j l' ih => rw [List.foldl_cons, List.foldl_cons, ih, tableFold_comm]

variable {K : Type*} [Field K] [LinearOrder K] [IsStrictOrderedRing K] [FloorRing K]

theorem sort_perm {l l' : List K} (h : l.Perm l') : l.insertionSort (· ≤ ·) = l'.insertionSort (· ≤ ·) :=
  sort_eq (sorted_sort l') ((List.perm_insertionSort _ l').trans h.symm)

theorem nil_perm {l l' : List K} (h : l.Perm l') : (l = []) = (l' = []) := by
  apply propext
  constructor
  · rintro rfl; exact h.symm.eq_nil
  · rintro rfl; exact h.eq_nil

theorem quantile_perm {l l' : List K} (p : K) (h : l.Perm l') : quantile p l = quantile p l' := by
  unfold quantile
  simp only [sort_perm h, nil_perm h, h.length_eq]

theorem median_perm {l l' : List K} (h : l.Perm l') : median l = median l' := by
  rw [C171_median, C171_median, quantile_perm _ h]

theorem listMean_perm {l l' : List K} (h : l.Perm l') : listMean l = listMean l' := by
  unfold listMean
  simp only [nil_perm h, h.length_eq, h.sum_eq]

theorem min_perm {l l' : List K} (h : l.Perm l') : l.min? = l'.min? := by
  apply Option.ext
  intro a
  rw [List.min?_eq_some_iff, List.min?_eq_some_iff, h.mem_iff]
  simp only [h.mem_iff]

theorem max_perm {l l' : List K} (h : l.Perm l') : l.max? = l'.max? := by
  apply Option.ext
  intro a
  rw [List.max?_eq_some_iff, List.max?_eq_some_iff, h.mem_iff]
  simp only [h.mem_iff]

theorem sampleVar_perm {l l' : List K} (h : l.Perm l') : sampleVar l = sampleVar l' := by
  unfold sampleVar
  simp only [h.length_eq, h.sum_eq, (h.map _).sum_eq]

/-- **C182.** The mapping table, the losses and the rows of statistics are the same for every order of the runs, hence the same with and
without workers. -/
theorem C182_tables (runs runs' : List (Fin k → MapEntry k L)) (h : runs.Perm runs') (b : K) (v v' qs qs' : List K) (hv : v.Perm v')
    (hq : qs.Perm qs') : buildTable runs = buildTable runs' ∧ bsStatRow b v = bsStatRow b v' ∧ bsQRow qs = bsQRow qs' := by
  refine ⟨?_, ?_, ?_⟩
  · unfold buildTable
    exact h.foldl_eq' (fun x _ y _ z => tableFold_comm2 _ _ _ _ _) _
  · unfold bsStatRow
    have hm := hv.map bsTableValue
    simp only [quantile_perm _ hm, median_perm hm, listMean_perm hm, sampleVar_perm hm]
  · unfold bsQRow
    simp only [quantile_perm _ hq, median_perm hq, min_perm hq, max_perm hq]

end tables

/-! ### A concrete run -/

/-- Seeds 0, 1, 2, …; a run with seed 7 fails; the model is the seed it was trained with, whether the profiles were kept, and the data. -/
def demoBs : BsEnv ℕ ℕ ℕ ℕ (ℕ × Bool × ℕ) Unit ℕ where
  draw g := (g, g + 1)
  resample b _ s := if s = 7 then none else some (if b then 10 * s else s, s)
  train s h d := some (s, h.isSome, d)
  mapping m := m.2.2
  baseSeed := 42
  baseH := ()

/-- Three runs in order and by workers that finish in the order 2, 3, 1; then a second call with `bootstrap_n` = 1. -/
example :
    ((bsSequential demoBs ⟨true, true, true, false⟩ 3 1 ⟨0, []⟩).1.results.map fun p => (p.1, p.2.model, p.2.index))
      = [(1, (42, true, 0), 0), (2, (42, true, 10), 1), (3, (42, true, 20), 2)] ∧
    ((bsParallel demoBs ⟨true, true, true, false⟩ 2 3 (List.rotateLeft · 1) ⟨0, []⟩).1.results.map fun p => (p.1, p.2.model, p.2.index))
      = [(2, (42, true, 10), 1), (3, (42, true, 20), 2), (1, (42, true, 0), 0)] ∧
    ((bsSequential demoBs ⟨true, true, true, false⟩ 1 1
        (bsSequential demoBs ⟨true, true, true, false⟩ 3 1 ⟨0, []⟩).1).1.results.map fun p => (p.1, p.2.model, p.2.index))
      = [(1, (42, true, 30), 3), (2, (42, true, 10), 1), (3, (42, true, 20), 2)] :=
  ⟨rfl, rfl, rfl⟩

/-- From seed 6 on the second run fails: one run is stored without workers, none with them. -/
example :
    ((bsSequential demoBs ⟨false, false, false, false⟩ 3 1 ⟨6, []⟩).1.results.map fun p => p.1) = [1] ∧
    (bsSequential demoBs ⟨false, false, false, false⟩ 3 1 ⟨6, []⟩).1.rng = 8 ∧
    ((bsParallel demoBs ⟨false, false, false, false⟩ 2 3 (List.rotateLeft · 1) ⟨6, []⟩).1.results.map fun p => p.1) = [] ∧
    (bsParallel demoBs ⟨false, false, false, false⟩ 2 3 (List.rotateLeft · 1) ⟨6, []⟩).1.rng = 9 :=
  ⟨rfl, rfl, rfl, rfl⟩

end Esat
