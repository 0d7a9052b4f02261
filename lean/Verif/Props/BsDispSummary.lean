import Verif.Model.BsDispSummary
import Verif.Lemmas.MapM
import Mathlib.Data.List.Perm.Basic
import Mathlib.Tactic.Ring
import Mathlib.Tactic.FieldSimp
import Mathlib.Tactic.LinearCombination
import Mathlib.Algebra.Order.Field.Basic

/-!
# C166: the mean columns of BS-DISP
-/

namespace Esat

variable {R K : Type*}

theorem dictGet_of_nodup {D : Type*} : ∀ (l : PyDict ℕ D), (l.map Prod.fst).Nodup → ∀ p ∈ l, dictGet l p.1 = some p.2
  | [], _, p, hp => by simp at hp
  | q :: l, hn, p, hp => by
    rw [List.map_cons, List.nodup_cons] at hn
    unfold dictGet
    rw [List.find?_cons]
    rcases List.mem_cons.1 hp with rfl | hp
    · simp
    · have hne : q.1 ≠ p.1 := fun h => hn.1 (h ▸ List.mem_map_of_mem hp)
      simp only [hne, decide_false]
      exact dictGet_of_nodup l hn.2 p hp

theorem bsRead_stored {D : Type*} (B : ℕ) (run : ℕ → D) (order : List ℕ) (ho : order.Perm (List.range' 1 B)) (b0 : ℕ) (rest : List ℕ)
    (hb : order = b0 :: rest) : bsRead (order.map fun b => (b, run b)) = some (run b0, (List.range' 1 (B - 1)).map run) := by
  have hl : order.length = B := by simpa using ho.length_eq
  have hget : ∀ i ∈ List.range' 1 (B - 1), dictGet (order.map fun b => (b, run b)) i = some (run i) := by
    intro i hi
    have hi' : i ∈ order := by
      rw [ho.mem_iff]
      rw [List.mem_range'_1] at hi ⊢
      omega
    have hn : ((order.map fun b => (b, run b)).map Prod.fst).Nodup := by
      have e : (order.map fun b => (b, run b)).map Prod.fst = order := by simp [Function.comp_def]
      rw [e]
      exact ho.nodup_iff.2 (List.nodup_range')
    exact dictGet_of_nodup _ hn (i, run i) (List.mem_map_of_mem hi')
  have hm : ((List.range' 1 (B - 1)).mapM fun i => dictGet (order.map fun b => (b, run b)) i) = some ((List.range' 1 (B - 1)).map run) := by
    generalize List.range' 1 (B - 1) = l at hget
    induction l with
    | nil => rfl
    | cons i l ih =>
      rw [List.mapM_cons, hget i List.mem_cons_self, ih fun j hj => hget j (List.mem_cons_of_mem _ hj)]
      rfl
  subst hb
  unfold bsRead
  rw [List.map_cons]
  simp only
  rw [← List.map_cons (f := fun b => (b, run b)), List.length_map, hl, hm]
  rfl

section means
variable [Field K] [LinearOrder K] [IsStrictOrderedRing K]

/-- **C166.** The mean columns of the compiled results: with the runs stored under `1 … B`, whatever the order in which they finished,
the run which finished first is counted in addition to the runs `1 … B-1`, and run `B` is left out. **Disagreement**: the value is the mean
of all runs exactly if the first run and run `B` agree in the row. The mean of the profiles goes to a new column `profiles`; the column
`profile`, which is plotted, keeps the values of a single run. -/
theorem C166_means (B : ℕ) (run : ℕ → BsMeanRun R K) (order : List ℕ) (ho : order.Perm (List.range' 1 B)) (b0 : ℕ) (rest : List ℕ)
    (hb : order = b0 :: rest) :
    ∃ profiles conc profile, bsMeans (order.map fun b => (b, run b)) = some (profiles, conc, profile) ∧ profile = (run b0).profile ∧
      (∀ r, conc r = ((run b0).conc r + ((List.range' 1 (B - 1)).map fun b => (run b).conc r).sum) / B) ∧
      (∀ r, conc r = ((List.range' 1 B).map fun b => (run b).conc r).sum / B ↔ (run b0).conc r = (run B).conc r) ∧
      (∀ r, profiles r = ((List.range' 1 B).map fun b => (run b).profile r).sum / B ↔ (run b0).profile r = (run B).profile r) := by
  have hB : 0 < B := by
    have : order.length = B := by simpa using ho.length_eq
    rw [← this, hb]
    simp
  have hB' : (B : K) ≠ 0 := by exact_mod_cast hB.ne'
  have hlen : ((run b0 :: (List.range' 1 (B - 1)).map run).length : K) = B := by
    simp only [List.length_cons, List.length_map, List.length_range']
    rw [Nat.sub_add_cancel hB]
  have split : ∀ g : ℕ → K, ((List.range' 1 B).map g).sum = ((List.range' 1 (B - 1)).map g).sum + g B := fun g => by
    obtain ⟨c, rfl⟩ : ∃ c, B = c + 1 := ⟨B - 1, by omega⟩
    rw [List.range'_concat, List.map_append, List.sum_append]
    simp [add_comm]
  have key : ∀ g : ℕ → K, (g b0 + ((List.range' 1 (B - 1)).map g).sum) / B = ((List.range' 1 B).map g).sum / B ↔ g b0 = g B := fun g => by
    rw [div_left_inj' hB', split]
    constructor <;> intro h <;> linear_combination h
  have hsum : ∀ g : BsMeanRun R K → K, ((run b0 :: (List.range' 1 (B - 1)).map run).map g).sum =
      g (run b0) + ((List.range' 1 (B - 1)).map fun b => g (run b)).sum := fun g => by
    rw [List.map_cons, List.sum_cons, List.map_map]
    rfl
  refine ⟨_, _, _, by unfold bsMeans; rw [bsRead_stored B run order ho b0 rest hb]; rfl, rfl, fun r => ?_, fun r => ?_, fun r => ?_⟩
  · show ((run b0 :: (List.range' 1 (B - 1)).map run).map fun d => d.conc r).sum / _ = _
    rw [hsum, hlen]
  · show ((run b0 :: (List.range' 1 (B - 1)).map run).map fun d => d.conc r).sum / _ = _ ↔ _
    rw [hsum, hlen]
    exact key fun b => (run b).conc r
  · show ((run b0 :: (List.range' 1 (B - 1)).map run).map fun d => d.profile r).sum / _ = _ ↔ _
    rw [hsum, hlen]
    exact key fun b => (run b).profile r

/-- Three runs with concentrations 1, 2 and 9: the table says 4/3 instead of 4. -/
example : let run (b : ℕ) : BsMeanRun Unit ℚ := ⟨fun _ => 0, fun _ => if b = 3 then 9 else b⟩
    (bsMeans [(1, run 1), (2, run 2), (3, run 3)]).map (fun p => p.2.1 ()) = some (4 / 3) ∧
    (bsMeans [(3, run 3), (2, run 2), (1, run 1)]).map (fun p => p.2.1 ()) = some 4 := by decide +kernel

end means

end Esat
