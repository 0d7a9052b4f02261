import Verif.Model.MemReport
import Verif.Props.Utils
import Verif.Props.Quantile

/-!
# Property C235: the report of the memory estimate
-/

namespace Esat

/-- What a unit stands for, in bytes. -/
def unitBytes (u : String) : ℚ := if u = "GB" then 2 ^ 30 else if u = "MB" then 2 ^ 20 else if u = "KB" then 2 ^ 10 else 1

theorem maxBytes_ge (f s k : ℕ) : 157286400 ≤ maxBytes f s k := by
  rw [(C62_estimate f s k).1]
  omega

theorem memReport_texts (available f s k : ℕ) (cores : ℤ) : (memReport available f s k cores).texts = memTexts available (maxBytes f s k) := rfl

theorem memTexts_estimate (available b : ℕ) (hb : 157286400 ≤ b) :
    (memTexts available b).2.2 = (if 2 ^ 30 < b then "GB" else "MB") ∧
    |(memTexts available b).2.1 * unitBytes (memTexts available b).2.2 - b| ≤ unitBytes (memTexts available b).2.2 / 20000 := by
  have hbq : (157286400 : ℚ) ≤ b := by exact_mod_cast hb
  have key : ∀ c : ℚ, 0 < c → |roundTo 4 ((b : ℚ) / c) * c - b| ≤ c / 20000 := by
    intro c hc
    obtain ⟨h1, h2⟩ := roundTo_bounds (K := ℚ) 4 ((b : ℚ) / c)
    have e : roundTo 4 ((b : ℚ) / c) * c - b = (roundTo 4 ((b : ℚ) / c) - b / c) * c := by field_simp
    rw [e, abs_mul, abs_of_pos hc]
    have : |roundTo 4 ((b : ℚ) / c) - b / c| ≤ 1 / 20000 := by
      rw [abs_le]
      norm_num at h1 h2
      constructor <;> linarith
    calc _ ≤ 1 / 20000 * c := mul_le_mul_of_nonneg_right this hc.le
      _ = c / 20000 := by ring
  unfold memTexts
  by_cases h : 2 ^ 30 < b
  · have hq : (b : ℚ) / 1024 ^ 3 > 1 := by
      rw [gt_iff_lt, lt_div_iff₀ (by norm_num)]
      have : ((2 ^ 30 : ℕ) : ℚ) < b := by exact_mod_cast h
      norm_num at this ⊢
      exact this
    rw [if_pos hq, if_pos h]
    refine ⟨rfl, ?_⟩
    have := key (1024 ^ 3) (by norm_num)
    have hu : unitBytes "GB" = 1024 ^ 3 := by norm_num [unitBytes]
    dsimp only
    rw [hu]
    exact this
  · have hq : ¬ (b : ℚ) / 1024 ^ 3 > 1 := by
      rw [gt_iff_lt, lt_div_iff₀ (by norm_num), not_lt, one_mul]
      have h1 : b ≤ 1024 ^ 3 := by omega
      exact_mod_cast h1
    have hq2 : (b : ℚ) / 1024 ^ 2 > 1 := by
      rw [gt_iff_lt, lt_div_iff₀ (by norm_num)]
      exact lt_of_lt_of_le (by norm_num) hbq
    rw [if_neg hq, if_pos hq2, if_neg h]
    refine ⟨rfl, ?_⟩
    have := key (1024 ^ 2) (by norm_num)
    have hu : unitBytes "MB" = 1024 ^ 2 := by
      unfold unitBytes
      rw [if_neg (by decide), if_pos rfl]
      norm_num
    dsimp only
    rw [hu]
    exact this

theorem memTexts_available (available b : ℕ) (hb : 157286400 ≤ b) :
    (memTexts available b).1.2 = "GB" ∧
    (memTexts available b).1.1 * unitBytes "GB" = (if 2 ^ 30 < b then 1 else 1024) * (available : ℚ) := by
  have hbq : (157286400 : ℚ) ≤ b := by exact_mod_cast hb
  have hu : unitBytes "GB" = 1024 ^ 3 := by norm_num [unitBytes]
  rw [hu]
  unfold memTexts
  by_cases h : 2 ^ 30 < b
  · have hq : (b : ℚ) / 1024 ^ 3 > 1 := by
      rw [gt_iff_lt, lt_div_iff₀ (by norm_num)]
      have : ((2 ^ 30 : ℕ) : ℚ) < b := by exact_mod_cast h
      norm_num at this ⊢
      exact this
    rw [if_pos hq, if_pos h]
    refine ⟨rfl, ?_⟩
    dsimp only
    rw [div_mul_cancel₀ _ (by norm_num), one_mul]
  · have hq : ¬ (b : ℚ) / 1024 ^ 3 > 1 := by
      rw [gt_iff_lt, lt_div_iff₀ (by norm_num), not_lt, one_mul]
      have h1 : b ≤ 1024 ^ 3 := by omega
      exact_mod_cast h1
    have hq2 : (b : ℚ) / 1024 ^ 2 > 1 := by
      rw [gt_iff_lt, lt_div_iff₀ (by norm_num)]
      exact lt_of_lt_of_le (by norm_num) hbq
    rw [if_neg hq, if_pos hq2, if_neg h]
    refine ⟨rfl, ?_⟩
    dsimp only
    field_simp

theorem memReport_estimate (r : MemReport) (available b : ℕ) (hr : r.texts = memTexts available b) (hb : 157286400 ≤ b) :
    r.estimate.2 = (if 2 ^ 30 < b then "GB" else "MB") ∧ |r.estimate.1 * unitBytes r.estimate.2 - b| ≤ unitBytes r.estimate.2 / 20000 := by
  unfold MemReport.estimate
  rw [hr]
  exact memTexts_estimate available b hb

theorem memReport_available (r : MemReport) (available b : ℕ) (hr : r.texts = memTexts available b) (hb : 157286400 ≤ b) :
    r.available.2 = "GB" ∧ r.available.1 * unitBytes "GB" = (if 2 ^ 30 < b then 1 else 1024) * (available : ℚ) := by
  unfold MemReport.available
  rw [hr]
  exact memTexts_available available b hb

/-- The estimate: gigabytes exactly above 2³⁰ bytes and megabytes otherwise (the cases for kilobytes and bytes are never reached), correct to 0.00005 units. -/
theorem C235_estimate (available f s k : ℕ) (cores : ℤ) :
    (memReport available f s k cores).estimate.2 = (if 2 ^ 30 < maxBytes f s k then "GB" else "MB") ∧
    |(memReport available f s k cores).estimate.1 * unitBytes (memReport available f s k cores).estimate.2 - maxBytes f s k| ≤
      unitBytes (memReport available f s k cores).estimate.2 / 20000 := by
  exact memReport_estimate _ available (maxBytes f s k) (memReport_texts available f s k cores) (maxBytes_ge f s k)

/-- **Disagreement.** The text for the available memory says gigabytes in every case, but its number is the number of gigabytes only if one model needs more than
2³⁰ bytes; otherwise it is 1024 times too large. -/
theorem C235_available (available f s k : ℕ) (cores : ℤ) :
    (memReport available f s k cores).available.2 = "GB" ∧
    (memReport available f s k cores).available.1 * unitBytes "GB" = (if 2 ^ 30 < maxBytes f s k then 1 else 1024) * (available : ℚ) := by
  exact memReport_available _ available (maxBytes f s k) (memReport_texts available f s k cores) (maxBytes_ge f s k)

/-- The entry named `available_memory_bytes` is the memory in gigabytes; the warning is logged exactly if no process is recommended although there is a core. -/
theorem C235_entries (available f s k : ℕ) (cores : ℤ) :
    (memReport available f s k cores).availableEntry * unitBytes "GB" = available ∧
    (memReport available f s k cores).maxBytes = maxBytes f s k ∧
    ((memReport available f s k cores).warned = true ↔ available < maxBytes f s k) ∧
    (1 ≤ cores → ((memReport available f s k cores).warned = true ↔ (memReport available f s k cores).maxCores = 0)) := by
  have hb := maxBytes_ge f s k
  have hu : unitBytes "GB" = 1024 ^ 3 := by norm_num [unitBytes]
  refine ⟨?_, rfl, by simp [memReport], ?_⟩
  · rw [hu]
    change (available : ℚ) / 1024 ^ 3 * 1024 ^ 3 = available
    rw [div_mul_cancel₀ _ (by norm_num)]
  · intro hc
    simp only [memReport, gt_iff_lt, decide_eq_true_eq]
    unfold maxCores
    generalize maxBytes f s k = b at *
    constructor
    · intro h
      rw [Nat.div_eq_of_lt h]
      simp only [Nat.cast_zero]
      exact min_eq_left (by omega)
    · intro h
      by_contra hn
      have : 1 ≤ available / b := (Nat.one_le_div_iff (by omega)).2 (not_lt.1 hn)
      have h1 : (1 : ℤ) ≤ min ((available / b : ℕ) : ℤ) cores := le_min (by exact_mod_cast this) hc
      omega

/-- 16 GiB available and a small data set: the text says 16384 GB. -/
example : (memReport (2 ^ 34) 40 300 5 8).available = (16384, "GB") ∧ (memReport (2 ^ 34) 40 300 5 8).availableEntry = 16 ∧
    (memReport (2 ^ 34) 40 300 5 8).estimate.2 = "MB" := by
  refine ⟨?_, ?_, ?_⟩
  · norm_num [MemReport.available, MemReport.estimate, memReport, memTexts, maxBytes]
  · norm_num [memReport]
  · norm_num [MemReport.available, MemReport.estimate, memReport, memTexts, maxBytes]

example : (memReport (2 ^ 34) 1000 10000 5 8).available = (16, "GB") ∧ (memReport (2 ^ 34) 1000 10000 5 8).estimate.2 = "GB" := by
  constructor <;> norm_num [MemReport.available, MemReport.estimate, memReport, memTexts, maxBytes]

end Esat
