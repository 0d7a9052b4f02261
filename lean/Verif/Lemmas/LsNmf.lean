import Verif.Model.LsNmf
import Mathlib.Tactic.Ring
import Mathlib.Tactic.Linarith
import Mathlib.Tactic.FieldSimp
import Mathlib.Tactic.Positivity
import Mathlib.Tactic.NormNum

/-! Helper lemmas for the LS-NMF properties. -/

namespace Esat

open Finset

section Basic
variable {K : Type*} [Field K] {m n k : ℕ}

theorem lsHNum_apply (V We : Mat m n K) (W : Mat m k K) (a j) :
    lsHNum V We W a j = ∑ i, W i a * (We i j * V i j) := by
  rfl

theorem lsHDen_apply (We : Mat m n K) (W : Mat m k K)
    (H : Mat k n K) (a j) :
    lsHDen We W H a j = ∑ i, W i a * (We i j * ∑ b, W i b * H b j) := by
  rfl

theorem lsWNum_apply (V We : Mat m n K) (H : Mat k n K) (i a) :
    lsWNum V We H i a = ∑ j, (We i j * V i j) * H a j := by
  rfl

theorem lsWDen_apply (We : Mat m n K) (W : Mat m k K)
    (H : Mat k n K) (i a) :
    lsWDen We W H i a = ∑ j, (We i j * ∑ b, W i b * H b j) * H a j := by
  rfl

variable [DecidableEq K]

theorem lsStepH_eq_some {V We : Mat m n K} {W : Mat m k K}
    {H H' : Mat k n K} :
    lsStepH V We W H = some H' ↔ NoZero (lsHDen We W H) ∧
      ∀ a j, H' a j = H a j * (lsHNum V We W a j / lsHDen We W H a j) := by
  unfold lsStepH
  split
  · rename_i h
    simp only [Option.some.injEq]
    refine ⟨fun e => ⟨h, fun a j => by rw [← e]; rfl⟩, fun e => ?_⟩
    ext a j; rw [e.2]; rfl
  · rename_i h; simp [h]

theorem lsStepW_eq_some {V We : Mat m n K} {W W' : Mat m k K}
    {H : Mat k n K} :
    lsStepW V We W H = some W' ↔ NoZero (lsWDen We W H) ∧
      ∀ i a, W' i a = W i a * (lsWNum V We H i a / lsWDen We W H i a) := by
  unfold lsStepW
  split
  · rename_i h
    simp only [Option.some.injEq]
    refine ⟨fun e => ⟨h, fun a j => by rw [← e]; rfl⟩, fun e => ?_⟩
    ext a j; rw [e.2]; rfl
  · rename_i h; simp [h]

theorem lsUpdate_eq_some {V We : Mat m n K} {hold : Bool}
    {W W' : Mat m k K} {H H' : Mat k n K} :
    lsUpdate V We hold W H = some (W', H') ↔
      ((hold = true ∧ H' = H) ∨ (hold = false ∧ lsStepH V We W H = some H')) ∧
      lsStepW V We W H' = some W' := by
  cases hold <;> simp [lsUpdate, Option.bind_eq_some_iff]
  constructor
  · rintro ⟨h, rfl⟩; exact ⟨rfl, h⟩
  · rintro ⟨rfl, h⟩; exact ⟨h, rfl⟩

theorem lsRun_cons_eq_some {V We : Mat m n K} {b : Bool} {bs : List Bool}
    {W : Mat m k K} {H : Mat k n K} {r} :
    lsRun V We (b :: bs) W H = some r ↔
      ∃ p, lsUpdate V We b W H = some p ∧ lsRun V We bs p.1 p.2 = some r := by
  simp [lsRun, Option.bind_eq_some_iff]

omit [DecidableEq K] in
/-- The W half step is the H half step on transposed data. -/
theorem lsWNum_eq_transpose (V We : Mat m n K) (H : Mat k n K) (i a) :
    lsWNum V We H i a = lsHNum (tr V) (tr We) (tr H) a i := by
  rw [lsWNum_apply, lsHNum_apply]
  exact Finset.sum_congr rfl fun j _ => mul_comm _ _

omit [DecidableEq K] in
theorem lsWDen_eq_transpose (We : Mat m n K) (W : Mat m k K)
    (H : Mat k n K) (i a) :
    lsWDen We W H i a = lsHDen (tr We) (tr H) (tr W) a i := by
  rw [lsWDen_apply, lsHDen_apply]
  refine Finset.sum_congr rfl fun j _ => ?_
  simp only [tr]
  rw [mul_comm]
  congr 2
  exact Finset.sum_congr rfl fun b _ => mul_comm _ _

theorem lsStepW_iff_transpose {V We : Mat m n K} {W W' : Mat m k K}
    {H : Mat k n K} :
    lsStepW V We W H = some W' ↔ lsStepH (tr V) (tr We) (tr H) (tr W) = some (tr W') := by
  rw [lsStepW_eq_some, lsStepH_eq_some]
  constructor
  · rintro ⟨h1, h2⟩
    refine ⟨fun a i => ?_, fun a i => ?_⟩
    · rw [← lsWDen_eq_transpose]; exact h1 i a
    · rw [← lsWDen_eq_transpose, ← lsWNum_eq_transpose]; exact h2 i a
  · rintro ⟨h1, h2⟩
    refine ⟨fun a i => ?_, fun a i => ?_⟩
    · rw [lsWDen_eq_transpose]; exact h1 i a
    · rw [lsWDen_eq_transpose, lsWNum_eq_transpose]; exact h2 i a

end Basic

section Ordered
variable {K : Type*} [Field K] [LinearOrder K] [IsStrictOrderedRing K] {m n k : ℕ}

/-- One column of the multiplicative update, with its quantitative decrease (auxiliary function argument). -/
theorem column_descent (w : Fin m → Fin k → K) (e v : Fin m → K) (h h' N D : Fin k → K)
    (he : ∀ i, 0 ≤ e i) (hwh : ∀ i a, 0 ≤ w i a * h a)
    (hN : ∀ a, N a = ∑ i, w i a * (e i * v i))
    (hD : ∀ a, D a = ∑ i, w i a * (e i * ∑ b, w i b * h b))
    (hD0 : ∀ a, D a ≠ 0) (hh : ∀ a, h' a = h a * (N a / D a)) :
    (∑ i, e i * (v i - ∑ a, w i a * h' a) ^ 2) + ∑ a, h a * D a * (N a / D a - 1) ^ 2
      ≤ ∑ i, e i * (v i - ∑ a, w i a * h a) ^ 2 := by
  set r : Fin k → K := fun a => N a / D a with hr
  have hrD : ∀ a, r a * D a = N a := fun a => div_mul_cancel₀ _ (hD0 a)
  have hs : ∀ i, ∑ a, w i a * h' a = ∑ a, (w i a * h a) * r a := fun i =>
    Finset.sum_congr rfl fun a _ => by rw [hh]; simp only [hr]; ring
  set p : Fin m → K := fun i => ∑ a, w i a * h a with hp
  set s : Fin m → K := fun i => ∑ a, (w i a * h a) * r a with hsdef
  set t : Fin m → K := fun i => ∑ a, (w i a * h a) * r a ^ 2 with ht
  have cauchy : ∀ i, s i ^ 2 ≤ p i * t i := fun i =>
    Finset.sum_sq_le_sum_mul_sum_of_sq_le_mul _ (fun a _ => hwh i a)
      (fun a _ => mul_nonneg (hwh i a) (sq_nonneg _)) (fun a _ => le_of_eq (by ring))
  have e1 : ∑ i, e i * v i * s i = ∑ a, h a * r a * N a := by
    simp only [hsdef, Finset.mul_sum, hN]
    rw [Finset.sum_comm]
    refine Finset.sum_congr rfl fun a _ => Finset.sum_congr rfl fun i _ => by ring
  have e2 : ∑ i, e i * (p i * t i) = ∑ a, h a * r a ^ 2 * D a := by
    have : ∀ i, e i * (p i * t i) = ∑ a, h a * r a ^ 2 * (w i a * (e i * p i)) := fun i => by
      simp only [ht, Finset.mul_sum]
      exact Finset.sum_congr rfl fun a _ => by ring
    simp only [this]
    rw [Finset.sum_comm]
    refine Finset.sum_congr rfl fun a _ => ?_
    rw [hD, Finset.mul_sum]
  have e3 : ∑ i, e i * v i * p i = ∑ a, h a * N a := by
    simp only [hp, Finset.mul_sum, hN]
    rw [Finset.sum_comm]
    refine Finset.sum_congr rfl fun a _ => Finset.sum_congr rfl fun i _ => by ring
  have e4 : ∑ i, e i * p i ^ 2 = ∑ a, h a * D a := by
    have : ∀ i, e i * p i ^ 2 = ∑ a, h a * (w i a * (e i * p i)) := fun i => by
      have : e i * p i ^ 2 = (∑ a, w i a * h a) * (e i * p i) := by simp only [hp]; ring
      rw [this, Finset.sum_mul]
      exact Finset.sum_congr rfl fun a _ => by ring
    simp only [this]
    rw [Finset.sum_comm]
    refine Finset.sum_congr rfl fun a _ => ?_
    rw [hD, Finset.mul_sum]
  have l1 : ∑ i, e i * (v i - ∑ a, w i a * h' a) ^ 2
      ≤ ∑ i, e i * v i ^ 2 - 2 * (∑ a, h a * r a * N a) + ∑ a, h a * r a ^ 2 * D a := by
    rw [← e1, ← e2, Finset.mul_sum, ← Finset.sum_sub_distrib, ← Finset.sum_add_distrib]
    refine Finset.sum_le_sum fun i _ => ?_
    rw [hs]
    have := mul_le_mul_of_nonneg_left (cauchy i) (he i)
    have e5 : e i * (v i - s i) ^ 2 = e i * v i ^ 2 - 2 * (e i * v i * s i) + e i * s i ^ 2 := by ring
    change e i * (v i - s i) ^ 2 ≤ _
    rw [e5]; linarith
  have l2 : ∑ i, e i * (v i - ∑ a, w i a * h a) ^ 2
      = ∑ i, e i * v i ^ 2 - 2 * (∑ a, h a * N a) + ∑ a, h a * D a := by
    rw [← e3, ← e4, Finset.mul_sum, ← Finset.sum_sub_distrib, ← Finset.sum_add_distrib]
    exact Finset.sum_congr rfl fun i _ => by simp only [hp]; ring
  have l3 : 2 * (∑ a, h a * r a * N a) - ∑ a, h a * r a ^ 2 * D a - ∑ a, h a * D a * (r a - 1) ^ 2
      = 2 * (∑ a, h a * N a) - ∑ a, h a * D a := by
    simp only [Finset.mul_sum, ← Finset.sum_sub_distrib]
    refine Finset.sum_congr rfl fun a _ => ?_
    rw [← hrD]; ring
  have : ∑ a, h a * D a * (N a / D a - 1) ^ 2 = ∑ a, h a * D a * (r a - 1) ^ 2 := rfl
  rw [l2, this]
  linarith

theorem lsHDen_pos {We : Mat m n K} {W : Mat m k K} {H : Mat k n K}
    (hm : 0 < m) (he : ∀ i j, 0 < We i j) (hW : ∀ i a, 0 < W i a) (hH : ∀ a j, 0 < H a j) (a j) :
    0 < lsHDen We W H a j := by
  rw [lsHDen_apply]
  haveI : Nonempty (Fin m) := ⟨⟨0, hm⟩⟩
  haveI : Nonempty (Fin k) := ⟨a⟩
  exact Finset.sum_pos (fun i _ => mul_pos (hW i a) (mul_pos (he i j)
    (Finset.sum_pos (fun b _ => mul_pos (hW i b) (hH b j)) Finset.univ_nonempty))) Finset.univ_nonempty

theorem lsHNum_pos {V We : Mat m n K} {W : Mat m k K}
    (hV : ∀ i j, 0 ≤ V i j) (hcol : ∀ j, ∃ i, 0 < V i j)
    (he : ∀ i j, 0 < We i j) (hW : ∀ i a, 0 < W i a) (a j) :
    0 < lsHNum V We W a j := by
  rw [lsHNum_apply]
  obtain ⟨i0, hi0⟩ := hcol j
  exact Finset.sum_pos' (fun i _ => mul_nonneg (hW i a).le (mul_nonneg (he i j).le (hV i j)))
    ⟨i0, Finset.mem_univ _, mul_pos (hW i0 a) (mul_pos (he i0 j) hi0)⟩

theorem lsHDen_nonneg {We : Mat m n K} {W : Mat m k K} {H : Mat k n K}
    (he : ∀ i j, 0 ≤ We i j) (hW : ∀ i a, 0 ≤ W i a) (hH : ∀ a j, 0 ≤ H a j) (a j) :
    0 ≤ lsHDen We W H a j := by
  rw [lsHDen_apply]
  exact Finset.sum_nonneg fun i _ => mul_nonneg (hW i a) (mul_nonneg (he i j)
    (Finset.sum_nonneg fun b _ => mul_nonneg (hW i b) (hH b j)))

theorem lsHNum_nonneg {V We : Mat m n K} {W : Mat m k K}
    (hV : ∀ i j, 0 ≤ V i j) (he : ∀ i j, 0 ≤ We i j) (hW : ∀ i a, 0 ≤ W i a) (a j) :
    0 ≤ lsHNum V We W a j := by
  rw [lsHNum_apply]
  exact Finset.sum_nonneg fun i _ => mul_nonneg (hW i a) (mul_nonneg (he i j) (hV i j))

theorem lsStepH_pos {V We : Mat m n K} {W : Mat m k K} {H : Mat k n K}
    (hm : 0 < m) (hV : ∀ i j, 0 ≤ V i j) (hcol : ∀ j, ∃ i, 0 < V i j) (he : ∀ i j, 0 < We i j)
    (hW : ∀ i a, 0 < W i a) (hH : ∀ a j, 0 < H a j) :
    ∃ H', lsStepH V We W H = some H' ∧ ∀ a j, 0 < H' a j :=
  ⟨fun a j => H a j * (lsHNum V We W a j / lsHDen We W H a j),
    lsStepH_eq_some.2 ⟨fun a j => (lsHDen_pos hm he hW hH a j).ne', fun _ _ => rfl⟩,
    fun a j => mul_pos (hH a j) (div_pos (lsHNum_pos hV hcol he hW a j) (lsHDen_pos hm he hW hH a j))⟩

theorem lsStepW_pos {V We : Mat m n K} {W : Mat m k K} {H : Mat k n K}
    (hn : 0 < n) (hV : ∀ i j, 0 ≤ V i j) (hrow : ∀ i, ∃ j, 0 < V i j) (he : ∀ i j, 0 < We i j)
    (hW : ∀ i a, 0 < W i a) (hH : ∀ a j, 0 < H a j) :
    ∃ W', lsStepW V We W H = some W' ∧ ∀ i a, 0 < W' i a := by
  obtain ⟨W', h1, h2⟩ := lsStepH_pos (V := (tr V)) (We := (tr We)) (W := (tr H)) (H := (tr W)) hn (fun i j => hV j i)
    (fun i => hrow i) (fun i j => he j i) (fun i j => hH j i) (fun i j => hW j i)
  exact ⟨(tr W'), lsStepW_iff_transpose.2 h1, fun i a => h2 a i⟩

theorem lsStepH_nonneg {V We : Mat m n K} {W : Mat m k K}
    {H H' : Mat k n K}
    (hV : ∀ i j, 0 ≤ V i j) (he : ∀ i j, 0 ≤ We i j) (hW : ∀ i a, 0 ≤ W i a) (hH : ∀ a j, 0 ≤ H a j)
    (h : lsStepH V We W H = some H') : ∀ a j, 0 ≤ H' a j := fun a j => by
  rw [(lsStepH_eq_some.1 h).2]
  exact mul_nonneg (hH a j) (div_nonneg (lsHNum_nonneg hV he hW a j) (lsHDen_nonneg he hW hH a j))

theorem lsStepW_nonneg {V We : Mat m n K} {W W' : Mat m k K}
    {H : Mat k n K}
    (hV : ∀ i j, 0 ≤ V i j) (he : ∀ i j, 0 ≤ We i j) (hW : ∀ i a, 0 ≤ W i a) (hH : ∀ a j, 0 ≤ H a j)
    (h : lsStepW V We W H = some W') : ∀ i a, 0 ≤ W' i a := fun i a =>
  lsStepH_nonneg (V := (tr V)) (We := (tr We)) (fun i j => hV j i) (fun i j => he j i) (fun i j => hH j i)
    (fun i j => hW j i) (lsStepW_iff_transpose.1 h) a i

theorem lsUpdate_pos {V We : Mat m n K} {W : Mat m k K} {H : Mat k n K}
    (hm : 0 < m) (hn : 0 < n) (hV : ∀ i j, 0 ≤ V i j) (hrow : ∀ i, ∃ j, 0 < V i j) (hcol : ∀ j, ∃ i, 0 < V i j)
    (he : ∀ i j, 0 < We i j) (hW : ∀ i a, 0 < W i a) (hH : ∀ a j, 0 < H a j) (b : Bool) :
    ∃ W' H', lsUpdate V We b W H = some (W', H') ∧ (∀ i a, 0 < W' i a) ∧ (∀ a j, 0 < H' a j) := by
  cases b
  · obtain ⟨H', h1, h2⟩ := lsStepH_pos hm hV hcol he hW hH
    obtain ⟨W', h3, h4⟩ := lsStepW_pos hn hV hrow he hW h2
    exact ⟨W', H', lsUpdate_eq_some.2 ⟨Or.inr ⟨rfl, h1⟩, h3⟩, h4, h2⟩
  · obtain ⟨W', h3, h4⟩ := lsStepW_pos hn hV hrow he hW hH
    exact ⟨W', H, lsUpdate_eq_some.2 ⟨Or.inl ⟨rfl, rfl⟩, h3⟩, h4, hH⟩

theorem lsUpdate_nonneg {V We : Mat m n K} {W W' : Mat m k K}
    {H H' : Mat k n K} {b : Bool}
    (hV : ∀ i j, 0 ≤ V i j) (he : ∀ i j, 0 ≤ We i j) (hW : ∀ i a, 0 ≤ W i a) (hH : ∀ a j, 0 ≤ H a j)
    (h : lsUpdate V We b W H = some (W', H')) : (∀ i a, 0 ≤ W' i a) ∧ (∀ a j, 0 ≤ H' a j) := by
  obtain ⟨h1, h2⟩ := lsUpdate_eq_some.1 h
  have hH' : ∀ a j, 0 ≤ H' a j := by
    rcases h1 with ⟨_, rfl⟩ | ⟨_, h1⟩
    · exact hH
    · exact lsStepH_nonneg hV he hW hH h1
  exact ⟨lsStepW_nonneg hV he hW hH' h2, hH'⟩

/-- Sum form of the weighted loss, used by the descent lemmas. -/
def wl (V We : Mat m n K) (W : Mat m k K) (H : Mat k n K) : K :=
  ∑ i, ∑ j, We i j * (V i j - ∑ a, W i a * H a j) ^ 2

theorem wl_transpose (V We : Mat m n K) (W : Mat m k K) (H : Mat k n K) :
    wl (tr V) (tr We) (tr H) (tr W) = wl V We W H := by
  unfold wl
  rw [Finset.sum_comm]
  refine Finset.sum_congr rfl fun i _ => Finset.sum_congr rfl fun j _ => ?_
  simp only [tr]
  congr 3
  exact Finset.sum_congr rfl fun a _ => mul_comm _ _

theorem lsStepH_descent {V We : Mat m n K} {W : Mat m k K}
    {H H' : Mat k n K} (he : ∀ i j, 0 ≤ We i j) (hW : ∀ i a, 0 ≤ W i a) (hH : ∀ a j, 0 ≤ H a j)
    (h : lsStepH V We W H = some H') :
    wl V We W H' + ∑ j, ∑ a, H a j * lsHDen We W H a j * (lsHNum V We W a j / lsHDen We W H a j - 1) ^ 2
      ≤ wl V We W H := by
  obtain ⟨h0, h1⟩ := lsStepH_eq_some.1 h
  have hc : ∀ X : Mat k n K,
      wl V We W X = ∑ j, ∑ i, We i j * (V i j - ∑ a, W i a * X a j) ^ 2 := fun X => Finset.sum_comm
  rw [hc, hc, ← Finset.sum_add_distrib]
  refine Finset.sum_le_sum fun j _ => ?_
  exact column_descent (fun i a => W i a) (fun i => We i j) (fun i => V i j) (fun a => H a j) (fun a => H' a j)
    (fun a => lsHNum V We W a j) (fun a => lsHDen We W H a j) (fun i => he i j)
    (fun i a => mul_nonneg (hW i a) (hH a j)) (fun a => lsHNum_apply V We W a j)
    (fun a => lsHDen_apply We W H a j) (fun a => h0 a j) (fun a => h1 a j)

theorem lsStepH_le {V We : Mat m n K} {W : Mat m k K}
    {H H' : Mat k n K} (he : ∀ i j, 0 ≤ We i j) (hW : ∀ i a, 0 ≤ W i a) (hH : ∀ a j, 0 ≤ H a j)
    (h : lsStepH V We W H = some H') : wl V We W H' ≤ wl V We W H := by
  refine le_trans ?_ (lsStepH_descent he hW hH h)
  refine le_add_of_nonneg_right (Finset.sum_nonneg fun j _ => Finset.sum_nonneg fun a _ => ?_)
  exact mul_nonneg (mul_nonneg (hH a j) (lsHDen_nonneg he hW hH a j)) (sq_nonneg _)

/-- If the H step does not lower the loss it does not move. -/
theorem lsStepH_stall {V We : Mat m n K} {W : Mat m k K}
    {H H' : Mat k n K} (he : ∀ i j, 0 ≤ We i j) (hW : ∀ i a, 0 ≤ W i a) (hH : ∀ a j, 0 ≤ H a j)
    (h : lsStepH V We W H = some H') (hs : wl V We W H ≤ wl V We W H') : H' = H := by
  have hd := lsStepH_descent he hW hH h
  have hnn : ∀ j a, 0 ≤ H a j * lsHDen We W H a j * (lsHNum V We W a j / lsHDen We W H a j - 1) ^ 2 :=
    fun j a => mul_nonneg (mul_nonneg (hH a j) (lsHDen_nonneg he hW hH a j)) (sq_nonneg _)
  have hz : ∑ j, ∑ a, H a j * lsHDen We W H a j * (lsHNum V We W a j / lsHDen We W H a j - 1) ^ 2 = 0 :=
    le_antisymm (by linarith) (Finset.sum_nonneg fun j _ => Finset.sum_nonneg fun a _ => hnn j a)
  obtain ⟨h0, h1⟩ := lsStepH_eq_some.1 h
  ext a j
  have h2 := (Finset.sum_eq_zero_iff_of_nonneg (fun j _ => Finset.sum_nonneg fun a _ => hnn j a)).1 hz j
    (Finset.mem_univ _)
  have h3 := (Finset.sum_eq_zero_iff_of_nonneg (fun a _ => hnn j a)).1 h2 a (Finset.mem_univ _)
  rw [h1]
  rcases mul_eq_zero.1 h3 with h4 | h4
  · rcases mul_eq_zero.1 h4 with h5 | h5
    · rw [h5, zero_mul]
    · exact absurd h5 (h0 a j)
  · have : lsHNum V We W a j / lsHDen We W H a j = 1 := by
      have := pow_eq_zero_iff (two_ne_zero) |>.1 h4
      linarith
    rw [this, mul_one]

theorem lsStepW_le {V We : Mat m n K} {W W' : Mat m k K}
    {H : Mat k n K} (he : ∀ i j, 0 ≤ We i j) (hW : ∀ i a, 0 ≤ W i a) (hH : ∀ a j, 0 ≤ H a j)
    (h : lsStepW V We W H = some W') : wl V We W' H ≤ wl V We W H := by
  rw [← wl_transpose V We W' H, ← wl_transpose V We W H]
  exact lsStepH_le (fun i j => he j i) (fun i j => hH j i) (fun i j => hW j i) (lsStepW_iff_transpose.1 h)

theorem lsStepW_stall {V We : Mat m n K} {W W' : Mat m k K}
    {H : Mat k n K} (he : ∀ i j, 0 ≤ We i j) (hW : ∀ i a, 0 ≤ W i a) (hH : ∀ a j, 0 ≤ H a j)
    (h : lsStepW V We W H = some W') (hs : wl V We W H ≤ wl V We W' H) : W' = W := by
  rw [← wl_transpose V We W' H, ← wl_transpose V We W H] at hs
  have := lsStepH_stall (fun i j => he j i) (fun i j => hH j i) (fun i j => hW j i)
    (lsStepW_iff_transpose.1 h) hs
  ext i a
  exact congrFun (congrFun this a) i

end Ordered

section Equivariance
variable {K : Type*} [Field K] [DecidableEq K] {m n k : ℕ}

/-- If numerator and denominator of the H step transform by `num' = s·num∘(f,g)`, `den' = t·den∘(f,g)`, `H' = u·H∘(f,g)`
with `s / t = 1`-like cancellation, the step commutes with the transformation. -/
theorem lsStepH_equivariant {m' n' k' : ℕ} {V We : Mat m n K} {W : Mat m k K}
    {H : Mat k n K} {V' We' : Mat m' n' K} {W' : Mat m' k' K}
    {H' : Mat k' n' K} (f : Fin k' ≃ Fin k) (g : Fin n' ≃ Fin n) (s u : Fin k' → K)
    (hs : ∀ a, s a ≠ 0)
    (hnum : ∀ a j, lsHNum V' We' W' a j = s a * lsHNum V We W (f a) (g j))
    (hden : ∀ a j, lsHDen We' W' H' a j = s a * lsHDen We W H (f a) (g j))
    (hH : ∀ a j, H' a j = u a * H (f a) (g j)) :
    lsStepH V' We' W' H' = (lsStepH V We W H).map (fun X => fun a j => u a * X (f a) (g j)) := by
  have hz : NoZero (lsHDen We' W' H') ↔ NoZero (lsHDen We W H) := by
    constructor
    · intro h a j
      have := h (f.symm a) (g.symm j)
      rw [hden] at this
      simpa using right_ne_zero_of_mul this
    · intro h a j
      rw [hden]; exact mul_ne_zero (hs a) (h _ _)
  unfold lsStepH
  by_cases h : NoZero (lsHDen We W H)
  · rw [if_pos h, if_pos (hz.2 h)]
    refine congrArg some (funext fun a => funext fun j => ?_)
    change H' a j * (lsHNum V' We' W' a j / lsHDen We' W' H' a j)
      = u a * (H (f a) (g j) * (lsHNum V We W (f a) (g j) / lsHDen We W H (f a) (g j)))
    rw [hnum, hden, hH, mul_div_mul_left _ _ (hs a), mul_assoc]
  · rw [if_neg h, if_neg (fun h' => h (hz.1 h'))]; rfl

theorem lsStepW_eq_transpose (V We : Mat m n K) (W : Mat m k K)
    (H : Mat k n K) :
    lsStepW V We W H = (lsStepH (tr V) (tr We) (tr H) (tr W)).map (fun X => (tr X)) := by
  cases h : lsStepH (tr V) (tr We) (tr H) (tr W) with
  | some X =>
    have : lsStepH (tr V) (tr We) (tr H) (tr W) = some (tr (tr X)) := by rw [h]; rfl
    rw [lsStepW_iff_transpose.2 this]; rfl
  | none =>
    cases h2 : lsStepW V We W H with
    | none => rfl
    | some X => rw [lsStepW_iff_transpose.1 h2] at h; cases h

/-- `fW`, `fH` carry the half steps of one problem to the half steps of another. -/
structure StepEquiv {m' n' k' : ℕ} (V We : Mat m n K) (V' We' : Mat m' n' K)
    (fW : Mat m k K → Mat m' k' K) (fH : Mat k n K → Mat k' n' K) : Prop where
  hH : ∀ W H, lsStepH V' We' (fW W) (fH H) = (lsStepH V We W H).map fH
  hW : ∀ W H, lsStepW V' We' (fW W) (fH H) = (lsStepW V We W H).map fW

theorem StepEquiv.update {m' n' k' : ℕ} {V We : Mat m n K} {V' We' : Mat m' n' K}
    {fW : Mat m k K → Mat m' k' K} {fH : Mat k n K → Mat k' n' K} (e : StepEquiv V We V' We' fW fH) (b W H) :
    lsUpdate V' We' b (fW W) (fH H) = (lsUpdate V We b W H).map (fun p => (fW p.1, fH p.2)) := by
  cases b
  · simp only [lsUpdate, e.hH]
    cases lsStepH V We W H with
    | none => rfl
    | some H1 =>
      simp only [Bool.false_eq_true, if_false, Option.map_some, Option.bind_eq_bind, Option.bind_some, e.hW]
      cases lsStepW V We W H1 <;> rfl
  · simp only [lsUpdate, if_true, Option.bind_eq_bind, Option.bind_some, e.hW]
    cases lsStepW V We W H <;> rfl

theorem StepEquiv.run {m' n' k' : ℕ} {V We : Mat m n K} {V' We' : Mat m' n' K}
    {fW : Mat m k K → Mat m' k' K} {fH : Mat k n K → Mat k' n' K} (e : StepEquiv V We V' We' fW fH)
    (holds : List Bool) (W H) :
    lsRun V' We' holds (fW W) (fH H) = (lsRun V We holds W H).map (fun p => (fW p.1, fH p.2)) := by
  induction holds generalizing W H with
  | nil => rfl
  | cons b bs ih =>
    simp only [lsRun, e.update]
    cases lsUpdate V We b W H with
    | none => rfl
    | some p => exact ih p.1 p.2

theorem StepEquiv.trace {m' n' k' : ℕ} {V We : Mat m n K} {V' We' : Mat m' n' K}
    {fW : Mat m k K → Mat m' k' K} {fH : Mat k n K → Mat k' n' K} (e : StepEquiv V We V' We' fW fH)
    {α : Type*} (loss : Mat m k K → Mat k n K → α) (loss' : Mat m' k' K → Mat k' n' K → α)
    (hl : ∀ W H, loss' (fW W) (fH H) = loss W H) (holds : List Bool) (W H) :
    lsTrace V' We' loss' holds (fW W) (fH H) = lsTrace V We loss holds W H := by
  induction holds generalizing W H with
  | nil => rfl
  | cons b bs ih =>
    simp only [lsTrace, e.update]
    cases lsUpdate V We b W H with
    | none => rfl
    | some p =>
      simp only [Option.map_some, hl]
      rw [ih]

end Equivariance

end Esat
