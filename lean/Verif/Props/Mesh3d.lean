import Verif.Model.Mesh3d
import Mathlib.Tactic.Linarith
import Mathlib.Tactic.FieldSimp
import Mathlib.Tactic.NormNum
import Mathlib.Algebra.Order.Field.Basic
import Mathlib.Algebra.BigOperators.Field
import Mathlib.Algebra.Order.BigOperators.Group.Finset

/-!
# The bars of `plot_all_factors_3d` (C198)
-/

namespace Esat

theorem getElem?_flatMap_const {α β : Type*} (f : α → List β) (L : ℕ) (hf : ∀ a, (f a).length = L) (l : List α) :
    ∀ b v : ℕ, v < L → (l.flatMap f)[b * L + v]? = (l[b]?).bind fun a => (f a)[v]? := by
  induction l with
  | nil => intro b v _; simp
  | cons a l ih =>
    intro b v hv
    rw [List.flatMap_cons]
    cases b with
    | zero =>
      rw [Nat.zero_mul, Nat.zero_add, List.getElem?_append_left (by rw [hf]; exact hv)]
      rfl
    | succ b =>
      have h1 : (b + 1) * L + v = L + (b * L + v) := by rw [Nat.succ_mul]; omega
      rw [h1, List.getElem?_append_right (by rw [hf]; omega), hf, Nat.add_sub_cancel_left, ih b v hv]
      rfl

section mesh
variable {K : Type*} [Field K]

/-- The pairs of the two loops in order. -/
def barPairs (k n : ℕ) : List (ℕ × ℕ) := (List.range k).flatMap fun i => (List.range n).map fun j => (i, j)

theorem barPairs_get (k n i j : ℕ) (hi : i < k) (hj : j < n) : (barPairs k n)[i * n + j]? = some (i, j) := by
  unfold barPairs
  rw [getElem?_flatMap_const _ n (by simp) _ _ _ hj, List.getElem?_range hi, Option.bind_some, List.getElem?_map, List.getElem?_range hj]
  rfl

theorem barPairs_length (k n : ℕ) : (barPairs k n).length = k * n := by
  unfold barPairs
  rw [List.length_flatMap]
  simp

theorem addBar_foldl (feature : ℕ → String) (z : ℕ → ℕ → K) (l : List (ℕ × ℕ)) : ∀ (M : Mesh K) (c : ℕ),
    l.foldl (addBar feature z) (M, c) =
      (⟨M.points ++ l.flatMap fun p => barVertices p.1 p.2 (z p.1 p.2),
        M.triangles ++ (List.range' c l.length).flatMap fun b => barFaces.map fun f => (b * 8 + f.1, b * 8 + f.2.1, b * 8 + f.2.2),
        M.intensity ++ l.flatMap fun p => List.replicate 8 (z p.1 p.2),
        M.text ++ l.flatMap fun p => List.replicate 8 (p.1 + 1, feature p.2, z p.1 p.2)⟩, c + l.length) := by
  induction l with
  | nil => intro M c; simp
  | cons p l ih =>
    intro M c
    rw [List.foldl_cons]
    show l.foldl (addBar feature z) (_, c + 1) = _
    rw [ih]
    simp only [addBar, List.flatMap_cons, List.length_cons, List.range'_succ, List.append_assoc]
    rw [Nat.add_assoc, Nat.add_comm 1]

theorem createMesh_eq (k n : ℕ) (feature : ℕ → String) (z : ℕ → ℕ → K) :
    createMesh k n feature z =
      ⟨(barPairs k n).flatMap fun p => barVertices p.1 p.2 (z p.1 p.2),
        (List.range (k * n)).flatMap fun b => barFaces.map fun f => (b * 8 + f.1, b * 8 + f.2.1, b * 8 + f.2.2),
        (barPairs k n).flatMap fun p => List.replicate 8 (z p.1 p.2),
        (barPairs k n).flatMap fun p => List.replicate 8 (p.1 + 1, feature p.2, z p.1 p.2)⟩ := by
  have := congrArg Prod.fst (addBar_foldl feature z (barPairs k n) ⟨[], [], [], []⟩ 0)
  simp only [List.nil_append, barPairs_length, ← List.range_eq_range'] at this
  exact this

/-- A point is a corner of the box above the rectangle of half sizes 0.425 and 0.175 around feature `j` and factor `i`, from zero to `z`. -/
def BarCorner (i j : ℕ) (z : K) (p : K × K × K) : Prop :=
  (p.1 = j - 425 / 1000 ∨ p.1 = j + 425 / 1000) ∧ (p.2.1 = i - 175 / 1000 ∨ p.2.1 = i + 175 / 1000) ∧ (p.2.2 = 0 ∨ p.2.2 = z)

/-- **C198.** The mesh has eight points for each bar and twelve triangles; point `8 (i n + j) + v` is a corner of the bar of factor `i` and feature `j`, every corner of the bar is among the eight, and the colour and hover text of
these points are those of factor `i` and feature `j`. -/
theorem C198_points [CharZero K] (k n : ℕ) (feature : ℕ → String) (z : ℕ → ℕ → K) :
    (createMesh k n feature z).points.length = 8 * (k * n) ∧ (createMesh k n feature z).triangles.length = 12 * (k * n) ∧
    (createMesh k n feature z).intensity.length = 8 * (k * n) ∧ (createMesh k n feature z).text.length = 8 * (k * n) ∧
    ∀ i j, i < k → j < n →
      (∀ v, v < 8 → (createMesh k n feature z).intensity[8 * (i * n + j) + v]? = some (z i j) ∧
        (createMesh k n feature z).text[8 * (i * n + j) + v]? = some (i + 1, feature j, z i j) ∧
        ∃ p, (createMesh k n feature z).points[8 * (i * n + j) + v]? = some p ∧ BarCorner i j (z i j) p) ∧
      ∀ p, BarCorner i j (z i j) p → ∃ v, v < 8 ∧ (createMesh k n feature z).points[8 * (i * n + j) + v]? = some p := by
  have h425 : (85 : K) / 100 / 2 = 425 / 1000 := by norm_num
  have h175 : (35 : K) / 100 / 2 = 175 / 1000 := by norm_num
  have hpt : ∀ i j, i < k → j < n → ∀ v, v < 8 →
      (createMesh k n feature z).points[8 * (i * n + j) + v]? = (barVertices i j (z i j))[v]? := by
    intro i j hi hj v hv
    rw [createMesh_eq, Nat.mul_comm 8]
    simp only
    rw [getElem?_flatMap_const _ 8 (fun _ => rfl) _ _ _ hv, barPairs_get k n i j hi hj]
    rfl
  refine ⟨?_, ?_, ?_, ?_, ?_⟩
  · rw [createMesh_eq]
    simp [List.length_flatMap, barVertices, barPairs_length, Nat.mul_comm]
  · rw [createMesh_eq]
    simp [List.length_flatMap, barFaces, Nat.mul_comm]
  · rw [createMesh_eq]
    simp [List.length_flatMap, barPairs_length, Nat.mul_comm]
  · rw [createMesh_eq]
    simp [List.length_flatMap, barPairs_length, Nat.mul_comm]
  · intro i j hi hj
    constructor
    · intro v hv
      refine ⟨?_, ?_, ?_⟩
      · rw [createMesh_eq, Nat.mul_comm 8]
        simp only
        rw [getElem?_flatMap_const _ 8 (by simp) _ _ _ hv, barPairs_get k n i j hi hj, Option.bind_some, List.getElem?_replicate, if_pos hv]
      · rw [createMesh_eq, Nat.mul_comm 8]
        simp only
        rw [getElem?_flatMap_const _ 8 (by simp) _ _ _ hv, barPairs_get k n i j hi hj, Option.bind_some, List.getElem?_replicate, if_pos hv]
      · rw [hpt i j hi hj v hv]
        have hlen : (barVertices i j (z i j)).length = 8 := rfl
        refine ⟨(barVertices i j (z i j))[v], List.getElem?_eq_getElem (by omega), ?_⟩
        have : ∀ p ∈ barVertices i j (z i j), BarCorner i j (z i j) p := by
          intro p hp
          unfold barVertices at hp
          simp only [List.mem_cons, List.not_mem_nil, or_false, h425, h175] at hp
          rcases hp with rfl | rfl | rfl | rfl | rfl | rfl | rfl | rfl <;> simp [BarCorner]
        exact this _ (List.getElem_mem _)
    · rintro ⟨x, y, w⟩ ⟨hx, hy, hw⟩
      have : (x, y, w) ∈ barVertices i j (z i j) := by
        unfold barVertices
        simp only [List.mem_cons, List.not_mem_nil, or_false, h425, h175]
        simp only at hx hy hw
        rcases hx with rfl | rfl <;> rcases hy with rfl | rfl <;> rcases hw with rfl | rfl <;> simp
      obtain ⟨v, hv, e⟩ := List.mem_iff_getElem.1 this
      have hv8 : v < 8 := hv
      exact ⟨v, hv8, by rw [hpt i j hi hj v hv8, ← e]; exact List.getElem?_eq_getElem hv⟩

/-- The corners of a triangle. -/
def HasCorner (t : ℕ × ℕ × ℕ) (a : ℕ) : Prop := t.1 = a ∨ t.2.1 = a ∨ t.2.2 = a

instance (t : ℕ × ℕ × ℕ) (a : ℕ) : Decidable (HasCorner t a) := by unfold HasCorner; infer_instance

theorem barFaces_lt : ∀ f ∈ barFaces, f.1 < 8 ∧ f.2.1 < 8 ∧ f.2.2 < 8 := by decide

theorem barFaces_edges : ∀ a < 8, ∀ b < 8, a ≠ b → barFaces.countP (fun f => decide (HasCorner f a ∧ HasCorner f b)) = 0 ∨
    barFaces.countP (fun f => decide (HasCorner f a ∧ HasCorner f b)) = 2 := by decide +kernel

theorem hasCorner_shift (b : ℕ) (f : ℕ × ℕ × ℕ) (hf : f.1 < 8 ∧ f.2.1 < 8 ∧ f.2.2 < 8) (a : ℕ) :
    HasCorner (b * 8 + f.1, b * 8 + f.2.1, b * 8 + f.2.2) a ↔ a / 8 = b ∧ HasCorner f (a % 8) := by
  unfold HasCorner
  simp only
  omega

theorem countP_flatMap_range (N : ℕ) (g : ℕ → List (ℕ × ℕ × ℕ)) (q : ℕ × ℕ × ℕ → Bool) (b : ℕ) (hb : ∀ b', b' ≠ b → (g b').countP q = 0) :
    ((List.range N).flatMap g).countP q = if b < N then (g b).countP q else 0 := by
  induction N with
  | zero => simp
  | succ N ih =>
    rw [List.range_succ, List.flatMap_append, List.countP_append, ih]
    simp only [List.flatMap_cons, List.flatMap_nil, List.append_nil]
    by_cases h : b = N
    · subst h
      simp
    · rw [hb N (Ne.symm h), Nat.add_zero]
      congr 1
      exact propext (by omega)

/-- **C198.** The triangles form closed surfaces, one for each bar: a triangle has three different corners, all of them points of the bar it was made for, so that triangle `12 b + f` belongs to bar `b`; and each edge, that is, each pair of corners
of a triangle, belongs to exactly two triangles of the mesh. -/
theorem C198_closed (k n : ℕ) (feature : ℕ → String) (z : ℕ → ℕ → K) :
    (∀ b f, b < k * n → f < 12 → ∃ t, (createMesh k n feature z).triangles[12 * b + f]? = some t ∧
      (∀ a, HasCorner t a → 8 * b ≤ a ∧ a < 8 * (b + 1)) ∧ t.1 ≠ t.2.1 ∧ t.1 ≠ t.2.2 ∧ t.2.1 ≠ t.2.2) ∧
    ∀ a a', a ≠ a' → (∃ t ∈ (createMesh k n feature z).triangles, HasCorner t a ∧ HasCorner t a') →
      (createMesh k n feature z).triangles.countP (fun t => decide (HasCorner t a ∧ HasCorner t a')) = 2 := by
  have hcm : (createMesh k n feature z).triangles =
      (List.range (k * n)).flatMap fun b => barFaces.map fun f => (b * 8 + f.1, b * 8 + f.2.1, b * 8 + f.2.2) := by rw [createMesh_eq]
  rw [hcm]
  constructor
  · intro b f hb hf
    have hlen : barFaces.length = 12 := rfl
    rw [Nat.mul_comm 12, getElem?_flatMap_const _ 12 (fun _ => rfl) _ _ _ hf, List.getElem?_range hb, Option.bind_some, List.getElem?_map,
      List.getElem?_eq_getElem (by omega)]
    refine ⟨_, rfl, ?_, ?_⟩
    · intro a ha
      obtain ⟨h1, -⟩ := (hasCorner_shift b _ (barFaces_lt _ (List.getElem_mem _)) a).1 ha
      omega
    · have : ∀ f ∈ barFaces, f.1 ≠ f.2.1 ∧ f.1 ≠ f.2.2 ∧ f.2.1 ≠ f.2.2 := by decide
      have := this _ (List.getElem_mem (by omega : f < barFaces.length))
      simp only
      omega
  · rintro a a' hne ⟨t, ht, h1, h2⟩
    obtain ⟨b, hb, ht⟩ := List.mem_flatMap.1 ht
    rw [List.mem_range] at hb
    obtain ⟨f, hf, rfl⟩ := List.mem_map.1 ht
    obtain ⟨e1, c1⟩ := (hasCorner_shift b f (barFaces_lt f hf) a).1 h1
    obtain ⟨e2, c2⟩ := (hasCorner_shift b f (barFaces_lt f hf) a').1 h2
    have hcount : ∀ b', (barFaces.map fun f => (b' * 8 + f.1, b' * 8 + f.2.1, b' * 8 + f.2.2)).countP
        (fun t => decide (HasCorner t a ∧ HasCorner t a')) =
        if b' = b then barFaces.countP (fun f => decide (HasCorner f (a % 8) ∧ HasCorner f (a' % 8))) else 0 := by
      intro b'
      rw [List.countP_map]
      split
      · rename_i h
        refine List.countP_congr fun f hf => ?_
        simp only [Function.comp, decide_eq_true_eq]
        rw [hasCorner_shift b' f (barFaces_lt f hf), hasCorner_shift b' f (barFaces_lt f hf), h, e1, e2]
        simp
      · rename_i h
        rw [List.countP_eq_zero]
        intro f hf
        simp only [Function.comp, decide_eq_true_eq]
        rw [hasCorner_shift b' f (barFaces_lt f hf), e1]
        exact fun hh => h hh.1.1.symm
    rw [countP_flatMap_range _ _ _ b (fun b' hb' => by rw [hcount, if_neg hb']), if_pos hb, hcount, if_pos rfl]
    refine (barFaces_edges (a % 8) (Nat.mod_lt _ (by norm_num)) (a' % 8) (Nat.mod_lt _ (by norm_num)) (fun h => hne ?_)).resolve_left ?_
    · rw [← Nat.div_add_mod a 8, ← Nat.div_add_mod a' 8, e1, e2, h]
    · intro h0
      rw [List.countP_eq_zero] at h0
      exact h0 f hf (by simpa using ⟨c1, c2⟩)

end mesh

section order
variable {K : Type*} [Field K] [LinearOrder K] [IsStrictOrderedRing K]

/-- **C198.** Bars do not touch: points of the bars of two different pairs are at least 0.15 apart in the direction of the features or 0.65 apart in the direction of the factors. -/
theorem C198_apart (i j i' j' : ℕ) (h : (i, j) ≠ (i', j')) (z z' : K) (p q : K × K × K) (hp : BarCorner i j z p) (hq : BarCorner i' j' z' q) :
    15 / 100 ≤ |p.1 - q.1| ∨ 65 / 100 ≤ |p.2.1 - q.2.1| := by
  obtain ⟨hx, hy, -⟩ := hp
  obtain ⟨hx', hy', -⟩ := hq
  have key : ∀ (a b : ℕ) (w u v : K), a < b → (u = a - w ∨ u = a + w) → (v = b - w ∨ v = b + w) → 0 ≤ w → 1 - 2 * w ≤ v - u := by
    intro a b w u v hab hu hv hw
    have : (a : K) + 1 ≤ b := by exact_mod_cast hab
    rcases hu with rfl | rfl <;> rcases hv with rfl | rfl <;> linarith
  rcases lt_trichotomy j j' with hj | hj | hj
  · left
    have := key j j' (425 / 1000) _ _ hj hx hx' (by norm_num)
    rw [abs_sub_comm]
    exact le_trans (by linarith) (le_abs_self _)
  · rcases lt_trichotomy i i' with hi | hi | hi
    · right
      have := key i i' (175 / 1000) _ _ hi hy hy' (by norm_num)
      rw [abs_sub_comm]
      exact le_trans (by linarith) (le_abs_self _)
    · exact absurd (Prod.ext hi hj) h
    · right
      have := key i' i (175 / 1000) _ _ hi hy' hy (by norm_num)
      exact le_trans (by linarith) (le_abs_self _)
  · left
    have := key j' j (425 / 1000) _ _ hj hx' hx (by norm_num)
    exact le_trans (by linarith) (le_abs_self _)

end order

theorem barFaces_sides {K : Type*} [Field K] (i j : ℕ) (z : K) : ∀ f ∈ barFaces, ∃ p q r : K × K × K,
    (barVertices i j z)[f.1]? = some p ∧ (barVertices i j z)[f.2.1]? = some q ∧ (barVertices i j z)[f.2.2]? = some r ∧
    ((p.1 = q.1 ∧ q.1 = r.1) ∨ (p.2.1 = q.2.1 ∧ q.2.1 = r.2.1) ∨ (p.2.2 = q.2.2 ∧ q.2.2 = r.2.2)) := by
  intro f hf
  simp only [barFaces, List.mem_cons, List.not_mem_nil, or_false] at hf
  rcases hf with rfl | rfl | rfl | rfl | rfl | rfl | rfl | rfl | rfl | rfl | rfl | rfl <;>
    exact ⟨_, _, _, rfl, rfl, rfl, by simp⟩

/-- **C198.** Every triangle lies in one side of its bar: its three corners agree in one coordinate. -/
theorem C198_sides {K : Type*} [Field K] (k n : ℕ) (feature : ℕ → String) (z : ℕ → ℕ → K) (t : ℕ × ℕ × ℕ) (ht : t ∈ (createMesh k n feature z).triangles) :
    ∃ p q r : K × K × K, (createMesh k n feature z).points[t.1]? = some p ∧ (createMesh k n feature z).points[t.2.1]? = some q ∧
      (createMesh k n feature z).points[t.2.2]? = some r ∧
      ((p.1 = q.1 ∧ q.1 = r.1) ∨ (p.2.1 = q.2.1 ∧ q.2.1 = r.2.1) ∨ (p.2.2 = q.2.2 ∧ q.2.2 = r.2.2)) := by
  rw [createMesh_eq] at ht ⊢
  obtain ⟨b, hb, ht⟩ := List.mem_flatMap.1 ht
  rw [List.mem_range] at hb
  obtain ⟨f, hf, rfl⟩ := List.mem_map.1 ht
  obtain ⟨l1, l2, l3⟩ := barFaces_lt f hf
  have hb' : b < (barPairs k n).length := by rw [barPairs_length]; exact hb
  obtain ⟨p, q, r, h1, h2, h3, h4⟩ := barFaces_sides (barPairs k n)[b].1 (barPairs k n)[b].2 (z (barPairs k n)[b].1 (barPairs k n)[b].2) f hf
  refine ⟨p, q, r, ?_, ?_, ?_, h4⟩ <;> simp only
  · rw [getElem?_flatMap_const _ 8 (fun _ => rfl) _ _ _ l1, List.getElem?_eq_getElem hb']
    exact h1
  · rw [getElem?_flatMap_const _ 8 (fun _ => rfl) _ _ _ l2, List.getElem?_eq_getElem hb']
    exact h2
  · rw [getElem?_flatMap_const _ 8 (fun _ => rfl) _ _ _ l3, List.getElem?_eq_getElem hb']
    exact h3

section heights
variable {m n k : ℕ}

/-- **C198.** The concentration height is a real number exactly if the concentration of the factor and feature, summed over the samples, is above minus one; it is positive exactly if this sum is not negative, so always for non-negative contributions and profiles;
and ten to the power of the height, minus one, is the sum unless the sum is zero. -/
theorem C198_conc (W : Mat m k ℝ) (H : Mat k n ℝ) (i : Fin k) (j : Fin n) :
    ((meshConc W H i j).isSome ↔ -1 < ∑ t, W t i * H i j) ∧
    ∀ z, meshConc W H i j = some z → (0 < z ↔ 0 ≤ ∑ t, W t i * H i j) ∧
      (10 : ℝ) ^ z - 1 = if ∑ t, W t i * H i j = 0 then 1 / 1000000000000 else ∑ t, W t i * H i j := by
  unfold meshConc
  set s := ∑ t, W t i * H i j
  simp only
  have hs : ((if s = 0 then (1 : ℝ) / 1000000000000 else s) + 1 ≤ 0 ↔ s ≤ -1) ∧ (0 < (if s = 0 then (1 : ℝ) / 1000000000000 else s) ↔ 0 ≤ s) := by
    split
    · rename_i h
      rw [h]
      constructor
      · constructor <;> intro hh <;> norm_num at hh
      · norm_num
    · rename_i h
      refine ⟨by constructor <;> intro <;> linarith, ⟨fun hh => hh.le, fun hh => lt_of_le_of_ne hh (Ne.symm h)⟩⟩
  generalize (if s = 0 then (1 : ℝ) / 1000000000000 else s) = s' at hs ⊢
  constructor
  · rw [← not_le, ← hs.1]
    split
    · rename_i h
      simp [h]
    · rename_i h
      simp [h]
  · intro z hz
    split at hz
    · cases hz
    · rename_i h
      rw [not_le] at h
      obtain rfl := Option.some.inj hz
      constructor
      · rw [Real.logb_pos_iff (by norm_num) h, ← hs.2]
        constructor <;> intro <;> linarith
      · rw [Real.rpow_logb (by norm_num) (by norm_num) h]
        ring

/-- **C198.** The heights in percent exist for a feature exactly if its profile entries do not sum to zero, and then sum to 100 over the factors; for non-negative profiles each is between 0 and 100. -/
theorem C198_percent {K : Type*} [Field K] [LinearOrder K] [IsStrictOrderedRing K] (H : Mat k n K) (j : Fin n) :
    (∀ i, (meshPercent H i j).isSome ↔ ∑ a, H a j ≠ 0) ∧
    (∑ a, H a j ≠ 0 → ∃ z : Fin k → K, (∀ i, meshPercent H i j = some (z i)) ∧ ∑ i, z i = 100 ∧ ((∀ a, 0 ≤ H a j) → ∀ i, 0 ≤ z i ∧ z i ≤ 100)) := by
  constructor
  · intro i
    unfold meshPercent
    simp only
    split <;> simp_all
  · intro h
    refine ⟨fun i => 100 * (H i j / ∑ a, H a j), fun i => if_neg h, ?_, fun hn i => ?_⟩
    · rw [← Finset.mul_sum, ← Finset.sum_div, div_self h, mul_one]
    · have h0 : 0 ≤ ∑ a, H a j := Finset.sum_nonneg fun a _ => hn a
      have h1 : H i j / ∑ a, H a j ≤ 1 := div_le_one_of_le₀ (Finset.single_le_sum (f := fun a => H a j) (fun a _ => hn a) (Finset.mem_univ i)) h0
      have h2 : 0 ≤ H i j / ∑ a, H a j := div_nonneg (hn i) h0
      constructor <;> nlinarith

end heights

/-- Two factors, two features. -/
example : (createMesh 2 2 (fun j => if j = 0 then "a" else "b") (fun i j => ((i + 2 * j : ℕ) : ℚ))).points[25]? = some (1 + 425 / 1000, 1 - 175 / 1000, 0) ∧
    (createMesh 2 2 (fun j => if j = 0 then "a" else "b") (fun i j => ((i + 2 * j : ℕ) : ℚ))).text[31]? = some (2, "b", 3) := by
  decide +kernel

end Esat
