import Verif.Props.FactorCatalog
import Verif.Lemmas.Correlation

/-!
# C186: looking up a matrix in the factor catalog
-/

namespace Esat

section
variable {K : Type*} [Field K] [LinearOrder K] [IsStrictOrderedRing K] {n m : ℕ}

/-- `x` is the mean of the squared correlations of the matrix with the products of contribution and profile of all members. -/
def IsMeanCorr (members : List (FacVec n m K)) (wh : Mat m n K) (x : K) : Prop :=
  members ≠ [] ∧ ∃ v : List K, List.Forall₂ (fun f r => r2 (fun q : Fin (m * n) => f.w q.divNat * f.h q.modNat)
    (fun q : Fin (m * n) => wh q.divNat q.modNat) = some r) members v ∧ (members.length : K) * x = v.sum

theorem mapM_id_forall₂ {α : Type*} (g : α → Option K) (l : List α) (v : List K) :
    (l.map g).mapM id = some v ↔ List.Forall₂ (fun a r => g a = some r) l v := by
  induction l generalizing v with
  | nil =>
    simp only [List.map_nil, List.mapM_nil, Option.pure_def, Option.some.injEq, List.forall₂_nil_left_iff]
    exact eq_comm
  | cons a l ih =>
    rw [List.map_cons, List.mapM_cons, List.forall₂_cons_left_iff]
    simp only [id, Option.bind_eq_bind, Option.bind_eq_some_iff, Option.pure_def, Option.some.injEq]
    constructor
    · rintro ⟨r, hr, rs, hrs, rfl⟩
      exact ⟨r, rs, hr, (ih rs).1 hrs, rfl⟩
    · rintro ⟨r, rs, hr, hrs, rfl⟩
      exact ⟨r, hr, rs, (ih rs).2 hrs, rfl⟩

theorem entryCheckMatrix_iff (e : CatEntry (FacVec n m K) K) (wh : Mat m n K) (x : K) :
    entryCheckMatrix e wh = some x ↔ IsMeanCorr e.members wh x := by
  unfold entryCheckMatrix npMeanOpt IsMeanCorr
  by_cases h : e.members = []
  · simp [h]
  · have hl : (e.members.length : K) ≠ 0 := by
      rw [Nat.cast_ne_zero]; simpa using h
    rw [if_neg (by simpa using h), Option.map_eq_some_iff]
    simp only [mapM_id_forall₂]
    constructor
    · rintro ⟨v, hv, rfl⟩
      refine ⟨h, v, ?_, ?_⟩
      · refine hv.imp fun f r hr => ?_
        rw [r2_comm]; exact hr
      · rw [hv.length_eq] at hl ⊢
        field_simp
    · rintro ⟨-, v, hv, hx⟩
      refine ⟨v, ?_, ?_⟩
      · refine hv.imp fun f r hr => ?_
        rw [r2_comm]; exact hr
      · rw [← hx, ← hv.length_eq]
        field_simp

theorem IsMeanCorr.bounds {members : List (FacVec n m K)} {wh : Mat m n K} {x : K} (h : IsMeanCorr members wh x) : 0 ≤ x ∧ x ≤ 1 := by
  obtain ⟨hne, v, hv, hx⟩ := h
  have hl : (0 : K) < members.length := by
    rw [Nat.cast_pos]; exact List.length_pos_of_ne_nil hne
  have hb : 0 ≤ v.sum ∧ v.sum ≤ (members.length : K) := by
    clear hx hl hne
    induction hv with
    | nil => simp
    | cons hr _ ih =>
      have := r2_bounds _ _ _ hr
      rw [List.sum_cons, List.length_cons]
      push_cast
      exact ⟨by linarith [this.1, ih.1], by linarith [this.2, ih.2]⟩
  constructor
  · by_contra hc
    push Not at hc
    have := mul_neg_of_pos_of_neg hl hc
    linarith [hb.1]
  · by_contra hc
    push Not at hc
    have := mul_lt_mul_of_pos_left hc hl
    linarith [hb.2]

/-- **C186.** `check_matrix` returns an entry whose mean squared correlation with the matrix is positive and not below that of any other entry, with
this mean; the mean is at most 1. It returns nothing (and 0) exactly if no entry has a positive mean; an entry with a constant product has none. -/
theorem C186_best (c : Catalog (FacVec n m K) K) (wh : Mat m n K) :
    (∀ key r, checkMatrix c wh = (some key, r) → ∃ e, (key, e) ∈ c.factors ∧ IsMeanCorr e.members wh r ∧ 0 < r ∧ r ≤ 1 ∧
      ∀ p ∈ c.factors, ∀ s, IsMeanCorr p.2.members wh s → s ≤ r) ∧
    ((checkMatrix c wh).1 = none ↔ ∀ p ∈ c.factors, ∀ s, IsMeanCorr p.2.members wh s → s = 0) ∧
    ((checkMatrix c wh).1 = none → (checkMatrix c wh).2 = 0) := by
  have heq : checkMatrix c wh = c.factors.foldl (catStep false fun p => entryCheckMatrix p.2 wh) (none, 0) := rfl
  obtain ⟨h1, h2, h3⟩ := catStep_foldl false (fun p : ℕ × CatEntry (FacVec n m K) K => entryCheckMatrix p.2 wh) c.factors ((none, 0) : Option ℕ × K)
  rw [← heq] at h1 h2 h3
  simp only [CatBetter, Bool.false_eq_true, if_false, not_lt] at h1 h2 h3
  refine ⟨?_, ?_, ?_⟩
  · intro key r h
    rw [h] at h2 h3
    rcases h3 with h3 | ⟨p, hp, e1, e2, e3⟩
    · simp at h3
    · simp only [Option.some.injEq] at e1
      have hm := (entryCheckMatrix_iff p.2 wh r).1 e2
      refine ⟨p.2, ?_, hm, e3, hm.bounds.2, fun q hq s hs => h2 q hq s ((entryCheckMatrix_iff _ _ _).2 hs)⟩
      rw [e1]; exact hp
  · constructor
    · intro hn p hp s hs
      rcases h3 with h3 | ⟨q, hq, e1, -⟩
      · have := h2 p hp s ((entryCheckMatrix_iff _ _ _).2 hs)
        rw [h3] at this
        exact le_antisymm this hs.bounds.1
      · rw [hn] at e1; cases e1
    · intro h
      rcases h3 with h3 | ⟨q, hq, e1, e2, e3⟩
      · rw [h3]
      · have := h q hq _ ((entryCheckMatrix_iff _ _ _).1 e2)
        rw [this] at e3
        exact absurd e3 (lt_irrefl _)
  · intro hn
    rcases h3 with h3 | ⟨q, hq, e1, -⟩
    · rw [h3]
    · rw [hn] at e1; cases e1

/-- **C186.** A scale of the matrix or of profile and contribution of the members does not matter. -/
theorem C186_scale (members : List (FacVec n m K)) (a b : FacVec n m K → K) (ha : ∀ f, a f ≠ 0) (hb : ∀ f, b f ≠ 0) (wh : Mat m n K) (c : K)
    (hc : c ≠ 0) (x : K) :
    IsMeanCorr (members.map fun f => ⟨fun j => a f * f.h j, fun i => b f * f.w i⟩) (fun i j => c * wh i j) x ↔ IsMeanCorr members wh x := by
  have key : ∀ f : FacVec n m K, r2 (fun q : Fin (m * n) => b f * f.w q.divNat * (a f * f.h q.modNat)) (fun q : Fin (m * n) => c * wh q.divNat q.modNat)
      = r2 (fun q : Fin (m * n) => f.w q.divNat * f.h q.modNat) (fun q : Fin (m * n) => wh q.divNat q.modNat) := by
    intro f
    rw [r2_smul_right c hc]
    rw [← r2_smul_left (b f * a f) (mul_ne_zero (hb f) (ha f)) (fun q : Fin (m * n) => f.w q.divNat * f.h q.modNat)]
    congr 1
    funext q
    ring
  unfold IsMeanCorr
  rw [ne_eq, List.map_eq_nil_iff, List.length_map]
  simp only [List.forall₂_map_left_iff, key]

/-- **C186.** The product of a catalogued factor, whatever its scale, is found with value 1 if its entry consists of multiples of this factor. -/
theorem C186_member (c : Catalog (FacVec n m K) K) (key : ℕ) (e : CatEntry (FacVec n m K) K) (he : (key, e) ∈ c.factors) (hne : e.members ≠ [])
    (x : FacVec n m K) (hx : scov (fun q : Fin (m * n) => x.w q.divNat * x.h q.modNat) (fun q : Fin (m * n) => x.w q.divNat * x.h q.modNat) ≠ 0)
    (hm : ∀ f ∈ e.members, ∃ t : K, t ≠ 0 ∧ ∀ i j, f.w i * f.h j = t * (x.w i * x.h j)) (s : K) (hs : s ≠ 0) :
    ∃ key', checkMatrix c (fun i j => s * (x.w i * x.h j)) = (some key', 1) := by
  have hmean : IsMeanCorr e.members (fun i j => s * (x.w i * x.h j)) 1 := by
    refine ⟨hne, List.replicate e.members.length 1, ?_, by simp⟩
    rw [List.forall₂_iff_get]
    refine ⟨by simp, ?_⟩
    intro i h1 h2
    obtain ⟨t, ht, htf⟩ := hm _ (List.get_mem e.members ⟨i, h1⟩)
    simp only [htf, List.get_eq_getElem, List.getElem_replicate]
    simp only [List.get_eq_getElem] at htf
    simp only [htf]
    rw [r2_smul_right s hs, r2_smul_left t ht, r2_self _ hx]
  obtain ⟨h1, h2, h3⟩ := C186_best c fun i j => s * (x.w i * x.h j)
  cases hr : checkMatrix c fun i j => s * (x.w i * x.h j) with
  | mk k r =>
    cases k with
    | none =>
      have := h2.1 (by rw [hr]) _ he 1 hmean
      exact absurd this one_ne_zero
    | some key' =>
      obtain ⟨e', -, -, -, hle, hall⟩ := h1 key' r hr
      refine ⟨key', ?_⟩
      rw [le_antisymm hle (hall _ he 1 hmean)]

/-- A catalog with two entries; twice the product of the second factor is found with value 1. -/
example : checkMatrix (n := 2) (m := 2) (K := ℚ)
      ⟨[(0, ⟨[⟨fun j => if j = 0 then 1 else 2, fun i => if i = 0 then 1 else 0⟩], [0], [0]⟩),
        (1, ⟨[⟨fun j => if j = 0 then 3 else 0, fun _ => 1⟩], [0], [0]⟩)], 2, 1⟩
      (fun _ j => if j = 0 then 6 else 0) = (some 1, 1) := by
  decide +kernel

end

end Esat
