import Verif.Model.Pipeline
import Verif.Props.DataHandler
import Verif.Props.SA
import Verif.Props.LsNmf
import Verif.Props.Float32

/-!
# C193: from the loaded tables to the trained model

The theorems about the data handler, the constructor, the initialisation and the LS-NMF updates put together.
-/

namespace Esat

/-! ## LS-NMF with a zero row or column -/

section zeros
variable {K : Type*} [Field K] [LinearOrder K] [IsStrictOrderedRing K] {m n k : ℕ}

theorem lsUpdate_col (V We : Mat m n K) (hold : Bool) (W W' : Mat m k K) (H H' : Mat k n K) (j : Fin n) (hV : ∀ i, V i j = 0)
    (h : lsUpdate V We hold W H = some (W', H')) : (hold = true → ∀ a, H' a j = H a j) ∧ (hold = false → ∀ a, H' a j = 0) := by
  obtain ⟨h1, -⟩ := lsUpdate_eq_some.1 h
  rcases h1 with ⟨rfl, rfl⟩ | ⟨rfl, h1⟩
  · exact ⟨fun _ _ => rfl, fun h => by simp at h⟩
  · refine ⟨fun h => by simp at h, fun _ a => ?_⟩
    rw [(lsStepH_eq_some.1 h1).2]
    have : lsHNum V We W a j = 0 := by
      simp [lsHNum, mmul, emul, hV]
    rw [this, zero_div, mul_zero]

theorem lsUpdate_col_none (V We : Mat m n K) (W : Mat m k K) (H : Mat k n K) (hk : 0 < k) (j : Fin n) (hH : ∀ a, H a j = 0) :
    lsUpdate V We false W H = none := by
  by_contra hc
  obtain ⟨⟨W', H'⟩, h⟩ := Option.ne_none_iff_exists'.1 hc
  obtain ⟨h1, -⟩ := lsUpdate_eq_some.1 h
  rcases h1 with ⟨h0, -⟩ | ⟨-, h1⟩
  · simp at h0
  · refine (lsStepH_eq_some.1 h1).1 ⟨0, hk⟩ j ?_
    simp [lsHDen, mmul, emul, hH]

/-- A zero column of the data: training is undefined from the second update of the profiles on. -/
theorem lsRun_zero_col (V We : Mat m n K) (hk : 0 < k) (j : Fin n) (hV : ∀ i, V i j = 0) : ∀ (holds : List Bool) (W : Mat m k K) (H : Mat k n K),
    ((∀ a, H a j = 0) → 1 ≤ holds.count false → lsRun V We holds W H = none) ∧ (2 ≤ holds.count false → lsRun V We holds W H = none) := by
  intro holds
  induction holds with
  | nil => intro W H; simp
  | cons b bs ih =>
    intro W H
    constructor
    · intro hH hc
      cases b with
      | false => rw [lsRun, lsUpdate_col_none V We W H hk j hH]; rfl
      | true =>
        rw [lsRun]
        cases h : lsUpdate V We true W H with
        | none => rfl
        | some p =>
          refine (ih p.1 p.2).1 (fun a => ?_) (by simpa using hc)
          rw [(lsUpdate_col V We true W p.1 H p.2 j hV h).1 rfl, hH]
    · intro hc
      rw [lsRun]
      cases h : lsUpdate V We b W H with
      | none => rfl
      | some p =>
        cases b with
        | false => exact (ih p.1 p.2).1 (fun a => (lsUpdate_col V We false W p.1 H p.2 j hV h).2 rfl a) (by simpa using hc)
        | true => exact (ih p.1 p.2).2 (by simpa using hc)

/-- A zero row of the data: training is undefined from the second update on. -/
theorem lsRun_zero_row (V We : Mat m n K) (hk : 0 < k) (i : Fin m) (hV : ∀ j, V i j = 0) (holds : List Bool) (h2 : 2 ≤ holds.length)
    (W : Mat m k K) (H : Mat k n K) : lsRun V We holds W H = none := by
  obtain ⟨b, b', bs, rfl⟩ : ∃ b b' bs, holds = b :: b' :: bs := by
    match holds, h2 with
    | b :: b' :: bs, _ => exact ⟨b, b', bs, rfl⟩
  rw [lsRun]
  cases h : lsUpdate V We b W H with
  | none => rfl
  | some p =>
    rw [Option.bind_eq_bind, Option.bind_some, lsRun]
    cases h' : lsUpdate V We b' p.1 p.2 with
    | none => rfl
    | some q =>
      exfalso
      have hz : ∀ a, p.1 i a = 0 := by
        intro a
        rw [(lsStepW_eq_some.1 (lsUpdate_eq_some.1 h).2).2]
        have : lsWNum V We p.2 i a = 0 := by simp [lsWNum, mmul, emul, hV]
        rw [this, zero_div, mul_zero]
      refine (lsStepW_eq_some.1 (lsUpdate_eq_some.1 h').2).1 i ⟨0, hk⟩ ?_
      simp [lsWDen, mmul, emul, hz]

end zeros

/-! ## The tables -/

section file
variable {K : Type*} [Field K] [LinearOrder K] [IsStrictOrderedRing K]

/-- What `astype(float32)` does as far as it matters here (proved for the IEEE conversion in `C190_rounding`, `C190_zero`). -/
structure F32Ok (f32 : K → K) : Prop where
  /-- converting again changes nothing -/
  idem : ∀ x, f32 (f32 x) = f32 x
  /-- order is kept -/
  mono : Monotone f32
  /-- numbers that become zero -/
  zero : ∀ x, f32 x = 0 ↔ |x| ≤ 1 / 2 ^ 150

/-- Tables without gaps and with data that are not negative, in the columns in use. -/
structure TableOk (h : Handler K) (used : List String) : Prop where
  /-- there is a row -/
  rows : h.rows ≠ []
  /-- there is a column -/
  cols : used ≠ []
  /-- the cells -/
  cells : ∀ r ∈ h.rows, ∀ c ∈ used, ∃ x u, (r.1 c).value = some x ∧ (r.2 c).value = some u ∧ 0 ≤ x

/-- The concentration of a cell of the table. -/
def cellV (h : Handler K) (used : List String) (i : Fin h.rows.length) (j : Fin used.length) : K := ((h.rows[i].1 used[j]).value).getD 0

/-- The uncertainty of a cell of the table. -/
def cellU (h : Handler K) (used : List String) (i : Fin h.rows.length) (j : Fin used.length) : K := ((h.rows[i].2 used[j]).value).getD 0

/-- Specification of the data of the model. -/
def fileV (f32 : K → K) (h : Handler K) (used : List String) : Mat h.rows.length used.length K := fun i j => f32 (cellV h used i j)

/-- Specification of the uncertainties of the model: tripled for weak features, at least `1e-12`. -/
def fileU (f32 : K → K) (cat : String → Category) (h : Handler K) (used : List String) : Mat h.rows.length used.length K :=
  fun i j => max (if cat used[j] = .weak then f32 (f32 (cellU h used i j) * 3) else f32 (cellU h used i j)) (1 / 10 ^ 12)

theorem specData_full (f32 : K → K) (hf32 : F32Ok f32) (h : Handler K) (cat : String → Category) (hcols : h.ucols = h.vcols)
    (ht : TableOk h (usedCols h cat h.vcols)) :
    specData f32 (1 / 2 ^ 1022) h cat =
      (h.rows.map fun r => (usedCols h cat h.vcols).map fun c => some (f32 ((r.1 c).value.getD 0)),
       h.rows.map fun r => (usedCols h cat h.vcols).map fun c =>
        some (if cat c = .weak then f32 (f32 ((r.2 c).value.getD 0) * 3) else f32 ((r.2 c).value.getD 0))) := by
  have he : f32 (1 / 2 ^ 1022) = 0 := by
    rw [hf32.zero, abs_of_pos (by positivity)]
    exact one_div_le_one_div_of_le (by positivity) (pow_le_pow_right₀ (by norm_num) (by norm_num))
  have hfix : ∀ x : K, (if x = 0 then f32 (1 / 2 ^ 1022) else x) = x := by
    intro x
    split_ifs with h0
    · rw [he, h0]
    · rfl
  unfold specData
  rw [hcols]
  dsimp only
  have huse : (h.vcols.filter fun c => decide (c ∉ h.dropCol.getD [] ∧ c ∉ h.locCols.getD [] ∧ cat c ≠ .bad)) = usedCols h cat h.vcols := rfl
  rw [huse]
  have hkept : (h.rows.filter fun r => ((usedCols h cat h.vcols).all fun c => ((r.1 c).value.map f32).isSome) ||
      ((usedCols h cat h.vcols).all fun c => ((r.2 c).value.map fun x => if cat c = .weak then f32 (f32 x * 3) else f32 x).isSome)) = h.rows := by
    rw [List.filter_eq_self]
    intro r hr
    rw [Bool.or_eq_true]
    left
    rw [List.all_eq_true]
    intro c hc
    obtain ⟨x, u, h1, -, -⟩ := ht.cells r hr c hc
    simp [h1]
  rw [hkept]
  refine Prod.ext (List.map_congr_left fun r hr => List.map_congr_left fun c hc => ?_) (List.map_congr_left fun r hr => List.map_congr_left fun c hc => ?_)
  · obtain ⟨x, u, h1, -, -⟩ := ht.cells r hr c hc
    rw [h1]
    exact congrArg some (hfix _)
  · obtain ⟨x, u, -, h2, -⟩ := ht.cells r hr c hc
    rw [h2]
    exact congrArg some (hfix _)

theorem frameArray_map {α β : Type*} (rows : List α) (cols : List β) (f : α → β → Option K) (i : Fin rows.length) (j : Fin cols.length) :
    frameArray rows.length cols.length (rows.map fun r => cols.map fun c => f r c) i j = f rows[i] cols[j] := by
  simp [frameArray, List.getD_eq_getElem?_getD]

theorem floorU_some {m n : ℕ} (A : Mat m n K) :
    floorU ⟨m, n, fun i j => some (A i j)⟩ = ⟨m, n, fun i j => some (max (A i j) (1 / 10 ^ 12))⟩ := by
  have : ∀ x : K, (if x < epsilon K then epsilon K else x) = max x (1 / 10 ^ 12) := by
    intro x
    change _ = max x (epsilon K)
    split_ifs with h
    · exact (max_eq_right h.le).symm
    · exact (max_eq_left (not_lt.1 h)).symm
  unfold floorU
  simp only [this]

theorem fileV_pos {f32 : K → K} (hf32 : F32Ok f32) {h : Handler K} {used : List String} (ht : TableOk h used) (i : Fin h.rows.length)
    (j : Fin used.length) : 0 ≤ fileV f32 h used i j ∧ (0 < fileV f32 h used i j ↔ 1 / 2 ^ 150 < cellV h used i j) := by
  obtain ⟨x, u, h1, -, h3⟩ := ht.cells h.rows[i] (List.getElem_mem _) used[j] (List.getElem_mem _)
  have h0 : f32 0 = 0 := (hf32.zero 0).2 (by rw [abs_zero]; positivity)
  have hx : cellV h used i j = x := by
    unfold cellV
    rw [h1]
    rfl
  have hn : 0 ≤ f32 x := by
    rw [← h0]
    exact hf32.mono h3
  unfold fileV
  rw [hx]
  refine ⟨hn, ?_⟩
  rw [lt_iff_le_and_ne, ← not_le]
  have hz := hf32.zero x
  rw [abs_of_nonneg h3] at hz
  rw [← hz]
  exact ⟨fun h => fun hc => h.2 hc.symm, fun h => ⟨hn, fun hc => h hc.symm⟩⟩

/-- **C193.** From the loaded tables to the initialised model: for every sequence of category settings, every requested number of factors, every
outcome of the random draws and every history of calls on the model, `get_data` succeeds with one row per row of the tables and one column per feature
in use, and `initialize` on a model of these data succeeds and passes the validation. The data of the model are the converted concentrations, the
uncertainties the converted uncertainties (three times for weak features), at least `1e-12`; all profiles are positive; with "ls-nmf" the contributions
are positive and both training loops use LS-NMF. -/
theorem C193_model {R : Type*} (f32 : K → K) (hf32 : F32Ok f32) (parse : String → Option K) (cols : List String) (hc : cols.Nodup)
    (rows : List (FRow K × FRow K)) (dropCol locCols : Option (List String)) (ho : HandlerOk (loadFrames cols cols rows dropCol locCols))
    (ops : List (Option String × String)) (hf : ∀ f, lastCat ops f ≠ .strong → IsFeature (loadFrames cols cols rows dropCol locCols) f)
    (ht : TableOk (loadFrames cols cols rows dropCol locCols) (usedCols (loadFrames cols cols rows dropCol locCols) (lastCat ops) cols)) (k : ℕ)
    (method : String) (sqrt? : K → Option K) (hsq : ∀ x, 0 ≤ x → ∃ y, sqrt? x = some y) :
    let h := loadFrames cols cols rows dropCol locCols
    let used := usedCols h (lastCat ops) cols
    ∃ D, getData f32 parse (1 / 2 ^ 1022) (setAll h ops) = some D ∧
      (D.1.length = h.rows.length ∧ D.2.length = h.rows.length ∧ (∀ row ∈ D.1, row.length = used.length) ∧ ∀ row ∈ D.2, row.length = used.length) ∧
      ∀ (wsU : Mat k used.length (Option K) → Mat h.rows.length k (Option K)) (calls : List (SAOp h.rows.length used.length k K R))
        (d : InitDraws h.rows.length used.length k K),
        ∃ (s' : SA h.rows.length used.length k K R) (W : Mat h.rows.length k K) (H : Mat k used.length K), ((modelOf h.rows.length used.length k D method : SA _ _ k K R).runOps sqrt? wsU calls).1.initialize sqrt? wsU (defaultArgs d) = .ok s' ∧
          s'.validated = true ∧ s'.V = (fun i j => some (fileV f32 h used i j)) ∧
          s'.U = ⟨h.rows.length, used.length, fun i j => some (fileU f32 (lastCat ops) h used i j)⟩ ∧
          s'.W = some ⟨h.rows.length, k, fun i a => some (W i a)⟩ ∧ s'.H = some ⟨k, used.length, fun a j => some (H a j)⟩ ∧
          (∀ a j, 0 < H a j) ∧ (method.toLower ≠ "ws-nmf" → (∀ i a, 0 < W i a) ∧ ∀ b, s'.algorithm b = .ls) := by
  intro h used
  have hD := C50_categories f32 hf32.idem parse (1 / 2 ^ 1022) cols cols hc rows dropCol locCols ho ops hf
  have hS := specData_full f32 hf32 (loadFrames cols cols rows dropCol locCols) (lastCat ops) rfl ht
  refine ⟨_, hD, ?_, ?_⟩
  · rw [hS]
    refine ⟨by simp [h], by simp [h], ?_, ?_⟩
    · intro row hr
      obtain ⟨r, -, rfl⟩ := List.mem_map.1 hr
      simp [used, h, loadFrames]
    · intro row hr
      obtain ⟨r, -, rfl⟩ := List.mem_map.1 hr
      simp [used, h, loadFrames]
  · intro wsU calls d
    rw [hS]
    have hV : frameArray h.rows.length used.length (h.rows.map fun r => used.map fun c => some (f32 ((r.1 c).value.getD 0))) =
        fun i j => some (fileV f32 h used i j) := by
      funext i j
      rw [frameArray_map]
      rfl
    have hU : frameArray h.rows.length used.length (h.rows.map fun r => used.map fun c =>
          some (if lastCat ops c = .weak then f32 (f32 ((r.2 c).value.getD 0) * 3) else f32 ((r.2 c).value.getD 0))) =
        fun i j => some (if lastCat ops used[j] = .weak then f32 (f32 (cellU h used i j) * 3) else f32 (cellU h used i j)) := by
      funext i j
      rw [frameArray_map]
      rfl
    have hmodel : (modelOf h.rows.length used.length k (h.rows.map fun r => used.map fun c => some (f32 ((r.1 c).value.getD 0)),
        h.rows.map fun r => used.map fun c => some (if lastCat ops c = .weak then f32 (f32 ((r.2 c).value.getD 0) * 3) else f32 ((r.2 c).value.getD 0)))
        method : SA _ _ k K R) = SA.construct k (fun i j => some (fileV f32 h used i j)) ⟨h.rows.length, used.length, fun i j =>
          some (if lastCat ops used[j] = .weak then f32 (f32 (cellU h used i j) * 3) else f32 (cellU h used i j))⟩ method := by
      unfold modelOf
      rw [hV, hU]
    have hnn : ∀ i j, 0 ≤ fileV f32 h used i j := fun i j => (fileV_pos hf32 ht i j).1
    erw [hmodel]
    set U0 : DMat (Option K) := ⟨h.rows.length, used.length, fun i j =>
          some (if lastCat ops used[j] = .weak then f32 (f32 (cellU h used i j) * 3) else f32 (cellU h used i j))⟩ with hU0
    have hr : Reachable sqrt? wsU (fun i j => some (fileV f32 h used i j)) U0 method
        ((SA.construct k (fun i j => some (fileV f32 h used i j)) U0 method : SA _ _ k K R).runOps sqrt? wsU calls).1 := ⟨calls, rfl⟩
    obtain ⟨s', H, W, hi, hH, hW, hHp, hWp, hv⟩ := C19_default_partial sqrt? hsq wsU (fun i j => some (fileV f32 h used i j))
      (fun i j => ⟨_, rfl, hnn i j⟩) U0 ⟨rfl, rfl⟩ (fun i j => by simp [hU0]) method _ hr d
    have hr' := hr.initialized hi
    choose H' hH' hHp' using hHp
    choose W' hW' hWp' using hWp
    refine ⟨s', W', H', hi, hv, hr'.data.1, ?_, ?_, ?_, hHp', ?_⟩
    · rw [hr'.data.2, hU0, floorU_some]
      rfl
    · rw [hW]
      congr 2
      funext i a
      exact hW' i a
    · rw [hH]
      congr 2
      funext a j
      exact hH' a j
    · intro hm
      have hp : parseMethod method = .ls := by
        unfold parseMethod
        rw [if_neg hm]
      exact ⟨fun i a => hWp' i a hp, fun b => (C22_algorithm sqrt? wsU _ _ method s' hr' hv b).1.2 ⟨hm, fun i j => ⟨_, rfl, hnn i j⟩⟩⟩

theorem fileU_pos (f32 : K → K) (cat : String → Category) (h : Handler K) (used : List String) : AllPos (weights (fileU f32 cat h used)) := by
  intro i j
  have : (0 : K) < fileU f32 cat h used i j := lt_of_lt_of_le (by positivity) (le_max_right _ _)
  unfold weights
  positivity

/-- **C193.** Whether LS-NMF can be trained on the tables, for any positive start: every number of updates is defined exactly if every row has a value
above `2^-150` among the features in use and every feature in use has a value above `2^-150` in some row (single precision makes smaller values zero). -/
theorem C193_trains_iff (f32 : K → K) (hf32 : F32Ok f32) (cat : String → Category) (h : Handler K) (used : List String) (ht : TableOk h used) {k : ℕ}
    (hk : 0 < k) (W : Mat h.rows.length k K) (H : Mat k used.length K) (hW : AllPos W) (hH : AllPos H) :
    (∀ holds, lsRun (fileV f32 h used) (weights (fileU f32 cat h used)) holds W H ≠ none) ↔
      (∀ i, ∃ j, 1 / 2 ^ 150 < cellV h used i j) ∧ ∀ j, ∃ i, 1 / 2 ^ 150 < cellV h used i j := by
  constructor
  · intro hr
    constructor
    · intro i
      by_contra hc
      push Not at hc
      refine hr [false, false] (lsRun_zero_row _ _ hk i (fun j => ?_) _ (by simp) W H)
      have := fileV_pos hf32 ht i j
      exact le_antisymm (not_lt.1 fun hp => absurd (this.2.1 hp) (not_lt.2 (hc j))) this.1
    · intro j
      by_contra hc
      push Not at hc
      refine hr [false, false] ((lsRun_zero_col _ _ hk j (fun i => ?_) _ W H).2 (by simp))
      have := fileV_pos hf32 ht i j
      exact le_antisymm (not_lt.1 fun hp => absurd (this.2.1 hp) (not_lt.2 (hc i))) this.1
  · rintro ⟨hrow, hcol⟩ holds
    obtain ⟨W', H', h1, -, -⟩ := C01_positive (List.length_pos_iff.2 ht.rows) (List.length_pos_iff.2 ht.cols) (fileV f32 h used)
      (weights (fileU f32 cat h used)) holds W H (fun i j => (fileV_pos hf32 ht i j).1)
      (fun i => (hrow i).imp fun j hj => (fileV_pos hf32 ht i j).2.2 hj) (fun j => (hcol j).imp fun i hi => (fileV_pos hf32 ht i j).2.2 hi)
      (fileU_pos f32 cat h used) hW hH
    rw [h1]
    simp

/-- **C193.** In that case every training keeps both factors positive and records one loss per update; the recorded values of Q(true), preceded by the
one of the start, never increase, and each is the sum over rows and features in use of the squared difference between the converted concentration
and the model divided by the uncertainty of the model. -/
theorem C193_training (f32 : K → K) (hf32 : F32Ok f32) (cat : String → Category) (h : Handler K) (used : List String) (ht : TableOk h used) {k : ℕ}
    (W : Mat h.rows.length k K) (H : Mat k used.length K) (hW : AllPos W) (hH : AllPos H)
    (hrow : ∀ i, ∃ j, 1 / 2 ^ 150 < cellV h used i j) (hcol : ∀ j, ∃ i, 1 / 2 ^ 150 < cellV h used i j) (holds : List Bool) :
    let Q := fun (W : Mat h.rows.length k K) (H : Mat k used.length K) =>
      ∑ i, ∑ j, ((f32 (cellV h used i j) - ∑ a, W i a * H a j) / fileU f32 cat h used i j) ^ 2
    let trace := lsTrace (fileV f32 h used) (weights (fileU f32 cat h used)) Q holds W H
    (∃ W' H', lsRun (fileV f32 h used) (weights (fileU f32 cat h used)) holds W H = some (W', H') ∧ AllPos W' ∧ AllPos H' ∧
      (holds ≠ [] → trace.getLast? = some (Q W' H')) ∧ Q W' H' ≤ Q W H) ∧
      trace.length = holds.length ∧ (Q W H :: trace).Pairwise fun a b => b ≤ a := by
  intro Q trace
  have hQ : (fun W H => qLoss (fileV f32 h used) (fileU f32 cat h used) W H) = Q := by
    funext W H
    rw [C09_formula]
    rfl
  have hV : AllNonneg (fileV f32 h used) := fun i j => (fileV_pos hf32 ht i j).1
  have hr : ∀ i, ∃ j, 0 < fileV f32 h used i j := fun i => (hrow i).imp fun j hj => (fileV_pos hf32 ht i j).2.2 hj
  have hc : ∀ j, ∃ i, 0 < fileV f32 h used i j := fun j => (hcol j).imp fun i hi => (fileV_pos hf32 ht i j).2.2 hi
  have hlen : trace.length = holds.length := C02_every_update_recorded (List.length_pos_iff.2 ht.rows) (List.length_pos_iff.2 ht.cols)
    (fileV f32 h used) (weights (fileU f32 cat h used)) Q holds W H hV hr hc (fileU_pos f32 cat h used) hW hH
  have hpw : (Q W H :: trace).Pairwise fun a b => b ≤ a := by
    have := C02_recorded_losses_nonincreasing (fileV f32 h used) (fileU f32 cat h used) holds W H hV (fun i j => (hW i j).le) (fun i j => (hH i j).le)
    rw [hQ] at this
    have h0 : qLoss (fileV f32 h used) (fileU f32 cat h used) W H = Q W H := congrFun (congrFun hQ W) H
    rwa [h0] at this
  obtain ⟨W', H', h1, h2, h3⟩ := C01_positive (List.length_pos_iff.2 ht.rows) (List.length_pos_iff.2 ht.cols) (fileV f32 h used)
      (weights (fileU f32 cat h used)) holds W H hV hr hc (fileU_pos f32 cat h used) hW hH
  have hlast : ∀ (holds : List Bool) (W : Mat h.rows.length k K) (H : Mat k used.length K), holds ≠ [] →
      lsRun (fileV f32 h used) (weights (fileU f32 cat h used)) holds W H = some (W', H') →
      (lsTrace (fileV f32 h used) (weights (fileU f32 cat h used)) Q holds W H).getLast? = some (Q W' H') := by
    intro holds
    induction holds with
    | nil => intro W H hne; exact absurd rfl hne
    | cons b bs ih =>
      intro W H _ hrun
      obtain ⟨p, hp, hrun'⟩ := lsRun_cons_eq_some.1 hrun
      rw [lsTrace, hp]
      dsimp only
      by_cases hb : bs = []
      · subst hb
        rw [lsRun] at hrun'
        obtain ⟨rfl, rfl⟩ := Prod.mk.inj (Option.some.inj hrun')
        rfl
      · have := ih p.1 p.2 hb hrun'
        rw [List.getLast?_cons, this]
        rfl
  refine ⟨⟨W', H', h1, h2, h3, fun hne => hlast holds W H hne h1, ?_⟩, hlen, hpw⟩
  by_cases hne : holds = []
  · subst hne
    rw [lsRun] at h1
    obtain ⟨rfl, rfl⟩ := Prod.mk.inj (Option.some.inj h1)
    exact le_rfl
  · have := List.mem_of_getLast? (hlast holds W H hne h1)
    exact (List.pairwise_cons.1 hpw).1 _ this

/-- **C193, Disagreement.** Tables that pass the validation but cannot be trained on: one feature (one row) of zeros is enough, for every start, from the
second update of the profiles (from the second update) on, whatever is held. -/
theorem C193_zero (f32 : K → K) (hf32 : F32Ok f32) (cat : String → Category) (h : Handler K) (used : List String) (ht : TableOk h used) {k : ℕ}
    (hk : 0 < k) (W : Mat h.rows.length k K) (H : Mat k used.length K) (holds : List Bool) :
    (∀ j, (∀ i, cellV h used i j ≤ 1 / 2 ^ 150) → 2 ≤ holds.count false →
      lsRun (fileV f32 h used) (weights (fileU f32 cat h used)) holds W H = none) ∧
    ∀ i, (∀ j, cellV h used i j ≤ 1 / 2 ^ 150) → 2 ≤ holds.length →
      lsRun (fileV f32 h used) (weights (fileU f32 cat h used)) holds W H = none := by
  have hz : ∀ i j, cellV h used i j ≤ 1 / 2 ^ 150 → fileV f32 h used i j = 0 := by
    intro i j hc
    have := fileV_pos hf32 ht i j
    exact le_antisymm (not_lt.1 fun hp => absurd (this.2.1 hp) (not_lt.2 hc)) this.1
  exact ⟨fun j hj h2 => (lsRun_zero_col _ _ hk j (fun i => hz i j (hj i)) holds W H).2 h2,
    fun i hi h2 => lsRun_zero_row _ _ hk i (fun j => hz i j (hi j)) holds h2 W H⟩

end file

/-- The conversion to single precision is such a conversion. -/
theorem float32_ok : F32Ok float32 where
  idem := C190_rounding.2.2
  mono := C190_rounding.1
  zero x := by
    rw [C190_zero]
    norm_num [zpow_neg]

/-! ## Example -/

/-- Two rows of two features and a location column. -/
def pipeHandler : Handler ℚ := loadFrames ["a", "b", "loc"] ["a", "b", "loc"]
  [(fun c => .num (some (if c = "a" then 1 else if c = "b" then 2 else 7)), fun _ => .num (some (1 / 2))),
   (fun c => .num (some (if c = "a" then 3 else if c = "b" then 4 else 8)), fun _ => .num (some 0))] none (some ["loc"])

theorem pipe_table : TableOk pipeHandler (usedCols pipeHandler (lastCat [(some "b", "weak")]) ["a", "b", "loc"]) where
  rows := by decide +kernel
  cols := by decide +kernel
  cells := by
    have hu : usedCols pipeHandler (lastCat [(some "b", "weak")]) ["a", "b", "loc"] = ["a", "b"] := by decide +kernel
    rw [hu]
    intro r hr c hc
    have h1 : r ∈ [((fun c => .num (some (if c = "a" then 1 else if c = "b" then 2 else 7)), fun _ => .num (some (1 / 2))) : FRow ℚ × FRow ℚ),
      (fun c => .num (some (if c = "a" then 3 else if c = "b" then 4 else 8)), fun _ => .num (some 0))] :=
      (List.mem_filter.1 (show r ∈ List.filter _ _ from hr)).1
    simp only [List.mem_cons, List.not_mem_nil, or_false] at h1 hc
    rcases h1 with rfl | rfl <;> rcases hc with rfl | rfl <;> refine ⟨_, _, rfl, rfl, ?_⟩ <;> decide +kernel

/-- The hypotheses are met with the conversion to single precision, for every draw. -/
example (d : InitDraws pipeHandler.rows.length (usedCols pipeHandler (lastCat [(some "b", "weak")]) ["a", "b", "loc"]).length 1 ℚ) :
    ∃ D, getData float32 (fun _ => none) (1 / 2 ^ 1022) (setAll pipeHandler [(some "b", "weak")]) = some D ∧ D.1.length = 2 ∧
      ∃ s', (modelOf _ _ 1 D "LS-NMF" : SA _ _ 1 ℚ Unit).initialize (fun x => some x) (fun _ _ _ => none) (defaultArgs d) = .ok s' ∧
        s'.validated = true ∧ s'.algorithm true = .ls := by
  obtain ⟨D, h1, h2, h3⟩ := C193_model (R := Unit) float32 float32_ok (fun _ => none) ["a", "b", "loc"] (by decide) _ none (some ["loc"])
    (⟨by decide +kernel, by decide +kernel, by decide +kernel, by
      intro r hr c
      have h1 : r ∈ [((fun c => .num (some (if c = "a" then 1 else if c = "b" then 2 else 7)), fun _ => .num (some (1 / 2))) : FRow ℚ × FRow ℚ),
        (fun c => .num (some (if c = "a" then 3 else if c = "b" then 4 else 8)), fun _ => .num (some 0))] := (List.mem_filter.1 (show r ∈ List.filter _ _ from hr)).1
      simp only [List.mem_cons, List.not_mem_nil, or_false] at h1
      rcases h1 with rfl | rfl <;> exact ⟨⟨_, rfl⟩, ⟨_, rfl⟩⟩⟩ : HandlerOk pipeHandler) [(some "b", "weak")]
    (by
      intro f hf
      have : f = "b" := by
        by_contra hc
        exact hf (by simp [lastCat, Ne.symm hc])
      subst this
      refine ⟨by decide +kernel, by decide +kernel, by decide +kernel⟩) pipe_table 1 "LS-NMF" (fun x => some x) (fun x _ => ⟨x, rfl⟩)
  refine ⟨D, h1, ?_, ?_⟩
  · rw [h2.1]
    decide +kernel
  · obtain ⟨s', W, H, h4, h5, -, -, -, -, -, h6⟩ := h3 (fun _ _ _ => none) [] d
    exact ⟨s', h4, h5, (h6 (by decide +kernel)).2 true⟩

/-- The arrays: the location column left out, the uncertainties of the weak feature tripled. -/
example : getData float32 (fun _ => none) (1 / 2 ^ 1022) (setAll pipeHandler [(some "b", "weak")]) =
    some ([[some 1, some 2], [some 3, some 4]], [[some (1 / 2), some (3 / 2)], [some 0, some 0]]) := by decide +kernel

/-- Every training on them is defined. -/
example (holds : List Bool) : lsRun (fileV float32 pipeHandler ["a", "b"]) (weights (fileU float32 (lastCat [(some "b", "weak")]) pipeHandler ["a", "b"]))
    holds (fun _ (_ : Fin 3) => 1) (fun _ _ => 1) ≠ none := by
  have hu : usedCols pipeHandler (lastCat [(some "b", "weak")]) ["a", "b", "loc"] = ["a", "b"] := by decide +kernel
  refine (C193_trains_iff float32 float32_ok (lastCat [(some "b", "weak")]) pipeHandler ["a", "b"] (hu ▸ pipe_table) (by norm_num) _ _
    (fun _ _ => one_pos) (fun _ _ => one_pos)).2 ?_ holds
  constructor
  · decide +kernel
  · decide +kernel

end Esat
