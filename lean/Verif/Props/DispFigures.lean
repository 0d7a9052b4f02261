import Verif.Model.DispFigures
import Verif.Props.DispRun
import Verif.Props.ErrorSummary
import Verif.Props.BsDispSummary

/-!
# Property C227: the figures of DISP and BS-DISP
-/

namespace Esat

variable {K : Type*} [Field K] [LinearOrder K] [IsStrictOrderedRing K] {m k n : ℕ}

/-- What the figures need of a row. -/
structure RowOk (floor : K) (r : DispRow k n K) : Prop where
  p0 : 0 ≤ r.pmin
  p1 : r.pmin ≤ r.profile
  p2 : r.profile ≤ r.pmax
  p3 : r.pmax ≤ 1
  c0 : floor ≤ r.cmin
  c1 : r.cmin ≤ max r.conc floor
  c2 : max r.conc floor ≤ r.cmax

theorem percent_range (E : DispEnv m k n K) (hH : ∀ a j, 0 < E.H a j) (a : Fin k) (j : Fin n) (q : LevelRes K) (h0 : 0 < q.modv) :
    0 ≤ (levelOut E a j q).percent ∧ (levelOut E a j q).percent ≤ 1 := by
  have hpos : ∀ b, 0 < dispH E a j q.modv b j := by
    intro b
    unfold dispH
    split
    · exact mul_pos (hH a j) h0
    · exact hH b j
  have hs : dispH E a j q.modv a j ≤ ∑ b, dispH E a j q.modv b j :=
    Finset.single_le_sum (f := fun b => dispH E a j q.modv b j) (fun b _ => (hpos b).le) (Finset.mem_univ a)
  have hS : 0 < ∑ b, dispH E a j q.modv b j := lt_of_lt_of_le (hpos a) hs
  simp only [levelOut]
  exact ⟨div_nonneg (hpos a).le hS.le, (div_le_one hS).2 hs⟩

theorem rowOk_run (E : DispEnv m k n K) (hH : ∀ a j, 0 < E.H a j) (floor : K) (hfl : 0 < floor) (features : List (Fin n)) (dQmax : List K)
    (r : DispRow k n K) (h1 : r.profile = E.H r.factor r.feature / ∑ b, E.H b r.feature)
    (h2 : r.conc = ∑ s, E.W s r.factor * E.H r.factor r.feature)
    (h3 : r.feature ∈ features → ∃ p q, (incEntry E dQmax r.factor r.feature)[r.level]? = some p ∧
          (decEntry E dQmax r.factor r.feature)[r.level]? = some q ∧ r.pmax = p.percent ∧ r.pmin = q.percent ∧
          r.cmax = max p.conc floor ∧ r.cmin = max q.conc floor ∧ r.drop = min (min p.qDrop q.qDrop) 0)
    (h4 : r.feature ∉ features → r.pmax = r.profile ∧ r.pmin = r.profile ∧ r.cmax = max r.conc floor ∧ r.cmin = max r.conc floor ∧ r.drop = 0) :
    RowOk floor r := by
  have hs : E.H r.factor r.feature ≤ ∑ b, E.H b r.feature :=
    Finset.single_le_sum (f := fun b => E.H b r.feature) (fun b _ => (hH b _).le) (Finset.mem_univ _)
  have hS : 0 < ∑ b, E.H b r.feature := lt_of_lt_of_le (hH _ _) hs
  by_cases hf : r.feature ∈ features
  · obtain ⟨p, q, hp, hq, e1, e2, e3, e4, -⟩ := h3 hf
    have mp := List.mem_of_getElem? hp
    have mq := List.mem_of_getElem? hq
    obtain ⟨x, hx, x1, -⟩ := mem_incEntry E dQmax _ _ p mp
    obtain ⟨y, hy, y0, y1, -⟩ := mem_decEntry E dQmax _ _ q mq
    have hpos : (0 : K) < x.modv := lt_of_lt_of_le zero_lt_one x1
    obtain ⟨pv, -⟩ := (C80_stored E hH dQmax r.factor r.feature p).1 mp
    obtain ⟨⟨qv0, qv1⟩, -⟩ := (C80_stored E hH dQmax r.factor r.feature q).2.1 mq
    obtain ⟨-, -, -, pc⟩ := (C80_stored E hH dQmax r.factor r.feature p).2.2.1 (Or.inl mp)
    obtain ⟨-, -, -, qc⟩ := (C80_stored E hH dQmax r.factor r.feature q).2.2.1 (Or.inr mq)
    have hc : r.conc = E.H r.factor r.feature * ∑ s, E.W s r.factor := by rw [h2, ← Finset.sum_mul, mul_comm]
    have hcc : q.conc ≤ max r.conc floor ∧ r.conc ≤ max p.conc floor := by
      rcases le_total 0 (∑ s, E.W s r.factor) with hW | hW
      · exact ⟨le_max_of_le_left (by rw [qc, hc]; exact mul_le_mul_of_nonneg_right qv1 hW),
          le_max_of_le_left (by rw [pc, hc]; exact mul_le_mul_of_nonneg_right pv hW)⟩
      · exact ⟨le_max_of_le_right (by rw [qc]; exact (mul_nonpos_of_nonneg_of_nonpos qv0.le hW).trans hfl.le),
          le_max_of_le_right (by rw [hc]; exact (mul_nonpos_of_nonneg_of_nonpos (hH _ _).le hW).trans hfl.le)⟩
    refine ⟨?_, ?_, ?_, ?_, ?_, ?_, ?_⟩
    · rw [e2, ← hy]; exact (percent_range E hH _ _ y y0).1
    · rw [e2, h1, ← hy]; exact (percent_mono E hH _ _ y y0).2 y1
    · rw [e1, h1, ← hx]; exact (percent_mono E hH _ _ x hpos).1 x1
    · rw [e1, ← hx]; exact (percent_range E hH _ _ x hpos).2
    · rw [e4]; exact le_max_right _ _
    · rw [e4]; exact max_le hcc.1 (le_max_right _ _)
    · rw [e3]; exact max_le hcc.2 (le_max_right _ _)
  · obtain ⟨e1, e2, e3, e4, -⟩ := h4 hf
    refine ⟨?_, e2.le, e1.ge, ?_, ?_, e4.le, e3.ge⟩
    · rw [e2, h1]; exact div_nonneg (hH _ _).le hS.le
    · rw [e1, h1]; exact (div_le_one hS).2 hs
    · rw [e4]; exact le_max_right _ _

omit [IsStrictOrderedRing K] in
theorem floorAt_max (floor x : K) : floorAt floor x = max x floor := by
  unfold floorAt
  split_ifs with h
  · rw [max_eq_right h.le]
  · rw [max_eq_left (not_lt.1 h)]

theorem figures_of_rows (floor four dflt : K) (dQmax : List K) (hd : dQmax.Nodup) (h4 : four ∈ dQmax) (hdf : dflt ∈ dQmax) (rows : List (DispRow k n K))
    (hkeys : rows.map (fun r => (r.level, r.factor, r.feature)) =
      (List.range dQmax.length).flatMap fun i => (List.finRange k).flatMap fun a => (List.finRange n).map fun j => (i, a, j))
    (hok : ∀ r ∈ rows, RowOk floor r) (f : Fin k) (q : K) :
    ∃ s : List (DispRow k n K), dispFigures floor four dflt dQmax rows ((f : ℕ) + 1 : ℤ) q = some (profileBars s, concBars floor s) ∧
      (∀ r ∈ s, r ∈ rows ∧ r.factor = f ∧ dQmax[r.level]? = some (if q ∈ dQmax then q else dflt)) ∧ s.map (·.feature) = List.finRange n ∧
      (∀ b ∈ profileBars s, 0 ≤ b.base ∧ b.base ≤ b.marker ∧ b.marker ≤ b.base + b.height ∧ b.base + b.height ≤ 100) ∧
      (∀ b ∈ concBars floor s, floor ≤ b.base ∧ b.base ≤ b.marker ∧ b.marker ≤ b.base + b.height) := by
  have hlev : plotLevel four dQmax (resultsLevel dflt dQmax q) = if q ∈ dQmax then q else dflt := by
    unfold plotLevel resultsLevel
    by_cases hq : q ∈ dQmax
    · simp [hq]
    · simp [hq, hdf]
  have hm : (if q ∈ dQmax then q else dflt) ∈ dQmax := by
    split_ifs with h
    · exact h
    · exact hdf
  obtain ⟨i, hi⟩ := List.mem_iff_getElem?.1 hm
  refine ⟨selectRows dQmax rows f (if q ∈ dQmax then q else dflt), ?_, ?_, ?_, ?_, ?_⟩
  · unfold dispFigures
    rw [plotFactor_some, Option.map_some, hlev]
  · intro r hr
    unfold selectRows at hr
    simp only [List.mem_filter, decide_eq_true_eq] at hr
    exact ⟨hr.1.1, hr.1.2, hr.2⟩
  · have := congrArg (List.map fun t : ℕ × Fin k × Fin n => t.2.2) (selectRows_keys dQmax hd rows hkeys f i _ hi)
    simpa [List.map_map, Function.comp_def] using this
  all_goals
    intro b hb
    obtain ⟨r, hr, rfl⟩ := List.mem_map.1 hb
    unfold selectRows at hr
    simp only [List.mem_filter, decide_eq_true_eq] at hr
    obtain ⟨p0, p1, p2, p3, c0, c1, c2⟩ := hok r hr.1.1
  · refine ⟨by simpa using p0, by simpa using p1, ?_, ?_⟩
    · simp only
      linarith
    · simp only
      linarith
  · simp only [floorAt_max]
    exact ⟨c0, c1, by linarith⟩

/-- **C227.** The figures of a displacement object after any sequence of complete runs, sequential or parallel in any order of the workers: for a number that
is not that of a factor there is no figure; otherwise both figures have one bar for every feature, in the order of the features, for the requested level
(the default if it is not one of the levels). In the profile figure the markers are the percentages of the base profiles, the bars are between 0 and 100, and every marker is within its bar.
In the concentration figure the markers are the concentrations of the base model, at least the floor, and within their bars, which start at the floor or above (the axis is
logarithmic); this holds for contributions of any sign. A feature that was not requested has a bar of height zero. -/
theorem C227_displacement (E : DispEnv m k n K) (hH : ∀ a j, 0 < E.H a j) (floor : K) (hfl : 0 < floor) (features : List (Fin n)) (hf : features.Nodup)
    (hne : features ≠ []) (dQmax : List K) (hd : dQmax.Nodup) (four : K) (h4 : four ∈ dQmax)
    (m0 : DispMode k n) (h0 : m0.ok features) (ms : List (DispMode k n)) (hms : ∀ x ∈ ms, x.ok features) :
    ∃ rows, ((m0 :: ms).foldl (dispRun E floor features dQmax) .new).rows = some rows ∧
      (∀ (factor : ℤ) (q : K), ¬(1 ≤ factor ∧ factor ≤ k) → dispFigures floor four four dQmax rows factor q = none) ∧
      ∀ (f : Fin k) (q : K), ∃ p c, dispFigures floor four four dQmax rows ((f : ℕ) + 1 : ℤ) q = some (p, c) ∧
        p.map (·.feature) = List.finRange n ∧ c.map (·.feature) = List.finRange n ∧
        (∀ b ∈ p, b.marker = 100 * (E.H f b.feature / ∑ a, E.H a b.feature) ∧ 0 ≤ b.base ∧ b.base ≤ b.marker ∧
          b.marker ≤ b.base + b.height ∧ b.base + b.height ≤ 100 ∧ (b.feature ∉ features → b.height = 0)) ∧
        (∀ b ∈ c, b.marker = max (∑ s, E.W s f * E.H f b.feature) floor ∧ floor ≤ b.base ∧ b.base ≤ b.marker ∧
          b.marker ≤ b.base + b.height ∧ (b.feature ∉ features → b.height = 0)) := by
  obtain ⟨rows, hr, hkeys, hrow⟩ := C204_rows E floor features hf hne dQmax m0 h0 ms hms
  refine ⟨rows, hr, fun factor q hx => ?_, fun f q => ?_⟩
  · unfold dispFigures plotFactor
    rw [dif_neg hx]
    rfl
  · obtain ⟨s, e, e1, e2, e3, e4⟩ := figures_of_rows floor four four dQmax hd h4 h4 rows hkeys
      (fun r hr => rowOk_run E hH floor hfl features dQmax r (hrow r hr).1 (hrow r hr).2.1 (hrow r hr).2.2.1 (hrow r hr).2.2.2) f q
    refine ⟨_, _, e, ?_, ?_, fun b hb => ?_, fun b hb => ?_⟩
    · rw [← e2, profileBars, List.map_map]
      rfl
    · rw [← e2, concBars, List.map_map]
      rfl
    · obtain ⟨g1, g2, g3, g4⟩ := e3 b hb
      obtain ⟨r, hs, rfl⟩ := List.mem_map.1 hb
      obtain ⟨hr', rfl, -⟩ := e1 r hs
      refine ⟨by simp only; rw [(hrow r hr').1], g1, g2, g3, g4, fun hnf => ?_⟩
      obtain ⟨x1, x2, -⟩ := (hrow r hr').2.2.2 hnf
      simp only [x1, x2, sub_self, mul_zero]
    · obtain ⟨g1, g2, g3⟩ := e4 b hb
      obtain ⟨r, hs, rfl⟩ := List.mem_map.1 hb
      obtain ⟨hr', rfl, -⟩ := e1 r hs
      refine ⟨by simp only [floorAt_max]; rw [(hrow r hr').2.1], g1, g2, g3, fun hnf => ?_⟩
      obtain ⟨-, -, x1, x2, -⟩ := (hrow r hr').2.2.2 hnf
      simp only [x1, x2, sub_self]

theorem foldl_max_spec {α : Type*} (g : α → K) : ∀ (l : List α) (x : K), x ≤ l.foldl (fun a d => max a (g d)) x ∧
    (∀ d ∈ l, g d ≤ l.foldl (fun a d => max a (g d)) x) ∧ ∀ c, x ≤ c → (∀ d ∈ l, g d ≤ c) → l.foldl (fun a d => max a (g d)) x ≤ c
  | [], x => ⟨le_rfl, by simp, fun c h _ => h⟩
  | d :: l, x => by
    obtain ⟨h1, h2, h3⟩ := foldl_max_spec g l (max x (g d))
    refine ⟨(le_max_left _ _).trans h1, fun e he => ?_, fun c hx hc => h3 c (max_le hx (hc d List.mem_cons_self)) fun e he => hc e (List.mem_cons_of_mem _ he)⟩
    rcases List.mem_cons.1 he with rfl | he
    · exact (le_max_right _ _).trans h1
    · exact h2 e he

theorem foldl_min_spec {α : Type*} (g : α → K) : ∀ (l : List α) (x : K), l.foldl (fun a d => min a (g d)) x ≤ x ∧
    (∀ d ∈ l, l.foldl (fun a d => min a (g d)) x ≤ g d) ∧ ∀ c, c ≤ x → (∀ d ∈ l, c ≤ g d) → c ≤ l.foldl (fun a d => min a (g d)) x
  | [], x => ⟨le_rfl, by simp, fun c h _ => h⟩
  | d :: l, x => by
    obtain ⟨h1, h2, h3⟩ := foldl_min_spec g l (min x (g d))
    refine ⟨h1.trans (min_le_left _ _), fun e he => ?_, fun c hx hc => h3 c (le_min hx (hc d List.mem_cons_self)) fun e he => hc e (List.mem_cons_of_mem _ he)⟩
    rcases List.mem_cons.1 he with rfl | he
    · exact h1.trans (min_le_right _ _)
    · exact h2 e he

theorem rowMean_bounds {α : Type*} (g : α → K) (d0 : α) (ds : List α) (c : K) :
    ((∀ d ∈ d0 :: ds, c ≤ g d) → c ≤ ((d0 :: ds).map g).sum / (d0 :: ds).length) ∧
    ((∀ d ∈ d0 :: ds, g d ≤ c) → ((d0 :: ds).map g).sum / (d0 :: ds).length ≤ c) := by
  have hl : (0 : K) < ((d0 :: ds).length : K) := by
    exact_mod_cast Nat.succ_pos _
  have hlow : ∀ l : List α, (∀ d ∈ l, c ≤ g d) → c * l.length ≤ (l.map g).sum := by
    intro l
    induction l with
    | nil => simp
    | cons a l ih =>
      intro h
      have h1 := h a List.mem_cons_self
      have h2 := ih fun d hd => h d (List.mem_cons_of_mem _ hd)
      rw [List.map_cons, List.sum_cons, List.length_cons]
      push_cast
      linarith
  have hup : ∀ l : List α, (∀ d ∈ l, g d ≤ c) → (l.map g).sum ≤ c * l.length := by
    intro l
    induction l with
    | nil => simp
    | cons a l ih =>
      intro h
      have h1 := h a List.mem_cons_self
      have h2 := ih fun d hd => h d (List.mem_cons_of_mem _ hd)
      rw [List.map_cons, List.sum_cons, List.length_cons]
      push_cast
      linarith
  exact ⟨fun h => (le_div_iff₀ hl).2 (hlow _ h), fun h => (div_le_iff₀ hl).2 (hup _ h)⟩

theorem rowOk_merge (floor : K) (d0 : DispRow k n K) (ds : List (DispRow k n K)) (h : ∀ d ∈ d0 :: ds, RowOk floor d) :
    RowOk floor (bsMergeRow d0 ds) := by
  have h0 := h d0 List.mem_cons_self
  have hs : ∀ d ∈ ds, RowOk floor d := fun d hd => h d (List.mem_cons_of_mem _ hd)
  obtain ⟨a1, -, a3⟩ := foldl_max_spec (fun d : DispRow k n K => d.pmax) ds d0.pmax
  obtain ⟨b1, -, b3⟩ := foldl_min_spec (fun d : DispRow k n K => d.profile) ds d0.pmin
  obtain ⟨c1, c2, -⟩ := foldl_max_spec (fun d : DispRow k n K => d.cmax) ds d0.cmax
  obtain ⟨e1, e2, e3⟩ := foldl_min_spec (fun d : DispRow k n K => d.cmin) ds d0.cmin
  have hmax : ∀ d ∈ d0 :: ds, d.cmax ≤ (bsMergeRow d0 ds).cmax := by
    intro d hd
    rcases List.mem_cons.1 hd with rfl | hd
    · exact c1
    · exact c2 d hd
  have hmin : ∀ d ∈ d0 :: ds, (bsMergeRow d0 ds).cmin ≤ d.cmin := by
    intro d hd
    rcases List.mem_cons.1 hd with rfl | hd
    · exact e1
    · exact e2 d hd
  refine ⟨b3 0 h0.p0 fun d hd => (hs d hd).p0.trans (hs d hd).p1, b1.trans h0.p1, h0.p2.trans a1, a3 1 h0.p3 fun d hd => (hs d hd).p3,
    e3 floor h0.c0 fun d hd => (hs d hd).c0, ?_, max_le ?_ ?_⟩
  · by_cases hx : ∃ d ∈ d0 :: ds, d.cmin ≤ floor
    · obtain ⟨d, hd, hx⟩ := hx
      exact le_max_of_le_right ((hmin d hd).trans hx)
    · push Not at hx
      refine le_max_of_le_left ((rowMean_bounds (fun d : DispRow k n K => d.conc) d0 ds _).1 fun d hd => (hmin d hd).trans ?_)
      rcases le_max_iff.1 (h d hd).c1 with hc | hc
      · exact hc
      · exact absurd hc (not_le.2 (hx d hd))
  · exact (rowMean_bounds (fun d : DispRow k n K => d.conc) d0 ds _).2 fun d hd =>
      ((le_max_left _ _).trans (h d hd).c2).trans (hmax d hd)
  · exact ((le_max_right _ _).trans h0.c2).trans (hmax d0 List.mem_cons_self)

/-- The compiled results of BS-DISP with the runs stored under `1 … B` in any order, for tables with the same rows. -/
theorem bsRows_stored (B N : ℕ) (rows : ℕ → List (DispRow k n K)) (order : List ℕ) (ho : order.Perm (List.range' 1 B)) (b0 : ℕ) (rest : List ℕ)
    (hb : order = b0 :: rest) (hN : ∀ b ∈ order, (rows b).length = N) (hrow : ∀ b ∈ order, ∀ t < N, ∃ r, (rows b)[t]? = some r) :
    ∃ R, bsRows (order.map fun b => (b, rows b)) = some R ∧ R.length = N ∧
      ∀ t < N, ∃ (r0 : DispRow k n K) (rs : List (DispRow k n K)), (rows b0)[t]? = some r0 ∧
        (List.range' 1 (B - 1)).mapM (fun b => (rows b)[t]?) = some rs ∧ R[t]? = some (bsMergeRow r0 rs) := by
  have hmem : ∀ b ∈ List.range' 1 (B - 1), b ∈ order := by
    intro b hb'
    rw [ho.mem_iff]
    simp only [List.mem_range'_1] at hb' ⊢
    omega
  have hb0 : b0 ∈ order := by rw [hb]; exact List.mem_cons_self
  unfold bsRows
  rw [bsRead_stored B rows order ho b0 rest hb, Option.bind_some]
  dsimp only
  have hcomm : ∀ t : ℕ, (((List.range' 1 (B - 1)).map rows).mapM fun d => d[t]?) = (List.range' 1 (B - 1)).mapM fun b => (rows b)[t]? := by
    intro t
    generalize List.range' 1 (B - 1) = l
    induction l with
    | nil => rfl
    | cons a l ih => rw [List.map_cons, List.mapM_cons, ih, List.mapM_cons]
  have hex : ∀ t < N, ∃ (r0 : DispRow k n K) (rs : List (DispRow k n K)), (rows b0)[t]? = some r0 ∧
      (List.range' 1 (B - 1)).mapM (fun b => (rows b)[t]?) = some rs := by
    intro t ht
    obtain ⟨r0, hr0⟩ := hrow b0 hb0 t ht
    have hsome : ((List.range' 1 (B - 1)).mapM (fun b => (rows b)[t]?)).isSome := by
      rw [mapM_isSome_iff]
      intro b hb'
      obtain ⟨r, hr⟩ := hrow b (hmem b hb') t ht
      rw [hr]
      rfl
    obtain ⟨rs, hrs⟩ := Option.isSome_iff_exists.1 hsome
    exact ⟨r0, rs, hr0, hrs⟩
  have hval : ∀ t < N, ∃ (r0 : DispRow k n K) (rs : List (DispRow k n K)), (rows b0)[t]? = some r0 ∧
      (List.range' 1 (B - 1)).mapM (fun b => (rows b)[t]?) = some rs ∧
      ((rows b0)[t]?.bind fun r0 => (((List.range' 1 (B - 1)).map rows).mapM fun d => d[t]?).map fun rs => bsMergeRow r0 rs) =
        some (bsMergeRow r0 rs) := by
    intro t ht
    obtain ⟨r0, rs, e1, e2⟩ := hex t ht
    exact ⟨r0, rs, e1, e2, by rw [e1, Option.bind_some, hcomm, e2]; rfl⟩
  obtain ⟨R, hR, hl, hget⟩ := mapM_some_map (fun t => (rows b0)[t]?.bind fun r0 =>
      (((List.range' 1 (B - 1)).map rows).mapM fun d => d[t]?).map fun rs => bsMergeRow r0 rs) (List.range (rows b0).length) (by
    intro t ht
    rw [List.mem_range, hN b0 hb0] at ht
    obtain ⟨r0, rs, -, -, e⟩ := hval t ht
    exact ⟨_, e⟩)
  rw [List.length_range, hN b0 hb0] at hl
  refine ⟨R, hR, hl, fun t ht => ?_⟩
  obtain ⟨r0, rs, e1, e2, e3⟩ := hval t ht
  refine ⟨r0, rs, e1, e2, ?_⟩
  have hRt : R[t]? = some (R[t]'(hl ▸ ht)) := List.getElem?_eq_getElem _
  have := hget t t _ (List.getElem?_range (by rw [hN b0 hb0]; exact ht)) hRt
  rw [e3] at this
  rw [hRt, ← Option.some.inj this]

/-- **C227.** The figures of BS-DISP: the runs `1 … B`, with any trained models of the resampled data, each displaced sequentially, and stored in the order `order`.
Both figures of every factor have one bar for every feature, every marker is within its bar, the percentages are between 0 and 100 and the concentrations at the
floor or above. The markers of the profile figure are the percentages of the profiles of the run that was stored first. -/
theorem C227_bsdisp (B : ℕ) (E : ℕ → DispEnv m k n K) (hH : ∀ b a j, 0 < (E b).H a j) (floor : K) (hfl : 0 < floor) (features : List (Fin n))
    (hf : features.Nodup) (hne : features ≠ []) (dQmax : List K) (hd : dQmax.Nodup) (four dflt : K) (h4 : four ∈ dQmax) (hdf : dflt ∈ dQmax)
    (order : List ℕ) (ho : order.Perm (List.range' 1 B)) (b0 : ℕ) (rest : List ℕ) (hb : order = b0 :: rest) :
    ∃ (rows : ℕ → List (DispRow k n K)) (R : List (DispRow k n K)),
      (∀ b, (dispRun (E b) floor features dQmax .new .seq).rows = some (rows b)) ∧ bsRows (order.map fun b => (b, rows b)) = some R ∧
      (∀ (factor : ℤ) (q : K), ¬(1 ≤ factor ∧ factor ≤ k) → dispFigures floor four dflt dQmax R factor q = none) ∧
      ∀ (f : Fin k) (q : K), ∃ p c, dispFigures floor four dflt dQmax R ((f : ℕ) + 1 : ℤ) q = some (p, c) ∧
        p.map (·.feature) = List.finRange n ∧ c.map (·.feature) = List.finRange n ∧
        (∀ x ∈ p, x.marker = 100 * ((E b0).H f x.feature / ∑ a, (E b0).H a x.feature) ∧ 0 ≤ x.base ∧ x.base ≤ x.marker ∧
          x.marker ≤ x.base + x.height ∧ x.base + x.height ≤ 100) ∧
        (∀ x ∈ c, floor ≤ x.base ∧ x.base ≤ x.marker ∧ x.marker ≤ x.base + x.height) := by
  have hrun := fun b => C204_rows (E b) floor features hf hne dQmax .seq trivial [] (by simp)
  choose rows hr hkeys hrow using hrun
  have hok : ∀ b, ∀ r ∈ rows b, RowOk floor r := fun b r hm =>
    rowOk_run (E b) (hH b) floor hfl features dQmax r (hrow b r hm).1 (hrow b r hm).2.1 (hrow b r hm).2.2.1 (hrow b r hm).2.2.2
  have hlen : ∀ b, (rows b).length = (rows b0).length := fun b => by
    have h1 := congrArg List.length (hkeys b)
    have h2 := congrArg List.length (hkeys b0)
    rw [List.length_map] at h1 h2
    rw [h1, h2]
  obtain ⟨R, hR, hRl, hRt⟩ := bsRows_stored B (rows b0).length rows order ho b0 rest hb (fun b _ => hlen b)
    (fun b _ t ht => ⟨_, List.getElem?_eq_getElem (by rw [hlen b]; exact ht)⟩)
  have hmem : ∀ r ∈ R, ∃ r0 ∈ rows b0, ∃ rs, (∀ x ∈ rs, RowOk floor x) ∧ r = bsMergeRow r0 rs := by
    intro r hm
    obtain ⟨t, ht, rfl⟩ := List.mem_iff_getElem.1 hm
    obtain ⟨r0, rs, e1, e2, e3⟩ := hRt t (hRl ▸ ht)
    rw [List.getElem?_eq_getElem ht] at e3
    refine ⟨r0, List.mem_of_getElem? e1, rs, fun x hx => ?_, Option.some.inj e3⟩
    obtain ⟨b, -, hbx⟩ := mapM_option_mem _ _ _ e2 x hx
    exact hok b x (List.mem_of_getElem? hbx)
  have hkeysR : R.map (fun r => (r.level, r.factor, r.feature)) = (rows b0).map (fun r => (r.level, r.factor, r.feature)) := by
    apply List.ext_getElem?
    intro t
    rw [List.getElem?_map, List.getElem?_map]
    by_cases ht : t < (rows b0).length
    · obtain ⟨r0, rs, e1, -, e3⟩ := hRt t ht
      rw [e1, e3]
      rfl
    · rw [List.getElem?_eq_none (by omega), List.getElem?_eq_none (by omega)]
  refine ⟨rows, R, hr, hR, fun factor q hx => ?_, fun f q => ?_⟩
  · unfold dispFigures plotFactor
    rw [dif_neg hx]
    rfl
  · obtain ⟨s, e, e1, e2, e3, e4⟩ := figures_of_rows floor four dflt dQmax hd h4 hdf R (hkeysR.trans (hkeys b0))
      (fun r hm => by
        obtain ⟨r0, h0, rs, h1, rfl⟩ := hmem r hm
        refine rowOk_merge floor r0 rs fun d hd => ?_
        rcases List.mem_cons.1 hd with rfl | hd
        · exact hok b0 _ h0
        · exact h1 d hd) f q
    refine ⟨_, _, e, ?_, ?_, fun x hx => ?_, e4⟩
    · rw [← e2, profileBars, List.map_map]
      rfl
    · rw [← e2, concBars, List.map_map]
      rfl
    · obtain ⟨g1, g2, g3, g4⟩ := e3 x hx
      obtain ⟨r, hs, rfl⟩ := List.mem_map.1 hx
      obtain ⟨hr', rfl, -⟩ := e1 r hs
      refine ⟨?_, g1, g2, g3, g4⟩
      obtain ⟨r0, h0, rs, -, rfl⟩ := hmem r hr'
      simp only [bsMergeRow]
      rw [(hrow b0 r0 h0).1]

/-- A case: one factor, two features, the second not requested; contributions with sum 1 and a loss whose window of level 4 is met on both sides. -/
example : let E : DispEnv 2 1 2 ℚ := ⟨fun _ j => j.val + 1, fun s _ => s.val * 3 - 1, fun h => 9 * (h 0 0 - 1) ^ 2, 0, fun _ => (false, 3), 1, 1 / 100⟩
    ((dispRun E (1 / 10000) [0] [4] .new .seq).rows.bind fun rows =>
      (dispFigures (1 / 10000) 4 4 [4] rows 1 7).map fun x => x.2.map fun b => (b.marker, b.base, b.height)) =
      some [(1, 3 / 8, 5 / 4), (2, 2, 0)] := by
  decide +kernel

end Esat
