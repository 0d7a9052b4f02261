import Verif.Model.SimCompare
import Verif.Lemmas.Correlation
import Verif.Props.FactorCompare
import Mathlib.Algebra.BigOperators.Field
import Mathlib.Tactic.Linarith
import Mathlib.Tactic.FieldSimp
import Mathlib.Tactic.Ring

/-!
# C183–C184: comparison in the simulator, PMF5 output
-/

namespace Esat

/-! ### C183: comparison in the simulator -/

section calls
variable {B C : Type*} (E : CmpEnv B C)

/-- The batch given to a call. -/
def CmpCall.arg : CmpCall B → B
  | .search b => b
  | .select b _ => b

/-- The call searches and the comparison object can be built. -/
def Searches (c : CmpCall B) : Prop := ∃ b, c = .search b ∧ (E.construct b).isSome = true

theorem simCompare_batch (c : CmpCall B) (s : CmpState B C) : (simCompare E c s).1.batch = some c.arg := by
  cases c with
  | search b => unfold simCompare; dsimp only; cases E.construct b <;> rfl
  | select b i => unfold simCompare; dsimp only; cases s.cmp <;> rfl

theorem simCompare_cmp_keep (c : CmpCall B) (s : CmpState B C) (h : ¬ Searches E c) : (simCompare E c s).1.cmp = s.cmp := by
  cases c with
  | search b =>
    unfold simCompare; dsimp only
    cases hb : E.construct b with
    | none => rfl
    | some c => exact absurd ⟨b, rfl, by rw [hb]; rfl⟩ h
  | select b i => unfold simCompare; dsimp only; cases hs : s.cmp <;> simp

theorem simCalls_keep (post : List (CmpCall B)) (s : CmpState B C) (h : ∀ c ∈ post, ¬ Searches E c) : (simCalls E post s).cmp = s.cmp := by
  induction post generalizing s with
  | nil => rfl
  | cons c l ih =>
    show (simCalls E l (simCompare E c s).1).cmp = _
    rw [ih _ (fun x hx => h x (List.mem_cons_of_mem _ hx)), simCompare_cmp_keep E c s (h c List.mem_cons_self)]

/-- **C183.** After any sequence of calls of `compare`, the batch of the simulator is that of the last call, but its comparison is that of the
last call without `selected_model` that could build one (and there is none if there was no such call).

**Disagreement.** `compare(batch, selected_model)` stores the batch without comparing it, so that figures made afterwards combine the matrices of
this batch with the factor mapping of another one. -/
theorem C183_state (calls : List (CmpCall B)) (s : CmpState B C) :
    (∀ pre c, calls = pre ++ [c] → (simCalls E calls s).batch = some c.arg) ∧
    (∀ pre b c post, calls = pre ++ .search b :: post → E.construct b = some c → (∀ x ∈ post, ¬ Searches E x) →
      (simCalls E calls s).cmp = some (E.run c).1) ∧
    ((∀ x ∈ calls, ¬ Searches E x) → (simCalls E calls s).cmp = s.cmp) := by
  refine ⟨?_, ?_, simCalls_keep E calls s⟩
  · rintro pre c rfl
    unfold simCalls
    rw [List.foldl_append]
    exact simCompare_batch E c _
  · rintro pre b c post rfl hc hpost
    have : simCalls E (pre ++ .search b :: post) s = simCalls E post (simCompare E (.search b) (simCalls E pre s)).1 := by
      unfold simCalls
      rw [List.foldl_append, List.foldl_cons]
    rw [this, simCalls_keep E post _ hpost]
    unfold simCompare
    simp only [hc]

/-- **C183.** A model can be selected only after a comparison has been built; the call raises otherwise. -/
theorem C183_select (calls : List (CmpCall B)) (b : B) (i : ℕ) :
    (simCompare E (.select b i) (simCalls E calls ⟨none, none⟩)).2 = true ↔
      ∃ pre a c post, calls = pre ++ .search a :: post ∧ E.construct a = some c ∧ (∀ x ∈ post, ¬ Searches E x) ∧
        E.printable (E.run c).1 (some i) = true := by
  constructor
  · intro h
    by_cases hall : ∀ x ∈ calls, ¬ Searches E x
    · have := simCalls_keep E calls ⟨none, none⟩ hall
      unfold simCompare at h
      simp only [this] at h
      exact absurd h (by simp)
    · obtain ⟨pre, a, c, post, e, hc, hp⟩ : ∃ pre a c post, calls = pre ++ .search a :: post ∧ E.construct a = some c ∧
          (∀ x ∈ post, ¬ Searches E x) := by
        clear h
        induction calls with
        | nil => exact absurd (fun x hx => absurd hx (by simp)) hall
        | cons y l ih =>
          by_cases hl : ∀ x ∈ l, ¬ Searches E x
          · have hy : Searches E y := by
              by_contra hy
              apply hall
              intro x hx
              rcases List.mem_cons.1 hx with rfl | hx
              · exact hy
              · exact hl x hx
            obtain ⟨a, rfl, ha⟩ := hy
            obtain ⟨c, hc⟩ := Option.isSome_iff_exists.1 ha
            exact ⟨[], a, c, l, rfl, hc, hl⟩
          · obtain ⟨pre, a, c, post, rfl, h1, h2⟩ := ih hl
            exact ⟨y :: pre, a, c, post, rfl, h1, h2⟩
      refine ⟨pre, a, c, post, e, hc, hp, ?_⟩
      have := (C183_state E calls ⟨none, none⟩).2.1 pre a c post e hc hp
      unfold simCompare at h
      simp only [this] at h
      exact h
  · rintro ⟨pre, a, c, post, e, hc, hp, hpr⟩
    have := (C183_state E calls ⟨none, none⟩).2.1 pre a c post e hc hp
    unfold simCompare
    simp only [this]
    exact hpr

/-- **C183.** A call without `selected_model` succeeds exactly if the comparison can be built, runs without an exception and, when its best model
is not the best model of the batch, the results of the best model of the batch can be printed; the results are not printed otherwise. It
stores the comparison even if it raises after building it. -/
theorem C183_search (b : B) (s : CmpState B C) :
    ((simCompare E (.search b) s).2 = true ↔ ∃ c, E.construct b = some c ∧ (E.run c).2 = true ∧
      (E.best (E.run c).1 ≠ E.batchBest b → E.printable (E.run c).1 (E.batchBest b) = true)) ∧
    (∀ c, E.construct b = some c → (simCompare E (.search b) s).1 = ⟨some b, some (E.run c).1⟩) ∧
    (E.construct b = none → (simCompare E (.search b) s).1 = ⟨some b, s.cmp⟩) := by
  cases h : E.construct b with
  | none => simp [simCompare, h]
  | some c =>
    refine ⟨?_, by simp [simCompare, h], by simp⟩
    simp only [Option.some.injEq, exists_eq_left', simCompare, h]
    by_cases h1 : (E.run c).2 = true
    · by_cases h2 : E.best (E.run c).1 = E.batchBest b
      · simp [h1, h2]
      · simp [h1, h2]
    · simp [h1]

end calls

section fig
variable {K : Type*} [Field K] [LinearOrder K] [IsStrictOrderedRing K] [FloorRing K]

/-- The figure for the pair at position `i`. -/
def panelAt (baseK : Bool) (m i : ℕ) (p : ℕ × K) : SimPanel K :=
  if baseK then ⟨m, p.1, i, p.2⟩ else ⟨m, i, p.1, p.2⟩

theorem color_ok (r : K) : ⌊100 * r⌋ < 100 ↔ r < 1 := by
  rw [Int.floor_lt]
  push_cast
  constructor <;> intro h <;> linarith

/-- The pair at position `i` can be drawn. -/
def Drawable (profile baseK : Bool) (synSize size i : ℕ) (p : ℕ × K) : Prop :=
  (if baseK then p.1 < synSize ∧ i < size else i < synSize ∧ p.1 < size) ∧ (profile = true → p.2 < 1)

theorem simPanels_spec (profile baseK : Bool) (m synSize size : ℕ) (l : List (ℕ × K)) (i : ℕ) :
    (∀ k ≤ l.length, (∀ t (ht : t < k) (htl : t < l.length), Drawable profile baseK synSize size (i + t) l[t]) →
      (∀ hk : k < l.length, ¬ Drawable profile baseK synSize size (i + k) l[k]) →
      simPanels profile baseK m synSize size i l = ((l.take k).mapIdx fun t p => panelAt baseK m (i + t) p, decide (k = l.length))) := by
  induction l generalizing i with
  | nil =>
    intro k hk _ _
    have : k = 0 := by simpa using hk
    subst this
    rfl
  | cons p l ih =>
    obtain ⟨f, r⟩ := p
    intro k hk h1 h2
    have hD : ((if baseK then f else i) < synSize ∧ (if baseK then i else f) < size ∧ (profile = true → ⌊100 * r⌋ < 100)) ↔
        Drawable profile baseK synSize size i (f, r) := by
      unfold Drawable
      rw [color_ok]
      cases baseK <;> simp [and_assoc]
    cases k with
    | zero =>
      have := h2 (by simp)
      simp only [Nat.add_zero, List.getElem_cons_zero] at this
      rw [simPanels]
      dsimp only
      rw [if_neg (fun h => this (hD.1 h))]
      simp
    | succ k =>
      have h0 := h1 0 (by omega) (by simp)
      simp only [Nat.add_zero, List.getElem_cons_zero] at h0
      rw [simPanels]
      dsimp only
      rw [if_pos (hD.2 h0)]
      rw [List.length_cons] at hk
      rw [ih (i + 1) k (by omega)]
      · simp only [List.take_succ_cons, List.mapIdx_cons, Nat.add_zero, List.length_cons, Nat.add_right_cancel_iff, Prod.mk.injEq,
          List.cons.injEq, and_true]
        have hrest : ((l.take k).mapIdx fun t p => panelAt baseK m (i + 1 + t) p) = (l.take k).mapIdx fun t p => panelAt baseK m (i + (t + 1)) p := by
          congr 1
          funext t p
          rw [show i + 1 + t = i + (t + 1) by omega]
        rw [hrest]
        cases baseK <;> exact ⟨rfl, rfl⟩
      · intro t ht htl
        have := h1 (t + 1) (by omega) (by simp; omega)
        rw [show i + 1 + t = i + (t + 1) by omega]
        simpa using this
      · intro hk'
        have := h2 (by simp; omega)
        rw [show i + 1 + k = i + (k + 1) by omega]
        simpa using this

/-- **C183.** With a comparison present, the figures show, one after another, the pairs of the mapping stored for the chosen model, up to the first
pair that cannot be drawn, where an exception ends the call. In `plot_profile_comparison` no pair with squared correlation 1 can be drawn. The
model factor is looked up in the batch of the last call of `compare`. -/
theorem C183_figures (profile : Bool) (factors m size : ℕ) (model : Option ℕ) (b : BatchView) (c : CmpView K) (e : List (ℕ × K))
    (hm : simModel model c.best = some m) (he : c.results m = some e) (hb : b[m]? = some (some size)) (hf : ¬ (profile = true ∧ factors = 1))
    (k : ℕ) (hk : k ≤ e.length) (h1 : ∀ t (ht : t < k), Drawable profile c.baseK factors size t (e[t]'(by omega)))
    (h2 : ∀ hk : k < e.length, ¬ Drawable profile c.baseK factors size k e[k]) :
    simPlot profile factors model ⟨some b, some c⟩ = ((e.take k).mapIdx fun t p => panelAt c.baseK m t p, decide (k = e.length)) := by
  unfold simPlot
  simp only [hm, he, hb, if_neg hf]
  have := simPanels_spec profile c.baseK m factors size e 0 k hk (fun t ht htl => by simpa using h1 t ht) (fun hk' => by simpa using h2 hk')
  simpa using this

/-- **C183.** The first model (number 0) cannot be asked for: the figures are those of the best model. Any other number is used as given. -/
theorem C183_model_zero (profile : Bool) (factors : ℕ) (s : CmpState BatchView (CmpView K)) :
    simPlot profile factors (some 0) s = simPlot profile factors none s ∧ ∀ (i : ℕ) (best : Option ℕ), simModel (some (i + 1)) best = some (i + 1) :=
  ⟨rfl, fun _ _ => rfl⟩

/-- **C183.** One synthetic factor: the profile comparison always raises without a figure. -/
theorem C183_one_factor (model : Option ℕ) (b : BatchView) (cmp : Option (CmpView K)) :
    simPlot true 1 model ⟨some b, cmp⟩ = ([], false) := by
  unfold simPlot
  dsimp only
  split
  · rfl
  · split
    · rfl
    · split
      · rw [if_pos ⟨rfl, rfl⟩]
      · rfl

/-- **C183.** A model profile that is a multiple of its synthetic profile has squared correlation 1, so that `plot_profile_comparison` raises
exactly for a perfectly recovered profile; no figure after it is shown. -/
theorem C183_perfect {n : ℕ} (x : Fin n → K) (hx : scov x x ≠ 0) (c : K) (hc : c ≠ 0) (baseK : Bool) (synSize size i f : ℕ) :
    r2 x (fun j => c * x j) = some 1 ∧ ∀ r, r2 x (fun j => c * x j) = some r → ¬ Drawable true baseK synSize size i (f, r) := by
  have h : r2 x (fun j => c * x j) = some 1 := by rw [r2_smul_right c hc, r2_self x hx]
  refine ⟨h, ?_⟩
  intro r hr hD
  rw [h, Option.some.injEq] at hr
  subst hr
  exact lt_irrefl _ (hD.2 rfl)

/-- **C183.** What the figures show of a finished comparison is a one-to-one pairing of all factors (as many synthetic as model factors): figure
`i` pairs model factor `i` with a synthetic factor of its own, and its number is the squared correlation of their profiles. All of them are drawn
by `plot_comparison` if the batch has `S` factors. -/
theorem C183_pairing (M B S : ℕ) (hS : S ≤ B) (t : ℕ → CorrTables K) (method : CmpMethod) (res : CompareResult K)
    (h : compareFactors M B S t method = some res) (m : ℕ) (ap : K × List ℕ) (hm : res.results m = some ap) (model : Option ℕ)
    (hmod : simModel model (some res.model) = some m) (b : BatchView) (hb : b[m]? = some (some S)) :
    ∃ σ : Fin S → Fin B, Function.Injective σ ∧
      simPlot false B model ⟨some b, some (cmpView t res)⟩ =
        (List.ofFn fun i : Fin S => ⟨m, (σ i).1, i.1, ((t m).h (σ i) i).getD 0⟩, true) := by
  have hbk : res.baseK = true := by
    rw [(compareFactors_spec M B S t method res h _ rfl).1]; simpa using hS
  have hmem : ap.2 ∈ pyPerms S (List.range B) := by
    unfold compareFactors at h
    obtain ⟨a, -, rfl⟩ := Option.map_eq_some_iff.1 h
    dsimp only at hm
    split_ifs at hm with hM
    obtain ⟨p, hp, rfl⟩ := Option.map_eq_some_iff.1 hm
    dsimp only
    rcases (cmpStep_foldl _ (pyPerms S (List.range B)) ((0 : K), none)).2.2 with h0 | ⟨a', ha', h1, -⟩
    · rw [h0] at hp; simp at hp
    · rw [h1, Option.some.injEq] at hp
      exact hp ▸ ha'
  obtain ⟨σ, hσ, hp⟩ := (mem_pyPerms_range S B ap.2).1 hmem
  refine ⟨σ, hσ, ?_⟩
  set e := ap.2.mapIdx fun i f => (f, ((t m).h f i).getD 0) with he
  have hlen : e.length = S := by rw [he, List.length_mapIdx, hp, List.length_ofFn]
  have hres : (cmpView t res).results m = some e := by
    unfold cmpView
    simp only [hm, Option.map_some, hbk, if_true, he]
  have hget : ∀ i (hi : i < S), e[i]'(by omega) = ((σ ⟨i, hi⟩).1, ((t m).h (σ ⟨i, hi⟩) i).getD 0) := by
    intro i hi
    simp only [he, List.getElem_mapIdx, hp, List.getElem_ofFn]
  have hfig := C183_figures false B m S model b (cmpView t res) e hmod hres hb (by simp) e.length le_rfl ?_ ?_
  · rw [hfig]
    simp only [decide_true, List.take_length, Prod.mk.injEq, and_true]
    apply List.ext_getElem
    · simp [hlen]
    · intro i h1 h2
      have hi : i < S := by simpa [hlen] using h1
      rw [List.getElem_mapIdx, hget i hi, List.getElem_ofFn]
      show panelAt res.baseK m i _ = _
      rw [hbk]
      rfl
  · intro t' ht
    have hi : t' < S := hlen ▸ ht
    rw [hget t' hi]
    unfold Drawable
    refine ⟨?_, by simp⟩
    show if res.baseK = true then _ else _
    rw [if_pos hbk]
    exact ⟨(σ ⟨t', hi⟩).2, hi⟩
  · intro hk; exact absurd hk (lt_irrefl _)

/-- **C183.** The profile bars of all factors add up to 100 for every feature, the contributions of a factor add up to 100 over time. -/
theorem C183_bars {m k n : ℕ} (W : Mat m k K) (H : Mat k n K) :
    (∀ j, ∑ b, H b j ≠ 0 → ∃ v : Fin k → K, (∀ a, normProfiles H a j = some (v a)) ∧ ∑ a, v a = 100) ∧
    (∀ a, ∑ l, W l a ≠ 0 → ∃ v : Fin m → K, (∀ i, normContributions W i a = some (v i)) ∧ ∑ i, v i = 100) := by
  constructor
  · intro j hj
    refine ⟨fun a => 100 * (H a j / ∑ b, H b j), fun a => if_neg hj, ?_⟩
    rw [← Finset.mul_sum, ← Finset.sum_div, div_self hj, mul_one]
  · intro a ha
    refine ⟨fun i => 100 * (W i a / ∑ l, W l a), fun i => if_neg ha, ?_⟩
    rw [← Finset.mul_sum, ← Finset.sum_div, div_self ha, mul_one]

/-- **C183.** Moving a positive scale `d` of each factor between contributions and profiles, which changes neither their product nor any
correlation, leaves the contribution curves as they are, but it leaves the profile bars as they are exactly if factors that share a feature have
the same scale.

**Disagreement.** So a perfect model need not show a zero difference in the profile figures. -/
theorem C183_scale {m k n : ℕ} (W : Mat m k K) (H : Mat k n K) (hH : ∀ a j, 0 ≤ H a j) (d : Fin k → K) (hd : ∀ a, 0 < d a) :
    (∀ i j, ∑ a, (W i a * d a) * (H a j / d a) = ∑ a, W i a * H a j) ∧
    (normContributions (fun i a => W i a * d a) = normContributions W) ∧
    ((normProfiles (fun a j => H a j / d a) = normProfiles H) ↔ ∀ j a b, 0 < H a j → 0 < H b j → d a = d b) := by
  refine ⟨?_, ?_, ?_⟩
  · intro i j
    apply Finset.sum_congr rfl
    intro a _
    have := (hd a).ne'
    field_simp
  · funext i a
    unfold normContributions
    have hs : ∑ l, W l a * d a = (∑ l, W l a) * d a := by rw [Finset.sum_mul]
    rw [hs]
    have := (hd a).ne'
    by_cases h0 : ∑ l, W l a = 0
    · rw [if_pos h0, if_pos (by rw [h0, zero_mul])]
    · rw [if_neg h0, if_neg (mul_ne_zero h0 this)]
      congr 2
      field_simp
  · have hpos : ∀ (c : Fin k → K), (∀ a, 0 < c a) → ∀ j a, 0 < H a j → 0 < ∑ b, H b j / c b := by
      intro c hc j a ha
      exact Finset.sum_pos' (fun b _ => div_nonneg (hH b j) (hc b).le) ⟨a, Finset.mem_univ _, div_pos ha (hc a)⟩
    have hpos1 : ∀ j a, 0 < H a j → 0 < ∑ b, H b j := fun j a ha => Finset.sum_pos' (fun b _ => hH b j) ⟨a, Finset.mem_univ _, ha⟩
    constructor
    · intro h j a b ha hb
      have key : ∀ c, 0 < H c j → d c * ∑ x, H x j / d x = ∑ x, H x j := by
        intro c hc
        have e := congrFun (congrFun h c) j
        unfold normProfiles at e
        have t1 := hpos d hd j c hc
        have t2 := hpos1 j c hc
        rw [if_neg t1.ne', if_neg t2.ne', Option.some.injEq] at e
        have hd' := hd c
        have e' : H c j / d c / ∑ b, H b j / d b = H c j / ∑ b, H b j := by linarith
        rw [div_div, div_eq_div_iff (mul_pos hd' t1).ne' t2.ne'] at e'
        exact (mul_left_cancel₀ hc.ne' e').symm
      have t1 := hpos d hd j a ha
      exact mul_right_cancel₀ t1.ne' ((key a ha).trans (key b hb).symm)
    · intro h
      funext a j
      unfold normProfiles
      by_cases hz : ∀ b, H b j = 0
      · have e1 : ∑ b, H b j / d b = 0 := Finset.sum_eq_zero fun b _ => by rw [hz b, zero_div]
        have e2 : ∑ b, H b j = 0 := Finset.sum_eq_zero fun b _ => hz b
        rw [if_pos e1, if_pos e2]
      · push Not at hz
        obtain ⟨b, hb⟩ := hz
        have hb' : 0 < H b j := lt_of_le_of_ne (hH b j) (Ne.symm hb)
        have hsum : ∑ x, H x j / d x = (∑ x, H x j) / d b := by
          rw [Finset.sum_div]
          apply Finset.sum_congr rfl
          intro x _
          rcases (hH x j).eq_or_lt with hx | hx
          · rw [← hx, zero_div, zero_div]
          · rw [h j x b hx hb']
        have t2 := hpos1 j b hb'
        have t1 := hpos d hd j b hb'
        rw [if_neg t1.ne', if_neg t2.ne', hsum]
        congr 2
        show H a j / d a / _ = _
        rcases (hH a j).eq_or_lt with ha | ha
        · rw [← ha, zero_div, zero_div, zero_div]
        · rw [h j a b ha hb']
          have := (hd b).ne'
          field_simp

/-- Three factors, the second one perfectly recovered: the profile comparison shows one figure and raises; `plot_comparison` shows three. A batch
with two factors stored later by selecting a model makes it raise after two. -/
example :
    simPlot true 3 (some 0) ⟨some [some 3], some ⟨true, some 0, fun m => if m = 0 then some [(1, (1 / 2 : ℚ)), (0, 1), (2, 1 / 3)] else none⟩⟩
      = ([⟨0, 1, 0, 1 / 2⟩], false) ∧
    simPlot false 3 none ⟨some [some 3], some ⟨true, some 0, fun m => if m = 0 then some [(1, (1 / 2 : ℚ)), (0, 1), (2, 1 / 3)] else none⟩⟩
      = ([⟨0, 1, 0, 1 / 2⟩, ⟨0, 0, 1, 1⟩, ⟨0, 2, 2, 1 / 3⟩], true) ∧
    simPlot false 3 none ⟨some [some 2], some ⟨true, some 0, fun m => if m = 0 then some [(1, (1 / 2 : ℚ)), (0, 1), (2, 1 / 3)] else none⟩⟩
      = ([⟨0, 1, 0, 1 / 2⟩, ⟨0, 0, 1, 1⟩], false) := by
  decide +kernel

end fig

/-! ### C184: PMF5 output -/

/-- A line of the profile file that is used. -/
def pmfUsed (factors : ℕ) (row : List String) : Bool := decide (row.length = factors + 2)

/-- A header line. -/
def pmfHeader (row : List String) : Bool := decide (row[0]? = some "" ∧ row[1]? = some "")

theorem pmfLine_eq (factors n : ℕ) (s : PmfParse) (row : List String) : pmfLine factors n s row =
    if pmfUsed factors row then
      if pmfHeader row then { s with labels := some ("run" :: "species" :: row.drop 2) }
      else if s.j < n then { s with profiles := s.profiles ++ [row], j := s.j + 1 }
      else if s.j < 2 * n then { s with percent := s.percent ++ [row], j := s.j + 1 }
      else if s.j < 3 * n then { s with total := s.total ++ [row], j := s.j + 1 }
      else { s with j := s.j + 1 }
    else s := by
  by_cases h : row.length = factors + 2
  · have hu : pmfUsed factors row = true := by simpa [pmfUsed] using h
    rw [if_pos hu]
    unfold pmfLine
    rw [if_pos h]
    match row, h with
    | a :: b :: rest, _ =>
      by_cases hh : a = "" ∧ b = ""
      · obtain ⟨rfl, rfl⟩ := hh
        have hp : pmfHeader ("" :: "" :: rest) = true := by simp [pmfHeader]
        rw [if_pos hp]
        rfl
      · have hp : ¬ pmfHeader (a :: b :: rest) = true := by simpa [pmfHeader] using hh
        rw [if_neg hp]
        split
        · rename_i e
          simp only [List.cons.injEq] at e
          exact absurd ⟨e.1, e.2.1⟩ hh
        · rfl
  · have hu : ¬ pmfUsed factors row = true := by simpa [pmfUsed] using h
    rw [if_neg hu]
    unfold pmfLine
    rw [if_neg h]

/-- **C184.** The lines with the right number of cells and without a header are distributed in order: the first `n` (number of features) are the
profiles, the next `n` the percentages, the next `n` the percentages of the totals; the names come from the last header line. -/
theorem C184_sections (factors n : ℕ) (rows : List (List String)) :
    let data := rows.filter fun r => pmfUsed factors r && !pmfHeader r
    (pmfParse factors n rows).profiles = data.take n ∧ (pmfParse factors n rows).percent = (data.drop n).take n ∧
    (pmfParse factors n rows).total = (data.drop (2 * n)).take n ∧
    (pmfParse factors n rows).labels = ((rows.filter fun r => pmfUsed factors r && pmfHeader r).getLast?).map fun r => "run" :: "species" :: r.drop 2 := by
  have key : (pmfParse factors n rows).j = (rows.filter fun r => pmfUsed factors r && !pmfHeader r).length ∧
      (pmfParse factors n rows).profiles = (rows.filter fun r => pmfUsed factors r && !pmfHeader r).take n ∧
      (pmfParse factors n rows).percent = ((rows.filter fun r => pmfUsed factors r && !pmfHeader r).drop n).take n ∧
      (pmfParse factors n rows).total = ((rows.filter fun r => pmfUsed factors r && !pmfHeader r).drop (2 * n)).take n ∧
      (pmfParse factors n rows).labels = ((rows.filter fun r => pmfUsed factors r && pmfHeader r).getLast?).map
        fun r => "run" :: "species" :: r.drop 2 := by
    induction rows using List.reverseRecOn with
    | nil => exact ⟨rfl, by simp [pmfParse], by simp [pmfParse], by simp [pmfParse], rfl⟩
    | append_singleton rows row ih =>
      have hstep : pmfParse factors n (rows ++ [row]) = pmfLine factors n (pmfParse factors n rows) row := by
        unfold pmfParse; rw [List.foldl_append]; rfl
      generalize hs : pmfParse factors n rows = s at ih hstep
      obtain ⟨hj, h1, h2, h3, h4⟩ := ih
      rw [hstep, pmfLine_eq, List.filter_append, List.filter_append]
      by_cases hu : pmfUsed factors row = true
      · by_cases hh : pmfHeader row = true
        · simp only [hu, hh, if_true, List.filter_cons, List.filter_nil, Bool.not_true, Bool.and_false, Bool.false_eq_true, if_false,
            List.append_nil, Bool.and_self]
          exact ⟨hj, h1, h2, h3, by simp⟩
        · have hh' : pmfHeader row = false := by simpa using hh
          simp only [hu, hh', if_true, List.filter_cons, List.filter_nil, Bool.not_false, Bool.and_self, Bool.false_eq_true, if_false,
            List.append_nil, Bool.and_false]
          set D := rows.filter fun r => pmfUsed factors r && !pmfHeader r with hD
          split_ifs with c1 c2 c3
          · refine ⟨by simp [hj], ?_, ?_, ?_, h4⟩
            · show s.profiles ++ [row] = _
              rw [h1, List.take_of_length_le (by omega), List.take_of_length_le (by simp; omega)]
            · show s.percent = _
              rw [h2, List.drop_eq_nil_of_le (by omega), List.drop_eq_nil_of_le (by simp; omega)]
            · show s.total = _
              rw [h3, List.drop_eq_nil_of_le (by omega), List.drop_eq_nil_of_le (by simp; omega)]
          · refine ⟨by simp [hj], ?_, ?_, ?_, h4⟩
            · show s.profiles = _
              rw [h1, List.take_append_of_le_length (by omega)]
            · show s.percent ++ [row] = _
              rw [h2, List.drop_append_of_le_length (by omega), List.take_of_length_le (by simp; omega),
                List.take_of_length_le (by simp; omega)]
            · show s.total = _
              rw [h3, List.drop_eq_nil_of_le (by omega), List.drop_eq_nil_of_le (by simp; omega)]
          · refine ⟨by simp [hj], ?_, ?_, ?_, h4⟩
            · show s.profiles = _
              rw [h1, List.take_append_of_le_length (by omega)]
            · show s.percent = _
              rw [h2, List.drop_append_of_le_length (by omega), List.take_append_of_le_length (by simp; omega)]
            · show s.total ++ [row] = _
              rw [h3, List.drop_append_of_le_length (by omega), List.take_of_length_le (by simp; omega),
                List.take_of_length_le (by simp; omega)]
          · refine ⟨by simp [hj], ?_, ?_, ?_, h4⟩
            · show s.profiles = _
              rw [h1, List.take_append_of_le_length (by omega)]
            · show s.percent = _
              rw [h2, List.drop_append_of_le_length (by omega), List.take_append_of_le_length (by simp; omega)]
            · show s.total = _
              rw [h3, List.drop_append_of_le_length (by omega), List.take_append_of_le_length (by simp; omega)]
      · have hu' : pmfUsed factors row = false := by simpa using hu
        simp only [hu', if_false, List.filter_cons, List.filter_nil, Bool.false_and, Bool.false_eq_true, List.append_nil]
        exact ⟨hj, h1, h2, h3, h4⟩
  exact key.2

/-- **C184.** No comparison object is ever made from PMF5 files, unless a factor of the contribution file is called `species`: the column with the
names of the species is kept in the table of profiles, so it counts as a factor and is missing among the contributions. If both files exist, the
call raises.

**Disagreement.** The documentation says that `load_pmf_output` returns an initialized instance. -/
theorem C184_never (factors n : ℕ) (astype later : Bool) (p c : Option (List (List String)))
    (hs : ∀ rows header, c = some rows → rows[3]? = some header → "species" ∉ header.drop 2) :
    (∀ l, loadPmf factors n astype later p c ≠ .built l) ∧
    (loadPmf factors n astype later p c = .raised ↔ p.isSome = true ∧ c.isSome = true) := by
  cases p with
  | none => cases c <;> simp [loadPmf]
  | some p =>
    cases c with
    | none => simp [loadPmf]
    | some c =>
      have hr : loadPmf factors n astype later (some p) (some c) = .raised := by
        unfold loadPmf
        dsimp only
        have hl := (C184_sections factors n p).2.2.2
        cases hlab : (pmfParse factors n p).labels with
        | none => rfl
        | some labels =>
          dsimp only
          cases hc : c[3]? with
          | none => rfl
          | some header =>
            dsimp only
            rw [if_neg]
            rintro ⟨-, hall, -⟩
            rw [hlab] at hl
            obtain ⟨r, -, hr⟩ := Option.map_eq_some_iff.1 hl.symm
            have hmem := hall "species" (by rw [← hr]; simp)
            rcases List.mem_append.1 hmem with hm | hm
            · exact hs c header rfl hc hm
            · simp at hm
      rw [hr]
      simp

/-- **C184.** Exactly when a comparison object is made, and with which factors: `species` and the names after the second cell of the last header line of the profile file, except a factor called `run`, if each of these is a name in the fourth line
of the contribution file or the word `Datetime`, and the conversions and the rest of the constructor work. -/
theorem C184_exact (factors n : ℕ) (astype later : Bool) (p c : List (List String)) (l : List String) :
    loadPmf factors n astype later (some p) (some c) = .built l ↔
      ∃ r header, (p.filter fun r => decide (r.length = factors + 2) && (decide (r[0]? = some "") && decide (r[1]? = some ""))).getLast? = some r ∧ c[3]? = some header ∧ l = "species" :: (r.drop 2).filter (· ≠ "run") ∧
        (∀ f ∈ l, f ∈ header.drop 2 ∨ f = "Datetime") ∧ astype = true ∧ later = true := by
  have hl := (C184_sections factors n p).2.2.2
  have hf : (fun r => decide (r.length = factors + 2) && (decide (r[0]? = some "") && decide (r[1]? = some ""))) = fun r => pmfUsed factors r && pmfHeader r := by
    funext r
    simp [pmfUsed, pmfHeader]
  rw [hf]
  unfold loadPmf
  dsimp only
  rw [hl]
  cases (p.filter fun r => pmfUsed factors r && pmfHeader r).getLast? with
  | none => simp
  | some r =>
    cases hc : c[3]? with
    | none => simp
    | some header =>
      simp only [Option.map_some]
      have e : ("run" :: "species" :: r.drop 2).filter (· ≠ "run") = "species" :: (r.drop 2).filter (· ≠ "run") := by
        rw [List.filter_cons_of_neg (by simp), List.filter_cons_of_pos (by simp)]
      rw [e]
      constructor
      · intro h
        split_ifs at h with h0
        · cases h
          exact ⟨r, header, rfl, rfl, rfl, fun f hf => by simpa using h0.2.1 f hf, h0.1, h0.2.2⟩
      · rintro ⟨r', header', h1, h2, rfl, h3, h4, h5⟩
        cases h1
        cases h2
        rw [if_pos ⟨h4, fun f hf => by simpa using h3 f hf, h5⟩]

/-- A factor called `species` and one called `Datetime` in the profiles: then an object is made. -/
example : loadPmf 2 1 true true (some [["", "", "Datetime", "Factor 2"], ["1", "PM", "3", "4"]]) (some [[], [], [], ["", "", "species", "Factor 2"]]) = .built ["species", "Datetime", "Factor 2"] :=
  (C184_exact 2 1 true true _ _ _).2 ⟨["", "", "Datetime", "Factor 2"], ["", "", "species", "Factor 2"], by decide +kernel, rfl, by decide +kernel, by decide +kernel, rfl, rfl⟩

/-- **C184.** The table `WH` that is stored for a model equals the model's product, for all products of its shape, exactly if there is one sample or
one feature (or nothing). No comparison uses that table. -/
theorem C184_wh (m n : ℕ) : (∀ WH : Mat m n ℚ, storedWH WH = WH) ↔ m ≤ 1 ∨ n ≤ 1 := by
  constructor
  · intro h
    by_contra hc
    push Not at hc
    obtain ⟨hm, hn⟩ := hc
    have := congrFun (congrFun (h fun i j => (i.1 * n + j.1 : ℕ)) ⟨0, by omega⟩) ⟨1, by omega⟩
    unfold storedWH at this
    simp only [Nat.cast_inj, one_mul, add_zero, zero_mul, zero_add] at this
    rw [Nat.div_add_mod'] at this
    omega
  · intro h WH
    funext i j
    unfold storedWH
    congr 1
    · apply Fin.ext
      show (j.1 * m + i.1) / n = i.1
      have := i.2; have := j.2
      rcases h with h | h
      · have : m = 1 := by omega
        subst this
        have : i.1 = 0 := by omega
        rw [this, Nat.mul_one, Nat.add_zero, Nat.div_eq_of_lt j.2]
      · have : n = 1 := by omega
        subst this
        have : j.1 = 0 := by omega
        rw [this, Nat.zero_mul, Nat.zero_add, Nat.div_one]
    · apply Fin.ext
      show (j.1 * m + i.1) % n = j.1
      have := i.2; have := j.2
      rcases h with h | h
      · have : m = 1 := by omega
        subst this
        have : i.1 = 0 := by omega
        rw [this, Nat.mul_one, Nat.add_zero, Nat.mod_eq_of_lt j.2]
      · have : n = 1 := by omega
        subst this
        have : j.1 = 0 := by omega
        rw [this, Nat.mod_one]

/-- A profile file with one feature and two factors, and a contribution file: the conversions work, the call raises. -/
example :
    (pmfParse 2 1 [["Factor Profiles (conc. of species)"], ["", "", "Factor 1", "Factor 2"], ["1", "PM", "3", "4"],
        ["Factor Profiles (% of species)"], ["", "", "Factor 1", "Factor 2"], ["1", "PM", "43", "57"]]).percent = [["1", "PM", "43", "57"]] ∧
    loadPmf 2 1 true true (some [["", "", "Factor 1", "Factor 2"], ["1", "PM", "3", "4"]])
      (some [[], [], [], ["", "", "Factor 1", "Factor 2"], ["1", "01/01/20", "0.5", "2"]]) = .raised := by
  decide +kernel

end Esat
